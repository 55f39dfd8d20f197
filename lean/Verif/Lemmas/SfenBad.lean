import Verif.Lemmas.Sfen

/-!
# SFEN text: arbitrary input
-/

namespace Verif
open Spec Bitboard Position

/-- A pending plus never meets a gold or a king. Digits and slashes leave a plus pending, a piece letter uses it up. -/
def PlusOK : Bool → List Char → Prop
  | _, [] => True
  | pend, c :: cs => (pend = true → c ≠ 'G' ∧ c ≠ 'g' ∧ c ≠ 'K' ∧ c ≠ 'k') ∧
      PlusOK (c == '+' || (pend && (c.isDigit || c == '/'))) cs

/-- No number has more than nine digits; a dash does not end a number. `k` digits have been seen. -/
def ShortNumbers : Nat → List Char → Prop
  | _, [] => True
  | k, c :: cs => if c.isDigit then k + 1 ≤ 9 ∧ ShortNumbers (k + 1) cs else if c = '-' then ShortNumbers k cs else ShortNumbers 0 cs

/-- The text up to the first blank. -/
def field (cs : List Char) : List Char := cs.takeWhile (· ≠ ' ')
/-- The text after the first blank. -/
def afterField (cs : List Char) : List Char := (cs.dropWhile (· ≠ ' ')).drop 1

theorem field_cons {c : Char} (h : c ≠ ' ') (cs : List Char) : field (c :: cs) = c :: field cs := by
  unfold field; rw [List.takeWhile_cons_of_pos (by simpa using h)]
theorem afterField_cons {c : Char} (h : c ≠ ' ') (cs : List Char) : afterField (c :: cs) = afterField cs := by
  unfold afterField; rw [List.dropWhile_cons_of_pos (by simpa using h)]
theorem afterField_space (cs : List Char) : afterField (' ' :: cs) = cs := rfl

theorem charToPiece_kind {ch : Char} {pc : Piece} (h : charToPiece ch = some pc) :
    ∃ c k, pc = mkPiece c k ∧ 1 ≤ k ∧ k ≤ 8 ∧ (7 ≤ k → ch = 'G' ∨ ch = 'g' ∨ ch = 'K' ∨ ch = 'k') ∧ (k = 8 → ch = 'K' ∨ ch = 'k') := by
  refine ⟨pieceColor pc, pc % 16, ?_⟩
  unfold charToPiece at h
  split at h <;> first | (cases h; done) | (cases h; decide)

/-- The piece a letter places, with or without a plus. -/
theorem piece_of_char {ch : Char} {pc : Piece} (h : charToPiece ch = some pc) (flag : Nat)
    (hf : flag = 0 ∨ flag = 8 ∧ (ch ≠ 'G' ∧ ch ≠ 'g' ∧ ch ≠ 'K' ∧ ch ≠ 'k')) : ∃ c k, pc + flag = mkPiece c (Kind.code k) := by
  have hk : ∀ n, 1 ≤ n → n ≤ 14 → ∃ k : Kind, k.code = n := by
    intro n h1 h2
    interval_cases n
    exacts [⟨.pawn, rfl⟩, ⟨.lance, rfl⟩, ⟨.knight, rfl⟩, ⟨.silver, rfl⟩, ⟨.bishop, rfl⟩, ⟨.rook, rfl⟩, ⟨.gold, rfl⟩, ⟨.king, rfl⟩,
      ⟨.proPawn, rfl⟩, ⟨.proLance, rfl⟩, ⟨.proKnight, rfl⟩, ⟨.proSilver, rfl⟩, ⟨.horse, rfl⟩, ⟨.dragon, rfl⟩]
  obtain ⟨c, k, rfl, h1, h2, h3, -⟩ := charToPiece_kind h
  have hx : ∃ kd : Kind, kd.code = k + flag := by
    apply hk
    · omega
    · rcases hf with rfl | ⟨rfl, g1, g2, g3, g4⟩
      · omega
      · by_contra hc
        rcases h3 (by omega) with e | e | e | e
        exacts [g1 e, g2 e, g3 e, g4 e]
  obtain ⟨kd, hkd⟩ := hx
  exact ⟨c, kd, by unfold mkPiece; rw [hkd]; omega⟩

theorem kind_code_lt (k : Kind) : k.code < 15 := by cases k <;> decide

theorem readBoard_safe (cs : List Char) (p : Position) (sq : Int) (pend : Bool) (h : PlusOK pend (field cs)) :
    readBoard cs p sq (if pend then 8 else 0) = .error ∨ (∃ p', readBoard cs p sq (if pend then 8 else 0) = .ok (p', none) ∧ afterField cs = [])
      ∨ ∃ p', readBoard cs p sq (if pend then 8 else 0) = .ok (p', some (afterField cs)) := by
  induction cs generalizing p sq pend with
  | nil => exact Or.inr (Or.inl ⟨p, rfl, rfl⟩)
  | cons ch cs ih =>
    by_cases hs : ch = ' '
    · subst hs; exact Or.inr (Or.inr ⟨p, rfl⟩)
    · rw [field_cons hs] at h
      rw [afterField_cons hs, readBoard, if_neg hs]
      obtain ⟨h1, h2⟩ := h
      by_cases hd : ch.isDigit = true
      · rw [if_pos hd]
        have hp : ch ≠ '+' := by rintro rfl; cases hd
        rw [show (ch == '+') = false by simpa using hp, hd] at h2
        exact ih p _ pend (by simpa using h2)
      · rw [if_neg hd]
        by_cases hsl : ch = '/'
        · subst hsl
          rw [if_pos rfl]
          exact ih p _ pend (by simpa using h2)
        · rw [if_neg hsl]
          by_cases hp : ch = '+'
          · subst hp
            rw [if_pos rfl]
            exact ih p sq true (by simpa using h2)
          · rw [if_neg hp]
            have h2' : PlusOK false (field cs) := by
              have e : (ch == '+' || (pend && (ch.isDigit || ch == '/'))) = false := by
                simp [hp, hsl, hd]
              rw [e] at h2; exact h2
            rcases hc : charToPiece ch with _ | pc
            · exact Or.inl rfl
            · simp only
              by_cases hin : 0 ≤ sq ∧ sq < 81
              · rw [if_pos hin]
                obtain ⟨c, k, hk⟩ := piece_of_char hc (if pend then 8 else 0) (by
                  cases pend
                  · left; rfl
                  · right; exact ⟨rfl, h1 rfl⟩)
                rw [hk, if_neg]
                · exact ih _ _ false h2'
                · rw [pieceType_mkPiece]
                  have := kind_code_lt k
                  unfold mkPiece
                  have : c.idx ≤ 1 := by cases c <;> decide
                  omega
              · rw [if_neg hin]; exact Or.inl rfl

theorem readTurn_safe (cs : List Char) (p : Position) :
    readTurn cs p = .error ∨ (∃ p', readTurn cs p = .ok (p', none) ∧ afterField cs = []) ∨ ∃ p', readTurn cs p = .ok (p', some (afterField cs)) := by
  induction cs generalizing p with
  | nil => exact Or.inr (Or.inl ⟨p, rfl, rfl⟩)
  | cons ch cs ih =>
    by_cases hs : ch = ' '
    · subst hs; exact Or.inr (Or.inr ⟨p, rfl⟩)
    · rw [afterField_cons hs, readTurn, if_neg hs]
      split
      · exact ih _
      · split
        · exact ih _
        · exact Or.inl rfl

theorem readHands_safe (cs : List Char) (p : Position) (digits k : Nat) (hk : k ≤ 9) (hd : digits < 10 ^ k)
    (hn : ShortNumbers k (field cs)) (hK : 'K' ∉ field cs ∧ 'k' ∉ field cs) : readHands cs p digits ≠ .ub := by
  induction cs generalizing p digits k with
  | nil => intro e; cases e
  | cons ch cs ih =>
    by_cases hs : ch = ' '
    · subst hs; intro e; cases e
    · rw [field_cons hs] at hn hK
      have hK' : 'K' ∉ field cs ∧ 'k' ∉ field cs := ⟨fun h => hK.1 (by simp [h]), fun h => hK.2 (by simp [h])⟩
      rw [readHands, if_neg hs]
      by_cases hm : ch = '-'
      · subst hm
        rw [if_pos rfl]
        rw [ShortNumbers, if_neg (by decide), if_pos rfl] at hn
        exact ih _ _ k hk hd hn hK'
      · rw [if_neg hm]
        by_cases hdg : ch.isDigit = true
        · rw [ShortNumbers, if_pos hdg] at hn
          have hc : 48 ≤ ch.toNat ∧ ch.toNat ≤ 57 := by
            unfold Char.isDigit at hdg
            simp only [Bool.and_eq_true, decide_eq_true_eq] at hdg
            obtain ⟨a, b⟩ := hdg
            exact ⟨a, b⟩
          have hpow : 10 ^ k ≤ 10 ^ 8 := Nat.pow_le_pow_right (by decide) (by omega)
          have hpow' : 10 ^ (k + 1) = 10 * 10 ^ k := by rw [Nat.pow_succ]; omega
          rw [if_pos hdg, if_pos (by omega)]
          refine ih _ _ (k + 1) hn.1 ?_ hn.2 hK'
          unfold digitVal
          omega
        · rw [if_neg hdg]
          rw [ShortNumbers, if_neg hdg, if_neg hm] at hn
          rcases hc : charToPiece ch with _ | pc
          · intro e; cases e
          · simp only
            obtain ⟨c, kd, rfl, h1, h2, -, h4⟩ := charToPiece_kind hc
            have h8 : kd ≤ 7 := by
              by_contra hcon
              rcases h4 (by omega) with e | e
              · exact hK.1 (by rw [← e]; simp)
              · exact hK.2 (by rw [← e]; simp)
            rw [if_neg]
            · exact ih _ _ 0 (by omega) (by simp) hn hK'
            · clear hc h4 hn ih hK hK'
              cases c <;> interval_cases kd <;> decide

/-! ### Which squares are written -/

/-- Every piece so far stands a positive number of files and at most `n` wraps behind the writing point. -/
def Behind (b : Square → Option (Color × Kind)) (sq : Int) (n : Nat) : Prop :=
  ∀ s, b s ≠ none → ∃ e a : Nat, 1 ≤ e ∧ a ≤ n ∧ (s.val : Int) = sq + 9 * e - 82 * a

theorem readBoard_raw (cs : List Char) (p : Position) (sq : Int) (pend : Bool) (h : PlusOK pend (field cs)) (n : Nat)
    (hn : n + (field cs).count '/' < 9) {b : Square → Option (Color × Kind)} (hr : Raw p b) (hb : Behind b sq n) {x : Position × Option (List Char)}
    (he : readBoard cs p sq (if pend then 8 else 0) = .ok x) : ∃ b', Raw x.1 b' := by
  induction cs generalizing p sq pend n b with
  | nil => cases he; exact ⟨b, hr⟩
  | cons ch cs ih =>
    by_cases hs : ch = ' '
    · subst hs; cases he; exact ⟨b, hr⟩
    · rw [field_cons hs] at h hn
      rw [readBoard, if_neg hs] at he
      obtain ⟨h1, h2⟩ := h
      by_cases hd : ch.isDigit = true
      · rw [if_pos hd] at he
        have hp : ch ≠ '+' := by rintro rfl; cases hd
        have hp' : ch ≠ '/' := by rintro rfl; cases hd
        rw [List.count_cons_of_ne hp'] at hn
        rw [show (ch == '+') = false by simpa using hp, hd] at h2
        refine ih p _ pend (by simpa using h2) n hn hr ?_ he
        intro s hbs
        obtain ⟨e, a, q1, q2, q3⟩ := hb s hbs
        exact ⟨e + digitVal ch, a, by omega, q2, by push_cast; omega⟩
      · rw [if_neg hd] at he
        by_cases hsl : ch = '/'
        · subst hsl
          rw [if_pos rfl] at he
          rw [List.count_cons_self] at hn
          refine ih p _ pend (by simpa using h2) (n + 1) (by omega) hr ?_ he
          intro s hbs
          obtain ⟨e, a, q1, q2, q3⟩ := hb s hbs
          exact ⟨e, a + 1, by omega, by omega, by push_cast; omega⟩
        · rw [if_neg hsl] at he
          rw [List.count_cons_of_ne hsl] at hn
          by_cases hp : ch = '+'
          · subst hp
            rw [if_pos rfl] at he
            exact ih p sq true (by simpa using h2) n hn hr hb he
          · rw [if_neg hp] at he
            have h2' : PlusOK false (field cs) := by
              have e : (ch == '+' || (pend && (ch.isDigit || ch == '/'))) = false := by
                simp [hp, hsl, hd]
              rw [e] at h2; exact h2
            rcases hc : charToPiece ch with _ | pc
            · rw [hc] at he; cases he
            · rw [hc] at he
              simp only at he
              by_cases hin : 0 ≤ sq ∧ sq < 81
              · rw [if_pos hin] at he
                obtain ⟨c, k, hk⟩ := piece_of_char hc (if pend then 8 else 0) (by
                  cases pend
                  · left; rfl
                  · right; exact ⟨rfl, h1 rfl⟩)
                rw [hk] at he
                split at he
                · cases he
                · have hv : ((sqN sq.toNat).val : Int) = sq := by
                    simp only [sqN, Fin.ofNat]
                    omega
                  have hnone : b (sqN sq.toNat) = none := by
                    by_contra hcon
                    obtain ⟨e, a, q1, q2, q3⟩ := hb _ hcon
                    omega
                  refine ih _ _ false h2' n hn (hr.setPiece hnone c k) ?_ he
                  intro s hbs
                  by_cases hsq : s = sqN sq.toNat
                  · exact ⟨1, 0, le_refl _, by omega, by rw [hsq, hv]; omega⟩
                  · unfold Pos.set at hbs
                    rw [if_neg hsq] at hbs
                    obtain ⟨e, a, q1, q2, q3⟩ := hb s hbs
                    exact ⟨e + 1, a, by omega, q2, by push_cast; omega⟩
              · rw [if_neg hin] at he; cases he

theorem readTurn_raw {cs : List Char} {p : Position} {x : Position × Option (List Char)} (he : readTurn cs p = .ok x) :
    x.1.piece = p.piece ∧ x.1.byType = p.byType ∧ x.1.byColor = p.byColor := by
  induction cs generalizing p with
  | nil => cases he; exact ⟨rfl, rfl, rfl⟩
  | cons ch cs ih =>
    rw [readTurn] at he
    split at he
    · cases he; exact ⟨rfl, rfl, rfl⟩
    · split at he
      · have := ih he; exact this
      · split at he
        · have := ih he; exact this
        · cases he

theorem readHands_raw {cs : List Char} {p : Position} {n : Nat} {x : Position × Option (List Char)} (he : readHands cs p n = .ok x) :
    x.1.piece = p.piece ∧ x.1.byType = p.byType ∧ x.1.byColor = p.byColor := by
  induction cs generalizing p n with
  | nil => cases he; exact ⟨rfl, rfl, rfl⟩
  | cons ch cs ih =>
    rw [readHands] at he
    split at he
    · cases he; exact ⟨rfl, rfl, rfl⟩
    · split at he
      · have := ih he; exact this
      · split at he
        · split at he
          · have := ih he; exact this
          · cases he
        · split at he
          · cases he
          · split at he
            · cases he
            · have := ih he; exact this

end Verif
