import Verif.Model.Pgn
import Verif.Spec.Pgn
import Verif.Props.Kif

/-!
# PGN records (C71, C72)
-/

namespace Verif.Pgn
open Position Spec

/-! ### The text of a move -/

theorem squareNames_get : ∀ s : Square, squareNames[s.val]? = some (pgnSquare s) := by decide +kernel

theorem handPieces_get (h : HKind) : handPieces[h.code]? = some (pgnKind h.kind) := by cases h <;> rfl

/-- What the writer calls the pieces: a promoted knight has the king's letter. -/
def called : Kind → List Char
  | .proKnight => ['+', 'K']
  | k => pgnKind k

theorem pieceTypes_get (k : Kind) : pieceTypes[k.code]? = some (some (called k)) := by cases k <;> rfl

/-- The text with the pieces called as the writer does. -/
def sanText (q : Pos) : Mv → List Char
  | .drop h t => pgnKind h.kind ++ '@' :: pgnSquare t
  | .move s t pro => (match q.board s with | some (_, k) => called k | none => []) ++ pgnSquare s ++ pgnSquare t ++ (if pro then ['+'] else [])

theorem moveToSan_text {p : Position} (hc : Consistent p) {mv : Mv} (hm : (absPos p).Pseudo mv) :
    moveToSan (encode p mv) = some (sanText (absPos p) mv) := by
  match mv, hm with
  | .drop h t, _ =>
    obtain ⟨-, h1, h2, h3, -⟩ := drop_fields h t
    have h4 : (encode p (.drop h t)).handPieceDropped = h.code := by
      show ptToHand (makeDropMove h.kind.code t.val).pieceTypeDropped = _
      rw [h3]; cases h <;> rfl
    have h1' : (encode p (.drop h t)).dst = t.val := h1
    have h2' : (encode p (.drop h t)).isDrop = true := h2
    unfold moveToSan
    rw [h1', squareNames_get, Option.bind_some, if_pos h2', h4, handPieces_get]
    rfl
  | .move s t pro, ⟨k, hk, _⟩ =>
    have hf := C01_board_move_fields p.piece s t pro
    simp only [readBoardMove, Prod.mk.injEq] at hf
    obtain ⟨f1, f2, f3, -, f5, f6⟩ := hf
    have f1' : (encode p (.move s t pro)).src = s.val := f1
    have f2' : (encode p (.move s t pro)).dst = t.val := f2
    have f3' : (encode p (.move s t pro)).pieceTypeFrom = k.code := by
      exact f3.trans (pieceType_at hc hk)
    have f5' : (encode p (.move s t pro)).isPromotion = pro := f5
    have f6' : (encode p (.move s t pro)).isDrop = false := f6
    unfold moveToSan
    rw [f2', squareNames_get, Option.bind_some, if_neg (by rw [f6']; simp), f1', squareNames_get, Option.bind_some, f3', pieceTypes_get, f5']
    unfold sanText
    dsimp only
    rw [hk]
    rfl

/-! #### Texts differ -/

theorem lower_square (s : Square) : ∃ a b, pgnSquare s = [a, b] ∧ a.isLower = true ∧ b.isLower = false := by
  have h : ∀ s : Square, (Char.ofNat (97 + (8 - s.val / 9))).isLower = true ∧ (Char.ofNat (48 + (9 - s.val % 9))).isLower = false := by
    decide +kernel
  exact ⟨_, _, rfl, h s⟩

theorem square_inj : ∀ s t : Square, pgnSquare s = pgnSquare t → s = t := by
  have h : ∀ s : Square, squareNames.idxOf (pgnSquare s) = s.val := by decide +kernel
  intro s t e
  exact Fin.ext (by rw [← h s, e, h t])

theorem called_upper (k : Kind) : ∀ c ∈ called k, c.isLower = false := by cases k <;> decide

theorem sanText_inj {q : Pos} {mv mv' : Mv} (h : sanText q mv = sanText q mv') : mv = mv' := by
  have hup : ∀ s, ∀ c ∈ (match q.board s with | some (_, k) => called k | none => []), c.isLower = false := by
    intro s c hc
    split at hc
    · exact called_upper _ c hc
    · cases hc
  have hat : ∀ s, '@' ∉ pgnSquare s := by decide +kernel
  have hat' : ∀ s, '@' ∉ (match q.board s with | some (_, k) => called k | none => []) := by
    intro s hc
    split at hc
    · rename_i k _; revert hc; cases k <;> decide
    · cases hc
  have hno : ∀ s t pro, '@' ∉ sanText q (.move s t pro) := by
    intro s t pro
    simp only [sanText, List.mem_append, not_or]
    exact ⟨⟨⟨hat' s, hat s⟩, hat t⟩, by cases pro <;> decide⟩
  match mv, mv' with
  | .drop h1 t1, .drop h2 t2 =>
    have e : ∀ h : HKind, ∃ c, pgnKind h.kind = [c] := by intro h; cases h <;> exact ⟨_, rfl⟩
    obtain ⟨c1, e1⟩ := e h1
    obtain ⟨c2, e2⟩ := e h2
    simp only [sanText, e1, e2, List.cons_append, List.nil_append, List.cons.injEq, true_and] at h
    rw [square_inj _ _ h.2]
    have : pgnKind h1.kind = pgnKind h2.kind := by rw [e1, e2, h.1]
    have : h1 = h2 := by revert this; cases h1 <;> cases h2 <;> decide
    rw [this]
  | .drop h1 t1, .move s t pro => exact absurd (by rw [← h]; simp [sanText]) (hno s t pro)
  | .move s t pro, .drop h1 t1 => exact absurd (by rw [h]; simp [sanText]) (hno s t pro)
  | .move s t pro, .move s' t' pro' =>
    have hd : ∀ s t pro, (sanText q (.move s t pro)).dropWhile (fun c => !c.isLower) = pgnSquare s ++ (pgnSquare t ++ if pro then ['+'] else []) := by
      intro s t pro
      obtain ⟨a, b, e, ha, -⟩ := lower_square s
      simp only [sanText, List.append_assoc]
      rw [Kif.dropWhile_append_all (fun c hc => by rw [hup s c hc]; rfl)]
      rw [e]
      simp [ha]
    have h' := congrArg (List.dropWhile fun c => !c.isLower) h
    rw [hd, hd] at h'
    obtain ⟨a, b, e1, -⟩ := lower_square s
    obtain ⟨a', b', e1', -⟩ := lower_square s'
    obtain ⟨c, d, e2, -⟩ := lower_square t
    obtain ⟨c', d', e2', -⟩ := lower_square t'
    rw [e1, e1', e2, e2'] at h'
    simp only [List.cons_append, List.nil_append, List.cons.injEq] at h'
    obtain ⟨g1, g2, g3, g4, g5⟩ := h'
    have h1 : s = s' := square_inj _ _ (by rw [e1, e1', g1, g2])
    have h2 : t = t' := square_inj _ _ (by rw [e2, e2', g3, g4])
    have h3 : pro = pro' := by revert g5; cases pro <;> cases pro' <;> decide
    rw [h1, h2, h3]

/-! #### Words -/

/-- No blank and no line break. -/
def Solid (w : List Char) : Prop := w ≠ [] ∧ ∀ c ∈ w, c ≠ ' ' ∧ c ≠ '\n'

theorem wordsFrom_append {c : Char} (hc : c = ' ' ∨ c = '\n') (a rest : List Char) : ∀ cur, wordsFrom cur (a ++ c :: rest) = wordsFrom cur a ++ words rest := by
  induction a with
  | nil =>
    intro cur
    show (if c = ' ' ∨ c = '\n' then (if cur = [] then wordsFrom [] rest else cur :: wordsFrom [] rest) else wordsFrom (cur ++ [c]) rest) =
      (if cur = [] then [] else [cur]) ++ words rest
    rw [if_pos hc]
    split <;> rfl
  | cons x a ih =>
    intro cur
    rw [List.cons_append, wordsFrom, wordsFrom]
    split
    · split
      · exact ih _
      · rw [ih]; rfl
    · exact ih _

theorem words_append {c : Char} (hc : c = ' ' ∨ c = '\n') (a rest : List Char) : words (a ++ c :: rest) = words a ++ words rest := wordsFrom_append hc a rest []

theorem words_solid {w : List Char} (h : Solid w) : words w = [w] := by
  have : ∀ (w cur : List Char), cur ++ w ≠ [] → (∀ c ∈ w, c ≠ ' ' ∧ c ≠ '\n') → wordsFrom cur w = [cur ++ w] := by
    intro w
    induction w with
    | nil => intro cur h1 _; rw [wordsFrom, if_neg (by simpa using h1), List.append_nil]
    | cons c w ih =>
      intro cur h1 h2
      have := h2 c (by simp)
      rw [wordsFrom, if_neg (by simp [this.1, this.2]), ih _ (by simp) (fun c hc => h2 c (List.mem_cons_of_mem _ hc))]
      simp
  simpa [words] using this w [] (by simpa using h.1) h.2

theorem words_joined (line p : List Char) : words (joined line p) = words line ++ words p := by
  unfold joined
  split
  · exact words_append (Or.inl rfl) _ _
  · rename_i h
    rw [not_not] at h
    rw [h]; rfl

theorem natCharsF_digits (k n : Nat) (h : n < k) : natCharsF k n = Nat.toDigits 10 n := by
  induction k generalizing n with
  | zero => omega
  | succ k ih =>
    have hd : ∀ d : Nat, d < 10 → digitCh d = Nat.digitChar d := by decide
    unfold natCharsF
    split
    · rename_i h1
      rw [Nat.toDigits_of_lt_base h1, hd n h1]
    · rw [Nat.toDigits_of_base_le (by decide) (by omega), ih _ (by omega), hd _ (by omega)]

theorem natChars_toString (n : Nat) : natChars n = (toString n).toList := by
  rw [Nat.toString_eq_ofList_toDigits, String.toList_ofList]
  exact natCharsF_digits _ _ (by omega)

theorem natChars_length {n k : Nat} (hk : 0 < k) (h : n < 10 ^ k) : (natChars n).length ≤ k := by
  rw [show natChars n = Nat.toDigits 10 n from natCharsF_digits _ _ (by omega)]
  exact (Nat.length_toDigits_le_iff (by decide) hk).mpr h

theorem sanText_solid {q : Pos} {mv : Mv} (hm : q.Pseudo mv) : Solid (sanText q mv) ∧ (sanText q mv).length ≤ 7 := by
  have hsq : ∀ s : Square, (∀ c ∈ pgnSquare s, c ≠ ' ' ∧ c ≠ '\n') ∧ (pgnSquare s).length = 2 := by decide +kernel
  have hk : ∀ k : Kind, (∀ c ∈ called k, c ≠ ' ' ∧ c ≠ '\n') ∧ (called k).length ≤ 2 := by intro k; cases k <;> decide
  have hh : ∀ h : HKind, (∀ c ∈ pgnKind h.kind, c ≠ ' ' ∧ c ≠ '\n') ∧ (pgnKind h.kind).length ≤ 1 := by intro k; cases k <;> decide
  match mv, hm with
  | .drop h t, _ =>
    refine ⟨⟨by simp [sanText], fun c hc => ?_⟩, ?_⟩
    · rcases List.mem_append.mp hc with hc | hc
      · exact (hh h).1 c hc
      · rcases List.mem_cons.mp hc with rfl | hc
        · decide
        · exact (hsq t).1 c hc
    · have := (hh h).2
      have := (hsq t).2
      simp only [sanText, List.length_append, List.length_cons]; omega
  | .move s t pro, ⟨k, hb, _⟩ =>
    have hp : (∀ c ∈ (if pro = true then ['+'] else []), c ≠ ' ' ∧ c ≠ '\n') ∧ (if pro = true then ['+'] else []).length ≤ 1 := by
      cases pro <;> decide
    have e : sanText q (.move s t pro) = called k ++ pgnSquare s ++ pgnSquare t ++ (if pro then ['+'] else []) := by
      unfold sanText; dsimp only; rw [hb]
    rw [e]
    refine ⟨⟨by simp [pgnSquare], fun c hc => ?_⟩, ?_⟩
    · rcases List.mem_append.mp hc with hc | hc
      · rcases List.mem_append.mp hc with hc | hc
        · rcases List.mem_append.mp hc with hc | hc
          · exact (hk k).1 c hc
          · exact (hsq s).1 c hc
        · exact (hsq t).1 c hc
      · exact hp.1 c hc
    · have := (hk k).2
      have := (hsq s).2
      have := (hsq t).2
      have := hp.2
      simp only [List.length_append]; omega

/-- The texts of the moves of a legal game. -/
theorem game_texts {Z : Zobrist} (ms : List Move) : ∀ {b : Board}, Csa.Good Z b.pos → Always LegalOp Z b (ms.map .push) →
    ∃ ws : List (List Char), ms.map moveToSan = ws.map some ∧ ∀ w ∈ ws, Solid w ∧ w.length ≤ 7 := by
  induction ms with
  | nil => intros; exact ⟨[], rfl, by simp⟩
  | cons m ms ih =>
    intro b hg ho
    obtain ⟨⟨mv, rfl, hm⟩, ho⟩ := ho
    obtain ⟨p', e1, g1, -⟩ := hg.doMove hm
    have hpush : b.push Z (encode b.pos mv) = some ⟨p', .move (encode b.pos mv) :: b.hist⟩ := by
      unfold Board.push; rw [e1]; rfl
    obtain ⟨ws, h1, h2⟩ := ih (b := ⟨p', _⟩) g1 (ho _ hpush)
    refine ⟨sanText (absPos b.pos) mv :: ws, ?_, ?_⟩
    · rw [List.map_cons, List.map_cons, h1, moveToSan_text hg.inv.views hm.1.1]
    · intro w hw
      rcases List.mem_cons.mp hw with rfl | hw
      · exact sanText_solid hm.1.1
      · exact h2 w hw

theorem game_determined {Z : Zobrist} (ms : List Move) : ∀ {b : Board} {ms' : List Move}, Csa.Good Z b.pos → Always LegalOp Z b (ms.map .push) →
    Always LegalOp Z b (ms'.map .push) → ms.map moveToSan = ms'.map moveToSan → ms = ms' := by
  induction ms with
  | nil =>
    intro b ms' _ _ _ h
    exact (List.map_eq_nil_iff.mp h.symm).symm
  | cons m ms ih =>
    intro b ms' hg ho ho' h
    cases ms' with
    | nil => cases h
    | cons m' ms' =>
      obtain ⟨⟨mv, rfl, hm⟩, ho⟩ := ho
      obtain ⟨⟨mv', rfl, hm'⟩, ho'⟩ := ho'
      simp only [List.map_cons, List.cons.injEq] at h
      rw [moveToSan_text hg.inv.views hm.1.1, moveToSan_text hg.inv.views hm'.1.1] at h
      obtain rfl := sanText_inj (Option.some.inj h.1)
      obtain ⟨p', e1, g1, -⟩ := hg.doMove hm
      have hpush : b.push Z (encode b.pos mv) = some ⟨p', .move (encode b.pos mv) :: b.hist⟩ := by
        unfold Board.push; rw [e1]; rfl
      rw [ih (b := ⟨p', _⟩) g1 (ho _ hpush) (ho' _ hpush) h.2]

theorem resultText_solid (win : Option Csa.Win) : Solid (resultText win) ∧ (resultText win).length ≤ 7 := by
  unfold Solid
  rcases win with _ | _ | _ | _ <;> decide

/-- One part. -/
theorem part_words {win : Option Csa.Win} {n i : Nat} {m : Move} {w : List Char} (hw : moveToSan m = some w) (hs : Solid w ∧ w.length ≤ 7)
    (hi : i + 1 ≤ n) : ∃ p, part (resultText win) n i m = some p ∧
      words p = pgnWords i [w] ++ (if i + 1 = n then [resultText win] else []) ∧ '\n' ∉ p ∧ (n < 10 ^ 40 → p.length ≤ 80) := by
  have hr := resultText_solid win
  refine ⟨_, by unfold part; rw [hw]; rfl, ?_, ?_, ?_⟩
  · dsimp only
    have h1 : words (w ++ if i + 1 = n then ' ' :: resultText win else []) = w :: (if i + 1 = n then [resultText win] else []) := by
      split
      · rw [words_append (Or.inl rfl), words_solid hs.1, words_solid hr.1]; rfl
      · rw [List.append_nil, words_solid hs.1]
    rw [List.append_assoc, pgnWords, pgnWords, List.append_nil]
    split
    · have h2 : Solid (natChars (i / 2 + 1) ++ ['.']) := by
        refine ⟨by simp, fun c hc => ?_⟩
        rcases List.mem_append.mp hc with hc | hc
        · have := natChars_isDigit c hc
          constructor <;> (rintro rfl; revert this; decide)
        · rw [List.mem_singleton.mp hc]; decide
      rw [show natChars (i / 2 + 1) ++ ['.', ' '] ++ (w ++ if i + 1 = n then ' ' :: resultText win else []) =
        (natChars (i / 2 + 1) ++ ['.']) ++ ' ' :: (w ++ if i + 1 = n then ' ' :: resultText win else []) by simp,
        words_append (Or.inl rfl), words_solid h2, h1, natChars_toString]
      rfl
    · rw [List.nil_append, h1]; rfl
  · simp only [List.mem_append, not_or]
    refine ⟨⟨?_, fun h => (hs.1.2 _ h).2 rfl⟩, ?_⟩
    · split
      · simp only [List.mem_append, not_or]
        refine ⟨fun h => ?_, by decide⟩
        have := natChars_isDigit _ h
        revert this; decide
      · simp
    · split
      · intro h
        rcases List.mem_cons.mp h with h | h
        · exact absurd h (by decide)
        · exact (hr.1.2 _ h).2 rfl
      · simp
  · intro hn
    have h1 : (natChars (i / 2 + 1)).length ≤ 40 := natChars_length (by decide) (by omega)
    have h2 : (if i % 2 = 0 then natChars (i / 2 + 1) ++ ['.', ' '] else []).length ≤ 42 := by
      split
      · simp only [List.length_append, List.length_cons, List.length_nil]; omega
      · simp
    have h3 : (if i + 1 = n then ' ' :: resultText win else []).length ≤ 8 := by
      split
      · simp only [List.length_cons]; have := hr.2; omega
      · simp
    have := hs.2
    simp only [List.length_append]
    omega

/-- The whole text, from move `i` on. -/
theorem writeMoves_words {win : Option Csa.Win} {n : Nat} (ms : List Move) : ∀ {i : Nat} {ws : List (List Char)} {line : List Char},
    ms.map moveToSan = ws.map some → (∀ w ∈ ws, Solid w ∧ w.length ≤ 7) → i + ms.length = n → '\n' ∉ line → (n < 10 ^ 40 → line.length ≤ 81) →
    ∃ out, writeMoves (resultText win) n i ms line = some out ∧
      words out = words line ++ (pgnWords i ws ++ (if ms = [] then [] else [resultText win])) ∧
      (n < 10 ^ 40 → ∀ l ∈ Kif.splitAt '\n' out, l.length ≤ 81) := by
  induction ms with
  | nil =>
    intro i ws line h _ _ hl hlen
    obtain rfl : ws = [] := List.map_eq_nil_iff.mp h.symm
    refine ⟨_, rfl, ?_, fun hn l hl' => ?_⟩
    · rw [words_append (Or.inr rfl)]
      simp [words, wordsFrom, pgnWords]
    · rw [Kif.splitAt_cons _ _ _ hl] at hl'
      rcases List.mem_cons.mp hl' with rfl | hl'
      · exact hlen hn
      · have e : Kif.splitAt '\n' ['\n'] = [[], []] := by decide
        rw [e] at hl'
        simp only [List.mem_cons, List.not_mem_nil, or_false, or_self] at hl'
        rw [hl']; simp
  | cons m ms ih =>
    intro i ws line h hws hn hl hlen
    cases ws with
    | nil => cases h
    | cons w ws =>
      simp only [List.map_cons, List.cons.injEq] at h
      simp only [List.length_cons] at hn
      obtain ⟨p, e1, e2, e3, e4⟩ := part_words (win := win) (n := n) (i := i) h.1 (hws w (by simp)) (by omega)
      have hws' : ∀ w ∈ ws, Solid w ∧ w.length ≤ 7 := fun x hx => hws x (List.mem_cons_of_mem _ hx)
      have hwords : words p ++ (pgnWords (i + 1) ws ++ (if ms = [] then [] else [resultText win])) = pgnWords i (w :: ws) ++ [resultText win] := by
        rw [e2]
        have : pgnWords i (w :: ws) = pgnWords i [w] ++ pgnWords (i + 1) ws := by simp [pgnWords]
        rw [this]
        by_cases hms : ms = []
        · subst hms
          have : ws = [] := List.map_eq_nil_iff.mp h.2.symm
          subst this
          rw [if_pos (by simpa using hn), if_pos rfl]
          simp [pgnWords]
        · have : i + 1 ≠ n := by
            have := List.length_pos_iff.mpr hms
            omega
          rw [if_neg this, if_neg hms, List.append_nil, List.append_assoc]
      rw [writeMoves, e1, Option.bind_some, if_neg (show ¬ m :: ms = [] by simp)]
      split
      · rename_i hle
        obtain ⟨out, o1, o2, o3⟩ := ih (i := i + 1) (line := joined line p) h.2 hws' (by omega)
          (by unfold joined; split <;> simp [hl, e3])
          (fun _ => by
            unfold joined
            split
            · simp only [List.length_append, List.length_cons]; omega
            · omega)
        refine ⟨out, o1, ?_, o3⟩
        rw [o2, words_joined, List.append_assoc, hwords]
      · obtain ⟨out, o1, o2, o3⟩ := ih (i := i + 1) (line := p) h.2 hws' (by omega) e3 (fun hn => by have := e4 hn; omega)
        refine ⟨_, by rw [o1]; rfl, ?_, fun hn l hl' => ?_⟩
        · rw [words_append (Or.inr rfl), o2, hwords]
        · rw [Kif.splitAt_cons _ _ _ hl] at hl'
          rcases List.mem_cons.mp hl' with rfl | hl'
          · exact hlen hn
          · exact o3 hn l hl'

theorem pgnWords_inj (ws : List (List Char)) : ∀ {i : Nat} {ws' : List (List Char)} {r r' : List Char},
    pgnWords i ws ++ [r] = pgnWords i ws' ++ [r'] → ws = ws' ∧ r = r' := by
  have hlong : ∀ i w ws (r r' : List Char), [r] ≠ pgnWords i (w :: ws) ++ [r'] := by
    intro i w ws r r' h
    have := congrArg List.length h
    rw [pgnWords] at this
    split at this <;> simp at this
  induction ws with
  | nil =>
    intro i ws' r r' h
    cases ws' with
    | nil => exact ⟨rfl, by simpa [pgnWords] using h⟩
    | cons w ws' => exact absurd h (hlong _ _ _ _ _)
  | cons w ws ih =>
    intro i ws' r r' h
    cases ws' with
    | nil => exact absurd h.symm (hlong _ _ _ _ _)
    | cons w' ws' =>
      rw [pgnWords, pgnWords] at h
      have : w = w' ∧ pgnWords (i + 1) ws ++ [r] = pgnWords (i + 1) ws' ++ [r'] := by
        split at h <;> simpa using h
      obtain ⟨h1, h2⟩ := ih this.2
      exact ⟨by rw [this.1, h1], h2⟩

/-! ### C71: moves and movetext -/

/-- **C71** for single moves: the text of a legal move names the piece, where it comes from, where it goes and whether it promotes,
unless the piece is a promoted knight. -/
theorem C71_move_partial (Z : Zobrist) (p : Position) (hp : Inv Z p) (mv : Mv) (hm : (absPos p).Legal mv)
    (hk : ∀ s t pro c, mv = .move s t pro → (absPos p).board s ≠ some (c, .proKnight)) : moveToSan (encode p mv) = some ((absPos p).pgnMove mv) := by
  rw [moveToSan_text hp.views hm.1.1]
  match mv, hm.1.1 with
  | .drop h t, _ => rfl
  | .move s t pro, ⟨k, hb, _⟩ =>
    have := hk s t pro (absPos p).turn rfl
    unfold sanText Pos.pgnMove
    dsimp only
    rw [hb]
    have : called k = pgnKind k := by
      cases k <;> first | rfl | exact absurd hb this
    simp only [this]

/-- **C71** fails for promoted knights: every legal move of one is written with the letter of the king. -/
theorem C71_fails_knight (Z : Zobrist) (p : Position) (hp : Inv Z p) (s t : Square) (pro : Bool) (hm : (absPos p).Legal (.move s t pro)) (c : Color)
    (hk : (absPos p).board s = some (c, .proKnight)) : ∃ rest, moveToSan (encode p (.move s t pro)) = some ('+' :: 'K' :: rest) ∧
      (absPos p).pgnMove (.move s t pro) = '+' :: 'N' :: rest := by
  rw [moveToSan_text hp.views hm.1.1]
  unfold sanText Pos.pgnMove
  dsimp only
  rw [hk]
  exact ⟨_, rfl, rfl⟩

/-- **C71**: the words of the movetext of a legal game are the texts of its moves in order, a number before each move of the side that
began, and the result, unless the game has no move. -/
theorem C71_words_partial (Z : Zobrist) (b : Board) (hp : Inv Z b.pos) (hc : CheckOK b.pos) (hr : (absPos b.pos).Regular) (ms : List Move)
    (ho : Always LegalOp Z b (ms.map .push)) (hne : ms ≠ []) (r : Option Result) :
    ∃ ws text, ms.map moveToSan = ws.map some ∧ movetext ms (r.map Csa.winOf) = some text ∧ words text = pgnWords 0 ws ++ [pgnResult r] := by
  obtain ⟨ws, h1, h2⟩ := game_texts ms ⟨hp, hc, hr⟩ ho
  obtain ⟨out, o1, o2, -⟩ := writeMoves_words (win := r.map Csa.winOf) ms (i := 0) (line := []) h1 h2 (Nat.zero_add _) (by simp) (by simp)
  rw [if_neg hne] at o2
  refine ⟨ws, out, h1, o1, o2.trans ?_⟩
  have : resultText (r.map Csa.winOf) = pgnResult r := by rcases r with _ | _ | _ | _ <;> rfl
  rw [this]; rfl

/-- **C71** fails for games without moves: the result is not written. -/
theorem C71_fails_empty (win : Option Csa.Win) : movetext [] win = some ['\n', '\n'] ∧ words ['\n', '\n'] = [] := ⟨rfl, by decide⟩

/-- **C71**: two legal games from the same position with the same movetext are the same, and, if they have a move, so are their
results. -/
theorem C71_determined (Z : Zobrist) (b : Board) (hp : Inv Z b.pos) (hc : CheckOK b.pos) (hr : (absPos b.pos).Regular) (ms ms' : List Move)
    (ho : Always LegalOp Z b (ms.map .push)) (ho' : Always LegalOp Z b (ms'.map .push)) (win win' : Option Csa.Win)
    (h : movetext ms win = movetext ms' win') : ms = ms' ∧ (ms ≠ [] → win = win') := by
  have hg : Csa.Good Z b.pos := ⟨hp, hc, hr⟩
  obtain ⟨ws, h1, h2⟩ := game_texts ms hg ho
  obtain ⟨ws', h1', h2'⟩ := game_texts ms' hg ho'
  obtain ⟨out, o1, o2, -⟩ := writeMoves_words (win := win) ms (i := 0) (line := []) h1 h2 (Nat.zero_add _) (by simp) (by simp)
  obtain ⟨out', o1', o2', -⟩ := writeMoves_words (win := win') ms' (i := 0) (line := []) h1' h2' (Nat.zero_add _) (by simp) (by simp)
  have e : out = out' := Option.some.inj (o1.symm.trans (h.trans o1'))
  rw [e, o2'] at o2
  replace o2 := List.append_cancel_left o2
  by_cases hms : ms = [] <;> by_cases hms' : ms' = []
  · exact ⟨by rw [hms, hms'], fun h => absurd hms h⟩
  · subst hms
    obtain rfl : ws = [] := List.map_eq_nil_iff.mp h1.symm
    rw [if_neg hms', if_pos rfl] at o2
    simp [pgnWords] at o2
  · subst hms'
    obtain rfl : ws' = [] := List.map_eq_nil_iff.mp h1'.symm
    rw [if_neg hms, if_pos rfl] at o2
    simp [pgnWords] at o2
  · rw [if_neg hms, if_neg hms'] at o2
    obtain ⟨e1, e2⟩ := pgnWords_inj _ o2
    refine ⟨game_determined ms hg ho ho' (by rw [h1, h1', e1]), fun _ => ?_⟩
    rcases win with _ | _ | _ | _ <;> rcases win' with _ | _ | _ | _ <;> first | rfl | exact absurd e2 (by decide)

/-! ### C72: the length of the lines -/

/-- **C72**: no line of the movetext of a legal game is longer than 81 characters (asked for are 80). -/
theorem C72_lines_partial (Z : Zobrist) (b : Board) (hp : Inv Z b.pos) (hc : CheckOK b.pos) (hr : (absPos b.pos).Regular) (ms : List Move)
    (ho : Always LegalOp Z b (ms.map .push)) (hn : ms.length < 10 ^ 40) (win : Option Csa.Win) :
    ∃ text, movetext ms win = some text ∧ ∀ l ∈ Kif.splitAt '\n' text, l.length ≤ 81 := by
  obtain ⟨ws, h1, h2⟩ := game_texts ms ⟨hp, hc, hr⟩ ho
  obtain ⟨out, o1, -, o3⟩ := writeMoves_words (win := win) ms (i := 0) (line := []) h1 h2 (Nat.zero_add _) (by simp) (by simp)
  exact ⟨out, o1, o3 hn⟩

/-- Ten moves: pawns, an exchange of bishops, a drop, and quiet moves. -/
def longGame : List Move :=
  [makeMove PT.Pawn 60 59, makeMove PT.Pawn 20 21, makeCaptureMove PT.Bishop PT.Bishop 70 10, makeCaptureMove PT.Bishop PT.Silver 18 10,
   makeDropMove PT.Bishop 40, makeMove PT.Gold 45 37, makeMove PT.Pawn 15 14, makeMove PT.Pawn 65 66, makeMove PT.Pawn 6 5, makeMove PT.Pawn 74 75]

theorem longGame_legal : Always LegalOp zeroKeys ⟨startModel zeroKeys, []⟩ (longGame.map .push) := by
  obtain ⟨h1, h2, h3⟩ := startModel_ok zeroKeys
  have hch := LChain.base (p0 := startModel zeroKeys) (startModel zeroKeys).st.continuousCheck h1 h2 h3.waiting
  rw [withCC_self] at hch
  have hb : playB zeroKeys ⟨startModel zeroKeys, []⟩ (longGame.map .push) = true := by decide +kernel
  exact (playB_legal h3 hch _ hb).mono fun _ _ h => h.1

/-- **C72** fails: this drawn game of ten legal moves from the starting position is written as one line of 81 characters. -/
theorem C72_fails : Always LegalOp zeroKeys ⟨startModel zeroKeys, []⟩ (longGame.map .push) ∧
    ∃ l, movetext longGame (some .draw) = some (l ++ ['\n', '\n']) ∧ '\n' ∉ l ∧ l.length = 81 := by
  refine ⟨longGame_legal,
    "1. Pc3c4 Pg7g6 2. Bb2h8 Sg9h8 3. B@e5 Gd9e8 4. Ph3h4 Pb7b6 5. Pi3i4 Pa7a6 1/2-1/2".toList, by decide +kernel, by decide, by decide⟩

/-- The same game meets the hypotheses of `C71_words_partial`, `C71_determined` and `C72_lines_partial`. -/
example : Inv zeroKeys (startModel zeroKeys) ∧ CheckOK (startModel zeroKeys) ∧ (absPos (startModel zeroKeys)).Regular ∧
    Always LegalOp zeroKeys ⟨startModel zeroKeys, []⟩ (longGame.map .push) ∧ longGame ≠ [] ∧ longGame.length < 10 ^ 40 :=
  ⟨(startModel_ok _).1, (startModel_ok _).2.1, (startModel_ok _).2.2, longGame_legal, by decide, by decide⟩

/-- A promoted knight of Black on 5e. -/
def nkBoard (s : Square) : Option (Color × Kind) :=
  match s.val with
  | 80 => some (.black, .king) | 0 => some (.white, .king) | 40 => some (.black, .proKnight) | _ => none

def nkModel : Position := setPieces zeroKeys clear (fun s => pieceCode (nkBoard s)) (fun _ _ => 0)

theorem nkModel_ok : Inv zeroKeys nkModel ∧ absPos nkModel = ⟨nkBoard, fun _ _ => 0, .black⟩ ∧ CheckOK nkModel ∧ (absPos nkModel).Regular :=
  setup_regular nkBoard (fun _ _ => 0) 80 0 (by decide +kernel) (by decide +kernel) (fun c h => Nat.zero_le _) (by decide +kernel)
    (fun h => by cases h <;> decide +kernel) (by decide +kernel)

/-- It can go to 5d. -/
example : Inv zeroKeys nkModel ∧ (absPos nkModel).Legal (.move 40 39 false) ∧ (absPos nkModel).board 40 = some (.black, .proKnight) ∧
    moveToSan (encode nkModel (.move 40 39 false)) = some "+Ke5e6".toList := by
  obtain ⟨h1, h2, h3, h4⟩ := nkModel_ok
  refine ⟨h1, ?_, by rw [h2]; decide, by decide +kernel⟩
  obtain ⟨l, e, -, hl⟩ := genLegal_spec h1.views h3 h4
  have hb : ((genLegal nkModel true).any fun l => decide (encode nkModel (.move 40 39 false) ∈ l)) = true := by decide +kernel
  rw [e] at hb
  obtain ⟨mv, e', h'⟩ := (hl _).mp (of_decide_eq_true hb)
  rwa [encode_inj nkModel e']

end Verif.Pgn
