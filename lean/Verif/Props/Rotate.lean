import Verif.Model.Rotate
import Verif.Spec.Declare
import Verif.Lemmas.Sfen
import Verif.Props.Sfen

/-!
# C41: rotate_sfen
-/

namespace Verif
open Spec Position Rotate

/-! ### Cells -/

/-- The cell value of a piece: 0, its letter, or its letter + 128. -/
def cellByte : Option (Color × Kind) → Nat
  | none => 0
  | some (c, k) => match usiChars (pieceCode (some (c, k))) with
    | [a] => a.toNat
    | [_, a] => a.toNat + 128
    | _ => 0

/-- The other side's piece. -/
def swapCell : Option (Color × Kind) → Option (Color × Kind) := Option.map fun x => (x.1.opp, x.2)

/-- The letters of a piece and of the same piece of the other side. -/
theorem usi_shape (x : Color × Kind) : ∃ a : Char, 65 ≤ a.toNat ∧ a.toNat ≤ 122 ∧
    (usiChars (pieceCode (some x)) = [a] ∧ cellByte (some x) = a.toNat ∧
        usiChars (pieceCode (swapCell (some x))) = [Char.ofNat (flipPiece a.toNat)] ∨
      usiChars (pieceCode (some x)) = ['+', a] ∧ cellByte (some x) = a.toNat + 128 ∧
        usiChars (pieceCode (swapCell (some x))) = ['+', Char.ofNat (flipPiece a.toNat)]) := by
  refine ⟨(usiChars (pieceCode (some x))).getLastD 'x', ?_⟩
  obtain ⟨c, k⟩ := x
  cases c <;> cases k <;> decide

theorem expand_letter {c : Char} (h1 : ¬ (49 ≤ c.toNat ∧ c.toNat ≤ 57)) (h2 : c ≠ '+') (rest : List Char) {pos : Nat} (v : List Nat)
    (hpos : pos < 9) : expandRank (c :: rest) pos v = expandRank rest (pos + 1) (v.set pos c.toNat) := by
  rw [expandRank.eq_def]
  simp only
  rw [if_pos hpos, if_neg h1, if_neg h2]

theorem expand_plus (d : Char) (rest : List Char) {pos : Nat} (v : List Nat) (hpos : pos < 9) :
    expandRank ('+' :: d :: rest) pos v = expandRank rest (pos + 1) (v.set pos ((d.toNat + 128) % 256)) := by
  rw [expandRank.eq_def]
  simp only
  rw [if_pos hpos, if_neg (by decide), if_pos trivial]

theorem expand_piece (x : Color × Kind) (rest : List Char) {pos : Nat} (v : List Nat) (hpos : pos < 9) :
    expandRank (usiChars (pieceCode (some x)) ++ rest) pos v = expandRank rest (pos + 1) (v.set pos (cellByte (some x))) := by
  obtain ⟨a, h1, h2, ⟨e1, e2, -⟩ | ⟨e1, e2, -⟩⟩ := usi_shape x
  · rw [e1, e2]
    exact expand_letter (by omega) (by rintro rfl; exact absurd h1 (by decide)) _ _ hpos
  · rw [e1, e2]
    rw [List.cons_append, List.cons_append, List.nil_append, expand_plus _ _ _ hpos, Nat.mod_eq_of_lt (by omega)]

theorem expand_space {n : Nat} (hn : n ≤ 9) (rest : List Char) {pos : Nat} (v : List Nat) (hpos : n ≠ 0 → pos < 9) :
    expandRank (sfenSpace n ++ rest) pos v = expandRank rest (pos + n) v := by
  unfold sfenSpace
  split
  · rename_i h0
    have hd := digitCh_toNat (d := n) (by omega)
    rw [natChars_small (by omega), List.cons_append, List.nil_append, expandRank.eq_def]
    simp only
    rw [if_pos (hpos h0), if_pos (by omega), hd]
    congr 1
    omega
  · rename_i h0
    have : n = 0 := by omega
    subst this
    rfl

/-- Expanding the text of a rank gives its cells. -/
theorem expand_rank (b : Square → Option (Color × Kind)) (piece : Square → Piece) (hp : ∀ s, piece s = pieceCode (b s)) :
    ∀ (l : List Square) (n : Nat) (pre : List Nat), pre.length + n + l.length = 9 →
      expandRank (sfenRank piece l n) pre.length (pre ++ List.replicate (n + l.length) 0) =
        pre ++ List.replicate n 0 ++ l.map fun s => cellByte (b s)
  | [], n, pre, h => by
    simp only [List.length_nil, Nat.add_zero] at h
    have := expand_space (n := n) (by omega) [] (pos := pre.length) (pre ++ List.replicate n 0) (by omega)
    rw [List.append_nil] at this
    simp only [sfenRank, List.length_nil, Nat.add_zero, List.map_nil, List.append_nil]
    rw [this]
    rfl
  | s :: l, n, pre, h => by
    simp only [List.length_cons] at h
    rcases hb : b s with _ | x
    · have hz : pieceCode (b s) = 0 := pieceCode_eq_zero.mpr hb
      rw [sfenRank, if_pos (by rw [hp, hz])]
      have := expand_rank b piece hp l (n + 1) pre (by omega)
      rw [show n + (s :: l).length = n + 1 + l.length by simp only [List.length_cons]; omega, this]
      simp [List.replicate_succ', hb, cellByte]
    · have hz : pieceCode (b s) ≠ 0 := by rw [ne_eq, pieceCode_eq_zero, hb]; simp
      rw [sfenRank, if_neg (by rw [hp]; exact hz), expand_space (by omega) _ _ (by omega), hp, hb, expand_piece _ _ _ (by omega)]
      have hv : (pre ++ List.replicate (n + (s :: l).length) 0).set (pre.length + n) (cellByte (some x)) =
          (pre ++ List.replicate n 0 ++ [cellByte (some x)]) ++ List.replicate (0 + l.length) 0 := by
        rw [show n + (s :: l).length = n + (1 + l.length) by simp only [List.length_cons]; omega, List.replicate_add,
          List.replicate_add, ← List.append_assoc, ← List.append_assoc, Nat.zero_add]
        rw [List.append_assoc, List.set_append_right _ _ (by simp)]
        simp [List.replicate_succ]
      rw [hv]
      have := expand_rank b piece hp l 0 (pre ++ List.replicate n 0 ++ [cellByte (some x)]) (by simp; omega)
      have hlen : (pre ++ List.replicate n 0 ++ [cellByte (some x)]).length = pre.length + n + 1 := by simp; omega
      rw [hlen] at this
      rw [this]
      simp [hb]

/-- Compressing cells gives the text of the rank of the other side's pieces. -/
theorem compress_rank (b b' : Square → Option (Color × Kind)) (piece' : Square → Piece) (hp' : ∀ s, piece' s = pieceCode (b' s))
    (o : Square → Square) (ho : ∀ s, b' (o s) = swapCell (b s)) :
    ∀ (l : List Square) (n : Nat), compressRank (l.map fun s => cellByte (b s)) n = sfenRank piece' (l.map o) n
  | [], n => by
    simp only [List.map_nil, compressRank, sfenRank, emptyText, sfenSpace]
    by_cases h : n = 0
    · subst h; rfl
    · rw [if_pos (by omega), if_pos h]
  | s :: l, n => by
    have hsp : emptyText n = sfenSpace n := by
      unfold emptyText sfenSpace
      by_cases h : n = 0
      · subst h; rfl
      · rw [if_pos (by omega), if_pos h]
    rw [List.map_cons, List.map_cons]
    rcases hb : b s with _ | x
    · have h1 : piece' (o s) = 0 := by rw [hp', ho, hb]; rfl
      rw [compressRank, if_pos (show cellByte none = 0 from rfl), sfenRank, if_pos h1]
      exact compress_rank b b' piece' hp' o ho l (n + 1)
    · have h1 : piece' (o s) = pieceCode (swapCell (some x)) := by rw [hp', ho, hb]
      have h2 : piece' (o s) ≠ 0 := by
        rw [h1, ne_eq, pieceCode_eq_zero]; simp [swapCell]
      rw [compressRank, sfenRank, if_neg h2, compress_rank b b' piece' hp' o ho l 0, hsp, h1]
      obtain ⟨a, a1, a2, ⟨e1, e2, e3⟩ | ⟨e1, e2, e3⟩⟩ := usi_shape x
      · rw [if_neg (by omega), e2, e3, if_neg (by omega)]
      · rw [if_neg (by omega), e2, e3, if_pos (by omega), Nat.add_sub_cancel]

theorem reverse_rank (b b' : Square → Option (Color × Kind)) (piece piece' : Square → Piece) (hp : ∀ s, piece s = pieceCode (b s))
    (hp' : ∀ s, piece' s = pieceCode (b' s)) (hb : ∀ s, b' (Pos.opposite s) = swapCell (b s)) (r : Nat) (hr : r < 9) :
    reverseRank (sfenRank piece (rankSquares r) 0) = sfenRank piece' (rankSquares (8 - r)) 0 := by
  unfold reverseRank
  have h := expand_rank b piece hp (rankSquares r) 0 [] (by simp [rankSquares])
  have hl : (rankSquares r).length = 9 := by simp [rankSquares]
  simp only [List.length_nil, List.nil_append, Nat.zero_add, hl, List.replicate_zero] at h
  rw [h, ← List.map_reverse, compress_rank b b' piece' hp' Pos.opposite hb]
  congr 1
  interval_cases r <;> decide

/-! ### Words and ranks -/

/-- A character of a word: not a blank. -/
def Solid (cs : List Char) : Prop := ∀ c ∈ cs, isSpace c = false

theorem takeWhile_solid {w : List Char} (h : Solid w) (rest : List Char) :
    (w ++ ' ' :: rest).takeWhile (fun c => !isSpace c) = w ∧ (w ++ ' ' :: rest).dropWhile (fun c => !isSpace c) = ' ' :: rest := by
  induction w with
  | nil => exact ⟨by simp [isSpace], by simp [isSpace]⟩
  | cons a w ih =>
    have ha : isSpace a = false := h a (List.mem_cons_self ..)
    obtain ⟨i1, i2⟩ := ih fun c hc => h c (List.mem_cons_of_mem _ hc)
    simp only [List.cons_append, List.takeWhile_cons, List.dropWhile_cons, ha, Bool.not_false, if_true, i1, i2, and_self]

theorem dropSpace_solid {w : List Char} (h : Solid w) (hne : w ≠ []) (rest : List Char) :
    (w ++ rest).dropWhile isSpace = w ++ rest := by
  cases w with
  | nil => exact absurd rfl hne
  | cons a w =>
    have ha : isSpace a = false := h a (List.mem_cons_self ..)
    simp [ha]

theorem nextWord_first {w : List Char} (h : Solid w) (hne : w ≠ []) (rest : List Char) :
    nextWord (w ++ ' ' :: rest) = (w, ' ' :: rest) := by
  unfold nextWord
  simp only [dropSpace_solid h hne]
  obtain ⟨h1, h2⟩ := takeWhile_solid h rest
  rw [h1, h2]

theorem nextWord_blank {cs : List Char} : nextWord (' ' :: cs) = nextWord cs := by
  unfold nextWord
  simp [isSpace]

theorem nextWord_last {w : List Char} (h : Solid w) (hne : w ≠ []) : (nextWord w).1 = w := by
  unfold nextWord
  have h1 := dropSpace_solid h hne []
  rw [List.append_nil] at h1
  simp only [h1]
  exact takeWhile_all fun c hc => by rw [h c hc]; rfl

theorem solid_append {a b : List Char} (ha : Solid a) (hb : Solid b) : Solid (a ++ b) := by
  intro c hc
  rcases List.mem_append.mp hc with h | h
  · exact ha c h
  · exact hb c h

theorem digit_plain {d : Nat} (h : d < 10) : isSpace (digitCh d) = false ∧ digitCh d ≠ '/' := by
  interval_cases d <;> decide

theorem usi_plain_chars (x : Color × Kind) : ∀ c ∈ usiChars (pieceCode (some x)), isSpace c = false ∧ c ≠ '/' := by
  obtain ⟨c, k⟩ := x
  cases c <;> cases k <;> decide

theorem rank_plain (b : Square → Option (Color × Kind)) (piece : Square → Piece) (hp : ∀ s, piece s = pieceCode (b s)) :
    ∀ (l : List Square) (n : Nat), ∀ c ∈ sfenRank piece l n, isSpace c = false ∧ c ≠ '/'
  | [], n, c, hc => by
    rw [sfenRank, sfenSpace] at hc
    split at hc
    · obtain ⟨d, hd, rfl⟩ := natChars_mem hc; exact digit_plain hd
    · cases hc
  | s :: l, n, c, hc => by
    rw [sfenRank] at hc
    split at hc
    · exact rank_plain b piece hp l _ c hc
    · rename_i h0
      rcases List.mem_append.mp hc with h | h
      · rw [sfenSpace] at h
        split at h
        · obtain ⟨d, hd, rfl⟩ := natChars_mem h; exact digit_plain hd
        · cases h
      · rcases List.mem_append.mp h with h | h
        · rw [hp] at h h0
          rcases hb : b s with _ | x
          · rw [hb] at h0; exact absurd rfl h0
          · rw [hb] at h; exact usi_plain_chars x c h
        · exact rank_plain b piece hp l _ c h

theorem split_rank {w : List Char} (h : ∀ c ∈ w, c ≠ '/') (cur rest : List Char) :
    splitRanks (w ++ rest) cur = splitRanks rest (cur ++ w) := by
  induction w generalizing cur with
  | nil => simp
  | cons a w ih =>
    rw [List.cons_append, splitRanks, if_neg (h a (List.mem_cons_self ..)), ih fun c hc => h c (List.mem_cons_of_mem _ hc)]
    simp

theorem split_join : ∀ (ws : List (List Char)), ws ≠ [] → (∀ w ∈ ws, ∀ c ∈ w, c ≠ '/') → splitRanks (joinRanks ws) [] = ws
  | [], h, _ => absurd rfl h
  | [a], _, h => by
    have := split_rank (h a (List.mem_cons_self ..)) [] []
    rw [List.append_nil] at this
    rw [joinRanks, this]
    simp [splitRanks]
  | a :: b :: ws, _, h => by
    rw [joinRanks, split_rank (h a (List.mem_cons_self ..)), splitRanks, if_pos rfl,
      split_join (b :: ws) (by simp) fun w hw => h w (List.mem_cons_of_mem _ hw)]
    · simp
    · simp

theorem board_join (piece : Square → Piece) :
    sfenBoard piece = joinRanks ((List.range 9).map fun r => sfenRank piece (rankSquares r) 0) := by
  have h9 : List.range 9 = [0, 1, 2, 3, 4, 5, 6, 7, 8] := by decide
  unfold sfenBoard
  rw [h9]
  simp only [List.flatMap_cons, List.flatMap_nil, List.map_cons, List.map_nil, joinRanks]
  simp

theorem join_solid : ∀ (ws : List (List Char)), (∀ w ∈ ws, Solid w) → Solid (joinRanks ws)
  | [], _ => by intro c hc; cases hc
  | [a], h => h a (List.mem_cons_self ..)
  | a :: b :: ws, h => by
    rw [joinRanks]
    · refine solid_append (h a (List.mem_cons_self ..)) ?_
      intro c hc
      rcases List.mem_cons.mp hc with rfl | hc
      · decide
      · exact join_solid (b :: ws) (fun w hw => h w (List.mem_cons_of_mem _ hw)) c hc
    · simp

/-! ### Hands -/

/-- The text of one kind of captured piece. -/
def handItem (h : Hand) (c : Color) (i : Nat) : List Char :=
  let num := h.numOf i
  if num = 0 then [] else (if num ≠ 1 then natChars num else []) ++ usiChars (mkPiece c (handToPt i))

theorem sfenHand_items (h : Hand) (c : Color) : sfenHand h c = [6, 5, 4, 3, 2, 1, 0].flatMap (handItem h c) := rfl

/-- Prepending to the text of side `c`. -/
def addTo (c : Color) (t : List Char) (r : List Char × List Char) : List Char × List Char :=
  match c with
  | .black => (t ++ r.1, r.2)
  | .white => (r.1, t ++ r.2)

theorem addTo_nil (c : Color) (r : List Char × List Char) : addTo c [] r = r := by cases c <;> rfl

theorem addTo_append (c : Color) (a b : List Char) (r : List Char × List Char) : addTo c a (addTo c b r) = addTo c (a ++ b) r := by
  cases c <;> simp [addTo]

/-- The letter of a side. -/
def sideLetter (c : Color) (a : Char) : Prop :=
  match c with
  | .black => isUpper a = true
  | .white => isUpper a = false ∧ isLower a = true

instance (c : Color) (a : Char) : Decidable (sideLetter c a) := by unfold sideLetter; cases c <;> infer_instance

theorem hand_letter (c : Color) (i : Nat) (hi : i < 7) : ∃ a : Char, usiChars (mkPiece c (handToPt i)) = [a] ∧ sideLetter c a ∧
    ¬ (50 ≤ a.toNat ∧ a.toNat ≤ 57) ∧ isSpace a = false ∧ a ≠ '-' ∧
    usiChars (mkPiece c.opp (handToPt i)) = [Char.ofNat (flipPiece a.toNat)] := by
  interval_cases i <;> cases c <;> exact ⟨_, rfl, by decide, by decide, by decide, by decide, by decide⟩

theorem split_item (h : Hand) (c : Color) (i : Nat) (hi : i < 7) (hn : h.numOf i ≤ 9) (rest : List Char) :
    splitHand (handItem h c i ++ rest) = addTo c (handItem h c i) (splitHand rest) := by
  obtain ⟨a, ha, hcase, hdig, -⟩ := hand_letter c i hi
  unfold handItem
  simp only [ha]
  obtain ⟨n, hn'⟩ : ∃ n, n = h.numOf i := ⟨_, rfl⟩
  rw [← hn'] at hn ⊢
  by_cases h0 : n = 0
  · rw [if_pos h0, addTo_nil]; rfl
  · rw [if_neg h0]
    by_cases h1 : n = 1
    · rw [if_neg (by omega)]
      cases c
      · simp only [sideLetter] at hcase
        simp only [List.nil_append, List.cons_append, addTo]
        rw [splitHand.eq_def]
        simp only
        rw [if_neg hdig, if_pos hcase]
      · simp only [sideLetter] at hcase
        simp only [List.nil_append, List.cons_append, addTo]
        rw [splitHand.eq_def]
        simp only
        rw [if_neg hdig, if_neg (by rw [hcase.1]; decide), if_pos hcase.2]
    · rw [if_pos h1, natChars_small (by omega)]
      have hd := digitCh_toNat (d := n) (by omega)
      cases c
      · simp only [sideLetter] at hcase
        simp only [List.nil_append, List.cons_append, addTo]
        rw [splitHand.eq_def]
        simp only
        rw [if_pos (by omega), if_pos hcase]
      · simp only [sideLetter] at hcase
        simp only [List.nil_append, List.cons_append, addTo]
        rw [splitHand.eq_def]
        simp only
        rw [if_pos (by omega), if_neg (by rw [hcase.1]; decide)]

theorem split_items (h : Hand) (c : Color) (rest : List Char) : ∀ l : List Nat, (∀ i ∈ l, i < 7 ∧ h.numOf i ≤ 9) →
    splitHand (l.flatMap (handItem h c) ++ rest) = addTo c (l.flatMap (handItem h c)) (splitHand rest)
  | [], _ => by rw [List.flatMap_nil, List.nil_append, addTo_nil]
  | i :: l, hl => by
    have h1 := hl i (List.mem_cons_self ..)
    rw [List.flatMap_cons, List.append_assoc, split_item h c i h1.1 h1.2,
      split_items h c rest l fun j hj => hl j (List.mem_cons_of_mem _ hj), addTo_append]

theorem flip_digit {d : Nat} (h : d < 10) : Char.ofNat (flipPiece (digitCh d).toNat) = digitCh d := by
  interval_cases d <;> decide

theorem flip_item (h : Hand) (c : Color) (i : Nat) (hi : i < 7) : flipText (handItem h c i) = handItem h c.opp i := by
  obtain ⟨a, ha, -, -, -, -, hf⟩ := hand_letter c i hi
  unfold handItem
  simp only [ha, hf]
  split
  · rfl
  · unfold flipText
    rw [List.map_append, List.map_cons, List.map_nil]
    congr 1
    split
    · conv_rhs => rw [← List.map_id (natChars (h.numOf i))]
      apply List.map_congr_left
      intro x hx
      obtain ⟨d, hd, rfl⟩ := natChars_mem hx
      exact flip_digit hd
    · rfl

theorem flip_hand (h : Hand) (c : Color) : flipText (sfenHand h c) = sfenHand h c.opp := by
  rw [sfenHand_items, sfenHand_items]
  unfold flipText
  rw [List.map_flatMap]
  apply List.flatMap_congr
  intro i hi
  exact flip_item h c i ((by decide : ∀ i ∈ [6, 5, 4, 3, 2, 1, 0], i < 7) i hi)

theorem item_chars (h : Hand) (c : Color) (i : Nat) (hi : i < 7) : ∀ x ∈ handItem h c i, isSpace x = false ∧ x ≠ '-' := by
  obtain ⟨a, ha, -, -, h1, h2, -⟩ := hand_letter c i hi
  intro x hx
  unfold handItem at hx
  simp only [ha] at hx
  split at hx
  · cases hx
  · rcases List.mem_append.mp hx with hx | hx
    · split at hx
      · obtain ⟨d, hd, rfl⟩ := natChars_mem hx
        exact (by decide : ∀ d < 10, isSpace (digitCh d) = false ∧ digitCh d ≠ '-') d hd
      · cases hx
    · rw [List.mem_singleton] at hx
      subst hx
      exact ⟨h1, h2⟩

theorem hand_chars (h : Hand) (c : Color) : ∀ x ∈ sfenHand h c, isSpace x = false ∧ x ≠ '-' := by
  intro x hx
  rw [sfenHand_items, List.mem_flatMap] at hx
  obtain ⟨i, hi, hx⟩ := hx
  exact item_chars h c i ((by decide : ∀ i ∈ [6, 5, 4, 3, 2, 1, 0], i < 7) i hi) x hx

/-- A hand without text is empty. -/
theorem hand_nil {h : Hand} (hw : h.WF) {c : Color} (e : sfenHand h c = []) : h = 0#32 := by
  refine Hand.ext_numOf h 0#32 hw (by decide) fun i hi => ?_
  rw [(by decide : ∀ i < 7, Hand.numOf 0#32 i = 0) i hi]
  rw [sfenHand_items, List.flatMap_eq_nil_iff] at e
  have := e i ((by decide : ∀ i < 7, i ∈ [6, 5, 4, 3, 2, 1, 0]) i hi)
  obtain ⟨a, ha, -⟩ := hand_letter c i hi
  unfold handItem at this
  simp only [ha] at this
  by_contra h0
  rw [if_neg h0] at this
  simp at this

/-- The text of both hands. -/
def handsText (hb hw : Hand) : List Char := if hb = 0#32 ∧ hw = 0#32 then ['-'] else sfenHand hb .black ++ sfenHand hw .white

theorem handsText_ok {hb hw : Hand} (h1 : hb.WF) (h2 : hw.WF) : Solid (handsText hb hw) ∧ handsText hb hw ≠ [] := by
  unfold handsText
  split
  · exact ⟨by intro c hc; rw [List.mem_singleton] at hc; subst hc; decide, by simp⟩
  · rename_i h
    refine ⟨solid_append (fun c hc => (hand_chars _ _ c hc).1) fun c hc => (hand_chars _ _ c hc).1, fun e => h ?_⟩
    rw [List.append_eq_nil_iff] at e
    exact ⟨hand_nil h1 e.1, hand_nil h2 e.2⟩

theorem flipHand_text {hb hw : Hand} (h1 : hb.WF) (h2 : hw.WF) (hn : ∀ i < 7, hb.numOf i ≤ 9 ∧ hw.numOf i ≤ 9) :
    flipHand (handsText hb hw) = handsText hw hb := by
  have hmem : ∀ i ∈ [6, 5, 4, 3, 2, 1, 0], i < 7 := by decide
  by_cases h : hb = 0#32 ∧ hw = 0#32
  · unfold handsText
    rw [if_pos h, if_pos h.symm]
    rfl
  · have h' : ¬ (hw = 0#32 ∧ hb = 0#32) := fun x => h x.symm
    have e1 : handsText hb hw = sfenHand hb .black ++ sfenHand hw .white := by unfold handsText; rw [if_neg h]
    have e2 : handsText hw hb = sfenHand hw .black ++ sfenHand hb .white := by unfold handsText; rw [if_neg h']
    have hs : splitHand (handsText hb hw) = (sfenHand hb .black, sfenHand hw .white) := by
      have s2 := split_items hw .white [] _ fun i hi => ⟨hmem i hi, (hn i (hmem i hi)).2⟩
      rw [List.append_nil] at s2
      rw [e1, sfenHand_items, split_items hb .black _ _ fun i hi => ⟨hmem i hi, (hn i (hmem i hi)).1⟩, sfenHand_items, s2]
      simp [addTo, splitHand]
    have hd : handsText hb hw ≠ ['-'] := by
      intro e
      rw [e1] at e
      have : '-' ∈ sfenHand hb .black ++ sfenHand hw .white := by rw [e]; simp
      rcases List.mem_append.mp this with h | h
      · exact (hand_chars _ _ _ h).2 rfl
      · exact (hand_chars _ _ _ h).2 rfl
    have hne : handsText hw hb ≠ [] := (handsText_ok h2 h1).2
    unfold flipHand
    rw [if_neg hd, hs]
    simp only [flip_hand]
    rw [show sfenHand hw Color.white.opp ++ sfenHand hb Color.black.opp = handsText hw hb from e2.symm, if_neg hne]

theorem intChars_ok (n : Int) : Solid (intChars n) ∧ intChars n ≠ [] := by
  have h : ∀ m : Nat, Solid (natChars m) := by
    intro m c hc
    obtain ⟨d, hd, rfl⟩ := natChars_mem hc
    exact (digit_plain hd).1
  unfold intChars
  split
  · refine ⟨?_, by simp⟩
    intro c hc
    rcases List.mem_cons.mp hc with rfl | hc
    · decide
    · exact h _ c hc
  · exact ⟨h _, natChars_ne_nil _⟩

/-- The text is four words. -/
theorem sfen_words (p : Position) (ply : Int) : toSfen p ply = sfenBoard p.piece ++ ' ' :: ([if p.turn = .black then 'b' else 'w'] ++
    ' ' :: (handsText (p.hand .black) (p.hand .white) ++ ' ' :: intChars ply)) := by
  unfold toSfen handsText
  by_cases h : p.hand .black = 0#32 ∧ p.hand .white = 0#32
  · rw [if_pos h, if_pos h]; cases p.turn <;> simp
  · rw [if_neg h, if_neg h]; cases p.turn <;> simp

/-! ### C41 -/

/-- **C41** (partial: at most nine pieces of a kind in each hand): `rotate_sfen` of a position's text is the text of the
position turned round. `p'` is any position showing the turned board, the exchanged hands and the other side to move. -/
theorem C41_rotate_partial {p p' : Position} (hp : ∀ s, p.piece s = pieceCode ((absPos p).board s))
    (hp' : ∀ s, p'.piece s = pieceCode ((absPos p').board s)) (hw : ∀ c, (p.hand c).WF) (hw' : ∀ c, (p'.hand c).WF)
    (hn : ∀ c h, (absPos p).hand c h ≤ 9) (hr : absPos p' = (absPos p).rotate) (ply : Int) :
    rotateSfen (toSfen p ply) = toSfen p' ply := by
  have ht : p'.turn = p.turn.opp := congrArg Pos.turn hr
  have hh : ∀ c, p'.hand c = p.hand c.opp := by
    intro c
    refine Hand.ext_numOf _ _ (hw' c) (hw _) fun i hi => ?_
    obtain ⟨h, rfl⟩ := hcode_surj i hi
    exact congrFun (congrFun (congrArg Pos.hand hr) c) h
  have hn' : ∀ c, ∀ i < 7, (p.hand c).numOf i ≤ 9 := by
    intro c i hi
    obtain ⟨h, rfl⟩ := hcode_surj i hi
    exact hn c h
  have hbd : ∀ s, (absPos p').board (Pos.opposite s) = swapCell ((absPos p).board s) := by
    intro s
    rw [hr]
    show ((absPos p).board (Pos.opposite (Pos.opposite s))).map _ = _
    rw [show Pos.opposite (Pos.opposite s) = s from Fin.ext (by simp only [Pos.opposite]; omega)]
    rfl
  obtain ⟨ranks, hranks⟩ : ∃ x, x = (List.range 9).map fun r => sfenRank p.piece (rankSquares r) 0 := ⟨_, rfl⟩
  have hplain : ∀ w ∈ ranks, ∀ c ∈ w, isSpace c = false ∧ c ≠ '/' := by
    intro w hw
    rw [hranks, List.mem_map] at hw
    obtain ⟨r, -, rfl⟩ := hw
    exact rank_plain _ _ hp _ _
  have hb1 : Solid (sfenBoard p.piece) := by
    rw [board_join, ← hranks]
    exact join_solid _ fun w hw c hc => (hplain w hw c hc).1
  have hb2 : sfenBoard p.piece ≠ [] := by
    rw [board_join, show List.range 9 = [0, 1, 2, 3, 4, 5, 6, 7, 8] by decide]
    simp [joinRanks]
  have hb3 : splitRanks (sfenBoard p.piece) [] = ranks := by
    rw [board_join, ← hranks]
    exact split_join _ (by rw [hranks]; simp) fun w hw c hc => (hplain w hw c hc).2
  have hb4 : joinRanks (ranks.reverse.map reverseRank) = sfenBoard p'.piece := by
    rw [board_join, hranks, ← List.map_reverse, List.map_map]
    congr 1
    rw [show (List.range 9).reverse = (List.range 9).map (fun r => 8 - r) by decide, List.map_map]
    apply List.map_congr_left
    intro r hr
    have hr := List.mem_range.mp hr
    simp only [Function.comp]
    rw [reverse_rank _ _ _ _ hp hp' hbd _ (by omega), show 8 - (8 - r) = r by omega]
  obtain ⟨h1, h2⟩ := handsText_ok (hw .black) (hw .white)
  obtain ⟨i1, i2⟩ := intChars_ok ply
  have ht1 : Solid [if p.turn = .black then 'b' else 'w'] := by
    intro c hc
    rw [List.mem_singleton] at hc
    subst hc
    cases p.turn <;> decide
  rw [sfen_words p', sfen_words p]
  unfold rotateSfen
  simp only [nextWord_first hb1 hb2, nextWord_blank, nextWord_first ht1 (List.cons_ne_nil _ _), nextWord_first h1 h2,
    nextWord_last i1 i2, hb3, hb4]
  rw [flipHand_text (hw .black) (hw .white) fun i hi => ⟨hn' _ i hi, hn' _ i hi⟩, hh, hh, ht]
  cases p.turn <;> simp [Color.opp]

/-- The position turned round, as far as the text sees it. -/
def turnRound (p : Position) : Position :=
  { p with piece := fun s => pieceCode ((absPos p).rotate.board s), hand := fun c => p.hand c.opp, turn := p.turn.opp }

theorem abs_turnRound (p : Position) : absPos (turnRound p) = (absPos p).rotate := by
  refine pos_ext ?_ rfl rfl
  funext s
  exact decode_pieceCode _

theorem turnRound_code (p : Position) : ∀ s, (turnRound p).piece s = pieceCode ((absPos (turnRound p)).board s) := by
  intro s
  rw [abs_turnRound]
  rfl

/-- **C41** (partial: at most nine pieces of a kind in each hand): turning the text round twice gives it back. -/
theorem C41_twice_partial {p : Position} (hp : ∀ s, p.piece s = pieceCode ((absPos p).board s)) (hw : ∀ c, (p.hand c).WF)
    (hn : ∀ c h, (absPos p).hand c h ≤ 9) (ply : Int) : rotateSfen (rotateSfen (toSfen p ply)) = toSfen p ply := by
  have hopp : ∀ c : Color, c.opp.opp = c := by intro c; cases c <;> rfl
  rw [C41_rotate_partial hp (turnRound_code p) hw (fun c => hw _) hn (abs_turnRound p)]
  refine C41_rotate_partial (turnRound_code p) hp (fun c => hw _) hw (fun c h => hn _ h) ?_ ply
  rw [abs_turnRound]
  refine pos_ext ?_ ?_ ?_
  · funext s
    show _ = Option.map _ (Option.map _ ((absPos p).board (Pos.opposite (Pos.opposite s))))
    rw [show Pos.opposite (Pos.opposite s) = s from Fin.ext (by simp only [Pos.opposite]; omega), Option.map_map]
    have : ((fun x : Color × Kind => (x.1.opp, x.2)) ∘ fun x : Color × Kind => (x.1.opp, x.2)) = id := by
      funext x
      simp [hopp]
    rw [this, Option.map_id, id]
  · funext c
    show _ = (absPos p).hand c.opp.opp
    rw [hopp]
  · exact (hopp _).symm

/-- **C41** fails with ten or more pieces of a kind in a hand: the first digit of the count is lost. -/
theorem C41_fails : ∃ p p' : Position, (∀ s, p.piece s = pieceCode ((absPos p).board s)) ∧ (∀ c, (p.hand c).WF) ∧
    (∀ s, p'.piece s = pieceCode ((absPos p').board s)) ∧ (∀ c, (p'.hand c).WF) ∧ (∀ c h, (absPos p).hand c h ≤ h.total) ∧
    absPos p' = (absPos p).rotate ∧
    toSfen p p.gamePly = "4k4/9/4P4/9/9/9/9/9/9 w R17P3g 100".toList ∧
    toSfen p' p'.gamePly = "9/9/9/9/9/9/4p4/9/4K4 b 3Gr17p 100".toList ∧
    rotateSfen (toSfen p p.gamePly) = "9/9/9/9/9/9/4p4/9/4K4 b 3Gr7p 100".toList ∧
    rotateSfen (rotateSfen (toSfen p p.gamePly)) ≠ toSfen p p.gamePly := by
  have hw : ∀ c, (handsModel.hand c).WF := by intro c; cases c <;> decide +kernel
  have hw' : ∀ p : Position, (∀ c, (p.hand c).WF) → ∀ c, ((turnRound p).hand c).WF := fun p h c => h _
  have hc : ∀ s, handsModel.piece s = pieceCode ((absPos handsModel).board s) := by decide +kernel
  have ht : ∀ c h, (absPos handsModel).hand c h ≤ h.total := by
    intro c h
    cases c <;> cases h <;> decide +kernel
  have e1 : toSfen handsModel handsModel.gamePly = "4k4/9/4P4/9/9/9/9/9/9 w R17P3g 100".toList := by decide +kernel
  have e2 : toSfen (turnRound handsModel) (turnRound handsModel).gamePly = "9/9/9/9/9/9/4p4/9/4K4 b 3Gr17p 100".toList := by decide +kernel
  obtain ⟨p, hp⟩ : ∃ p, p = handsModel := ⟨_, rfl⟩
  rw [← hp] at hw hc ht e1 e2
  refine ⟨p, turnRound p, hc, hw, turnRound_code p, hw' p hw, ht, abs_turnRound p, e1, e2, ?_, ?_⟩
  · rw [e1]; decide +kernel
  · rw [e1]; decide +kernel

/-- A position with pieces in both hands and a promoted piece meets the hypotheses. -/
def turnModel : Position :=
  setPieces zeroKeys { Position.clear with turn := .black } (fun s => if s = 0 then pieceCode (some (.white, .lance)) else
      if s = 40 then pieceCode (some (.black, .proPawn)) else if s = 79 then pieceCode (some (.black, .king)) else 0)
    (fun c i => if c = .black then (if i = 0 then 9 else if i = 6 then 1 else 0) else if i = 4 then 3 else 0)

example : (∀ s, turnModel.piece s = pieceCode ((absPos turnModel).board s)) ∧ (∀ c, (turnModel.hand c).WF) ∧
    (∀ c h, (absPos turnModel).hand c h ≤ 9) ∧
    toSfen turnModel 7 = "8l/9/9/9/4+P4/9/9/K8/9 b R9P3g 7".toList ∧
    rotateSfen (toSfen turnModel 7) = "9/8k/9/9/4+p4/9/9/9/L8 w 3Gr9p 7".toList := by
  refine ⟨by decide +kernel, ?_, ?_, by decide +kernel, by decide +kernel⟩
  · intro c; cases c <;> decide +kernel
  · intro c h; cases c <;> cases h <;> decide +kernel

end Verif
