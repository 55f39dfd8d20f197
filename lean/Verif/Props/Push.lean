import Verif.Model.Push
import Verif.Spec.Push
import Verif.Props.UsiComment
import Verif.Props.IsLegalAny
import Verif.Props.PositionText

/-!
# C97: the ways to hand a move to a board

`push`, `push_usi`, `push_csa`, `push_move16` and `push_psv` play the same move.
-/

namespace Verif
open Spec Bitboard Position

/-- The methods that play a move. -/
inductive Way
  | int
  | usi
  | csa
  | move16
  | psv

/-- A move of the rules handed to the board in one of the ways: as the integer that `move` or `drop_move` makes of its squares, as its text, or
as its number. -/
def Board.hand (Z : Zobrist) (b : Board) (mv : Mv) : Way → Option (Board × Move)
  | .int => (b.push Z (encode b.pos mv)).map fun b' => (b', encode b.pos mv)
  | .usi => b.pushUsi Z (usiText mv)
  | .csa => b.pushCsa Z (csaMove (absPos b.pos) mv).tail
  | .move16 => b.pushMove16 Z (BitVec.ofNat 16 (number16 mv))
  | .psv => b.pushPsv Z (BitVec.ofNat 16 (numberPsv mv))

/-- A game handed over move by move, each in its own way; the integers returned. -/
def Board.handAll (Z : Zobrist) : Board → List (Mv × Way) → Option (Board × List Move)
  | b, [] => some (b, [])
  | b, (mv, w) :: l => (b.hand Z mv w).bind fun x => (Board.handAll Z x.1 l).map fun y => (y.1, x.2 :: y.2)

theorem dropNo_code (h : HKind) : h.dropNo = h.kind.code := by cases h <;> rfl

theorem number16_encode (p : Position) (mv : Mv) : (encode p mv).toNat % 2^16 = number16 mv := by
  cases mv with
  | move f t pro =>
    show (boardMove p.piece f t pro).toNat % 2^16 = _
    rw [boardMove_toNat]
    have hf := f.isLt
    have ht := t.isLt
    simp only [number16]
    cases pro <;> simp only [Bool.false_eq_true, if_false, if_true] <;> omega
  | drop h t =>
    show (makeDropMove h.kind.code t.val).toNat % 2^16 = _
    have hb := handKind_code_bounds h
    have ht := t.isLt
    rw [makeDropMove_toNat _ _ (by omega) (by omega)]
    simp only [number16, dropNo_code]
    omega

theorem number16_lt (mv : Mv) : number16 mv < 2^16 := by
  cases mv with
  | move f t pro => simp only [number16]; cases pro <;> simp only [Bool.false_eq_true, if_false, if_true] <;> omega
  | drop h t => have hb := handKind_code_bounds h; simp only [number16, dropNo_code]; omega

theorem legal_agrees {p : Position} {mv : Mv} (h : (absPos p).Pseudo mv) : MoveAgrees p.piece (encode p mv) := by
  cases mv with
  | move f t pro =>
    refine .inl ⟨f, t, pro, rfl, ?_⟩
    rintro rfl
    obtain ⟨k, h1, -, h2, -⟩ := h
    exact h2 k h1
  | drop k t => exact .inr ⟨k.kind.code, t, (handKind_code_bounds k).1, (handKind_code_bounds k).2, rfl⟩

theorem move16_number {p : Position} {mv : Mv} (h : (absPos p).Pseudo mv) :
    move16toMove p.piece (widen16 (BitVec.ofNat 16 (number16 mv))) = some (encode p mv) := by
  refine move16toMove_widen p.piece _ (legal_agrees h) _ ?_
  rw [number16_encode]
  have := number16_lt mv
  simp only [widen16, BitVec.toNat_setWidth, BitVec.toNat_ofNat]
  omega

theorem psv_number (mv : Mv) : move16FromPsv (BitVec.ofNat 16 (numberPsv mv)) = BitVec.ofNat 16 (number16 mv) := by
  obtain ⟨n, hn⟩ : ∃ n, n = numberPsv mv := ⟨_, rfl⟩
  have hl : n < 2^16 := by
    rw [hn]
    cases mv with
    | move f t pro => simp only [numberPsv]; cases pro <;> simp only [Bool.false_eq_true, if_false, if_true] <;> omega
    | drop h t => have hb := handKind_code_bounds h; simp only [numberPsv, dropNo_code]; omega
  have hv : (BitVec.ofNat 16 n).toNat = n := by rw [BitVec.toNat_ofNat]; omega
  rw [← hn]
  apply BitVec.eq_of_toNat_eq
  have h16 := number16_lt mv
  rw [BitVec.toNat_ofNat, Nat.mod_eq_of_lt h16]
  cases mv with
  | move f t pro =>
    have hf := f.isLt
    have ht := t.isLt
    have e : n = t.val + 128 * f.val + (if pro then 2^15 else 0) := hn
    have e1 : n % 128 = t.val := by rw [e]; cases pro <;> simp <;> omega
    have e2 : n / 128 % 128 = f.val := by rw [e]; cases pro <;> simp <;> omega
    have e3 : n / 2^14 % 2 = 0 := by rw [e]; cases pro <;> simp <;> omega
    have e4 : n / 2^15 % 2 = if pro then 1 else 0 := by rw [e]; cases pro <;> simp <;> omega
    rw [move16FromPsv_toNat _ (by rw [hv, e3]; intro h; cases h), hv, e1, e2, e3, e4]
    simp only [number16]
    cases pro <;> simp <;> omega
  | drop h t =>
    have hb := handKind_code_bounds h
    have ht := t.isLt
    have e : n = t.val + 128 * h.kind.code + 2^14 := by rw [hn]; simp only [numberPsv, dropNo_code]
    have e1 : n % 128 = t.val := by omega
    have e2 : n / 128 % 128 = h.kind.code := by omega
    have e3 : n / 2^14 % 2 = 1 := by omega
    have e4 : n / 2^15 % 2 = 0 := by omega
    rw [move16FromPsv_toNat _ (by rw [hv, e2]; intro; omega), hv, e1, e2, e3, e4]
    simp only [number16, dropNo_code, if_true, show ¬ (0 = 1) by decide, if_false]
    omega

/-- **C97.** Every legal move is played in the same way whichever method it is handed to: as the integer made of its squares, as its USI or CSA
text, as its 16-bit number or as its number in the format of YaneuraOu. All return that integer, the board shows the position after the move, and
the history has the integer at its end. -/
theorem C97_push (Z : Zobrist) (b : Board) (hb : Csa.Good Z b.pos) (mv : Mv) (hm : (absPos b.pos).Legal mv) :
    ∃ b', (∀ w, b.hand Z mv w = some (b', encode b.pos mv)) ∧ absPos b'.pos = (absPos b.pos).play mv ∧
      b'.history = b.history ++ [encode b.pos mv] ∧ Csa.Good Z b'.pos := by
  obtain ⟨p', e, hg, ha⟩ := hb.doMove hm
  have hpush : b.push Z (encode b.pos mv) = some ⟨p', .move (encode b.pos mv) :: b.hist⟩ := by
    unfold Board.push; rw [e]; rfl
  have hne := encode_ne_zero hm.1.1
  have htest : b.pushTested Z (encode b.pos mv) = some (⟨p', .move (encode b.pos mv) :: b.hist⟩, encode b.pos mv) := by
    unfold Board.pushTested; rw [if_pos hne, hpush]; rfl
  obtain ⟨l, el, hl⟩ := C27_listed_partial b.pos hb.inv.views hb.check hb.regular
  obtain ⟨l', el', -, hmem⟩ := genLegal_spec hb.inv.views hb.check hb.regular
  rw [el] at el'; cases el'
  have hin : encode b.pos mv ∈ l := (hmem _).mpr ⟨mv, rfl, hm⟩
  refine ⟨⟨p', .move (encode b.pos mv) :: b.hist⟩, fun w => ?_, ha, ?_, hg⟩
  · cases w with
    | int => show (b.push Z _).map _ = _; rw [hpush]; rfl
    | usi =>
      show b.pushUsi Z _ = _
      unfold Board.pushUsi
      rw [usi_text (hl _ hin)]
      exact htest
    | csa =>
      show b.pushCsa Z _ = _
      obtain ⟨l', el', hl'⟩ := C06_round_trip b.pos hb.inv.views hb.check hb.regular
      rw [el] at el'; cases el'
      obtain ⟨s, s1, s2⟩ := hl' _ hin
      obtain ⟨k, k1, k2⟩ := Usi.toCSA_encode hb.inv.views hm.1.1
      rw [s1] at k1; cases k1
      unfold Board.pushCsa
      rw [← k2, List.tail_cons, s2]
      exact htest
    | move16 =>
      show b.pushMove16 Z _ = _
      unfold Board.pushMove16
      rw [move16_number hm.1.1]
      show (b.push Z _).map _ = _; rw [hpush]; rfl
    | psv =>
      show b.pushPsv Z _ = _
      unfold Board.pushPsv
      rw [psv_number, move16_number hm.1.1]
      show (b.push Z _).map _ = _; rw [hpush]; rfl
  · simp [Board.history]

/-- **C97**, for whole games: a game handed over move by move, each move in whatever way, leaves the same board and gives the same integers as the
game handed over by `push`. -/
theorem C97_game (Z : Zobrist) (b : Board) (hb : Csa.Good Z b.pos) (mvs : List (Mv × Way)) (hm : (absPos b.pos).Line (mvs.map Prod.fst)) :
    ∃ b' ms, b.handAll Z mvs = some (b', ms) ∧ b.handAll Z (mvs.map fun x => (x.1, .int)) = some (b', ms) ∧
      absPos b'.pos = (absPos b.pos).after (mvs.map Prod.fst) ∧ b'.history = b.history ++ ms ∧ ms.length = mvs.length := by
  induction mvs generalizing b with
  | nil => exact ⟨b, [], rfl, rfl, rfl, by simp, rfl⟩
  | cons x mvs ih =>
    obtain ⟨mv, w⟩ := x
    obtain ⟨h1, h2⟩ := hm
    obtain ⟨b1, e1, e2, e3, e4⟩ := C97_push Z b hb mv h1
    obtain ⟨b', ms, f1, f2, f3, f4, f5⟩ := ih b1 e4 (by rw [e2]; exact h2)
    refine ⟨b', encode b.pos mv :: ms, ?_, ?_, ?_, ?_, by simp [f5]⟩
    · simp only [Board.handAll, e1 w, Option.bind_some, f1, Option.map_some]
    · simp only [List.map_cons, Board.handAll, e1 .int, Option.bind_some, f2, Option.map_some]
    · rw [f3, e2]; rfl
    · rw [f4, e3, List.append_assoc]; rfl

/-- **C97**: a text that `push_usi` or `push_csa` answers with 0 leaves the board as it was, whatever the text is; and any other answer is a move
that `is_legal` accepts, played. -/
theorem C97_text (Z : Zobrist) (b b' : Board) (s : List Char) (m : Move) (h : b.pushUsi Z s = some (b', m) ∨ b.pushCsa Z s = some (b', m)) :
    (m = 0#32 ∧ b' = b) ∨ (m ≠ 0#32 ∧ b.pos.isLegal m = some true ∧ b.push Z m = some b') := by
  have key : ∀ {o : Option Move}, (∀ x, o = some x → x = 0#32 ∨ b.pos.isLegal x = some true) → o.bind (fun m => b.pushTested Z m) = some (b', m) →
      (m = 0#32 ∧ b' = b) ∨ (m ≠ 0#32 ∧ b.pos.isLegal m = some true ∧ b.push Z m = some b') := by
    intro o ho h
    obtain ⟨x, e, h⟩ := Option.bind_eq_some_iff.mp h
    unfold Board.pushTested at h
    split at h
    · rename_i hx
      obtain ⟨y, ey, hy⟩ := Option.map_eq_some_iff.mp h
      cases hy
      exact .inr ⟨hx, (ho _ e).resolve_left hx, ey⟩
    · rename_i hx
      cases h
      exact .inl ⟨by simpa using hx, rfl⟩
  rcases h with h | h
  · exact key (fun x e => C07_usi_tested b.pos s x e) h
  · exact key (fun x e => C07_csa_tested b.pos s x e) h

/-- **C97**: the USI text of a move that breaks a rule other than those about promotion and unmovable pieces leaves the board as it was. -/
theorem C97_illegal_partial (Z : Zobrist) (b : Board) (hb : Csa.Good Z b.pos) (mv : Mv) (hm : ¬ (absPos b.pos).Loose mv) :
    b.pushUsi Z (usiText mv) = some (b, 0#32) := by
  obtain ⟨x, i1, i2, -⟩ := C27_loose b.pos hb.inv.views hb.check hb.regular mv
  have hx : x = false := by
    rcases hx : x with _ | _
    · rfl
    · exact absurd (i2 hx) hm
  rw [hx] at i1
  unfold Board.pushUsi
  rw [usi_text_not i1]
  rfl

/-- **C97 fails** for numbers: 0, the number of no move, is not tested for and makes `push_move16` and `push_psv` play on without a piece
(undefined), where `push_usi` returns 0. -/
theorem C97_fails_zero (Z : Zobrist) (b : Board) : b.pushMove16 Z 0#16 = none ∧ b.pushPsv Z 0#16 = none := by
  have h : b.push Z 0#32 = none := by
    unfold Board.push doMove
    rw [if_neg (by decide)]; rfl
  constructor
  · show (b.push Z 0#32).map (fun b' => (b', 0#32)) = none
    rw [h]; rfl
  · show (b.push Z 0#32).map (fun b' => (b', 0#32)) = none
    rw [h]; rfl

/-- **C97 fails** for numbers of moves that are not legal: they are played. The pawn jumps from 7g to 7e in the start position, while the USI text
of this is turned down. -/
theorem C97_fails_number : ∃ b', Board.pushMove16 zeroKeys ⟨startModel zeroKeys, []⟩ (BitVec.ofNat 16 (number16 (.move 60 58 false))) =
      some (b', encode (startModel zeroKeys) (.move 60 58 false)) ∧ (absPos b'.pos).board 58 = some (.black, .pawn) ∧
    Board.pushUsi zeroKeys ⟨startModel zeroKeys, []⟩ (usiText (.move 60 58 false)) = some (⟨startModel zeroKeys, []⟩, 0#32) := by
  have h : ((Board.pushMove16 zeroKeys ⟨startModel zeroKeys, []⟩ (BitVec.ofNat 16 (number16 (.move 60 58 false)))).any fun x =>
      decide (x.2 = encode (startModel zeroKeys) (.move 60 58 false)) && decide ((absPos x.1.pos).board 58 = some (.black, .pawn))) = true := by decide +kernel
  rcases hb : Board.pushMove16 zeroKeys ⟨startModel zeroKeys, []⟩ (BitVec.ofNat 16 (number16 (.move 60 58 false))) with _ | ⟨b', m⟩
  · rw [hb] at h; cases h
  · rw [hb] at h
    simp only [Option.any_some, Bool.and_eq_true, decide_eq_true_eq] at h
    refine ⟨b', by rw [h.1], h.2, ?_⟩
    have e : (startModel zeroKeys).usiToMove (usiText (.move 60 58 false)) = some 0#32 := by decide +kernel
    unfold Board.pushUsi
    rw [e]; rfl

/-- **C97 fails** for texts that are wrong in their promotion alone: the gold cannot promote, but `4i5h+` is read as a move, and playing it is
undefined. -/
theorem C97_fails_gold : Board.pushUsi zeroKeys ⟨startModel zeroKeys, []⟩ "4i5h+".toList = none ∧
    (startModel zeroKeys).usiToMove "4i5h+".toList = some (encode (startModel zeroKeys) (.move 35 43 true)) := by
  have e : (startModel zeroKeys).usiToMove "4i5h+".toList = some (encode (startModel zeroKeys) (.move 35 43 true)) := by decide +kernel
  refine ⟨?_, e⟩
  unfold Board.pushUsi
  rw [e]
  show Board.pushTested zeroKeys ⟨startModel zeroKeys, []⟩ (encode (startModel zeroKeys) (.move 35 43 true)) = none
  have h : (Board.pushTested zeroKeys ⟨startModel zeroKeys, []⟩ (encode (startModel zeroKeys) (.move 35 43 true))).isNone = true := by decide +kernel
  exact Option.isNone_iff_eq_none.mp h

/-- Five moves of the start position with a promotion and a drop, each in another way. -/
example : Csa.Good zeroKeys (startModel zeroKeys) ∧ (absPos (startModel zeroKeys)).Line
    (([(.move 60 59 false, .usi), (.move 20 21 false, .csa), (.move 70 10 true, .move16), (.move 18 10 false, .psv), (.drop .bishop 40, .move16)] :
      List (Mv × Way)).map Prod.fst) := by
  obtain ⟨h1, h2, h3⟩ := startModel_ok zeroKeys
  exact ⟨⟨h1, h2, h3⟩, by rw [(startModel_inv zeroKeys).2]; exact fiveMoves_line⟩

/-- The case of `C97_illegal_partial`: the pawn that jumps. -/
example : ¬ (absPos (startModel zeroKeys)).Loose (.move 60 58 false) := by
  obtain ⟨h1, h2, h3⟩ := startModel_ok zeroKeys
  intro h
  obtain ⟨b, i1, -, i2⟩ := C27_loose (startModel zeroKeys) h1.views h2 h3 (.move 60 58 false)
  rw [i2 h (fun t e => by cases e)] at i1
  have : (startModel zeroKeys).isLegal (encode (startModel zeroKeys) (.move 60 58 false)) = some false := by decide +kernel
  rw [this] at i1; cases i1

end Verif
