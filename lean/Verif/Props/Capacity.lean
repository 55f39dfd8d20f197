import Verif.Lemmas.Count
import Verif.Props.Legal
import Verif.Props.Sfen

/-!
# C47: the move buffer

`MoveList` holds `MaxLegalMoves` = 593 + 1 moves (src/generateMoves.hpp:79, src/position.hpp:571). The generator first writes
all pseudo-legal moves into it and then removes the illegal ones in place, so the number that matters is the length of
`genPseudo`. With the pieces of one shogi set it never exceeds 593, and one position has exactly 593. With more pieces, which
`set_sfen` accepts, it does not fit.
-/

namespace Verif
open Spec Bitboard Position

/-- `MaxLegalMoves` (src/position.hpp:571). -/
def maxLegalMoves : Nat := 593 + 1

/-- **C47**, as a fact about the rules: in a position with at most the pieces of one set, one king each and the side not to move
not in check, at most 593 moves obey the movement, promotion and drop rules. -/
theorem C47_rules (q : Pos) (hi : q.InSet) (hk : ∀ c, ∃ k, ∀ s, q.board s = some (c, .king) ↔ s = k) (hw : ¬ q.InCheck q.turn.opp)
    (l : List Mv) (nd : l.Nodup) (hl : ∀ m ∈ l, q.Pseudo m) : l.length ≤ 593 := by
  obtain ⟨k1, hk1⟩ := hk q.turn
  obtain ⟨k2, hk2⟩ := hk q.turn.opp
  exact pseudo_le hi hk1 hk2 hw nd hl

/-- **C47**, the part that holds: for every regular position with at most the pieces of one set, the moves written by the generator
before the removal of illegal ones, and so those left after it, fit in the buffer. -/
theorem C47_capacity_partial (Z : Zobrist) (p : Position) (hp : Inv Z p) (hc : CheckOK p) (hr : (absPos p).Regular) :
    ∃ l l', genPseudo p true = some l ∧ genLegal p true = some l' ∧ l.length < maxLegalMoves ∧ l'.length ≤ l.length := by
  obtain ⟨l, e, nd, hm, -⟩ := genPseudo_spec hp.views hc hr
  obtain ⟨l0, he⟩ : ∃ l0 : List Mv, l = l0.map (encode p) := by
    clear nd e
    induction l with
    | nil => exact ⟨[], rfl⟩
    | cons m l ih =>
      obtain ⟨mv, e, -⟩ := hm m (List.mem_cons_self ..)
      obtain ⟨l0, e0⟩ := ih (fun m hml => hm m (List.mem_cons_of_mem _ hml))
      exact ⟨mv :: l0, by rw [e, e0]; rfl⟩
  have nd0 : l0.Nodup := by rw [he] at nd; exact List.Nodup.of_map _ nd
  have hl0 : ∀ mv ∈ l0, (absPos p).Pseudo mv := by
    intro mv hmv
    obtain ⟨mv', e', h'⟩ := hm (encode p mv) (by rw [he]; exact List.mem_map_of_mem hmv)
    rw [encode_inj p e']; exact h'
  have hlen : l0.length ≤ 593 := C47_rules _ hp.inSet hr.kings hr.waiting l0 nd0 hl0
  refine ⟨l, _, e, by unfold genLegal; rw [e]; rfl, ?_, ?_⟩
  · rw [he, List.length_map]; unfold maxLegalMoves; omega
  · rw [(filterSwap_perm _ l.length l (le_refl _)).length_eq]
    exact List.length_filter_le _ _

/-- **C47** along games: after any sequence of legal pushes, passes and take-backs from such a position the moves fit. -/
theorem C47_history_partial (Z : Zobrist) (p : Position) (hp : Inv Z p) (hc : CheckOK p) (hr : (absPos p).Regular)
    (ops : List Op) (ho : Always LegalOp Z ⟨p, []⟩ ops) :
    ∃ b, Board.run Z ⟨p, []⟩ ops = some b ∧ ∃ l, genPseudo b.pos true = some l ∧ l.length < maxLegalMoves := by
  obtain ⟨b, e, hb⟩ := (LChain.base (p0 := p) p.st.continuousCheck hp hc hr.waiting).run ops ho
  obtain ⟨l, -, h1, -, h2, -⟩ := C47_capacity_partial Z b.pos hb.good.1 hb.good.2.1 (hb.regular hr)
  exact ⟨b, e, l, h1, h2⟩

/-- The start position meets the hypotheses. -/
example : Inv zeroKeys (startModel zeroKeys) ∧ CheckOK (startModel zeroKeys) ∧ (absPos (startModel zeroKeys)).Regular :=
  startModel_ok zeroKeys

/-! ### A position with 593 moves -/

/-- `R8/2K1S1SSk/4B4/9/9/9/9/9/1L1L1L3 b RBGSNLP3g3n17p`. -/
def maxBoard (s : Square) : Option (Color × Kind) :=
  match s.val with
  | 72 => some (.black, .rook) | 55 => some (.black, .king) | 37 => some (.black, .silver) | 19 => some (.black, .silver)
  | 10 => some (.black, .silver) | 1 => some (.white, .king) | 38 => some (.black, .bishop) | 71 => some (.black, .lance)
  | 53 => some (.black, .lance) | 35 => some (.black, .lance) | _ => none

def maxHand (c : Color) (h : Nat) : Nat :=
  match c, h with
  | .black, 0 => 1 | .black, 1 => 1 | .black, 2 => 1 | .black, 3 => 1 | .black, 4 => 1 | .black, 5 => 1 | .black, 6 => 1
  | .white, 0 => 17 | .white, 2 => 3 | .white, 4 => 3 | _, _ => 0

def maxPos : Pos := ⟨maxBoard, fun c h => maxHand c h.code, .black⟩

def maxModel : Position := setPieces zeroKeys clear (fun s => pieceCode (maxBoard s)) maxHand

theorem maxModel_spec : Inv zeroKeys maxModel ∧ absPos maxModel = maxPos := by
  have hk : OneKing maxBoard := by
    have h : ∀ c s t, maxBoard s = some (c, .king) → maxBoard t = some (c, .king) → s = t := by
      intro c
      cases c
      · have : ∀ s, maxBoard s = some (.black, .king) → s = 55 := by decide +kernel
        intro s t h1 h2; rw [this s h1, this t h2]
      · have : ∀ s, maxBoard s = some (.white, .king) → s = 1 := by decide +kernel
        intro s t h1 h2; rw [this s h1, this t h2]
    exact h
  obtain ⟨h1, h2, h3, -⟩ := setPieces_spec zeroKeys clear maxPos hk
    (fun c h => by cases c <;> cases h <;> decide) maxHand (fun _ _ => rfl)
  refine ⟨⟨h1, h2, ?_⟩, h3⟩
  show (absPos (setPieces zeroKeys clear (fun s => pieceCode (maxPos.board s)) maxHand)).InSet
  rw [h3]
  intro h; cases h <;> decide +kernel

/-- The bound is reached. -/
theorem C47_tight : Inv zeroKeys maxModel ∧ CheckOK maxModel ∧ (absPos maxModel).Regular ∧
    (genPseudo maxModel true).map List.length = some 593 ∧ (genLegal maxModel true).map List.length = some 593 := by
  have hw : ¬ (absPos maxModel).InCheck maxModel.turn.opp := by
    rw [← inCheckB_iff maxModel_spec.1.views]; decide +kernel
  refine ⟨maxModel_spec.1, checkOK_find maxModel_spec.1.views hw (setPieces_checkers _ _ _ _), ⟨fun c => ?_, hw, ?_⟩, ?_, ?_⟩
  · rw [maxModel_spec.2]
    cases c
    · exact ⟨55, by decide +kernel⟩
    · exact ⟨1, by decide +kernel⟩
  · rw [maxModel_spec.2]
    exact alive_of_check (b := maxBoard) (by decide +kernel)
  · decide +kernel
  · decide +kernel

theorem bannedLoop_st (p : Position) (s : StateInfo) : bannedLoop { p with st := s } = bannedLoop p := by
  funext us sq l bb
  induction l generalizing bb with
  | nil => rfl
  | cons a l ih => unfold bannedLoop; simp only [ih]; rfl

theorem genPseudo_st (p : Position) (s : StateInfo) (hs : s.checkersBB = p.st.checkersBB) :
    genPseudo { p with st := s } true = genPseudo p true := by
  have h1 : genNonEvasion { p with st := s } = genNonEvasion p := rfl
  have h2 : genEvasion { p with st := s } true = genEvasion p true := by
    unfold genEvasion
    simp only [bannedLoop_st, hs]
    rfl
  have h3 : inCheck { p with st := s } = inCheck p := by unfold inCheck; simp only [hs]
  unfold genPseudo
  rw [h1, h2, h3]

theorem genLegal_st (p : Position) (s : StateInfo) (hs : s.checkersBB = p.st.checkersBB) :
    genLegal { p with st := s } true = genLegal p true := by
  have h : (fun m => pseudoLegalMoveIsLegal { p with st := s } m (pinnedBB { p with st := s })) =
      fun m => p.pseudoLegalMoveIsLegal m p.pinnedBB := rfl
  unfold genLegal
  rw [genPseudo_st p s hs, h]

theorem findCheckers_st (p : Position) (s : StateInfo) : findCheckers { p with st := s } = findCheckers p := rfl

/-- Only the keys depend on the random numbers. -/
theorem finish_st (Z Z' : Zobrist) (q : Position) :
    finish Z q = { finish Z' q with st := (finish Z q).st } ∧ (finish Z q).st.checkersBB = (finish Z' q).st.checkersBB := by
  have h : ∀ Z, (finish Z q).st.checkersBB =
      findCheckers { q with kingSquare := fun c => kingSquareOrNone (q.bbOf PT.King c), golds := q.computeGolds } :=
    fun Z => findCheckers_st _ _
  exact ⟨rfl, by rw [h, h]⟩

/-- **C47** fails in general: `set_sfen` accepts a position with a third rook, kings apart and nobody in check, in which the
generator writes 599 moves into the 594 places, and all of them are legal. -/
theorem C47_fails (Z : Zobrist) :
    ∃ p l l', setSfen Z "R8/2K1S1SSk/4B4/9/4R4/9/9/9/1L1L1L3 b RBGSNLP 1".toList = .ok p ∧ p.inCheck = false ∧
      genPseudo p true = some l ∧ l.length = 599 ∧ genLegal p true = some l' ∧ l'.length = 599 ∧ maxLegalMoves < l.length := by
  have key : ∀ (cs : List Char) (f : Position → Bool), ((parseSfen cs).toOption.map f) = some true →
      ∃ q, parseSfen cs = .ok q ∧ f q = true := by
    intro cs f h
    rcases hp : parseSfen cs with q | _ | _
    · rw [hp] at h; exact ⟨q, rfl, by simpa [Out.toOption] using h⟩
    · rw [hp] at h; cases h
    · rw [hp] at h; cases h
  obtain ⟨q, e, hq⟩ := key "R8/2K1S1SSk/4B4/9/4R4/9/9/9/1L1L1L3 b RBGSNLP 1".toList
    (fun q => (!(finish zeroKeys q).inCheck) && decide ((genPseudo (finish zeroKeys q) true).map List.length = some 599) &&
      decide ((genLegal (finish zeroKeys q) true).map List.length = some 599)) (by decide +kernel)
  simp only [Bool.and_eq_true, decide_eq_true_eq, Bool.not_eq_true'] at hq
  obtain ⟨⟨h1, h2⟩, h3⟩ := hq
  obtain ⟨e0, ec⟩ := finish_st Z zeroKeys q
  have e1 : (finish Z q).inCheck = (finish zeroKeys q).inCheck := by unfold inCheck; rw [ec]
  have e2 : genPseudo (finish Z q) true = genPseudo (finish zeroKeys q) true := by rw [e0, genPseudo_st _ _ ec]
  have e3 : genLegal (finish Z q) true = genLegal (finish zeroKeys q) true := by rw [e0, genLegal_st _ _ ec]
  rw [← e1] at h1; rw [← e2] at h2; rw [← e3] at h3
  obtain ⟨l, el, hl⟩ := Option.map_eq_some_iff.mp h2
  obtain ⟨l', el', hl'⟩ := Option.map_eq_some_iff.mp h3
  have h0 : setSfen Z "R8/2K1S1SSk/4B4/9/4R4/9/9/9/1L1L1L3 b RBGSNLP 1".toList = .ok (finish Z q) := by
    unfold setSfen; rw [e]; rfl
  have h6 : maxLegalMoves < l.length := by rw [hl]; unfold maxLegalMoves; omega
  exact ⟨finish Z q, l, l', h0, h1, el, hl, el', hl', h6⟩

end Verif
