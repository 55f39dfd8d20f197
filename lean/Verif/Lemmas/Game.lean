import Verif.Lemmas.Material
import Verif.Model.Board
import Verif.Model.Book

namespace Verif
open Spec Bitboard Position

/-! ### Setting up -/

/-- The invariant kept by all operations. -/
structure Inv (Z : Zobrist) (p : Position) : Prop where
  views : Consistent p
  keys : KeysOK Z p
  inSet : (absPos p).InSet

theorem finish_keys (Z : Zobrist) (p : Position) : KeysOK Z (finish Z p) := ⟨rfl, rfl, rfl⟩

theorem setHand_fold (q : Position) (c : Color) (n : Nat → Nat) (l : List Nat) :
    l.foldl (fun q hp => q.setHand hp c (n hp)) q =
      { q with hand := upd q.hand c (l.foldl (fun h hp => h.orEqual (n hp) hp) (q.hand c)) } := by
  induction l generalizing q with
  | nil =>
    simp only [List.foldl_nil]
    rw [upd_self _ _ _ rfl]
  | cons a l ih =>
    rw [List.foldl_cons, ih]
    simp only [setHand, List.foldl_cons, upd_same, upd_upd]

theorem setPieces_fold_hand (b : Square → Piece) (l : List Square) (q : Position) :
    (l.foldl (fun q s => if b s ≠ 0 then q.setPiece (b s) s else q) q).hand = q.hand := by
  induction l generalizing q with
  | nil => rfl
  | cons a l ih =>
    rw [List.foldl_cons, ih]
    split <;> rfl

/-- Setting up a position from piece and hand arrays. -/
theorem setPieces_spec (Z : Zobrist) (p : Position) (q : Pos) (h1 : OneKing q.board) (hh : ∀ c h, q.hand c h ≤ h.total)
    (hand : Color → Nat → Nat) (hhand : ∀ c h, hand c h.code = q.hand c h) :
    let p' := setPieces Z p (fun s => pieceCode (q.board s)) hand
    Consistent p' ∧ KeysOK Z p' ∧ absPos p' = { q with turn := p.turn } ∧ p'.gamePly = p.gamePly ∧ p'.prev = [] := by
  intro p'
  have hr := Raw.place (List.finRange 81) (List.nodup_finRange 81) q.board Position.clear (fun _ => none) Raw.clear (fun _ _ => rfl)
  have hb : (fun s => if s ∈ List.finRange 81 then q.board s else none) = q.board := by
    funext s; simp [List.mem_finRange]
  rw [hb] at hr
  obtain ⟨q0, hq0⟩ : ∃ x, x = (List.finRange 81).foldl (fun q' s => if pieceCode (q.board s) ≠ 0 then q'.setPiece (pieceCode (q.board s)) s else q') Position.clear := ⟨_, rfl⟩
  rw [← hq0] at hr
  have hq0h : q0.hand = fun _ => Hand.empty := by rw [hq0, setPieces_fold_hand]; rfl
  have hle : ∀ c, ∀ i < 7, hand c i ≤ setSize i := by
    intro c i hi
    obtain ⟨h, rfl⟩ := hcode_surj i hi
    rw [hhand, ← total_eq]; exact hh c h
  have hfill : ∀ c, HandIs (fillHand (hand c) (List.range 7)) (fun i => if i ∈ List.range 7 then hand c i else 0) :=
    fun c => C09_fill (hand c) (hle c) (List.range 7) List.nodup_range (fun i hi => List.mem_range.mp hi)
  have hfin : p' = finish Z { q0 with hand := fun c => fillHand (hand c) (List.range 7), turn := p.turn, gamePly := p.gamePly } := by
    show setPieces Z p _ hand = _
    unfold setPieces
    simp only [← hq0, List.foldl_cons, List.foldl_nil, setHand_fold, hq0h]
    congr 2
    funext c
    cases c <;> rfl
  have hr' : Raw { q0 with hand := fun c => fillHand (hand c) (List.range 7), turn := p.turn, gamePly := p.gamePly } q.board :=
    hr.congr rfl rfl rfl
  have hc : Consistent p' := by rw [hfin]; exact finish_consistent Z hr' h1 (fun c => (hfill c).wf)
  have hprev : ∀ (l : List Square) (q' : Position), (l.foldl (fun q' s => if pieceCode (q.board s) ≠ 0 then q'.setPiece (pieceCode (q.board s)) s else q') q').prev = q'.prev := by
    intro l
    induction l with
    | nil => intro _; rfl
    | cons a l ih => intro q'; rw [List.foldl_cons, ih]; split <;> rfl
  refine ⟨hc, by rw [hfin]; exact finish_keys Z _, ?_, by rw [hfin]; rfl, ?_⟩
  · have hb2 : (absPos p').board = q.board := by
      have : Raw p' q.board := by rw [hfin]; exact hr'.congr rfl rfl rfl
      exact this.abs
    have hh2 : (absPos p').hand = q.hand := by
      funext c h
      rw [hfin]
      show (fillHand (hand c) (List.range 7)).numOf h.code = _
      rw [(hfill c).counts _ (hcode_lt h), if_pos (List.mem_range.mpr (hcode_lt h)), hhand]
    have ht2 : (absPos p').turn = p.turn := by rw [hfin]; rfl
    generalize absPos p' = x at *
    cases x
    subst hb2 hh2 ht2
    rfl
  · rw [hfin]
    show q0.prev = []
    rw [hq0, hprev]; rfl

/-! ### Invariant through moves and passes -/

theorem board_isDrop (piece : Square → Piece) (s t : Square) (pro : Bool) : (boardMove piece s t pro).isDrop = false := by
  have hf := C01_board_move_fields piece s t pro
  simp only [readBoardMove, Prod.mk.injEq] at hf
  exact hf.2.2.2.2.2

theorem doMove_inv (Z : Zobrist) {p : Position} (h : Inv Z p) {m : Mv} (hm : (absPos p).Playable m) :
    ∃ p', doMove Z p (encode p m) = some p' ∧ Inv Z p' ∧ absPos p' = (absPos p).play m ∧ p'.prev = p.st :: p.prev ∧
      p'.gamePly = p.gamePly + 1 ∧ undoMove p' (encode p m) = some p := by
  cases m with
  | move s t pro =>
    obtain ⟨hst, ⟨k, hs, hpro⟩, ht, htk⟩ := id hm
    have hdef := board_defined h.views hs hpro ht htk
    obtain ⟨chk, hchk⟩ : ∃ x, x = p.moveGivesCheck (boardMove p.piece s t pro) := ⟨_, rfl⟩
    have habs := doBoard_abs Z h.views h.inSet hs hpro hst ht htk chk
    refine ⟨doBoard Z p (boardMove p.piece s t pro) chk, ?_, ⟨doBoard_consistent Z h.views h.inSet hs hpro hst ht htk chk,
      doBoard_keys Z h.views h.keys h.inSet hs hpro hst ht htk chk, ?_⟩, habs, rfl, rfl, undo_doBoard Z h.views hs hpro hst ht htk chk⟩
    · simp [doMove, encode, hdef, board_isDrop, hchk]
    · rw [habs]; exact InSet.play h.inSet hm
  | drop hk t =>
    obtain ⟨h1, ht⟩ := id hm
    obtain ⟨-, -, hdr, -, hdef⟩ := drop_fields hk t
    obtain ⟨chk, hchk⟩ : ∃ x, x = p.moveGivesCheck (makeDropMove hk.kind.code t.val) := ⟨_, rfl⟩
    have habs := doDrop_abs Z h.views h1 ht chk
    refine ⟨doDrop Z p (makeDropMove hk.kind.code t.val) chk, ?_, ⟨doDrop_consistent Z h.views h1 ht chk,
      doDrop_keys Z h.views h.keys h1 ht chk, ?_⟩, habs, rfl, rfl, undo_doDrop Z h.views ht chk⟩
    · simp [doMove, encode, hdef, hdr, hchk]
    · rw [habs]; exact InSet.play h.inSet hm

/-- Overwrite the perpetual-check counters of the current state. -/
def withCC (p : Position) (cc : Color → Int) : Position := { p with st := { p.st with continuousCheck := cc } }

theorem withCC_self (p : Position) : withCC p p.st.continuousCheck = p := rfl
theorem withCC_withCC (p : Position) (a b : Color → Int) : withCC (withCC p a) b = withCC p b := rfl

/-- Fields of consistency do not mention the state record. -/
theorem Consistent.congr {p q : Position} (h : Consistent p) (h1 : q.byType = p.byType) (h2 : q.byColor = p.byColor)
    (h3 : q.golds = p.golds) (h4 : q.piece = p.piece) (h5 : q.kingSquare = p.kingSquare) (h6 : q.hand = p.hand) :
    Consistent q := by
  cases p; cases q
  simp only at h1 h2 h3 h4 h5 h6
  subst h1 h2 h3 h4 h5 h6
  exact ⟨h.code, h.type, h.color, h.occ, h.golds, h.king, h.wfType, h.wfColor, h.wfOcc, h.wfGolds, h.hand⟩

theorem Inv.withCC {Z : Zobrist} {p : Position} (h : Inv Z p) (cc : Color → Int) : Inv Z (withCC p cc) :=
  ⟨h.views.congr rfl rfl rfl rfl rfl rfl, ⟨h.keys.board, h.keys.hand, h.keys.stHand⟩, h.inSet⟩

theorem doNull_abs (p : Position) : absPos (doNull p).1 = { absPos p with turn := p.turn.opp } := rfl

theorem doNull_keys (Z : Zobrist) {p : Position} (hc : Consistent p) (h : KeysOK Z p) : KeysOK Z (doNull p).1 := by
  refine ⟨?_, h.hand, rfl⟩
  have hc' : Consistent (doNull p).1 := hc.congr rfl rfl rfl rfl rfl rfl
  rw [boardKey_place Z hc'.code]
  show p.st.boardKey ^^^ zobTurn = withTurn p.turn.opp (placeKey Z (absPos p).board)
  rw [h.board, boardKey_place Z hc.code, withTurn_opp]

theorem Inv.doNull {Z : Zobrist} {p : Position} (h : Inv Z p) : Inv Z (doNull p).1 :=
  ⟨h.views.congr rfl rfl rfl rfl rfl rfl, doNull_keys Z h.views h.keys, h.inSet⟩

/-- Popping a pass gives back the position, except that one perpetual-check counter is 0. -/
theorem undo_doNull {Z : Zobrist} {p : Position} (h : KeysOK Z p) :
    undoNull (doNull p).1 (doNull p).2 = Verif.withCC p (upd p.st.continuousCheck p.turn.opp 0) := by
  have h1 := h.stHand
  have h2 := opp_opp p.turn
  rcases p with ⟨f1, f2, f3, f4, f5, f6, f7, ⟨g1, g2, g3, g4, g5, g6⟩, f9, f10⟩
  simp only [undoNull, Position.doNull, Verif.withCC] at *
  rw [h1, h2]

theorem undoNull_withCC (p : Position) (b : NullBackup) (cc : Color → Int) :
    undoNull (withCC p cc) b = withCC (undoNull p b) cc := rfl

theorem undoMove_withCC (p : Position) (m : Move) (cc : Color → Int) : undoMove (withCC p cc) m = undoMove p m := by
  unfold undoMove
  show (match p.prev with | [] => _ | st :: prev => _) = _
  cases p.prev with
  | nil => rfl
  | cons st prev =>
    by_cases h1 : doMoveDefined m = true
    · simp only [h1, if_true]
      by_cases h2 : m.isDrop = true
      · simp only [h2, if_true]; rfl
      · simp only [h2, Bool.false_eq_true, if_false]; rfl
    · simp only [h1, Bool.false_eq_true, if_false]

/-! ### Histories -/

/-- An operation that may be applied: a playable move made for this position, `pop` after a move, `push_pass` out of
check, `pop_pass` after a pass. -/
def Applicable (b : Board) : Op → Prop
  | .push m => ∃ mv, m = encode b.pos mv ∧ (absPos b.pos).Playable mv
  | .pop => ∃ m h, b.hist = .move m :: h
  | .pushPass => b.pos.inCheck = false
  | .popPass => ∃ bk h, b.hist = .pass bk :: h

/-- Every operation of the sequence satisfies `P` when its turn comes. -/
def Always (P : Board → Op → Prop) (Z : Zobrist) (b : Board) : List Op → Prop
  | [] => True
  | o :: os => P b o ∧ ∀ b', b.step Z o = some b' → Always P Z b' os

/-- Every operation of the sequence is applicable when its turn comes. -/
abbrev AllApplicable := Always Applicable

/-- Boards whose history records how they came about from `p0`. -/
inductive Chain (Z : Zobrist) (p0 : Position) : Board → Prop
  | base (cc : Color → Int) : Inv Z p0 → Chain Z p0 ⟨withCC p0 cc, []⟩
  | push (b : Board) (m : Mv) (p' : Position) (cc : Color → Int) : Chain Z p0 b → (absPos b.pos).Playable m →
      doMove Z b.pos (encode b.pos m) = some p' → Chain Z p0 ⟨withCC p' cc, .move (encode b.pos m) :: b.hist⟩
  | pass (b : Board) (cc : Color → Int) : Chain Z p0 b → b.pos.inCheck = false →
      Chain Z p0 ⟨withCC (doNull b.pos).1 cc, .pass (doNull b.pos).2 :: b.hist⟩

theorem Chain.withCC {Z : Zobrist} {p0 : Position} {b : Board} (h : Chain Z p0 b) (cc : Color → Int) : Chain Z p0 ⟨Verif.withCC b.pos cc, b.hist⟩ := by
  cases h with
  | base cc' hi => exact .base cc hi
  | push b m p' cc' hb hm he => exact .push b m p' cc hb hm he
  | pass b cc' hb hn => exact .pass b cc hb hn

theorem Chain.inv {Z : Zobrist} {p0 : Position} {b : Board} (h : Chain Z p0 b) : Inv Z b.pos := by
  induction h with
  | base cc hi => exact hi.withCC cc
  | push b m p' cc hb hm he ih =>
    obtain ⟨p'', e, hi, -⟩ := doMove_inv Z ih hm
    rw [he] at e
    cases e
    exact hi.withCC cc
  | pass b cc hb hn ih => exact ih.doNull.withCC cc

theorem Chain.step {Z : Zobrist} {p0 : Position} {b : Board} (h : Chain Z p0 b) {o : Op} (ho : Applicable b o) :
    ∃ b', b.step Z o = some b' ∧ Chain Z p0 b' := by
  cases o with
  | push m =>
    obtain ⟨mv, rfl, hm⟩ := ho
    obtain ⟨p', e, -⟩ := doMove_inv Z h.inv hm
    refine ⟨⟨p', .move (encode b.pos mv) :: b.hist⟩, ?_, .push b mv p' p'.st.continuousCheck h hm e⟩
    simp [Board.step, Board.push, e]
  | pop =>
    obtain ⟨m, hist, hh⟩ := ho
    cases h with
    | base cc hi => simp at hh
    | push b m' p' cc hb hm he =>
      obtain ⟨p'', e, -, -, -, -, hu⟩ := doMove_inv Z hb.inv hm
      rw [he] at e; cases e
      refine ⟨b, ?_, hb⟩
      simp [Board.step, Board.pop, undoMove_withCC, hu]
    | pass b cc hb hn => simp at hh
  | pushPass =>
    refine ⟨⟨(doNull b.pos).1, .pass (doNull b.pos).2 :: b.hist⟩, ?_, .pass b _ h ho⟩
    have : b.pos.inCheck = false := ho
    simp [Board.step, Board.pushPass, this]
  | popPass =>
    obtain ⟨bk, hist, hh⟩ := ho
    cases h with
    | base cc hi => simp at hh
    | push b m' p' cc hb hm he => simp at hh
    | pass b cc hb hn =>
      refine ⟨⟨Verif.withCC b.pos cc, b.hist⟩, ?_, hb.withCC cc⟩
      simp only [Board.step, Board.popPass, undoNull_withCC, undo_doNull hb.inv.keys]
      rfl

theorem Chain.run {Z : Zobrist} {p0 : Position} {b : Board} (h : Chain Z p0 b) (ops : List Op) (ho : AllApplicable Z b ops) :
    ∃ b', b.run Z ops = some b' ∧ Chain Z p0 b' := by
  induction ops generalizing b with
  | nil => exact ⟨b, rfl, h⟩
  | cons o os ih =>
    obtain ⟨b1, e1, h1⟩ := h.step ho.1
    obtain ⟨b2, e2, h2⟩ := ih h1 (ho.2 b1 e1)
    exact ⟨b2, by simp [Board.run, e1, e2], h2⟩

theorem Board.run_append (Z : Zobrist) (b : Board) (xs ys : List Op) :
    b.run Z (xs ++ ys) = (b.run Z xs).bind fun b' => b'.run Z ys := by
  induction xs generalizing b with
  | nil => rfl
  | cons x xs ih =>
    simp only [List.cons_append, Board.run]
    cases b.step Z x with
    | none => rfl
    | some b1 => simp [ih]

theorem Always.left {P : Board → Op → Prop} {Z : Zobrist} {b : Board} {xs ys : List Op} (h : Always P Z b (xs ++ ys)) :
    Always P Z b xs := by
  induction xs generalizing b with
  | nil => trivial
  | cons x xs ih => exact ⟨h.1, fun b' e => ih (h.2 b' e)⟩

theorem Always.right {P : Board → Op → Prop} {Z : Zobrist} {b b' : Board} {xs ys : List Op} (h : Always P Z b (xs ++ ys))
    (hr : b.run Z xs = some b') : Always P Z b' ys := by
  induction xs generalizing b with
  | nil => simp only [Board.run, Option.some.injEq] at hr; subst hr; exact h
  | cons x xs ih =>
    obtain ⟨h1, h2⟩ := h
    simp only [Board.run] at hr
    cases hs : b.step Z x with
    | none => rw [hs] at hr; simp at hr
    | some b1 => rw [hs] at hr; exact ih (h2 b1 hs) hr

theorem Always.mono {P Q : Board → Op → Prop} (hPQ : ∀ b o, P b o → Q b o) {Z : Zobrist} {b : Board} {xs : List Op}
    (h : Always P Z b xs) : Always Q Z b xs := by
  induction xs generalizing b with
  | nil => trivial
  | cons x xs ih => exact ⟨hPQ _ _ h.1, fun b' e => ih (h.2 b' e)⟩

end Verif
