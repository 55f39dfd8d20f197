import Verif.Lemmas.DfpnTable
import Verif.Lemmas.HandDom
import Verif.Lemmas.MateSound

/-!
# The df-pn search: moves, hands and keys of the positions it visits
-/

namespace Verif
namespace Dfpn
open Spec Hand Position Bitboard HandDom

/-- The counts of a packed hand. -/
def counts (h : Hand) : HKind → Nat := fun k => h.numOf k.code

theorem absPos_hand (p : Position) (c : Color) : (absPos p).hand c = counts (p.hand c) := rfl

theorem counts_le {a b : Hand} (h : ∀ i < 7, a.numOf i ≤ b.numOf i) (k : HKind) : counts a k ≤ counts b k := h _ (hcode_lt k)

theorem width_room {p : Position} (hs : (absPos p).InSet) (c : Color) {i : Nat} (hi : i < 7) : (p.hand c).numOf i + 1 < 2 ^ width i := by
  have := hand_counts hs c i hi
  have : setSize i + 1 < 2 ^ width i := by interval_cases i <;> decide
  omega

theorem sum_room {p : Position} (hs : (absPos p).InSet) (c d : Color) (hcd : d = c.opp) {i : Nat} (hi : i < 7) :
    (p.hand c).numOf i + (p.hand d).numOf i < 2 ^ width i := by
  obtain ⟨k, rfl⟩ := hcode_surj i hi
  have h1 := hs k
  rw [total_eq] at h1
  have h2 := setSize_lt k.code (hcode_lt k)
  unfold Pos.material at h1
  rw [absPos_hand, absPos_hand] at h1
  unfold counts at h1
  subst hcd
  cases c
  · show (p.hand .black).numOf k.code + (p.hand .white).numOf k.code < _
    omega
  · show (p.hand .white).numOf k.code + (p.hand .black).numOf k.code < _
    omega

/-! ### Moves -/

/-- What the search reads from a move word. -/
inductive Reads (p : Position) (m : Move) : Mv → Prop where
  | drop (k : HKind) (t : Square) (h1 : m.isDrop = true) (h2 : m.handPieceDropped = k.code) : Reads p m (.drop k t)
  | quiet (s t : Square) (pro : Bool) (h1 : m.isDrop = false) (h2 : p.piece (sqN m.dst) = 0) (h3 : (absPos p).board t = none) :
      Reads p m (.move s t pro)
  | capture (s t : Square) (pro : Bool) (kd : Kind) (x : HKind) (h1 : m.isDrop = false) (h2 : p.piece (sqN m.dst) ≠ 0)
      (h3 : ((absPos p).board t).map Prod.snd = some kd) (h4 : kd.hand = some x)
      (h5 : ptToHand (pieceType (p.piece (sqN m.dst))) = x.code) : Reads p m (.move s t pro)

theorem hand_of_drop (k : HKind) : ptToHand k.kind.code = k.code := by cases k <;> rfl

theorem encode_reads {p : Position} (h : Consistent p) {mv : Mv} (hm : (absPos p).Playable mv) : Reads p (encode p mv) mv := by
  cases mv with
  | drop k t =>
    obtain ⟨-, -, h1, h2, -⟩ := drop_fields k t
    refine .drop k t h1 ?_
    show ptToHand (makeDropMove k.kind.code t.val).pieceTypeDropped = _
    rw [h2, hand_of_drop]
  | move s t pro =>
    obtain ⟨hst, ⟨k, hs, hpro⟩, ht, htk⟩ := hm
    have hpt : pieceType (p.piece s) = k.code := by rw [h.code, hs, pieceType_pieceCode]; rfl
    obtain ⟨hd, -, -, -, hnd, -⟩ := board_fields p s t pro k hpt hpro
    cases hb : (absPos p).board t with
    | none =>
      refine .quiet s t pro hnd ?_ hb
      show p.piece (sqN (boardMove p.piece s t pro).dst) = 0
      rw [hd]; exact (piece_zero_iff h t).mpr hb
    | some x =>
      obtain ⟨c', k'⟩ := x
      have hk' : k' ≠ .king := by
        intro e; subst e
        rcases eq_or_opp p.turn c' with e | e
        · subst e; exact ht _ hb
        · subst e; exact htk hb
      obtain ⟨x, hx, hc⟩ := cap_hand hk'
      have e : p.piece (sqN (encode p (.move s t pro)).dst) = p.piece t := by
        show p.piece (sqN (boardMove p.piece s t pro).dst) = _
        rw [hd]
      refine .capture s t pro k' x hnd ?_ (by rw [hb]; rfl) hx ?_
      · rw [e]; exact fun h0 => by rw [(piece_zero_iff h t).mp h0] at hb; cases hb
      · rw [e, h.code, hb, pieceType_pieceCode]; exact hc

theorem doMove_ply {Z : Zobrist} {p p' : Position} {m : Move} (he : doMove Z p m = some p') : p'.gamePly = p.gamePly + 1 := by
  unfold doMove at he
  split at he
  · split at he <;> (cases he; rfl)
  · cases he

/-- The hand after an attacker's move, without making it. -/
theorem childHand_or {Z : Zobrist} {p p' : Position} (h : Consistent p) {mv : Mv} (hm : (absPos p).Playable mv)
    (he : doMove Z p (encode p mv) = some p') : childHand true p (encode p mv) = p'.hand p.turn := by
  cases mv with
  | drop k t =>
    obtain ⟨-, -, h1, h2, h3⟩ := drop_fields k t
    simp only [doMove, encode, h1, h3, if_true, Option.some.injEq] at he
    rw [← he]
    simp only [childHand, encode, h1, if_true, doDrop, upd, Move.handPieceDropped]
  | move s t pro =>
    obtain ⟨hst, ⟨k, hs, hpro⟩, ht, htk⟩ := hm
    have hdef := board_defined h hs hpro ht htk
    have hpt : pieceType (p.piece s) = k.code := by rw [h.code, hs, pieceType_pieceCode]; rfl
    obtain ⟨hd, hsrc, -, -, hnd, hptf, hptt, hcap, hpr⟩ := board_fields p s t pro k hpt hpro
    simp only [doMove, encode, hnd, hdef, if_true, Bool.false_eq_true, if_false, Option.some.injEq] at he
    rw [← he]
    simp only [childHand, encode, hnd, Bool.false_eq_true, if_false, if_true, hd, doBoard, hcap]
    by_cases h0 : p.piece t = 0
    · have e : pieceType (p.piece t) = 0 := by rw [h0]; rfl
      rw [h0] at e ⊢
      simp only [ne_eq, not_true_eq_false, if_false, e]
    · have e : pieceType (p.piece t) ≠ 0 := by
        rcases hb : (absPos p).board t with _ | ⟨c', k'⟩
        · exact absurd ((piece_zero_iff h t).mpr hb) h0
        · rw [h.code, hb, pieceType_pieceCode]; exact code_ne_zero k'
      simp only [h0, ne_eq, not_false_eq_true, if_true, e, upd]

theorem childHand_and {Z : Zobrist} {p p' : Position} (hp : Sound Z p) (hp' : Sound Z p') {mv : Mv} (ha : absPos p' = (absPos p).play mv) (m : Move) :
    childHand false p m = p'.hand p.turn.opp := by
  show p.hand p.turn.opp = _
  refine ext_numOf _ _ (hp.inv.views.hand _) (hp'.inv.views.hand _) fun i hi => ?_
  obtain ⟨k, rfl⟩ := hcode_surj i hi
  have h1 : (absPos p').hand p.turn.opp = (absPos p).hand p.turn.opp := by
    rw [ha]; exact play_hand_opp mv
  exact (congrFun h1 k).symm

/-! ### The tree -/

/-- The positions a search for a mate by `A` works on. -/
structure Tree (Z : Zobrist) (maxDepth : Int) (A : Color) (V : Position → Prop) : Prop where
  sound : ∀ p, V p → Sound Z p
  check : ∀ p mv p', V p → p.turn = A → p.gamePly + 1 ≤ maxDepth → (absPos p).Legal mv → ((absPos p).play mv).InCheck p.turn.opp →
    doMove Z p (encode p mv) = some p' → V p'
  reply : ∀ p mv p', V p → p.turn = A.opp → (absPos p).Legal mv → doMove Z p (encode p mv) = some p' → V p'
  inCheck : ∀ p, V p → p.turn = A.opp → (absPos p).InCheck p.turn
  keys : ∀ p q, V p → V q → p.st.boardKey = q.st.boardKey → Similar (absPos p) (absPos q)
  ply : ∀ p, V p → 0 ≤ p.gamePly ∧ p.gamePly < 65535
  win : ∀ p, V p → p.turn = A → p.isDraw 16 ≠ some .win
  lose : ∀ p, V p → p.turn = A.opp → p.isDraw 16 ≠ some .lose

/-- A hand with which every position of the tree with this key is won. -/
def Proved (A : Color) (V : Position → Prop) (k : BitVec 64) (h : Hand) : Prop :=
  ∀ n, V n → n.st.boardKey = k → Suffices A (absPos n) (counts h)

variable {Z : Zobrist} {maxDepth : Int} {A : Color} {V : Position → Prop} (hV : Tree Z maxDepth A V)
include hV

theorem Tree.proved {p : Position} (hp : V p) {h : Hand} (hs : Suffices A (absPos p) (counts h)) : Proved A V p.st.boardKey h :=
  fun n hn e => hs.similar (hV.keys p n hp hn e.symm)

theorem Tree.proved_wins {p : Position} (hp : V p) (hw : Wins A (absPos p)) {h : Hand} (hh : ∀ i < 7, (p.hand A).numOf i ≤ h.numOf i) :
    Proved A V p.st.boardKey h :=
  hV.proved hp (hw.suffices (hV.sound p hp).regular.waiting fun k => counts_le hh k)

omit hV in
/-- The attacker's hand. -/
theorem attHand_eq {p : Position} {orNode : Bool} (h : orNode = true ↔ p.turn = A) : attHand orNode p = p.hand A := by
  unfold attHand
  by_cases ht : p.turn = A
  · rw [h.mpr ht, if_pos rfl, ht]
  · have hb : orNode = false := by cases orNode with | false => rfl | true => exact absurd (h.mp rfl) ht
    rw [hb, if_neg Bool.false_ne_true]
    have : p.turn.opp = A := by revert ht; cases p.turn <;> cases A <;> decide
    rw [this]

theorem Tree.depth {p : Position} (hp : V p) : (depthOf p.gamePly : Int) = p.gamePly ∧ (depthOf (p.gamePly + 1) : Int) = p.gamePly + 1 := by
  have := hV.ply p hp
  unfold depthOf
  omega

theorem Tree.wf {p : Position} (hp : V p) (c : Color) : (p.hand c).WF := (hV.sound p hp).inv.views.hand c

/-- Looking up a position of the tree. -/
theorem Tree.node {p : Position} (hp : V p) {orNode : Bool} (ho : orNode = true ↔ p.turn = A) {T : Table} (hT : TableOK (Proved A V) T) :
    Found T p.st.boardKey (p.hand A) (depthOf p.gamePly) (T.node orNode p).1 (T.node orNode p).2 ∧ TableOK (Proved A V) (T.node orNode p).1 := by
  unfold Table.node
  rw [attHand_eq ho]
  exact look_found hT (hV.wf hp A) _ _

/-- An entry found for a won position may be called proved. -/
theorem Tree.found_proved {p : Position} (hp : V p) (hw : Wins A (absPos p)) {T T' : Table} {d : Nat} {r : Ref}
    (hf : Found T p.st.boardKey (p.hand A) d T' r) (hT : TableOK (Proved A V) T') : Proved A V r.key (T'.get r).hand := by
  rw [hf.same]
  rcases hf.kind with ⟨h, -⟩ | ⟨h, -⟩ | ⟨-, -, h⟩
  · rw [h]; exact hV.proved_wins hp hw fun _ _ => Nat.le_refl _
  · have := (hT.get hf.valid).proved h
    rw [hf.same] at this
    exact this.2
  · exact hV.proved_wins hp hw h

/-- A move of the tree. -/
structure Step (Z : Zobrist) (V : Position → Prop) (p : Position) (mv : Mv) (p' : Position) : Prop where
  legal : (absPos p).Legal mv
  make : doMove Z p (encode p mv) = some p'
  sound : Sound Z p'
  abs : absPos p' = (absPos p).play mv
  undo : undoMove p' (encode p mv) = some p
  turn : p'.turn = p.turn.opp
  gc : doMoveGC Z p (encode p mv) (p.moveGivesCheck (encode p mv)) = some p'
  gives : p.moveGivesCheck (encode p mv) = true ↔ (absPos p').InCheck p'.turn
  mem : V p'
  ply : p'.gamePly = p.gamePly + 1

theorem Tree.step_check {p : Position} (hp : V p) (hT : p.turn = A) (hd : p.gamePly + 1 ≤ maxDepth) {mv : Mv} (hm : (absPos p).Legal mv)
    (hc : ((absPos p).play mv).InCheck p.turn.opp) : ∃ p', Step Z V p mv p' := by
  obtain ⟨p', h1, h2, h3, h4, h5, h6, h7⟩ := (hV.sound p hp).step hm
  exact ⟨p', hm, h1, h3, h4, h5, h6, h2, h7, hV.check p mv p' hp hT hd hm hc h1, doMove_ply h1⟩

theorem Tree.step_reply {p : Position} (hp : V p) (hT : p.turn = A.opp) {mv : Mv} (hm : (absPos p).Legal mv) : ∃ p', Step Z V p mv p' := by
  obtain ⟨p', h1, h2, h3, h4, h5, h6, h7⟩ := (hV.sound p hp).step hm
  exact ⟨p', hm, h1, h3, h4, h5, h6, h2, h7, hV.reply p mv p' hp hT hm h1, doMove_ply h1⟩

theorem Tree.playable {p : Position} (hp : V p) {mv : Mv} (hm : (absPos p).Legal mv) : (absPos p).Playable mv :=
  pseudo_playable hm.1.1 (hV.sound p hp).regular.waiting

/-- The key and the hand of a child. -/
theorem Tree.child_eq {p p' : Position} (hp : V p) {mv : Mv} (hs : Step Z V p mv p') {orNode : Bool} (ho : orNode = true ↔ p.turn = A) :
    (child Z orNode p (encode p mv)).key = p'.st.boardKey ∧ (child Z orNode p (encode p mv)).hand = p'.hand A := by
  have hpl := hV.playable hp hs.legal
  refine ⟨(getKeyAfter_eq Z (hV.sound p hp).inv.views hpl hs.make).2, ?_⟩
  show childHand orNode p (encode p mv) = p'.hand A
  cases orNode with
  | true => rw [childHand_or (hV.sound p hp).inv.views hpl hs.make, ho.mp rfl]
  | false =>
    rw [childHand_and (hV.sound p hp) hs.sound hs.abs]
    have : p.turn ≠ A := fun e => by cases ho.mpr e
    have : p.turn.opp = A := by revert this; cases p.turn <;> cases A <;> decide
    rw [this]

theorem Tree.child {p p' : Position} (hp : V p) {mv : Mv} (hs : Step Z V p mv p') {orNode : Bool} (ho : orNode = true ↔ p.turn = A)
    {T : Table} (hT : TableOK (Proved A V) T) :
    Found T p'.st.boardKey (p'.hand A) (depthOf p'.gamePly) (T.child p (child Z orNode p (encode p mv))).1
      (T.child p (child Z orNode p (encode p mv))).2 ∧ TableOK (Proved A V) (T.child p (child Z orNode p (encode p mv))).1 := by
  obtain ⟨e1, e2⟩ := hV.child_eq hp hs ho
  unfold Table.child
  rw [e1, e2, hs.ply]
  exact look_found hT (hV.wf hs.mem A) _ _

/-- A proved entry found for a position shows that it is won, with the hand of the entry. -/
theorem Tree.found_wins {p : Position} (hp : V p) {T T' : Table} {d : Nat} {r : Ref} (hf : Found T p.st.boardKey (p.hand A) d T' r)
    (hT : TableOK (Proved A V) T') (h0 : (T'.get r).pn = 0) : Suffices A (absPos p) (counts (T'.get r).hand) ∧
      ∀ i < 7, (T'.get r).hand.numOf i ≤ (p.hand A).numOf i := by
  have hc := hT.get hf.valid
  have := (hc.proved h0).2
  rw [hf.same] at this
  refine ⟨this p hp rfl, ?_⟩
  rcases hf.kind with ⟨h, -⟩ | ⟨-, h⟩ | ⟨h, -⟩
  · rw [h]; exact fun _ _ => Nat.le_refl _
  · exact h
  · exact absurd h0 h

/-! ### Proof hands -/

/-- The hand before the attacker's move. -/
theorem Tree.orHand {p p' : Position} (hp : V p) (hT : p.turn = A) {mv : Mv} (hs : Step Z V p mv p') {h : Hand} (hw : h.WF)
    (hh : Suffices A (absPos p') (counts h)) (hle : ∀ i < 7, h.numOf i ≤ (p'.hand A).numOf i) :
    (orHand p (encode p mv) (p.hand A) h).WF ∧ Suffices A (absPos p) (counts (orHand p (encode p mv) (p.hand A) h)) := by
  have hv := (hV.sound p hp).inv.views
  have hin := (hV.sound p hp).inv.inSet
  have hn := (hV.sound p hp).regular.waiting
  have hT' : (absPos p).turn = A := hT
  rw [hs.abs] at hh
  have hle' : ∀ k, counts h k ≤ ((absPos p).play mv).hand A k := fun k => by rw [← hs.abs]; exact counts_le hle k
  have own : Suffices A (absPos p) (counts (p.hand A)) := suffices_move hT' hn hs.legal hh hle' fun k => Nat.le_refl _
  unfold Dfpn.orHand
  have hr := encode_reads hv (hV.playable hp hs.legal)
  have hl := hs.legal
  revert hr hh hl
  generalize encode p mv = m
  intro hh hr hl
  cases hr with
  | drop k t h1 h2 =>
    rw [if_pos h1, h2]
    split
    · next hlt =>
      have hroom : h.numOf k.code + 1 < 2 ^ width k.code := by
        have := width_room hin A (hcode_lt k); omega
      obtain ⟨w, c⟩ := plus_wf hw (hcode_lt k) hroom
      refine ⟨w, ?_⟩
      have := suffices_drop hT' hn hl hh
      refine this.mono fun x => ?_
      unfold counts
      rw [c _ (hcode_lt x)]
      simp only [hcode_inj]
      exact Nat.le_refl _
    · exact ⟨hv.hand A, own⟩
  | quiet s t pro h1 h2 h3 =>
    rw [if_neg (by rw [h1]; exact Bool.false_ne_true), if_neg (fun e => e h2)]
    exact ⟨hv.hand A, own⟩
  | capture s t pro kd x h1 h2 h3 h4 h5 =>
    rw [if_neg (by rw [h1]; exact Bool.false_ne_true), if_pos h2]
    simp only [h5]
    have key := suffices_capture hT' hn hl h3 h4 hh
    split
    · next hhas =>
      obtain ⟨w, c⟩ := minus_wf hw (hcode_lt x) ((Hand.has_iff hw (hcode_lt x)).mp hhas)
      refine ⟨w, key.mono fun y => ?_⟩
      unfold counts
      rw [c _ (hcode_lt y)]
      simp only [hcode_inj]
      exact Nat.le_refl _
    · refine ⟨hw, key.mono fun y => ?_⟩
      split <;> omega

end Dfpn
end Verif
