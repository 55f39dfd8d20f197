import Mathlib.Data.Set.Card
import Verif.Lemmas.IsLegal
import Verif.Props.Checks

/-!
# C24-C29: the legal moves

The rules are `Spec.Pos.Legal` (Verif/Spec/Rules.lean). `Spec.Pos.Regular` (Verif/Spec/Game.lean) is a position as it occurs in
play; `Consistent` and `CheckOK` are what every position set up from a placement or reached by pushes and pops satisfies
(C15, C21). `encode p mv` is the move integer of `mv` (C01, C16).
-/

namespace Verif
open Spec Bitboard Position

/-! ### C24, C25, C26 -/

/-- **C24**: every move in `legal_moves` is a move the rules allow. -/
theorem C24_sound (p : Position) (hp : Consistent p) (hc : CheckOK p) (hr : (absPos p).Regular) :
    ∃ l, genLegal p true = some l ∧ ∀ m ∈ l, ∃ mv, m = encode p mv ∧ (absPos p).Legal mv := by
  obtain ⟨l, e, -, hm⟩ := genLegal_spec hp hc hr
  exact ⟨l, e, fun m h => (hm m).mp h⟩

/-- **C25**: every move the rules allow is in `legal_moves`. -/
theorem C25_complete (p : Position) (hp : Consistent p) (hc : CheckOK p) (hr : (absPos p).Regular) :
    ∃ l, genLegal p true = some l ∧ ∀ mv, (absPos p).Legal mv → encode p mv ∈ l := by
  obtain ⟨l, e, -, hm⟩ := genLegal_spec hp hc hr
  exact ⟨l, e, fun mv h => (hm _).mpr ⟨mv, rfl, h⟩⟩

/-- **C25**: `is_game_over` is true exactly when the rules allow no move. -/
theorem C25_game_over (p : Position) (hp : Consistent p) (hc : CheckOK p) (hr : (absPos p).Regular) :
    ∃ b, isGameOver p = some b ∧ (b = true ↔ ∀ mv, ¬ (absPos p).Legal mv) := by
  obtain ⟨l, e, -, hm⟩ := genLegal_spec hp hc hr
  refine ⟨l.isEmpty, by unfold isGameOver; rw [e]; rfl, ?_⟩
  rw [List.isEmpty_iff]
  constructor
  · rintro rfl mv h
    have := (hm _).mpr ⟨mv, rfl, h⟩
    cases this
  · intro h
    rw [List.eq_nil_iff_forall_not_mem]
    intro m hml
    obtain ⟨mv, -, hl⟩ := (hm m).mp hml
    exact h mv hl

/-- **C26**: `legal_moves` has no duplicates, and its length is the number of moves the rules allow. -/
theorem C26_count (p : Position) (hp : Consistent p) (hc : CheckOK p) (hr : (absPos p).Regular) :
    ∃ l, genLegal p true = some l ∧ l.Nodup ∧ l.length = Set.ncard {mv | (absPos p).Legal mv} := by
  obtain ⟨l, e, nd, hm⟩ := genLegal_spec hp hc hr
  refine ⟨l, e, nd, ?_⟩
  have himg : encode p '' {mv | (absPos p).Legal mv} = ↑l.toFinset := by
    ext m
    simp only [Set.mem_image, Set.mem_setOf_eq, List.coe_toFinset, hm]
    constructor
    · rintro ⟨mv, h, e⟩; exact ⟨mv, e.symm, h⟩
    · rintro ⟨mv, e, h⟩; exact ⟨mv, h, e.symm⟩
  rw [← Set.ncard_image_of_injective _ (fun a b => encode_inj p), himg, Set.ncard_coe_finset, List.toFinset_card_of_nodup nd]

/-- **C24, C25, C26** along games: after any sequence of legal pushes, passes and take-backs from any regular position,
`legal_moves` is defined, free of duplicates, and lists exactly the moves the rules allow. -/
theorem C25_history (Z : Zobrist) (p : Position) (hp : Inv Z p) (hc : CheckOK p) (hr : (absPos p).Regular)
    (ops : List Op) (ho : Always LegalOp Z ⟨p, []⟩ ops) :
    ∃ b, Board.run Z ⟨p, []⟩ ops = some b ∧
      ∃ l, genLegal b.pos true = some l ∧ l.Nodup ∧ ∀ m, m ∈ l ↔ ∃ mv, m = encode b.pos mv ∧ (absPos b.pos).Legal mv := by
  obtain ⟨b, e, hb⟩ := (LChain.base (p0 := p) p.st.continuousCheck hp hc hr.waiting).run ops ho
  exact ⟨b, e, genLegal_spec hb.good.1.views hb.good.2.1 (hb.regular hr)⟩

/-- `pseudo_legal_moves`: every member obeys the movement, promotion and drop rules, no duplicates, and all legal moves are
included. -/
theorem C25_pseudo_legal (p : Position) (hp : Consistent p) (hc : CheckOK p) (hr : (absPos p).Regular) :
    ∃ l, genPseudo p true = some l ∧ l.Nodup ∧ (∀ m ∈ l, ∃ mv, m = encode p mv ∧ (absPos p).Pseudo mv) ∧
      ∀ mv, (absPos p).Legal mv → encode p mv ∈ l := by
  obtain ⟨l, e, nd, h1, h2⟩ := genPseudo_spec hp hc hr
  exact ⟨l, e, nd, h1, fun mv h => ((h2 _).mpr ⟨mv, rfl, h⟩).1⟩

/-! The start position, and a position in check. -/

theorem alive_of_check {b : Square → Option (Color × Kind)}
    (h : ∀ s, (match b s with | none => true | some (c, k) => decide (¬ Dead c k s)) = true) (s : Square) (c : Color) (k : Kind)
    (e : b s = some (c, k)) : ¬ Dead c k s := by
  have := h s
  rw [e] at this
  simpa using this

theorem startPos_regular : startPos.Regular := by
  refine ⟨fun c => ?_, ?_, ?_⟩
  · cases c
    · exact ⟨44, by decide +kernel⟩
    · exact ⟨36, by decide +kernel⟩
  · have h := startModel_inv zeroKeys
    rw [← h.2]
    show ¬ (absPos (startModel zeroKeys)).InCheck (startModel zeroKeys).turn.opp
    rw [← inCheckB_iff h.1.views]
    decide +kernel
  · exact alive_of_check (b := startBoard) (by decide +kernel)

theorem startModel_ok (Z : Zobrist) : Inv Z (startModel Z) ∧ CheckOK (startModel Z) ∧ (absPos (startModel Z)).Regular := by
  obtain ⟨h1, h2⟩ := startModel_inv Z
  have hr : (absPos (startModel Z)).Regular := by rw [h2]; exact startPos_regular
  exact ⟨h1, checkOK_find h1.views hr.waiting (setPieces_checkers _ _ _ _), hr⟩

/-- The start position meets the hypotheses and has thirty legal moves. -/
example : Consistent (startModel zeroKeys) ∧ CheckOK (startModel zeroKeys) ∧ (absPos (startModel zeroKeys)).Regular ∧
    (genLegal (startModel zeroKeys) true).map List.length = some 30 := by
  obtain ⟨h1, h2, h3⟩ := startModel_ok zeroKeys
  exact ⟨h1.views, h2, h3, by decide +kernel⟩

/-- White's king on 1a is in check from a rook on 1i, with a knight beside it on 2a, and White has a gold and a pawn in
hand; it is White's turn. Black's king is on 5i. -/
def evBoard (s : Square) : Option (Color × Kind) :=
  match s.val with
  | 0 => some (.white, .king) | 9 => some (.white, .knight) | 8 => some (.black, .rook) | 44 => some (.black, .king) | _ => none

def evHand (c : Color) (h : Nat) : Nat := match c, h with | .white, 0 => 1 | .white, 4 => 1 | _, _ => 0

def evPos : Pos := ⟨evBoard, fun c h => evHand c h.code, .white⟩

def evModel : Position := setPieces zeroKeys { clear with turn := .white } (fun s => pieceCode (evBoard s)) evHand

theorem evModel_spec : Inv zeroKeys evModel ∧ absPos evModel = evPos := by
  have hk : OneKing evBoard := by
    have h : ∀ c s t, evBoard s = some (c, .king) → evBoard t = some (c, .king) → s = t := by
      intro c
      cases c
      · have : ∀ s, evBoard s = some (.black, .king) → s = 44 := by decide +kernel
        intro s t h1 h2; rw [this s h1, this t h2]
      · have : ∀ s, evBoard s = some (.white, .king) → s = 0 := by decide +kernel
        intro s t h1 h2; rw [this s h1, this t h2]
    exact h
  obtain ⟨h1, h2, h3, -⟩ := setPieces_spec zeroKeys { clear with turn := .white } evPos hk
    (fun c h => by cases c <;> cases h <;> decide) evHand (fun _ _ => rfl)
  refine ⟨⟨h1, h2, ?_⟩, h3⟩
  show (absPos (setPieces zeroKeys { clear with turn := .white } (fun s => pieceCode (evPos.board s)) evHand)).InSet
  rw [h3]
  intro h; cases h <;> decide +kernel

theorem evModel_ok : CheckOK evModel ∧ (absPos evModel).Regular ∧ (absPos evModel).InCheck evModel.turn := by
  have hw : ¬ (absPos evModel).InCheck evModel.turn.opp := by
    rw [← inCheckB_iff evModel_spec.1.views]; decide +kernel
  refine ⟨checkOK_find evModel_spec.1.views hw (setPieces_checkers _ _ _ _), ⟨fun c => ?_, hw, ?_⟩, ?_⟩
  · rw [evModel_spec.2]
    cases c
    · exact ⟨44, by decide +kernel⟩
    · exact ⟨0, by decide +kernel⟩
  · rw [evModel_spec.2]
    exact alive_of_check (b := evBoard) (by decide +kernel)
  · rw [← inCheckB_iff evModel_spec.1.views]; decide +kernel

/-- A position in check: the king goes to 2b, or the knight jumps in on 1c, or one of two pieces is dropped on 1b to 1h (the
pawn too): sixteen moves. -/
example : Consistent evModel ∧ CheckOK evModel ∧ (absPos evModel).Regular ∧ (absPos evModel).InCheck evModel.turn ∧
    (genLegal evModel true).map List.length = some 16 := by
  exact ⟨evModel_spec.1.views, evModel_ok.1, evModel_ok.2.1, evModel_ok.2.2, by decide +kernel⟩

/-! ### C27 -/

/-- **C27** (partial): for the move integer of any rule move whose promotion flag and destination satisfy the promotion and
dead-square rules, `is_legal` is defined and agrees with the rules, and so with `legal_moves`.

Missing: `is_legal` does not itself test those rules; see `C27_fails`. -/
theorem C27_is_legal_partial (p : Position) (hp : Consistent p) (hc : CheckOK p) (hr : (absPos p).Regular) (mv : Mv)
    (hok : PromotionOK (absPos p) mv) :
    ∃ b l, p.isLegal (encode p mv) = some b ∧ genLegal p true = some l ∧
      (b = true ↔ encode p mv ∈ l) ∧ (b = true ↔ (absPos p).Legal mv) := by
  obtain ⟨l, e, -, hm⟩ := genLegal_spec hp hc hr
  have key : ∃ b, p.isLegal (encode p mv) = some b ∧ (b = true ↔ (absPos p).Legal mv) := by
    cases mv with
    | move f t pro => exact isLegal_encode_move hp hc hr f t pro hok
    | drop h t => exact isLegal_encode_drop hp hc hr h t hok
  obtain ⟨b, hb, hbl⟩ := key
  refine ⟨b, l, hb, e, hbl.trans ?_, hbl⟩
  rw [hm]
  exact ⟨fun h => ⟨mv, rfl, h⟩, fun ⟨mv', e', h⟩ => by rw [encode_inj p e']; exact h⟩

theorem Legal.promotionOK {q : Pos} {mv : Mv} (h : q.Legal mv) : PromotionOK q mv := by
  obtain ⟨⟨hps, -⟩, -⟩ := h
  cases mv with
  | move f t pro =>
    obtain ⟨kd, hf, -, -, h1, h2⟩ := hps
    intro kd' hf'
    rw [hf] at hf'; cases hf'
    exact ⟨h1, h2⟩
  | drop h t => exact hps.2.2.1

/-- **C27** (one direction in full): everything in `legal_moves` is accepted by `is_legal`. -/
theorem C27_listed_partial (p : Position) (hp : Consistent p) (hc : CheckOK p) (hr : (absPos p).Regular) :
    ∃ l, genLegal p true = some l ∧ ∀ m ∈ l, p.isLegal m = some true := by
  obtain ⟨l, e, -, hm⟩ := genLegal_spec hp hc hr
  refine ⟨l, e, fun m hml => ?_⟩
  obtain ⟨mv, rfl, hl⟩ := (hm m).mp hml
  obtain ⟨b, l', h1, -, -, h4⟩ := C27_is_legal_partial p hp hc hr mv (Legal.promotionOK hl)
  rw [h1, h4.mpr hl]

/-- **C27 fails**: in the start position `is_legal` accepts P7g-7f with promotion, which is not in `legal_moves` and not
allowed by the rules. -/
theorem C27_fails : Consistent (startModel zeroKeys) ∧ CheckOK (startModel zeroKeys) ∧ (absPos (startModel zeroKeys)).Regular ∧
    (startModel zeroKeys).isLegal (encode (startModel zeroKeys) (.move 60 59 true)) = some true ∧
    (∀ l, genLegal (startModel zeroKeys) true = some l → encode (startModel zeroKeys) (.move 60 59 true) ∉ l) ∧
    ¬ (absPos (startModel zeroKeys)).Legal (.move 60 59 true) := by
  obtain ⟨h1, h2, h3⟩ := startModel_ok zeroKeys
  have hn : ¬ (absPos (startModel zeroKeys)).Legal (.move 60 59 true) := by
    rintro ⟨⟨⟨k, -, -, -, h, -⟩, -⟩, -⟩
    have := (h rfl).2
    rw [show (absPos (startModel zeroKeys)).turn = .black from rfl] at this
    exact absurd this (by decide)
  refine ⟨h1.views, h2, h3, by decide +kernel, ?_, hn⟩
  intro l e hml
  obtain ⟨l', e', -, hm⟩ := genLegal_spec h1.views h2 h3
  rw [e] at e'; cases e'
  obtain ⟨mv, e, hl⟩ := (hm _).mp hml
  rw [← encode_inj _ e] at hl
  exact hn hl

/-- The hypotheses of the partial theorem hold of P7g-7f in the start position, which is accepted. -/
example : PromotionOK (absPos (startModel zeroKeys)) (.move 60 59 false) ∧
    (startModel zeroKeys).isLegal (encode (startModel zeroKeys) (.move 60 59 false)) = some true := by
  refine ⟨?_, by decide +kernel⟩
  rw [(startModel_inv zeroKeys).2]
  intro kd hk
  rw [show startPos.board 60 = some (.black, .pawn) from rfl] at hk
  cases hk
  exact ⟨by simp, fun _ => by decide⟩

/-! ### C28 -/

/-- **C28**: when a pawn in hand can be dropped on `t` giving check, without breaking the two-pawns and dead-square rules and
without leaving the own king attacked, the drop is missing from `legal_moves` exactly when the opponent would have no reply. -/
theorem C28_pawn_drop_mate (p : Position) (hp : Consistent p) (hc : CheckOK p) (hr : (absPos p).Regular) (t : Square)
    (hs : (absPos p).Safe (.drop .pawn t)) :
    ∃ l, genLegal p true = some l ∧
      (encode p (.drop .pawn t) ∉ l ↔ ((absPos p).play (.drop .pawn t)).InCheck p.turn.opp ∧
        ∀ mv, ¬ ((absPos p).play (.drop .pawn t)).Safe mv) := by
  obtain ⟨l, e, -, hm⟩ := genLegal_spec hp hc hr
  refine ⟨l, e, ?_⟩
  rw [hm]
  constructor
  · intro hn
    by_contra hc
    apply hn
    refine ⟨_, rfl, hs, ?_⟩
    rintro ⟨t', e', hmate⟩
    obtain ⟨h1, h2⟩ := hmate
    rw [play_turn] at h1
    exact hc ⟨h1, h2⟩
  · rintro ⟨h1, h2⟩ ⟨mv, e, hl⟩
    rw [← encode_inj p e] at hl
    refine hl.2 ⟨t, rfl, ?_, h2⟩
    rw [play_turn]; exact h1

/-- **C28** (the test itself): for a pawn dropped in front of the enemy king, `isPawnDropCheckMate` says exactly whether the
reply is mate. -/
theorem C28_test (p : Position) (hp : Consistent p) (hr : (absPos p).Regular) (t k : Square)
    (hk : (absPos p).board k = some (p.turn.opp, .king)) (ht : (absPos p).board t = none)
    (ha : Attacks p.turn .pawn (absPos p).occ t k) :
    ∃ b, p.isPawnDropCheckMate p.turn t = some b ∧ (b = true ↔ ∀ mv, ¬ ((absPos p).play (.drop .pawn t)).Safe mv) := by
  have hk' := (hp.king _ _).mpr hk
  obtain ⟨b, hb⟩ := isMate_isSome hk' t
  have := isMate_iff hp hk' hr.waiting ht ha
  refine ⟨b, hb, ?_⟩
  rw [hb, Option.some.injEq] at this
  rw [this]
  constructor
  · exact fun h => h.2
  · intro h
    refine ⟨⟨k, ?_, t, ?_⟩, h⟩
    · rw [play_turn]; exact (play_drop_enemy (q := absPos p) ht).mpr hk
    · rw [play_turn, opp_opp]
      refine ⟨.pawn, (play_drop_own (q := absPos p) ht).mpr (.inl ⟨rfl, rfl⟩), ?_⟩
      rcases pawn_step ha with h'
      exact (attacks_iff ..).mpr (.inl h')

/-- White's king on 1a with a knight on 2a, Black's gold on 1c and king on 5i, a pawn in Black's hand: P*1b would be mate. -/
def mateBoard (s : Square) : Option (Color × Kind) :=
  match s.val with
  | 0 => some (.white, .king) | 9 => some (.white, .knight) | 2 => some (.black, .gold) | 44 => some (.black, .king) | _ => none

def mateHand (c : Color) (h : Nat) : Nat := match c, h with | .black, 0 => 1 | _, _ => 0

def matePos : Pos := ⟨mateBoard, fun c h => mateHand c h.code, .black⟩

def mateModel : Position := setPieces zeroKeys clear (fun s => pieceCode (mateBoard s)) mateHand

theorem mateModel_spec : Inv zeroKeys mateModel ∧ absPos mateModel = matePos := by
  have hk : OneKing mateBoard := by
    have h : ∀ c s t, mateBoard s = some (c, .king) → mateBoard t = some (c, .king) → s = t := by
      intro c
      cases c
      · have : ∀ s, mateBoard s = some (.black, .king) → s = 44 := by decide +kernel
        intro s t h1 h2; rw [this s h1, this t h2]
      · have : ∀ s, mateBoard s = some (.white, .king) → s = 0 := by decide +kernel
        intro s t h1 h2; rw [this s h1, this t h2]
    exact h
  obtain ⟨h1, h2, h3, -⟩ := setPieces_spec zeroKeys clear matePos hk (fun c h => by cases c <;> cases h <;> decide) mateHand (fun _ _ => rfl)
  refine ⟨⟨h1, h2, ?_⟩, h3⟩
  show (absPos (setPieces zeroKeys clear (fun s => pieceCode (matePos.board s)) mateHand)).InSet
  rw [h3]
  intro h; cases h <;> decide +kernel

theorem mateModel_ok : CheckOK mateModel ∧ (absPos mateModel).Regular := by
  have hw : ¬ (absPos mateModel).InCheck mateModel.turn.opp := by
    rw [← inCheckB_iff mateModel_spec.1.views]; decide +kernel
  refine ⟨checkOK_find mateModel_spec.1.views hw (setPieces_checkers _ _ _ _), ⟨fun c => ?_, hw, ?_⟩⟩
  · rw [mateModel_spec.2]
    cases c
    · exact ⟨44, by decide +kernel⟩
    · exact ⟨0, by decide +kernel⟩
  · rw [mateModel_spec.2]
    exact alive_of_check (b := mateBoard) (by decide +kernel)

/-- The drop there is otherwise allowed, and the test reports mate. -/
example : Consistent mateModel ∧ CheckOK mateModel ∧ (absPos mateModel).Regular ∧ (absPos mateModel).Safe (.drop .pawn 1) ∧
    (absPos mateModel).board 0 = some (mateModel.turn.opp, .king) ∧ (absPos mateModel).board 1 = none ∧
    Attacks mateModel.turn .pawn (absPos mateModel).occ 1 0 ∧
    mateModel.isPawnDropCheckMate mateModel.turn 1 = some true := by
  have hcons := mateModel_spec.1.views
  have hb1 : (absPos mateModel).board 1 = none := by rw [mateModel_spec.2]; rfl
  have hnc : ¬ (absPos mateModel).InCheck mateModel.turn := by rw [← inCheckB_iff hcons]; decide +kernel
  have hps : (absPos mateModel).Pseudo (.drop .pawn 1) := by
    refine ⟨by rw [mateModel_spec.2]; decide, hb1, by rw [mateModel_spec.2]; decide, fun _ u _ => ?_⟩
    rw [mateModel_spec.2]
    have : ∀ u, mateBoard u ≠ some (.black, .pawn) := by decide +kernel
    exact this u
  refine ⟨hcons, mateModel_ok.1, mateModel_ok.2, ⟨hps, ?_⟩, by rw [mateModel_spec.2]; rfl, hb1, ?_, by decide +kernel⟩
  · rw [show (absPos mateModel).turn = mateModel.turn from rfl, ← isLegal_quiet hcons mateModel_ok.2 hnc hps]; exact isLegal_drop _ _ _
  · rw [← hcons.occ_fun, ← isSet_attacksFrom]; decide +kernel

/-! ### C29 -/

/-- **C29** (one move): pushing any member of `legal_moves` succeeds, leaves the mover's king unattacked, and the result is
again a regular position with consistent views and exact checkers. -/
theorem C29_push (Z : Zobrist) (p : Position) (hp : Inv Z p) (hc : CheckOK p) (hr : (absPos p).Regular) (l : List Move)
    (hl : genLegal p true = some l) (m : Move) (hm : m ∈ l) :
    ∃ p', doMove Z p m = some p' ∧ ¬ (absPos p').InCheck p.turn ∧ Inv Z p' ∧ CheckOK p' ∧ (absPos p').Regular := by
  obtain ⟨l', e, -, h⟩ := genLegal_spec hp.views hc hr
  rw [hl] at e; cases e
  obtain ⟨mv, rfl, hleg⟩ := (h m).mp hm
  obtain ⟨p', e, h1, h2, -, ha, -⟩ := doMove_safe Z hp hr.waiting hleg.1
  exact ⟨p', e, by rw [ha]; exact hleg.1.2, h1, h2, by rw [ha]; exact Regular.play hr hleg.1⟩

/-- The operations of a game played from `legal_moves`: pushes of listed moves, take-backs, passes out of check. -/
def ListedOp (b : Board) : Op → Prop
  | .push m => ∃ l, genLegal b.pos true = some l ∧ m ∈ l
  | o => Applicable b o

theorem LChain.run_listed {Z : Zobrist} {p0 : Position} {b : Board} (h0 : (absPos p0).Regular) (h : LChain Z p0 b) (ops : List Op)
    (ho : Always ListedOp Z b ops) : ∃ b', b.run Z ops = some b' ∧ LChain Z p0 b' := by
  induction ops generalizing b with
  | nil => exact ⟨b, rfl, h⟩
  | cons o os ih =>
    have hlo : LegalOp b o := by
      cases o with
      | push m =>
        obtain ⟨l, e, hm⟩ := ho.1
        obtain ⟨l', e', -, hh⟩ := genLegal_spec h.good.1.views h.good.2.1 (h.regular h0)
        rw [e] at e'; cases e'
        exact (hh m).mp hm
      | pop => exact ho.1
      | pushPass => exact ho.1
      | popPass => exact ho.1
    obtain ⟨b1, e1, h1⟩ := h.step hlo
    obtain ⟨b2, e2, h2⟩ := ih h1 (ho.2 b1 e1)
    exact ⟨b2, by simp [Board.run, e1, e2], h2⟩

/-- **C29**: after any game played from `legal_moves` (with passes out of check and take-backs), of any length, from a regular
position, the side that is not to move is not in check and the position is regular. -/
theorem C29_history (Z : Zobrist) (p : Position) (hp : Inv Z p) (hc : CheckOK p) (hr : (absPos p).Regular)
    (ops : List Op) (ho : Always ListedOp Z ⟨p, []⟩ ops) :
    ∃ b, Board.run Z ⟨p, []⟩ ops = some b ∧ ¬ (absPos b.pos).InCheck b.pos.turn.opp ∧ (absPos b.pos).Regular := by
  obtain ⟨b, e, hb⟩ := (LChain.base (p0 := p) p.st.continuousCheck hp hc hr.waiting).run_listed hr ops ho
  exact ⟨b, e, hb.good.2.2, hb.regular hr⟩

/-- P7g-7f in the start position, and its answer P3c-3d. -/
example : ∃ l, genLegal (startModel zeroKeys) true = some l ∧ encode (startModel zeroKeys) (.move 60 59 false) ∈ l ∧
    Always ListedOp zeroKeys ⟨startModel zeroKeys, []⟩ [.push (encode (startModel zeroKeys) (.move 60 59 false))] := by
  obtain ⟨h1, h2, h3⟩ := startModel_ok zeroKeys
  obtain ⟨l, e, hl⟩ := C25_complete _ h1.views h2 h3
  have hmem : encode (startModel zeroKeys) (.move 60 59 false) ∈ l := by
    have : (genLegal (startModel zeroKeys) true).map
        (fun l => decide (encode (startModel zeroKeys) (.move 60 59 false) ∈ l)) = some true := by decide +kernel
    rw [e] at this
    simpa using this
  exact ⟨l, e, hmem, ⟨l, e, hmem⟩, fun _ _ => trivial⟩

end Verif
