import Verif.Lemmas.Pseudo
import Verif.Spec.Start

/-!
# C14-C20, C30: attack queries, consistency of the views, making and unmaking moves, keys, material

`absPos p` is the position of the rules shown by the piece array, the hands and the turn. `Consistent p` says that
every other view (bitboards per type and colour, occupied squares, gold-movers, king squares) describes that same
position. `Inv Z p` adds that the stored keys are the ones computed from scratch and that the material fits one set.
-/

namespace Verif
open Spec Bitboard Position

/-! ### A concrete position for the examples -/

/-- All-zero key tables. -/
def zeroKeys : Zobrist := ⟨fun _ _ _ => 0, fun _ _ => 0, fun _ _ _ => by simp, fun _ _ => by simp⟩

/-- The even-game start position, set up through the piece arrays. -/
def startModel (Z : Zobrist) : Position := setPieces Z clear (fun s => pieceCode (startBoard s)) (fun _ _ => 0)

theorem startBoard_oneKing : OneKing startBoard := by
  have h : ∀ c s t, startBoard s = some (c, .king) → startBoard t = some (c, .king) → s = t := by
    intro c
    cases c
    · have : ∀ s, startBoard s = some (.black, .king) → s = 44 := by decide +kernel
      intro s t h1 h2; rw [this s h1, this t h2]
    · have : ∀ s, startBoard s = some (.white, .king) → s = 36 := by decide +kernel
      intro s t h1 h2; rw [this s h1, this t h2]
  exact h

theorem startPos_inSet : startPos.InSet := by
  intro h; cases h <;> decide +kernel

theorem startModel_inv (Z : Zobrist) : Inv Z (startModel Z) ∧ absPos (startModel Z) = startPos := by
  obtain ⟨h1, h2, h3, -⟩ := setPieces_spec Z clear startPos startBoard_oneKing (fun _ _ => Nat.zero_le _) (fun _ _ => 0)
    (fun _ _ => rfl)
  refine ⟨⟨h1, h2, ?_⟩, h3⟩
  show (absPos (setPieces Z clear (fun s => pieceCode (startPos.board s)) fun _ _ => 0)).InSet
  rw [h3]
  exact startPos_inSet

/-! ### C14 -/

/-- **C14**: the attackers of a square found for a colour, under any occupancy supplied, are exactly the pieces of that
colour whose movement reaches the square. -/
theorem C14_attackersTo (p : Position) (h : Consistent p) (c : Color) (t s : Square) (occ : Bitboard) :
    (p.attackersTo c t occ).isSet s = true ↔
      ∃ k, (absPos p).board s = some (c, k) ∧ Attacks c k occ.isSet s t := isSet_attackersTo h c t s occ

/-- **C14**: the query over both colours. -/
theorem C14_attackersToBoth (p : Position) (h : Consistent p) (t s : Square) (occ : Bitboard) :
    (p.attackersToBoth t occ).isSet s = true ↔
      ∃ c k, (absPos p).board s = some (c, k) ∧ Attacks c k occ.isSet s t := isSet_attackersToBoth h t s occ

/-- **C14**: the query leaving out kings, under the current occupancy. -/
theorem C14_attackersToExceptKing (p : Position) (h : Consistent p) (c : Color) (t s : Square) :
    (p.attackersToExceptKing c t).isSet s = true ↔
      ∃ k, k ≠ .king ∧ (absPos p).board s = some (c, k) ∧ Attacks c k (absPos p).occ s t := by
  rw [isSet_attackersToExceptKing h]

/-- **C14**: "is the square attacked" is exactly that. -/
theorem C14_attackersToIsAny (p : Position) (h : Consistent p) (c : Color) (t : Square) :
    p.attackersToIsAny c t p.occupied = true ↔ (absPos p).Attacked c t := by
  unfold attackersToIsAny
  rw [(wf_attackersTo h c t _).isAny_iff]
  unfold Pos.Attacked Pos.AttacksSq
  simp only [isSet_attackersTo h, h.occ_fun]

/-- In the start position the pawn in front of the king and nothing else of Black's reaches 5f. -/
example (Z : Zobrist) : Consistent (startModel Z) ∧
    ∃ k, (absPos (startModel Z)).board 42 = some (.black, k) ∧ Attacks .black k (absPos (startModel Z)).occ 42 41 := by
  refine ⟨(startModel_inv Z).1.views, .pawn, ?_, ?_⟩
  · rw [(startModel_inv Z).2]; rfl
  · exact Or.inl ⟨(0, -1), by simp [Kind.steps], by decide⟩

/-! ### C15 -/

/-- **C15** (set-up): setting up any placement with at most one king per side and hands within a set leaves all views
consistent, shows exactly that placement, and stores the keys computed from scratch. -/
theorem C15_setup (Z : Zobrist) (p : Position) (q : Pos) (h1 : OneKing q.board) (hh : ∀ c h, q.hand c h ≤ h.total)
    (hand : Color → Nat → Nat) (hhand : ∀ c h, hand c h.code = q.hand c h) :
    let p' := setPieces Z p (fun s => pieceCode (q.board s)) hand
    Consistent p' ∧ absPos p' = { q with turn := p.turn } :=
  ⟨(setPieces_spec Z p q h1 hh hand hhand).1, (setPieces_spec Z p q h1 hh hand hhand).2.2.1⟩

/-- **C15**: every sequence of applicable operations (push, pop, push_pass, pop_pass), of any length, is carried out and
leaves all views consistent. -/
theorem C15_history (Z : Zobrist) (p : Position) (hp : Inv Z p) (ops : List Op) (ho : AllApplicable Z ⟨p, []⟩ ops) :
    ∃ b, Board.run Z ⟨p, []⟩ ops = some b ∧ Consistent b.pos := by
  obtain ⟨b, e, hb⟩ := (Chain.base (p0 := p) p.st.continuousCheck hp).run ops ho
  exact ⟨b, e, hb.inv.views⟩

/-- What consistency says about a square: the array, the type sets, the colour sets, the occupied set, the gold-movers
and the king squares all read off the same piece. -/
theorem C15_reading (p : Position) (h : Consistent p) (s : Square) (c : Color) (k : Kind) :
    ((absPos p).board s = some (c, k) ↔ p.piece s = mkPiece c k.code) ∧
    ((absPos p).board s = some (c, k) ↔ (p.byType k.code).isSet s = true ∧ (p.byColor c).isSet s = true) ∧
    ((absPos p).board s = some (c, k) → p.occupied.isSet s = true ∧
      p.golds.isSet s = decide (k = .gold ∨ k = .proPawn ∨ k = .proLance ∨ k = .proKnight ∨ k = .proSilver)) ∧
    ((absPos p).board s = some (c, .king) ↔ p.kingSquare c = some s) := by
  refine ⟨⟨h.piece_some, fun e => ?_⟩, ⟨fun e => ⟨(h.type k s).mpr ⟨c, e⟩, (h.color c s).mpr ⟨k, e⟩⟩, ?_⟩, ?_, (h.king c s).symm⟩
  · show decodePiece (p.piece s) = _
    rw [e, decode_mkPiece]
  · rintro ⟨h1, h2⟩
    obtain ⟨c', e1⟩ := (h.type k s).mp h1
    obtain ⟨k', e2⟩ := (h.color c s).mp h2
    rw [e1] at e2; cases e2; exact e1
  · intro e
    refine ⟨?_, ?_⟩
    · rw [h.occ]; unfold Pos.occ; rw [e]; rfl
    · rw [h.golds_some e]; cases k <;> rfl

/-! ### C16 -/

/-- **C16**: making a move that the movement rules allow, in a position where the opponent's king cannot be captured,
is defined and leads to the position of the rules after that move; the move number increases by one. -/
theorem C16_push (Z : Zobrist) (p : Position) (hp : Inv Z p) (m : Mv) (hm : (absPos p).Pseudo m)
    (hk : ¬ (absPos p).InCheck p.turn.opp) :
    ∃ p', doMove Z p (encode p m) = some p' ∧ absPos p' = (absPos p).play m ∧ p'.gamePly = p.gamePly + 1 ∧ Inv Z p' := by
  obtain ⟨p', e, hi, ha, -, hg, -⟩ := doMove_inv Z hp (pseudo_playable hm hk)
  exact ⟨p', e, ha, hg, hi⟩

/-- **C16**: the same for any move that can be carried out on the board, legal or not. -/
theorem C16_push_playable (Z : Zobrist) (p : Position) (hp : Inv Z p) (m : Mv) (hm : (absPos p).Playable m) :
    ∃ p', doMove Z p (encode p m) = some p' ∧ absPos p' = (absPos p).play m ∧ p'.gamePly = p.gamePly + 1 := by
  obtain ⟨p', e, -, ha, -, hg, -⟩ := doMove_inv Z hp hm
  exact ⟨p', e, ha, hg⟩

/-- The opening move 7g7f is such a move in the start position. -/
example (Z : Zobrist) : (absPos (startModel Z)).Pseudo (.move 60 59 false) := by
  rw [(startModel_inv Z).2]
  refine ⟨.pawn, rfl, Or.inl ⟨(0, -1), by simp [Kind.steps], by decide⟩, fun k' e => ?_, by simp, fun _ => by decide⟩
  exact absurd e (by rw [show startPos.board 59 = none from rfl]; simp)

/-! ### C17 -/

/-- **C17**: `pop` after `push` restores the whole board object: placement, all views, hands, turn, move number, keys,
checkers, repetition data and the chain of earlier states. -/
theorem C17_pop_push (Z : Zobrist) (b : Board) (hb : Inv Z b.pos) (m : Mv) (hm : (absPos b.pos).Playable m) :
    ∃ b', b.push Z (encode b.pos m) = some b' ∧ b'.pop = some b := by
  obtain ⟨p', e, -, -, -, -, hu⟩ := doMove_inv Z hb hm
  exact ⟨⟨p', .move (encode b.pos m) :: b.hist⟩, by simp [Board.push, e], by simp [Board.pop, hu]⟩

/-- Well-nested sequences: every push is followed, after a well-nested sequence, by its pop; likewise for passes. -/
inductive Nested : List Op → Prop
  | nil : Nested []
  | push (m : Move) (xs ys : List Op) : Nested xs → Nested ys → Nested (.push m :: (xs ++ .pop :: ys))
  | pass (xs ys : List Op) : Nested xs → Nested ys → Nested (.pushPass :: (xs ++ .popPass :: ys))

/-- No passes. -/
def NoPass (_ : Board) : Op → Prop
  | .pushPass => False
  | .popPass => False
  | _ => True

/-- Passing only when the opponent's perpetual-check counter is 0 (as it is after a move that gave no check). -/
def CleanPass (b : Board) : Op → Prop
  | .pushPass => b.pos.st.continuousCheck b.pos.turn.opp = 0
  | _ => True

theorem run_push (Z : Zobrist) {b : Board} (hb : Inv Z b.pos) {mv : Mv} (hm : (absPos b.pos).Playable mv) :
    ∃ p', b.step Z (.push (encode b.pos mv)) = some ⟨p', .move (encode b.pos mv) :: b.hist⟩ ∧ Inv Z p' ∧
      ∀ cc, Board.step Z ⟨withCC p' cc, .move (encode b.pos mv) :: b.hist⟩ .pop = some b := by
  obtain ⟨p', e, hi, -, -, -, hu⟩ := doMove_inv Z hb hm
  refine ⟨p', by simp [Board.step, Board.push, e], hi, fun cc => ?_⟩
  simp [Board.step, Board.pop, undoMove_withCC, hu]

/-- Well-nested sequences restore the board up to the perpetual-check counters. -/
theorem nested_run (Z : Zobrist) (ops : List Op) (hn : Nested ops) (b : Board) (hb : Inv Z b.pos)
    (ho : AllApplicable Z b ops) : ∃ cc, b.run Z ops = some ⟨withCC b.pos cc, b.hist⟩ := by
  induction hn generalizing b with
  | nil => exact ⟨b.pos.st.continuousCheck, rfl⟩
  | push m xs ys hx hy ihx ihy =>
    obtain ⟨⟨mv, rfl, hm⟩, hrest⟩ := ho
    obtain ⟨p', hs, hi, hpop⟩ := run_push Z hb hm
    have h1 := hrest _ hs
    obtain ⟨cc, hx'⟩ := ihx _ hi h1.left
    have h2 := h1.right hx'
    obtain ⟨cc2, hy'⟩ := ihy b hb (h2.2 b (hpop cc))
    refine ⟨cc2, ?_⟩
    simp only [Board.run, hs, Option.bind_some, Board.run_append, hx', hpop cc, hy']
  | pass xs ys hx hy ihx ihy =>
    obtain ⟨hnc, hrest⟩ := ho
    have hnc' : b.pos.inCheck = false := hnc
    have hs : b.step Z .pushPass = some ⟨(doNull b.pos).1, .pass (doNull b.pos).2 :: b.hist⟩ := by
      simp [Board.step, Board.pushPass, hnc']
    have h1 := hrest _ hs
    obtain ⟨cc, hx'⟩ := ihx _ hb.doNull h1.left
    have hpop : Board.step Z ⟨withCC (doNull b.pos).1 cc, .pass (doNull b.pos).2 :: b.hist⟩ .popPass =
        some ⟨withCC b.pos cc, b.hist⟩ := by
      simp only [Board.step, Board.popPass, undoNull_withCC, undo_doNull hb.keys]; rfl
    have h2 := h1.right hx'
    obtain ⟨cc2, hy'⟩ := ihy ⟨withCC b.pos cc, b.hist⟩ (hb.withCC cc) (h2.2 _ hpop)
    refine ⟨cc2, ?_⟩
    simp only [Board.run, hs, Option.bind_some, Board.run_append, hx', hpop, hy']
    rfl

/-- Well-nested sequences whose passes are clean restore the board exactly. -/
theorem nested_run_exact (Z : Zobrist) (ops : List Op) (hn : Nested ops) (b : Board) (hb : Inv Z b.pos)
    (ho : Always (fun b o => Applicable b o ∧ CleanPass b o) Z b ops) : b.run Z ops = some b := by
  induction hn generalizing b with
  | nil => rfl
  | push m xs ys hx hy ihx ihy =>
    obtain ⟨⟨⟨mv, rfl, hm⟩, -⟩, hrest⟩ := ho
    obtain ⟨p', hs, hi, hpop⟩ := run_push Z hb hm
    have h1 := hrest _ hs
    have hx' := ihx _ hi h1.left
    have h2 := h1.right hx'
    have hpop' := hpop p'.st.continuousCheck
    rw [withCC_self] at hpop'
    have hy' := ihy b hb (h2.2 b hpop')
    simp only [Board.run, hs, Option.bind_some, Board.run_append, hx', hpop', hy']
  | pass xs ys hx hy ihx ihy =>
    obtain ⟨⟨hnc, hcl⟩, hrest⟩ := ho
    have hnc' : b.pos.inCheck = false := hnc
    have hs : b.step Z .pushPass = some ⟨(doNull b.pos).1, .pass (doNull b.pos).2 :: b.hist⟩ := by
      simp [Board.step, Board.pushPass, hnc']
    have h1 := hrest _ hs
    have hx' := ihx _ hb.doNull h1.left
    have hpop : Board.step Z ⟨(doNull b.pos).1, .pass (doNull b.pos).2 :: b.hist⟩ .popPass = some b := by
      simp only [Board.step, Board.popPass, undo_doNull hb.keys]
      rw [upd_self _ _ _ hcl, withCC_self]
    have h2 := h1.right hx'
    have hy' := ihy b hb (h2.2 _ hpop)
    simp only [Board.run, hs, Option.bind_some, Board.run_append, hx', hpop, hy']

/-- **C17**: any well-nested sequence of pushes of playable moves and pops returns to the starting board. -/
theorem C17_nested (Z : Zobrist) (ops : List Op) (hn : Nested ops) (b : Board) (hb : Inv Z b.pos)
    (ho : Always (fun b o => Applicable b o ∧ NoPass b o) Z b ops) : b.run Z ops = some b := by
  refine nested_run_exact Z ops hn b hb (ho.mono ?_)
  rintro b o ⟨h1, h2⟩
  refine ⟨h1, ?_⟩
  cases o with
  | pushPass => exact absurd h2 id
  | push m => trivial
  | pop => trivial
  | popPass => trivial

/-- 7g7f, its pop, 2g2f, its pop: a well-nested sequence of applicable operations on the start position. -/
example (Z : Zobrist) : let b : Board := ⟨startModel Z, []⟩
    Inv Z b.pos ∧ Nested [.push (encode b.pos (.move 60 59 false)), .pop] ∧
    Applicable b (.push (encode b.pos (.move 60 59 false))) := by
  refine ⟨(startModel_inv Z).1, .push _ [] [] .nil .nil, _, rfl, ?_⟩
  show (absPos (startModel Z)).Playable _
  rw [(startModel_inv Z).2]
  exact ⟨by decide, ⟨.pawn, rfl, by simp⟩, fun k' => by rw [show startPos.board 59 = none from rfl]; simp,
    by rw [show startPos.board 59 = none from rfl]; simp⟩

/-! ### C18 -/

/-- **C18** (flip): a pass flips the turn and nothing else of the position; the key becomes that of the new side. -/
theorem C18_flip (Z : Zobrist) (p : Position) (hp : Inv Z p) :
    absPos (doNull p).1 = { absPos p with turn := p.turn.opp } ∧ Inv Z (doNull p).1 ∧ (doNull p).1.gamePly = p.gamePly ∧
      (doNull p).1.st.checkersBB = p.st.checkersBB :=
  ⟨doNull_abs p, hp.doNull, rfl, rfl⟩

/-- **C18**, partial: well-nested sequences of moves and passes restore the whole board object, provided each pass is made
when the opponent's perpetual-check counter is 0. (Full statement: without that proviso. It is false, see
`C18_counterexample`.) -/
theorem C18_nested_partial (Z : Zobrist) (ops : List Op) (hn : Nested ops) (b : Board) (hb : Inv Z b.pos)
    (ho : Always (fun b o => Applicable b o ∧ CleanPass b o) Z b ops) : b.run Z ops = some b :=
  nested_run_exact Z ops hn b hb ho

/-- **C18**, partial: without the proviso everything except the perpetual-check counters of the current state record is
restored. -/
theorem C18_nested_up_to_counters_partial (Z : Zobrist) (ops : List Op) (hn : Nested ops) (b : Board) (hb : Inv Z b.pos)
    (ho : AllApplicable Z b ops) :
    ∃ b', b.run Z ops = some b' ∧ b'.hist = b.hist ∧
      { b'.pos with st := { b'.pos.st with continuousCheck := b.pos.st.continuousCheck } } = b.pos := by
  obtain ⟨cc, e⟩ := nested_run Z ops hn b hb ho
  exact ⟨_, e, rfl, rfl⟩

/-- The board for the counterexample: kings on 5a and 5i, a black rook on 2h. -/
def passBoard (s : Square) : Option (Color × Kind) :=
  if s = 36 then some (.white, .king) else if s = 44 then some (.black, .king)
  else if s = 16 then some (.black, .rook) else none

/-- It, Black to move. -/
def passModel : Position := setPieces zeroKeys clear (fun s => pieceCode (passBoard s)) (fun _ _ => 0)

/-- R2h-5h check, K5a-4a; then both sides pass and both passes are popped. -/
def passGame : List Op :=
  [.push (boardMove (fun s => pieceCode (passBoard s)) 16 43 false),
   .push (boardMove (fun s => pieceCode (passBoard s)) 36 27 false)]

/-- **C18** fails in general: after a check and the king's escape, two nested passes and their pops leave the checking
side's perpetual-check counter at 0 instead of 2. -/
theorem C18_counterexample :
    ((Board.run zeroKeys ⟨passModel, []⟩ passGame).map fun b => b.pos.st.continuousCheck .black) = some 2 ∧
    ((Board.run zeroKeys ⟨passModel, []⟩ (passGame ++ [.pushPass, .pushPass, .popPass, .popPass])).map
      fun b => b.pos.st.continuousCheck .black) = some 0 := by
  decide +kernel

/-! ### C19 -/

/-- **C19**: after any sequence of applicable operations the stored keys equal the keys computed from scratch. -/
theorem C19_history (Z : Zobrist) (p : Position) (hp : Inv Z p) (ops : List Op) (ho : AllApplicable Z ⟨p, []⟩ ops) :
    ∃ b, Board.run Z ⟨p, []⟩ ops = some b ∧ b.pos.getKey = b.pos.computeBoardKey Z + b.pos.computeHandKey Z := by
  obtain ⟨b, e, hb⟩ := (Chain.base (p0 := p) p.st.continuousCheck hp).run ops ho
  refine ⟨b, e, ?_⟩
  unfold getKey StateInfo.key
  rw [hb.inv.keys.board, hb.inv.keys.hand]

/-- The key of a placement and side to move. -/
def specBoardKey (Z : Zobrist) (q : Pos) : BitVec 64 :=
  let sum := (List.finRange 81).foldl (fun r s => match q.board s with
    | none => r
    | some (c, k) => r + Z.board k.code s c) 0#64
  if q.turn = .white then sum ^^^ 1#64 else sum

/-- The hash as a function of the position of the rules: the sum of one number per piece on the board and one per piece in
hand, with the lowest bit flipped for White. -/
def specKey (Z : Zobrist) (q : Pos) : BitVec 64 :=
  specBoardKey Z q +
  ([HKind.pawn, .lance, .knight, .silver, .gold, .bishop, .rook].foldl (fun r h =>
    r + BitVec.ofNat 64 (q.hand .black h) * Z.hand h.code .black + BitVec.ofNat 64 (q.hand .white h) * Z.hand h.code .white) 0#64)

theorem foldl_cell (Z : Zobrist) (b : Square → Option (Color × Kind)) (l : List Square) (r : BitVec 64) :
    l.foldl (fun r s => match b s with | none => r | some (c, k) => r + Z.board k.code s c) r =
      r + (l.map fun s => pieceKey Z s (b s)).sum := by
  induction l generalizing r with
  | nil => simp
  | cons a l ih =>
    rw [List.foldl_cons, ih, List.map_cons, List.sum_cons]
    rcases b a with _ | ⟨c, k⟩
    · simp [pieceKey]
    · simp [pieceKey, add_assoc]

theorem nsmul_eq (n : Nat) (x : BitVec 64) : n • x = BitVec.ofNat 64 n * x := by
  rw [nsmul_eq_mul]
  rfl

theorem boardKey_spec (Z : Zobrist) (p : Position) (hv : ∀ s, p.piece s = pieceCode ((absPos p).board s)) (hk : KeysOK Z p) :
    p.st.boardKey = specBoardKey Z (absPos p) := by
  unfold specBoardKey
  rw [hk.board, boardKey_place Z hv]
  simp only [foldl_cell]
  rw [← Fin.sum_univ_def, show (0#64 : BitVec 64) = 0 from rfl, zero_add]; rfl

/-- Keys that match the position are this function of placement, hands and turn. -/
theorem getKey_spec (Z : Zobrist) (p : Position) (hv : ∀ s, p.piece s = pieceCode ((absPos p).board s)) (hk : KeysOK Z p) :
    p.getKey = specKey Z (absPos p) := by
  unfold getKey StateInfo.key specKey
  rw [hk.hand, computeHandKey_eq]
  refine congrArg₂ (· + ·) (boardKey_spec Z p hv hk) ?_
  · unfold handKeyOf
    simp only [Fin.sum_univ_def, List.foldl_cons, List.foldl_nil, nsmul_eq]
    rw [show List.finRange 7 = [0, 1, 2, 3, 4, 5, 6] from rfl]
    simp only [List.map_cons, List.map_nil, List.sum_cons, List.sum_nil]
    rw [show (0#64 : BitVec 64) = 0 from rfl, zero_add, add_zero]
    simp only [absPos, HKind.code, add_assoc]
    rfl

/-- **C19**: the hash is this function of placement, hands and turn, for any key tables. -/
theorem C19_function (Z : Zobrist) (p : Position) (hp : Inv Z p) : p.getKey = specKey Z (absPos p) :=
  getKey_spec Z p hp.views.code hp.keys

/-- **C19** (transpositions): two boards reached in any ways that show the same position have the same hash. -/
theorem C19_transposition (Z : Zobrist) (p p' : Position) (hp : Inv Z p) (hp' : Inv Z p') (h : absPos p = absPos p') :
    p.getKey = p'.getKey := by rw [C19_function Z p hp, C19_function Z p' hp', h]

/-- The start position satisfies the invariant. -/
example (Z : Zobrist) : Inv Z (startModel Z) := (startModel_inv Z).1

/-! ### C20 -/

/-- **C20**: the keys computed for a move without playing it equal the keys after playing it. -/
theorem C20_keyAfter (Z : Zobrist) (p p' : Position) (hp : Inv Z p) (m : Mv) (hm : (absPos p).Playable m)
    (h : doMove Z p (encode p m) = some p') :
    getKeyAfter Z p (encode p m) = p'.getKey ∧ getBoardKeyAfter Z p (encode p m) = p'.st.boardKey :=
  getKeyAfter_eq Z hp.views hm h

/-- **C20**: `book_key_after(book_key(), m)` equals `book_key()` after `push(m)`, for any tables. -/
theorem C20_bookKeyAfter (Z : Zobrist) (B : BookTable) (p p' : Position) (hp : Inv Z p) (m : Mv) (hm : (absPos p).Playable m)
    (h : doMove Z p (encode p m) = some p') : bookKeyAfter B p (bookKey B p) (encode p m) = bookKey B p' :=
  bookKeyAfter_eq Z B hp hm h

/-- **C20**: the book's hand table (19 entries per kind) is never read out of range. -/
theorem C20_book_index (Z : Zobrist) (p : Position) (hp : Inv Z p) (c : Color) (i : Nat) (hi : i < 7) :
    (p.hand c).numOf i < 19 := by
  have := hand_counts hp.inSet c i hi
  have : setSize i ≤ 18 := by interval_cases i <;> decide
  omega

/-! ### C30 -/

/-- **C30**: a move conserves the number of pieces of every kind, and of kings. -/
theorem C30_play (q : Pos) (m : Mv) (hm : q.Playable m) (h : HKind) : (q.play m).material h = q.material h :=
  material_play hm h

theorem play_kings (q : Pos) (m : Mv) (hm : q.Playable m) (c : Color) : (q.play m).kings c = q.kings c := by
  have key : ∀ q : Pos, (q.kings c : ℤ) = ∑ s, (fun (_ : Square) (v : Option (Color × Kind)) => if v = some (c, .king) then (1:ℤ) else 0) s (q.board s) := by
    intro q
    unfold Pos.kings
    rw [countP_sum]
    apply Finset.sum_congr rfl
    intro s _
    simp
  have h2 : ((q.play m).kings c : ℤ) = q.kings c := by
    rw [key, key]
    cases m with
    | drop hk t =>
      obtain ⟨-, ht⟩ := hm
      have := sum_upd (fun (_ : Square) (v : Option (Color × Kind)) => if v = some (c, .king) then (1:ℤ) else 0) q.board t (some (q.turn, hk.kind))
      rw [show (q.play (.drop hk t)).board = upd q.board t (some (q.turn, hk.kind)) from rfl, this, ht]
      have hkk : hk.kind ≠ .king := by cases hk <;> decide
      simp [hkk]
    | move s t pro =>
      obtain ⟨hst, ⟨k, hs, hpro⟩, ht, htk⟩ := hm
      have e : (q.play (.move s t pro)).board = upd (upd q.board s none) t (some (q.turn, Pos.arriving k pro)) := by
        simp only [Pos.play, hs]; rfl
      rw [e, sum_upd (fun (_ : Square) (v : Option (Color × Kind)) => if v = some (c, .king) then (1:ℤ) else 0),
        sum_upd (fun (_ : Square) (v : Option (Color × Kind)) => if v = some (c, .king) then (1:ℤ) else 0),
        upd_ne _ _ (fun e => hst e.symm)]
      have h1 : q.board t ≠ some (c, .king) := by
        rcases eq_or_opp q.turn c with e | e
        · subst e; exact ht _
        · subst e; exact htk
      have h3 := arriving_king hpro
      simp only [h1, hs, if_false, Option.some.injEq, Prod.mk.injEq, h3]
      simp
  exact_mod_cast h2

/-- **C30**: kings are conserved too. -/
theorem C30_kings (q : Pos) (m : Mv) (hm : q.Playable m) (c : Color) : (q.play m).kings c = q.kings c := play_kings q m hm c

/-- The material shown by a position: each kind, and each king. -/
def sameMaterial (q q' : Pos) : Prop := (∀ h, q.material h = q'.material h) ∧ ∀ c, q.kings c = q'.kings c

theorem chain_material {Z : Zobrist} {p0 : Position} {b : Board} (h : Chain Z p0 b) :
    sameMaterial (absPos b.pos) (absPos p0) := by
  induction h with
  | base cc hi => exact ⟨fun _ => rfl, fun _ => rfl⟩
  | push b m p' cc hb hm he ih =>
    obtain ⟨p'', e, -, ha, -⟩ := doMove_inv Z hb.inv hm
    rw [he] at e; cases e
    show sameMaterial (absPos p') _
    rw [ha]
    exact ⟨fun h => (material_play hm h).trans (ih.1 h), fun c => (play_kings _ _ hm c).trans (ih.2 c)⟩
  | pass b cc hb hn ih => exact ih

/-- **C30**: through any sequence of applicable operations the material never changes, and the hand counts stay within
one set (so they never overflow their fields). -/
theorem C30_history (Z : Zobrist) (p : Position) (hp : Inv Z p) (ops : List Op) (ho : AllApplicable Z ⟨p, []⟩ ops) :
    ∃ b, Board.run Z ⟨p, []⟩ ops = some b ∧ sameMaterial (absPos b.pos) (absPos p) ∧
      ∀ c h, (absPos b.pos).hand c h ≤ h.total := by
  obtain ⟨b, e, hb⟩ := (Chain.base (p0 := p) p.st.continuousCheck hp).run ops ho
  exact ⟨b, e, chain_material hb, fun c h => InSet.hand_le hb.inv.inSet c h⟩

end Verif
