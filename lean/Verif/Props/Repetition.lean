import Verif.Lemmas.Repetition
import Verif.Props.Legal

/-!
# Repetition: C37, C38, C39
-/

namespace Verif
open Spec Bitboard Position

/-! ### C37 -/

/-- A newly set-up board: nothing recorded yet. -/
structure Fresh (p : Position) : Prop where
  counters : ∀ c, p.st.continuousCheck c = 0
  plies : p.st.pliesFromNull = 0

theorem GameLine.fresh {Z : Zobrist} {p : Position} (strict : Prop) (hp : Inv Z p) (hc : CheckOK p)
    (hw : ¬ (absPos p).InCheck p.turn.opp) (hf : Fresh p) : GameLine Z p strict [] [] ⟨p, []⟩ :=
  .base hp hc hw (fun c => by rw [hf.counters c]) hf.plies

/-- **C37** (partial): on games of legal moves, take-backs and passes from any set-up position, `is_draw(limit)` is the
verdict of the rules on the positions since the last pass. Two provisos: different positions looked at have different
hashes, and passes are made only while the opponent's perpetual-check counter is 0.

Missing: passes made while that counter is not 0 and popped later; see `C37_fails`, and `C37_passes_partial` for passes that
are not popped. -/
theorem C37_verdict_partial (Z : Zobrist) (p : Position) (hp : Inv Z p) (hc : CheckOK p) (hw : ¬ (absPos p).InCheck p.turn.opp)
    (hf : Fresh p) (ops : List Op) (ho : Always (fun b o => LegalOp b o ∧ CleanPass b o) Z ⟨p, []⟩ ops) :
    ∃ g, Game.run Z ⟨⟨p, []⟩, [], []⟩ ops = some g ∧ Board.run Z ⟨p, []⟩ ops = some g.board ∧
      ∀ limit, NoCollision Z (absPos g.board.pos) g.past limit →
        ∃ v, g.board.pos.isDraw limit = some v ∧ IsVerdict (absPos g.board.pos) g.past limit v := by
  obtain ⟨g, e1, e2, hg⟩ := GameLine.run (g := ⟨⟨p, []⟩, [], []⟩) (GameLine.fresh True hp hc hw hf) ops
    (ho.mono fun b o h => ⟨h.1, fun _ => h.2, fun _ => trivial⟩)
  exact ⟨g, e1, e2, fun limit hn => isDraw_spec hg.chain.good.1 hg.recorded limit hn⟩

/-- **C37** (partial): the same for games with passes at any time, as long as no pass is popped. -/
theorem C37_passes_partial (Z : Zobrist) (p : Position) (hp : Inv Z p) (hc : CheckOK p) (hw : ¬ (absPos p).InCheck p.turn.opp)
    (hf : Fresh p) (ops : List Op) (ho : Always (fun b o => LegalOp b o ∧ o ≠ .popPass) Z ⟨p, []⟩ ops) :
    ∃ g, Game.run Z ⟨⟨p, []⟩, [], []⟩ ops = some g ∧ Board.run Z ⟨p, []⟩ ops = some g.board ∧
      ∀ limit, NoCollision Z (absPos g.board.pos) g.past limit →
        ∃ v, g.board.pos.isDraw limit = some v ∧ IsVerdict (absPos g.board.pos) g.past limit v := by
  obtain ⟨g, e1, e2, hg⟩ := GameLine.run (g := ⟨⟨p, []⟩, [], []⟩) (GameLine.fresh False hp hc hw hf) ops
    (ho.mono fun b o h => ⟨h.1, False.elim, fun hh => (h.2 hh).elim⟩)
  exact ⟨g, e1, e2, fun limit hn => isDraw_spec hg.chain.good.1 hg.recorded limit hn⟩

/-- Computable test that every operation of a sequence is on the list of legal moves (or applicable), that passes are made
only when the opponent's perpetual-check counter is 0, and that all can be carried out. -/
def playB (Z : Zobrist) (b : Board) : List Op → Bool
  | [] => true
  | o :: os =>
    (match o with
      | .push m => match genLegal b.pos true with | some l => decide (m ∈ l) | none => false
      | .pop => match b.hist with | .move _ :: _ => true | _ => false
      | .pushPass => !b.pos.inCheck && decide (b.pos.st.continuousCheck b.pos.turn.opp = 0)
      | .popPass => match b.hist with | .pass _ :: _ => true | _ => false) &&
    match b.step Z o with | some b' => playB Z b' os | none => false

theorem playB_legal {Z : Zobrist} {p0 : Position} {b : Board} (h0 : (absPos p0).Regular) (h : LChain Z p0 b) (ops : List Op)
    (ho : playB Z b ops = true) : Always (fun b o => LegalOp b o ∧ CleanPass b o) Z b ops := by
  induction ops generalizing b with
  | nil => trivial
  | cons o os ih =>
    unfold playB at ho
    rw [Bool.and_eq_true] at ho
    obtain ⟨h1, h2⟩ := ho
    have hlo : LegalOp b o ∧ CleanPass b o := by
      cases o with
      | push m =>
        obtain ⟨l, e, -, hh⟩ := genLegal_spec h.good.1.views h.good.2.1 (h.regular h0)
        simp only [e, decide_eq_true_eq] at h1
        exact ⟨(hh m).mp h1, trivial⟩
      | pop =>
        refine ⟨?_, trivial⟩
        match hb : b.hist, h1 with
        | .move m :: l, _ => exact ⟨m, l, hb⟩
        | [], h1 => simp [hb] at h1
        | .pass _ :: _, h1 => simp [hb] at h1
      | pushPass =>
        simp only [Bool.and_eq_true, Bool.not_eq_true', decide_eq_true_eq] at h1
        exact h1
      | popPass =>
        refine ⟨?_, trivial⟩
        match hb : b.hist, h1 with
        | .pass m :: l, _ => exact ⟨m, l, hb⟩
        | [], h1 => simp [hb] at h1
        | .move _ :: _, h1 => simp [hb] at h1
    refine ⟨hlo, fun b' e => ?_⟩
    obtain ⟨b1, e1, hc⟩ := h.step hlo.1
    rw [e1] at e; cases e
    rw [e1] at h2
    exact ih hc h2

theorem LChain.applicable {Z : Zobrist} {p0 : Position} {b : Board} (h : LChain Z p0 b) (ops : List Op)
    (ho : Always LegalOp Z b ops) : AllApplicable Z b ops := by
  induction ops generalizing b with
  | nil => trivial
  | cons o os ih =>
    have hap : Applicable b o := by
      have h1 := ho.1
      cases o with
      | push m =>
        obtain ⟨mv, e, hl⟩ := h1
        exact ⟨mv, e, pseudo_playable hl.1.1 h.good.2.2⟩
      | pop => exact h1
      | pushPass => exact h1
      | popPass => exact h1
    refine ⟨hap, fun b' e => ?_⟩
    obtain ⟨b1, e1, hc⟩ := h.step ho.1
    rw [e1] at e; cases e
    exact ih hc (ho.2 _ e1)

/-- Computable equality of positions. -/
def sameB (q r : Pos) : Bool :=
  (List.finRange 81).all (fun s => decide (q.board s = r.board s)) &&
  [HKind.pawn, .lance, .knight, .silver, .gold, .bishop, .rook].all
    (fun h => decide (q.hand .black h = r.hand .black h) && decide (q.hand .white h = r.hand .white h)) &&
  decide (q.turn = r.turn)

theorem sameB_eq {q r : Pos} (h : sameB q r = true) : q = r := by
  unfold sameB at h
  simp only [Bool.and_eq_true, List.all_eq_true, decide_eq_true_eq] at h
  obtain ⟨⟨h1, h2⟩, h3⟩ := h
  obtain ⟨b, hd, t⟩ := q; obtain ⟨b', hd', t'⟩ := r
  have e1 : b = b' := funext fun s => h1 s (List.mem_finRange s)
  have e2 : hd = hd' := by
    funext c k
    have := h2 k (by cases k <;> simp)
    cases c
    · exact this.1
    · exact this.2
  subst e1; subst e2
  cases h3; rfl

theorem passModel_regular : (absPos passModel).Regular := by
  refine ⟨fun c => ?_, passModel_waiting, ?_⟩
  · rw [passModel_spec.2]
    cases c
    · exact ⟨44, by decide +kernel⟩
    · exact ⟨36, by decide +kernel⟩
  · rw [passModel_spec.2]
    exact alive_of_check (b := passBoard) (by decide +kernel)

theorem LChain.start {Z : Zobrist} {p : Position} (h1 : Inv Z p) (h2 : CheckOK p) (h3 : ¬ (absPos p).InCheck p.turn.opp) :
    LChain Z p ⟨p, []⟩ := .base p.st.continuousCheck h1 h2 h3

theorem passModel_chain : LChain zeroKeys passModel ⟨passModel, []⟩ :=
  .start passModel_spec.1 passModel_checkOK passModel_waiting

/-- A quiet move of the piece with this code. -/
def quiet (pc : Nat) (s t : Square) : Op := .push (boardMove (fun u => if u = s then pc else 0) s t false)

/-- R2h-3h K5a-4a R3h-2h K4a-5a. -/
def shuffle : List Op := [quiet 6 16 25, quiet 24 36 27, quiet 6 25 16, quiet 24 27 36]

/-- A board on which the fourfold shuffle has happened: the theorem applies and the verdict is a draw. -/
example : Inv zeroKeys passModel ∧ CheckOK passModel ∧ ¬ (absPos passModel).InCheck passModel.turn.opp ∧ Fresh passModel ∧
    Always (fun b o => LegalOp b o ∧ CleanPass b o) zeroKeys ⟨passModel, []⟩ shuffle ∧
    ∃ g, Game.run zeroKeys ⟨⟨passModel, []⟩, [], []⟩ shuffle = some g ∧
      NoCollision zeroKeys (absPos g.board.pos) g.past 2147483647 ∧ g.board.pos.isDraw 2147483647 = some .draw := by
  refine ⟨passModel_spec.1, passModel_checkOK, passModel_waiting, ⟨fun c => by cases c <;> decide +kernel, by decide +kernel⟩,
    playB_legal passModel_regular passModel_chain _ (by decide +kernel), ?_⟩
  have key : (Game.run zeroKeys ⟨⟨passModel, []⟩, [], []⟩ shuffle).map (fun g => decide (g.past.length = 4) &&
      (match g.past[3]? with | some r => sameB r (absPos g.board.pos) | none => false) &&
      decide (g.board.pos.isDraw 2147483647 = some .draw)) = some true := by decide +kernel
  rcases hg : Game.run zeroKeys ⟨⟨passModel, []⟩, [], []⟩ shuffle with _ | g
  · rw [hg] at key; cases key
  · rw [hg] at key
    simp only [Option.map_some, Option.some.injEq, Bool.and_eq_true, decide_eq_true_eq] at key
    obtain ⟨⟨k1, k2⟩, k3⟩ := key
    refine ⟨g, rfl, ?_, k3⟩
    rintro d r ⟨d1, d2, -⟩ hd
    have hlt := (List.getElem?_eq_some_iff.mp hd).1
    simp only [List.length_cons, k1] at hlt
    have : d = 4 := by omega
    subst this
    have hd' : g.past[3]? = some r := hd
    rw [hd'] at k2
    have := sameB_eq k2
    exact ⟨fun _ => this, fun _ => by rw [this]; exact ⟨rfl, rfl⟩⟩

/-- R2h-2a+ K5a-5b R2a-2b+ K5b-5a, in check all the time (`+` is check, not promotion). -/
def chase : List Op := [quiet 6 16 9, quiet 24 36 37, quiet 6 9 10, quiet 24 37 36]

/-- **C37** fails in general: Black has checked with every move and checks again with R2b-2a, which repeats the position of
four plies before. `is_draw` says that White wins. If between the moves both sides pass and both passes are popped, the same
game is called a draw. -/
theorem C37_fails :
    (Board.run zeroKeys ⟨passModel, []⟩ (chase ++ [quiet 6 10 9])).map (fun b => b.pos.isDraw 2147483647) = some (some .win) ∧
    (Board.run zeroKeys ⟨passModel, []⟩ (chase ++ [.pushPass, .pushPass, .popPass, .popPass] ++ [quiet 6 10 9])).map
      (fun b => b.pos.isDraw 2147483647) = some (some .draw) := by
  decide +kernel

/-! ### C38 -/

/-- **C38**: after any sequence of applicable operations, `is_draw` and `move_is_draw` follow only links of the chain of
recorded states, for every ply limit (`move_is_draw`: except the smallest `int`, for which the limit overflows). -/
theorem C38_inside (Z : Zobrist) (p : Position) (hp : Inv Z p) (hf : p.st.pliesFromNull ≤ p.prev.length) (ops : List Op)
    (ho : AllApplicable Z ⟨p, []⟩ ops) :
    ∃ b, Board.run Z ⟨p, []⟩ ops = some b ∧ (∀ limit, b.pos.isDraw limit ≠ none) ∧
      ∀ m limit, -2147483648 < limit → b.pos.moveIsDraw Z m limit ≠ none := by
  obtain ⟨b, e, hb⟩ := (Chain.base (p0 := p) p.st.continuousCheck hp).run ops ho
  have := hb.recorded hf
  exact ⟨b, e, fun n => isDraw_safe this n, fun m n hn => moveIsDraw_safe Z this m n hn⟩

/-- Both do follow links: four moves are enough. -/
example : passModel.st.pliesFromNull ≤ passModel.prev.length ∧ AllApplicable zeroKeys ⟨passModel, []⟩ shuffle ∧
    (Board.run zeroKeys ⟨passModel, []⟩ shuffle).map (fun b => b.pos.isDraw 2147483647) = some (some .draw) := by
  refine ⟨by decide +kernel, ?_, by decide +kernel⟩
  exact passModel_chain.applicable shuffle
    ((playB_legal passModel_regular passModel_chain shuffle (by decide +kernel)).mono fun _ _ h => h.1)

/-! ### C39 -/

/-- **C39** (partial): whenever `move_is_draw(m)` reports no repetition, `is_draw()` after the move reports no repetition or
a superior or inferior position; no assumption on hashes is needed. -/
theorem C39_not_partial (Z : Zobrist) (p : Position) (hp : Inv Z p) (hf : p.st.pliesFromNull ≤ p.prev.length) (ops : List Op)
    (ho : AllApplicable Z ⟨p, []⟩ ops) :
    ∃ b, Board.run Z ⟨p, []⟩ ops = some b ∧ ∀ m, (absPos b.pos).Playable m →
      ∃ p', doMove Z b.pos (encode b.pos m) = some p' ∧ ∀ limit, -2147483648 < limit →
        b.pos.moveIsDraw Z (encode b.pos m) limit = some .none →
        p'.isDraw limit = some .none ∨ p'.isDraw limit = some .superior ∨ p'.isDraw limit = some .inferior := by
  obtain ⟨b, e, hb⟩ := (Chain.base (p0 := p) p.st.continuousCheck hp).run ops ho
  refine ⟨b, e, fun m hm => ?_⟩
  obtain ⟨p', he, -⟩ := doMove_inv Z hb.inv hm
  refine ⟨p', he, fun n hn h => ?_⟩
  have hk := (getKeyAfter_eq Z hb.inv.views hm he).1
  rcases moveIsDraw_start he n hn (hb.recorded hf) with ⟨-, h2⟩ | ⟨-, h2, h3⟩
  · exact .inl h2
  · rw [h2] at h
    rw [h3]
    exact loops_not (Z := Z) (p := b.pos) hk _ _ _ h

/-- **C39** (partial): `move_is_draw(m)` equals `is_draw()` after `push(m)` if, among the positions that `is_draw` looks at,
(A) none has the same board with other hands, one side having at least as much, (B) the repeated position is not the first of
the record (the set-up position, or the one after a pass), and (C) it is not a repetition in which both sides gave check with
every move. Different positions must have different hashes.

Missing: without (A) and (B) the equation is false, see `C39_fails` and `C39_fails_hands`. -/
theorem C39_agree_partial (Z : Zobrist) (p : Position) (hp : Inv Z p) (hc : CheckOK p) (hw : ¬ (absPos p).InCheck p.turn.opp)
    (hf : Fresh p) (ops : List Op) (ho : Always (fun b o => LegalOp b o ∧ CleanPass b o) Z ⟨p, []⟩ ops) :
    ∃ g, Game.run Z ⟨⟨p, []⟩, [], []⟩ ops = some g ∧ Board.run Z ⟨p, []⟩ ops = some g.board ∧
      ∀ m, (absPos g.board.pos).Safe m → ∃ p', doMove Z g.board.pos (encode g.board.pos m) = some p' ∧
        ∀ limit, -2147483648 < limit →
          let q := absPos p'
          let past := absPos g.board.pos :: g.past
          NoCollision Z q past limit →
          (∀ (d : Nat) (r : Pos), Distance limit d → (q :: past)[d]? = some r → q.Recurs r → r = q) →
          (∀ d : Nat, Distance limit d → (q :: past)[d]? = some q → d < past.length) →
          (∀ d : Nat, Distance limit d → (q :: past)[d]? = some q →
            ¬ (Perpetual (q :: past) .black d ∧ Perpetual (q :: past) .white d)) →
          g.board.pos.moveIsDraw Z (encode g.board.pos m) limit = p'.isDraw limit := by
  obtain ⟨g, e1, e2, hg⟩ := GameLine.run (g := ⟨⟨p, []⟩, [], []⟩) (GameLine.fresh True hp hc hw hf) ops
    (ho.mono fun b o h => ⟨h.1, fun _ => h.2, fun _ => trivial⟩)
  refine ⟨g, e1, e2, fun m hm => ?_⟩
  obtain ⟨i1, i2, i3⟩ := hg.chain.good
  obtain ⟨p', he, hi', -⟩ := doMove_safe Z i1 i3 hm
  refine ⟨p', he, fun limit hn => ?_⟩
  intro q past hcol hA hB hC
  have hr := hg.recorded
  have hr' := (GameLine.push _ _ _ _ _ hg hm he).recorded
  obtain ⟨r1, r2, r3, r4⟩ := doMove_record he
  have hk := (getKeyAfter_eq Z i1.views (pseudo_playable hm.1 i3) he).1
  have hlen : g.board.pos.st.pliesFromNull ≤ g.board.pos.prev.length := by
    rw [hr.plies]
    by_cases h0 : g.past.length = 0
    · omega
    · obtain ⟨st, h1, -⟩ := hr.recs g.past.length _ (List.getElem?_eq_getElem (by simp))
      have := (List.getElem?_eq_some_iff.mp h1).1
      simp at this; omega
  rcases moveIsDraw_start he limit hn hlen with ⟨h1, h2⟩ | ⟨h4, h2, h3⟩
  · rw [h1, h2]
  · rw [h2, h3, hk]
    have hpl : g.board.pos.st.pliesFromNull + 1 = ((absPos g.board.pos :: g.past).length : Int) := by
      rw [hr.plies]; simp
    rw [hpl] at h4 ⊢
    have := loops_agree hi' hr' hr limit r3 (by rw [r4, upd_ne _ _ (opp_ne _)]) hcol hA
      (fun d hd hr => by have := hB d hd hr; simp [past] at this; omega) hC past.length 4 (by show past.length ≤ 4 + past.length; omega) (by omega) rfl
      (by push_cast; exact h4)
    exact this

/-- The theorem applies to the perpetual check above: both functions say that White wins. -/
example : ∃ g p', Game.run zeroKeys ⟨⟨passModel, []⟩, [], []⟩ chase = some g ∧ (absPos g.board.pos).Safe (.move 10 9 false) ∧
    doMove zeroKeys g.board.pos (encode g.board.pos (.move 10 9 false)) = some p' ∧
    g.board.pos.moveIsDraw zeroKeys (encode g.board.pos (.move 10 9 false)) 2147483647 = some .win ∧
    NoCollision zeroKeys (absPos p') (absPos g.board.pos :: g.past) 2147483647 ∧
    (∀ (d : Nat) (r : Pos), Distance 2147483647 d → (absPos p' :: absPos g.board.pos :: g.past)[d]? = some r →
      (absPos p').Recurs r → r = absPos p') ∧
    (∀ d : Nat, Distance 2147483647 d → (absPos p' :: absPos g.board.pos :: g.past)[d]? = some (absPos p') →
      d < (absPos g.board.pos :: g.past).length) ∧
    ∀ d : Nat, Distance 2147483647 d → (absPos p' :: absPos g.board.pos :: g.past)[d]? = some (absPos p') →
      ¬ (Perpetual (absPos p' :: absPos g.board.pos :: g.past) .black d ∧
        Perpetual (absPos p' :: absPos g.board.pos :: g.past) .white d) := by
  have hlegal := playB_legal passModel_regular passModel_chain (chase ++ [quiet 6 10 9]) (by decide +kernel)
  have hleg1 := Always.left hlegal
  obtain ⟨g, e1, e2, hg⟩ := GameLine.run (g := ⟨⟨passModel, []⟩, [], []⟩) (GameLine.fresh True passModel_spec.1
    passModel_checkOK passModel_waiting ⟨fun c => by cases c <;> decide +kernel, by decide +kernel⟩) chase
    (hleg1.mono fun b o h => ⟨h.1, fun _ => h.2, fun _ => trivial⟩)
  obtain ⟨⟨⟨mv, hmv, hl⟩, -⟩, -⟩ := Always.right hlegal e2
  have key : (Game.run zeroKeys ⟨⟨passModel, []⟩, [], []⟩ chase).map (fun g => decide (g.past.length = 4) &&
      (match doMove zeroKeys g.board.pos (encode g.board.pos (.move 10 9 false)) with
        | some p' => (match g.past[2]? with | some r => sameB r (absPos p') | none => false)
        | none => false) && !inCheckB g.board.pos .black && decide (g.board.pos.turn = .black) &&
      decide (encode g.board.pos (.move 10 9 false) = boardMove (fun u => if u = 10 then 6 else 0) 10 9 false) &&
      decide (g.board.pos.moveIsDraw zeroKeys (encode g.board.pos (.move 10 9 false)) 2147483647 = some .win)) =
      some true := by decide +kernel
  rw [e1] at key
  simp only [Option.map_some, Option.some.injEq, Bool.and_eq_true, decide_eq_true_eq] at key
  obtain ⟨⟨⟨⟨⟨k1, k2⟩, k3⟩, k3'⟩, k4⟩, k5⟩ := key
  have hmv' : mv = .move 10 9 false := encode_inj _ (hmv.symm.trans k4.symm)
  subst hmv'
  obtain ⟨p', he, -⟩ := doMove_safe zeroKeys hg.chain.good.1 hg.chain.good.2.2 hl.1
  rw [he] at k2
  have hd4 : ∀ (d : Nat) (r : Pos), Distance 2147483647 d → (absPos p' :: absPos g.board.pos :: g.past)[d]? = some r →
      d = 4 ∧ r = absPos p' := by
    rintro d r ⟨d1, d2, -⟩ hd
    have hlt := (List.getElem?_eq_some_iff.mp hd).1
    simp only [List.length_cons, k1] at hlt
    have : d = 4 := by omega
    subst this
    have hd' : g.past[2]? = some r := hd
    simp only [hd'] at k2
    exact ⟨rfl, sameB_eq k2⟩
  refine ⟨g, p', e1, hl.1, he, k5, ?_, fun d r h1 h2 _ => (hd4 d r h1 h2).2, fun d h1 h2 => ?_, fun d h1 h2 => ?_⟩
  · intro d r h1 h2
    have := (hd4 d r h1 h2).2
    exact ⟨fun _ => this, fun _ => by rw [this]; exact ⟨rfl, rfl⟩⟩
  · rw [(hd4 d _ h1 h2).1]; simp [k1]
  · obtain ⟨rfl, -⟩ := hd4 d _ h1 h2
    rintro ⟨-, hw⟩
    have := hw 1 (by omega) (absPos g.board.pos) rfl k3'
    rw [← inCheckB_iff hg.chain.good.1.views] at this
    replace this : inCheckB g.board.pos .black = true := this
    rw [this] at k3
    cases k3

/-- White's king on 5a is in check from a rook on 2a; Black's king is on 5i; White to move. -/
def chkBoard (s : Square) : Option (Color × Kind) :=
  if s = 36 then some (.white, .king) else if s = 44 then some (.black, .king)
  else if s = 9 then some (.black, .rook) else none

def chkModel : Position := setPieces zeroKeys { clear with turn := .white } (fun s => pieceCode (chkBoard s)) (fun _ _ => 0)

/-- **C39** fails: from that position K5a-5b R2a-2b+ K5b-5a; now R2b-2a repeats the position, Black having checked with
every move. `move_is_draw` calls it a draw; `is_draw` after the move says that White wins. -/
theorem C39_fails :
    (Board.run zeroKeys ⟨chkModel, []⟩ [quiet 24 36 37, quiet 6 9 10, quiet 24 37 36]).map
      (fun b => (b.pos.moveIsDraw zeroKeys (boardMove (fun u => if u = 10 then 6 else 0) 10 9 false) 2147483647,
        (b.step zeroKeys (quiet 6 10 9)).map fun b' => b'.pos.isDraw 2147483647)) =
      some (some .draw, some (some .win)) := by
  decide +kernel

/-- Some tables of hash numbers. -/
def someKeys : Zobrist where
  board pt s c := BitVec.ofNat 64 (2 * ((pt + 3) ^ 5 * (s.val + 7) ^ 4 + (pt + s.val * s.val + 1) ^ 3 * (c.idx + 1)))
  hand hp c := BitVec.ofNat 64 (2 * ((hp + 11) ^ 7 * (c.idx + 5) ^ 3))
  board_even pt s c := by rw [BitVec.getLsbD_ofNat]; simp [Nat.testBit_zero]
  hand_even hp c := by rw [BitVec.getLsbD_ofNat]; simp [Nat.testBit_zero]

/-- Kings on 5a and 5i, a black rook on 2h, a white pawn on 2d and another in White's hand; Black to move. -/
def pawnBoard (s : Square) : Option (Color × Kind) := if s = 12 then some (.white, .pawn) else passBoard s

def pawnModel : Position := setPieces someKeys clear (fun s => pieceCode (pawnBoard s))
  (fun c h => if c = .white ∧ h = 0 then 1 else 0)

/-- **C39** fails: Rx2d K5a-5b R2d-2h P*2d K5i-5h K5b-4a K5h-5i; now K4a-5a gives the first position with a pawn more for
Black. `move_is_draw` sees no repetition; `is_draw` after the move says superior. -/
theorem C39_fails_hands :
    (Board.run someKeys ⟨pawnModel, []⟩ [.push (boardMove (fun u => pieceCode (pawnBoard u)) 16 12 false), quiet 24 36 37,
      quiet 6 12 16, .push (makeDropMove 1 12), quiet 8 44 43, quiet 24 37 27, quiet 8 43 44]).map
      (fun b => (b.pos.moveIsDraw someKeys (boardMove (fun u => if u = 27 then 24 else 0) 27 36 false) 2147483647,
        (b.step someKeys (quiet 24 27 36)).map fun b' => b'.pos.isDraw 2147483647)) =
      some (some .none, some (some .superior)) := by
  decide +kernel

end Verif
