import Verif.Spec.Repetition
import Verif.Props.Checks
import Verif.Props.Hands

/-!
# Repetition: the state chain is the record of the game
-/

namespace Verif
open Spec Bitboard Position

/-- Games from `p0`: the positions since the last pass, nearest first (without the current one), what to return to when
moves and passes are taken back, and the board. With `strict`, passes are made only when the opponent's perpetual-check
counter is 0. -/
inductive GameLine (Z : Zobrist) (p0 : Position) (strict : Prop) : List Pos → List (List Pos) → Board → Prop
  | base : Inv Z p0 → CheckOK p0 → ¬ (absPos p0).InCheck p0.turn.opp → (∀ c, 0 ≤ p0.st.continuousCheck c) →
      p0.st.pliesFromNull = 0 → GameLine Z p0 strict [] [] ⟨p0, []⟩
  | push (h : List Pos) (saved : List (List Pos)) (b : Board) (m : Mv) (p' : Position) : GameLine Z p0 strict h saved b →
      (absPos b.pos).Safe m → doMove Z b.pos (encode b.pos m) = some p' →
      GameLine Z p0 strict (absPos b.pos :: h) (h :: saved) ⟨p', .move (encode b.pos m) :: b.hist⟩
  | pass (h : List Pos) (saved : List (List Pos)) (b : Board) : GameLine Z p0 strict h saved b → b.pos.inCheck = false →
      (strict → b.pos.st.continuousCheck b.pos.turn.opp = 0) →
      GameLine Z p0 strict [] (h :: saved) ⟨(doNull b.pos).1, .pass (doNull b.pos).2 :: b.hist⟩

theorem GameLine.chain {Z : Zobrist} {p0 : Position} {strict : Prop} {h : List Pos} {saved : List (List Pos)}
    {b : Board} (hl : GameLine Z p0 strict h saved b) :
    LChain Z p0 b := by
  induction hl with
  | base h1 h2 h3 => exact .base p0.st.continuousCheck h1 h2 h3
  | push h saved b m p' hb hm he ih => exact .push b m p' p'.st.continuousCheck ih hm he
  | pass h saved b hb hn _ ih => exact .pass b (doNull b.pos).1.st.continuousCheck ih hn

/-- The counters a move writes. -/
theorem doMove_record {Z : Zobrist} {p p' : Position} {m : Move} (he : doMove Z p m = some p') :
    p'.prev = p.st :: p.prev ∧ p'.st.pliesFromNull = p.st.pliesFromNull + 1 ∧ p'.turn = p.turn.opp ∧
    p'.st.continuousCheck = upd p.st.continuousCheck p.turn (if p.moveGivesCheck m then p.st.continuousCheck p.turn + 2 else 0) := by
  unfold doMove at he
  split at he
  · split at he <;> (cases he; exact ⟨rfl, rfl, rfl, rfl⟩)
  · cases he

/-- A record entry belongs to a position. -/
def RecOf (Z : Zobrist) (st : StateInfo) (q : Pos) : Prop := ∃ p, Inv Z p ∧ p.st = st ∧ absPos p = q

/-- What the counters say about the record. -/
def CountsOK (q : Pos) (h : List Pos) (cc : Color → Int) : Prop :=
  (∀ d : Nat, d % 2 = 0 → d ≤ h.length → ((d : Int) ≤ cc q.turn ↔ Perpetual (q :: h) q.turn d)) ∧
  (∀ d : Nat, d % 2 = 0 → d ≤ h.length + 1 → ((d : Int) ≤ cc q.turn.opp ↔ Perpetual (q :: h) q.turn.opp d))

/-- The sides alternate. -/
def Alternate : List Pos → Prop
  | [] => True
  | [_] => True
  | q :: r :: l => r.turn = q.turn.opp ∧ Alternate (r :: l)

theorem Alternate.turn {l : List Pos} {q : Pos} (ha : Alternate (q :: l)) (j : Nat) (r : Pos) (hr : (q :: l)[j]? = some r) :
    r.turn = if j % 2 = 0 then q.turn else q.turn.opp := by
  induction l generalizing q j with
  | nil =>
    cases j with
    | zero => cases hr; rfl
    | succ j => simp at hr
  | cons s l ih =>
    cases j with
    | zero => cases hr; rfl
    | succ j =>
      have := ih ha.2 j hr
      rw [this, ha.1]
      by_cases h2 : j % 2 = 0
      · rw [if_pos h2, if_neg (by omega)]
      · rw [if_neg h2, if_pos (by omega), opp_opp]

theorem perpetual_mover {q' q : Pos} {h : List Pos} (ha : Alternate (q' :: q :: h)) {d : Nat} (hd : d % 2 = 0) :
    Perpetual (q' :: q :: h) q.turn (d + 2) ↔ q'.InCheck q.turn.opp ∧ Perpetual (q :: h) q.turn d := by
  have ht : q'.turn = q.turn.opp := by rw [ha.1, opp_opp]
  constructor
  · intro hp
    refine ⟨hp 0 (by omega) q' rfl ht, fun j hj r hr hrt => hp (j + 1) (by omega) r hr hrt⟩
  · rintro ⟨h0, hp⟩ j hj r hr hrt
    cases j with
    | zero => cases hr; exact h0
    | succ j =>
      have hjr : (q :: h)[j]? = some r := hr
      by_cases h1 : j < d
      · exact hp j h1 r hjr hrt
      · exfalso
        have hjd : j = d := by omega
        have := ha.2.turn j r hjr
        rw [if_pos (by omega), hrt] at this
        exact opp_ne q.turn this

theorem perpetual_other {q' q : Pos} {h : List Pos} (ha : Alternate (q' :: q :: h)) {d : Nat} (hd : d % 2 = 0) :
    Perpetual (q' :: q :: h) q.turn.opp d ↔ Perpetual (q :: h) q.turn.opp d := by
  have ht : q'.turn = q.turn.opp := by rw [ha.1, opp_opp]
  constructor
  · intro hp j hj r hr hrt
    by_cases h1 : j + 1 < d
    · exact hp (j + 1) h1 r hr hrt
    · exfalso
      have := ha.2.turn j r hr
      rw [if_neg (by omega), hrt] at this
      exact opp_ne q.turn.opp this
  · intro hp j hj r hr hrt
    cases j with
    | zero =>
      cases hr
      exfalso
      rw [ht] at hrt
      exact opp_ne _ hrt.symm
    | succ j => exact hp j (by omega) r hr hrt

/-- Everything the state chain records. -/
structure Recorded (Z : Zobrist) (h : List Pos) (p : Position) : Prop where
  plies : p.st.pliesFromNull = h.length
  recs : ∀ (d : Nat) (r : Pos), (absPos p :: h)[d]? = some r → ∃ st, (p.st :: p.prev)[d]? = some st ∧ RecOf Z st r
  alt : Alternate (absPos p :: h)
  nonneg : ∀ c, 0 ≤ p.st.continuousCheck c
  counts : CountsOK (absPos p) h p.st.continuousCheck

theorem countsOK_nil {q : Pos} {cc : Color → Int} (h : ∀ c, 0 ≤ cc c) : CountsOK q [] cc := by
  constructor
  · intro d hd hl
    have : d = 0 := by simpa using hl
    subst this
    refine ⟨fun _ j hj => by omega, fun _ => h _⟩
  · intro d hd hl
    have : d = 0 := by simp at hl; omega
    subst this
    refine ⟨fun _ j hj => by omega, fun _ => h _⟩

theorem GameLine.recorded {Z : Zobrist} {p0 : Position} {strict : Prop} {h : List Pos} {saved : List (List Pos)}
    {b : Board} (hl : GameLine Z p0 strict h saved b) :
    Recorded Z h b.pos := by
  induction hl with
  | base h1 h2 h3 h4 h5 =>
    refine ⟨h5, ?_, trivial, h4, countsOK_nil h4⟩
    intro d r hr
    cases d with
    | zero => cases hr; exact ⟨_, rfl, p0, h1, rfl, rfl⟩
    | succ d => simp at hr
  | push h saved b m p' hb hm he ih =>
    obtain ⟨i1, i2, i3⟩ := hb.chain.good
    obtain ⟨p'', e, hi', -, -, ha, -⟩ := doMove_safe Z i1 i3 hm
    rw [he] at e; cases e
    obtain ⟨r1, r2, r3, r4⟩ := doMove_record he
    have hchk := C22_moveGivesCheck b.pos i1.views i3 m hm
    have halt : Alternate (absPos p' :: absPos b.pos :: h) := by
      refine ⟨?_, ih.alt⟩
      show b.pos.turn = p'.turn.opp
      rw [r3, opp_opp]
    refine ⟨by show p'.st.pliesFromNull = _; rw [r2, ih.plies]; simp, ?_, halt, ?_, ?_⟩
    · intro d r hr
      cases d with
      | zero => cases hr; exact ⟨_, rfl, p', hi', rfl, rfl⟩
      | succ d =>
        obtain ⟨st, h1, h2⟩ := ih.recs d r hr
        refine ⟨st, ?_, h2⟩
        show (p'.st :: p'.prev)[d + 1]? = some st
        rw [r1]; exact h1
    · intro c
      show 0 ≤ p'.st.continuousCheck c
      rw [r4]
      have := ih.nonneg b.pos.turn
      have := ih.nonneg c
      unfold upd
      split
      · split <;> omega
      · assumption
    · obtain ⟨c1, c2⟩ := ih.counts
      have ht' : (absPos p').turn = b.pos.turn.opp := r3
      have ht : (absPos b.pos).turn = b.pos.turn := rfl
      rw [ht] at c1 c2
      constructor
      · intro d hd hdl
        rw [ht']
        show (d : Int) ≤ p'.st.continuousCheck _ ↔ _
        rw [r4, upd_ne _ _ (opp_ne b.pos.turn), c2 d hd (by simpa using hdl)]
        exact (perpetual_other halt hd).symm
      · intro d hd hdl
        rw [ht', opp_opp]
        show (d : Int) ≤ p'.st.continuousCheck _ ↔ _
        rw [r4, upd_same]
        by_cases h0 : d = 0
        · subst h0
          have := ih.nonneg b.pos.turn
          refine ⟨fun _ j hj => by omega, fun _ => by split <;> omega⟩
        · obtain ⟨d', rfl⟩ : ∃ d', d = d' + 2 := ⟨d - 2, by omega⟩
          have := perpetual_mover halt (d := d') (by omega)
          rw [ht] at this
          rw [this, ← c1 d' (by omega) (by simp at hdl; omega), ha, ← hchk]
          have hn := ih.nonneg b.pos.turn
          by_cases hg : b.pos.moveGivesCheck (encode b.pos m) = true
          · rw [if_pos hg]; simp only [hg, true_and]; push_cast; omega
          · rw [if_neg hg]; simp only [hg, false_and]; push_cast; simp; omega
  | pass h saved b hb hn hs ih =>
    obtain ⟨i1, i2, i3⟩ := hb.chain.good
    have hnn : ∀ c, 0 ≤ (doNull b.pos).1.st.continuousCheck c := by
      intro c
      show 0 ≤ upd b.pos.st.continuousCheck b.pos.turn.opp 0 c
      have := ih.nonneg c
      unfold upd
      split
      · exact le_refl _
      · assumption
    refine ⟨rfl, ?_, trivial, hnn, countsOK_nil hnn⟩
    intro d r hr
    cases d with
    | zero => cases hr; exact ⟨_, rfl, _, i1.doNull, rfl, rfl⟩
    | succ d => simp at hr

/-- A board together with its record: the positions shown since the last pass, and those to return to. -/
structure Game where
  board : Board
  past : List Pos
  saved : List (List Pos)

/-- One operation, the record being kept from the positions the board shows. -/
def Game.step (Z : Zobrist) (g : Game) (o : Op) : Option Game :=
  (g.board.step Z o).map fun b => match o with
    | .push _ => ⟨b, absPos g.board.pos :: g.past, g.past :: g.saved⟩
    | .pushPass => ⟨b, [], g.past :: g.saved⟩
    | _ => ⟨b, g.saved.headD [], g.saved.tail⟩

/-- A sequence of operations. -/
def Game.run (Z : Zobrist) (g : Game) : List Op → Option Game
  | [] => some g
  | o :: os => (g.step Z o).bind fun g' => g'.run Z os

/-- Popping passes is allowed only in the strict case. -/
def PopOK (strict : Prop) (b : Board) (o : Op) : Prop :=
  LegalOp b o ∧ (strict → CleanPass b o) ∧ (o = .popPass → strict)

theorem GameLine.step {Z : Zobrist} {p0 : Position} {strict : Prop} {g : Game} (hl : GameLine Z p0 strict g.past g.saved g.board)
    {o : Op} (ho : PopOK strict g.board o) :
    ∃ b' g', g.board.step Z o = some b' ∧ g.step Z o = some g' ∧ g'.board = b' ∧ GameLine Z p0 strict g'.past g'.saved g'.board := by
  obtain ⟨b, h, saved⟩ := g
  replace hl : GameLine Z p0 strict h saved b := hl
  obtain ⟨ho, hc, hs⟩ := ho
  replace ho : LegalOp b o := ho
  obtain ⟨i1, i2, i3⟩ := hl.chain.good
  cases o with
  | push m =>
    obtain ⟨mv, rfl, hm⟩ := ho
    obtain ⟨p', e, -⟩ := doMove_safe Z i1 i3 hm.1
    have e1 : b.step Z (.push (encode b.pos mv)) = some ⟨p', .move (encode b.pos mv) :: b.hist⟩ := by
      simp [Board.step, Board.push, e]
    exact ⟨_, ⟨⟨p', _⟩, absPos b.pos :: h, h :: saved⟩, e1, by simp only [Game.step, e1, Option.map_some], rfl, .push h saved b mv p' hl hm.1 e⟩
  | pop =>
    obtain ⟨m, hist, hh⟩ := ho
    cases hl with
    | base => simp at hh
    | push h saved b m' p' hb hm he =>
      obtain ⟨p'', e, -, -, -, -, hu⟩ := doMove_safe Z hb.chain.good.1 hb.chain.good.2.2 hm
      rw [he] at e; cases e
      have e1 : Board.step Z ⟨p', .move (encode b.pos m') :: b.hist⟩ .pop = some b := by
        simp [Board.step, Board.pop, hu]
      exact ⟨_, ⟨b, h, saved⟩, e1, by simp only [Game.step, e1, Option.map_some]; rfl, rfl, hb⟩
    | pass h saved b hb hn => simp at hh
  | pushPass =>
    have hn : b.pos.inCheck = false := ho
    have e1 : b.step Z .pushPass = some ⟨(doNull b.pos).1, .pass (doNull b.pos).2 :: b.hist⟩ := by
      simp [Board.step, Board.pushPass, hn]
    exact ⟨_, ⟨⟨(doNull b.pos).1, _⟩, [], h :: saved⟩, e1, by simp only [Game.step, e1, Option.map_some], rfl, .pass h saved b hl hn hc⟩
  | popPass =>
    obtain ⟨bk, hist, hh⟩ := ho
    cases hl with
    | base => simp at hh
    | push h saved b m' p' hb hm he => simp at hh
    | pass h saved b hb hn hz =>
      have e1 : Board.step Z ⟨(doNull b.pos).1, .pass (doNull b.pos).2 :: b.hist⟩ .popPass = some b := by
        simp only [Board.step, Board.popPass, undo_doNull hb.chain.good.1.keys]
        rw [upd_self _ _ _ (hz (hs rfl)), withCC_self]
      exact ⟨_, ⟨b, h, saved⟩, e1, by simp only [Game.step, e1, Option.map_some]; rfl, rfl, hb⟩

theorem GameLine.run {Z : Zobrist} {p0 : Position} {strict : Prop} {g : Game} (hl : GameLine Z p0 strict g.past g.saved g.board)
    (ops : List Op) (ho : Always (PopOK strict) Z g.board ops) :
    ∃ g', g.run Z ops = some g' ∧ g.board.run Z ops = some g'.board ∧ GameLine Z p0 strict g'.past g'.saved g'.board := by
  induction ops generalizing g with
  | nil => exact ⟨g, rfl, rfl, hl⟩
  | cons o os ih =>
    obtain ⟨b1, g1, e1, e2, e3, h1⟩ := hl.step ho.1
    obtain ⟨g2, e4, e5, h2⟩ := ih h1 (by rw [e3]; exact ho.2 b1 e1)
    refine ⟨g2, by simp [Game.run, e2, e4], ?_, h2⟩
    simp only [Board.run, e1, Option.bind_some, ← e3, e5]

/-! ### The keys -/

theorem recKey_spec (Z : Zobrist) (p : Position) (hp : Inv Z p) : p.st.boardKey = specBoardKey Z (absPos p) :=
  boardKey_spec Z p hp.views.code hp.keys

theorem key_spec (Z : Zobrist) (p : Position) (hp : Inv Z p) : p.st.key = specKey Z (absPos p) :=
  getKey_spec Z p hp.views.code hp.keys

theorem superior_spec {Z : Zobrist} {p p' : Position} (hp : Inv Z p) (hp' : Inv Z p') (ht : p'.turn = p.turn) :
    p.st.hand.isEqualOrSuperior p'.st.hand = true ↔ (absPos p).HandGE (absPos p') := by
  rw [hp.keys.stHand, hp'.keys.stHand, ht, C10_superior_iff _ _ _ _ (hand_is hp.views p.turn) (hand_is hp'.views p.turn)]
  constructor
  · intro h k; exact h k.code (by cases k <;> decide)
  · intro h i hi
    obtain ⟨k, rfl⟩ := hcode_surj i hi
    exact h k

/-- Among the positions looked at, equal keys mean equal positions, and equal board keys mean the same placement and side
to move. -/
def NoCollision (Z : Zobrist) (q : Pos) (h : List Pos) (limit : Int) : Prop :=
  ∀ (d : Nat) (r : Pos), Distance limit d → (q :: h)[d]? = some r →
    (specKey Z r = specKey Z q → r = q) ∧ (specBoardKey Z r = specBoardKey Z q → r.board = q.board ∧ r.turn = q.turn)

theorem Recorded.drop {Z : Zobrist} {h : List Pos} {p : Position} (hr : Recorded Z h p) {i : Nat} (h4 : 4 ≤ i) (hi : i ≤ h.length) :
    ∃ s st r, p.prev.drop (i - 2) = s :: st :: p.prev.drop i ∧ (absPos p :: h)[i]? = some r ∧ RecOf Z st r := by
  have hlen : i < (absPos p :: h).length := by simp; omega
  obtain ⟨st, h1, h2⟩ := hr.recs i _ (List.getElem?_eq_getElem hlen)
  refine ⟨p.prev[i - 2]'?_, st, _, ?_, List.getElem?_eq_getElem hlen, h2⟩
  · have := (List.getElem?_eq_some_iff.mp h1).1
    simp at this; omega
  · obtain ⟨hb, h1⟩ := List.getElem?_eq_some_iff.mp h1
    have hb' : i ≤ p.prev.length := by simp at hb; omega
    rw [List.drop_eq_getElem_cons (by omega), show i - 2 + 1 = i - 1 by omega, List.drop_eq_getElem_cons (by omega),
      show i - 1 + 1 = i by omega]
    have : (p.st :: p.prev)[i]'hb = p.prev[i - 1]'(by omega) := by
      obtain ⟨j, rfl⟩ : ∃ j, i = j + 1 := ⟨i - 1, by omega⟩
      rfl
    rw [← this, h1]

theorem drawLoop_spec {Z : Zobrist} {h : List Pos} {p : Position} (hp : Inv Z p) (hr : Recorded Z h p) (limit : Int)
    (hc : NoCollision Z (absPos p) h limit) (n : Nat) : ∀ i : Nat, h.length ≤ i + n → 4 ≤ i → i % 2 = 0 →
    (i : Int) ≤ min (h.length : Int) limit →
    (∀ (d' : Nat) r', Distance limit d' → d' < i → (absPos p :: h)[d']? = some r' → ¬ (absPos p).Recurs r') →
    ∃ v, drawLoop p (min (h.length : Int) limit) (p.prev.drop (i - 2)) i = some v ∧ IsVerdict (absPos p) h limit v := by
  induction n with
  | zero | succ n ih =>
    intro i hn h4 h2 hle hno
    have hil : i ≤ h.length := by omega
    obtain ⟨s, st, r, e, hri, p1, hp1, rfl, rfl⟩ := hr.drop h4 hil
    have hD : Distance limit i := ⟨h4, h2, by omega⟩
    obtain ⟨k1, k2⟩ := hc i _ hD hri
    rw [← key_spec Z p1 hp1, ← key_spec Z p hp] at k1
    rw [← recKey_spec Z p1 hp1, ← recKey_spec Z p hp] at k2
    rw [e]
    unfold drawLoop
    obtain ⟨c1, c2⟩ := hr.counts
    by_cases hk : p1.st.key = p.st.key
    · rw [if_pos hk]
      have hq := k1 hk
      have hrec : (absPos p).Recurs (absPos p1) := by rw [hq]; exact ⟨rfl, rfl, .inl rfl⟩
      have c1 := c1 i h2 hil
      have c2 := c2 i h2 (by omega)
      rw [show (absPos p).turn = p.turn from rfl] at c1 c2
      by_cases hl : (i : Int) ≤ p.st.continuousCheck p.turn
      · rw [if_pos hl]
        exact ⟨_, rfl, .inl ⟨i, _, hD, hri, hrec, ⟨hq, c1.mp hl⟩, hno⟩⟩
      · rw [if_neg hl]
        by_cases hw : (i : Int) ≤ p.st.continuousCheck p.turn.opp
        · rw [if_pos hw]
          exact ⟨_, rfl, .inl ⟨i, _, hD, hri, hrec, ⟨hq, fun hh => hl (c1.mpr hh), c2.mp hw⟩, hno⟩⟩
        · rw [if_neg hw]
          exact ⟨_, rfl, .inl ⟨i, _, hD, hri, hrec, ⟨hq, fun hh => hl (c1.mpr hh), fun hh => hw (c2.mpr hh)⟩, hno⟩⟩
    · rw [if_neg hk]
      have hq : absPos p1 ≠ absPos p := by
        intro hh
        apply hk
        rw [key_spec Z p1 hp1, key_spec Z p hp, hh]
      by_cases hs : p1.st.boardKey = p.st.boardKey ∧ p.st.hand.isEqualOrSuperior p1.st.hand = true
      · rw [if_pos hs]
        obtain ⟨b1, b2⟩ := k2 hs.1
        have hge := (superior_spec hp hp1 b2).mp hs.2
        exact ⟨_, rfl, .inl ⟨i, _, hD, hri, ⟨b1, b2, .inr (.inl hge)⟩, ⟨hq, hge⟩, hno⟩⟩
      · rw [if_neg hs]
        by_cases hf : p1.st.boardKey = p.st.boardKey ∧ p1.st.hand.isEqualOrSuperior p.st.hand = true
        · rw [if_pos hf]
          obtain ⟨b1, b2⟩ := k2 hf.1
          have hge := (superior_spec hp1 hp b2.symm).mp hf.2
          have hng : ¬ (absPos p).HandGE (absPos p1) := fun hh => hs ⟨hf.1, (superior_spec hp hp1 b2).mpr hh⟩
          exact ⟨_, rfl, .inl ⟨i, _, hD, hri, ⟨b1, b2, .inr (.inr hge)⟩, ⟨hq, hng, hge⟩, hno⟩⟩
        · rw [if_neg hf]
          have hnr : ¬ (absPos p).Recurs (absPos p1) := by
            rintro ⟨b1, b2, b3⟩
            have hbk : p1.st.boardKey = p.st.boardKey := by
              rw [recKey_spec Z p1 hp1, recKey_spec Z p hp]
              unfold specBoardKey
              rw [b1, b2]
            rcases b3 with b3 | b3 | b3
            · apply hq
              obtain ⟨x1, x2, x3⟩ : (absPos p1).board = (absPos p).board ∧ (absPos p1).hand = (absPos p).hand ∧
                (absPos p1).turn = (absPos p).turn := ⟨b1, b3, b2⟩
              revert x1 x2 x3
              generalize absPos p1 = u
              generalize absPos p = w
              rintro x1 x2 x3
              obtain ⟨_, _, _⟩ := u; obtain ⟨_, _, _⟩ := w
              cases x1; cases x2; cases x3; rfl
            · exact hs ⟨hbk, (superior_spec hp hp1 b2).mpr b3⟩
            · exact hf ⟨hbk, (superior_spec hp1 hp b2.symm).mpr b3⟩
          have hno' : ∀ (d' : Nat) r', Distance limit d' → d' < i + 2 → (absPos p :: h)[d']? = some r' → ¬ (absPos p).Recurs r' := by
            intro d' r' hd' hlt hr'
            by_cases hdi : d' < i
            · exact hno d' r' hd' hdi hr'
            · have : d' = i := by have := hd'.2.1; omega
              subst this
              rw [hri] at hr'; cases hr'
              exact hnr
          by_cases hgo : (i : Int) + 2 ≤ min (h.length : Int) limit
          · rw [if_pos hgo]
            first
            | (exfalso; omega)
            | (obtain ⟨v, e1, e2⟩ := ih (i + 2) (by omega) (by omega) (by omega) (by push_cast; exact hgo) hno'
               refine ⟨v, ?_, e2⟩
               rw [show i + 2 - 2 = i by omega] at e1
               push_cast at e1
               exact e1)
          · rw [if_neg hgo]
            refine ⟨_, rfl, .inr ⟨rfl, fun d r' hd hr' => hno' d r' hd ?_ hr'⟩⟩
            have h1 := (List.getElem?_eq_some_iff.mp hr').1
            simp at h1
            have := hd.2.2
            by_contra hcon
            apply hgo
            omega

theorem isDraw_spec {Z : Zobrist} {h : List Pos} {p : Position} (hp : Inv Z p) (hr : Recorded Z h p) (limit : Int)
    (hc : NoCollision Z (absPos p) h limit) : ∃ v, p.isDraw limit = some v ∧ IsVerdict (absPos p) h limit v := by
  unfold isDraw
  rw [hr.plies]
  by_cases h4 : 4 ≤ min (h.length : Int) limit
  · simp only [h4, if_true]
    obtain ⟨v, e1, e2⟩ := drawLoop_spec hp hr limit hc h.length 4 (by omega) (by omega) rfl (by push_cast; exact h4)
      (fun d' r' hd hlt => by have := hd.1; omega)
    obtain ⟨s, st, r, e, -⟩ := hr.drop (i := 4) (by omega) (by omega)
    refine ⟨v, ?_, e2⟩
    have hlen : 2 ≤ p.prev.length := by
      have := congrArg List.length e
      simp at this; omega
    match hpv : p.prev, hlen with
    | a :: b :: l, _ =>
      rw [hpv] at e1
      exact e1
  · simp only [h4, if_false]
    refine ⟨_, rfl, .inr ⟨rfl, fun d r hd hr' => ?_⟩⟩
    have h1 := (List.getElem?_eq_some_iff.mp hr').1
    simp at h1
    obtain ⟨d1, -, d3⟩ := hd
    exfalso
    apply h4
    omega

/-! ### Staying inside the chain -/

theorem drawLoop_safe (p : Position) (e : Int) : ∀ (l : List StateInfo) (i : Int), e - i + 2 ≤ l.length → i ≤ e →
    drawLoop p e l i ≠ none
  | [], i, h, hi => by simp at h; omega
  | [_], i, h, hi => by simp at h; omega
  | _ :: stp :: l, i, h, hi => by
    unfold drawLoop
    repeat' split
    all_goals first | (simp; done) | skip
    exact drawLoop_safe p e l (i + 2) (by simp at h; omega) (by assumption)

theorem moveDrawLoop_safe (p : Position) (key : BitVec 64) (e : Int) : ∀ (l : List StateInfo) (i : Int), e - i + 2 ≤ l.length → i ≤ e →
    moveDrawLoop p key e l i ≠ none
  | [], i, h, hi => by simp at h; omega
  | [_], i, h, hi => by simp at h; omega
  | _ :: stp :: l, i, h, hi => by
    unfold moveDrawLoop
    repeat' split
    all_goals first | (simp; done) | skip
    exact moveDrawLoop_safe p key e l (i + 2) (by simp at h; omega) (by assumption)

theorem isDraw_safe {p : Position} (h : p.st.pliesFromNull ≤ p.prev.length) (n : Int) : p.isDraw n ≠ none := by
  unfold isDraw
  by_cases h4 : 4 ≤ min p.st.pliesFromNull n
  · simp only [h4, if_true]
    match hpv : p.prev with
    | [] => rw [hpv] at h; simp at h; omega
    | [_] => rw [hpv] at h; simp at h; omega
    | _ :: _ :: l =>
      refine drawLoop_safe p _ l 4 ?_ h4
      rw [hpv] at h; simp at h; omega
  · simp [h4]

theorem moveIsDraw_safe (Z : Zobrist) {p : Position} (h : p.st.pliesFromNull ≤ p.prev.length) (m : Move) (n : Int)
    (hn : -2147483648 < n) : p.moveIsDraw Z m n ≠ none := by
  unfold moveIsDraw
  rw [if_neg (by omega)]
  by_cases h4 : 4 ≤ min p.st.pliesFromNull (n - 1) + 1
  · simp only [h4, if_true]
    match hpv : p.prev with
    | [] => rw [hpv] at h; simp at h; omega
    | _ :: l =>
      refine moveDrawLoop_safe p _ _ l 4 ?_ h4
      rw [hpv] at h; simp at h; omega
  · simp [h4]

theorem Chain.recorded {Z : Zobrist} {p0 : Position} {b : Board} (hb : Chain Z p0 b) (h0 : p0.st.pliesFromNull ≤ p0.prev.length) :
    b.pos.st.pliesFromNull ≤ b.pos.prev.length := by
  induction hb with
  | base cc hi => exact h0
  | push b m p' cc hb hm he ih =>
    obtain ⟨r1, r2, -⟩ := doMove_record he
    show p'.st.pliesFromNull ≤ p'.prev.length
    rw [r1, r2]; simp; exact ih
  | pass b cc hb hn ih =>
    show (0 : Int) ≤ _
    omega

/-! ### `move_is_draw` against `is_draw` -/

theorem loops_not {Z : Zobrist} {p p' : Position} {key : BitVec 64} (hk : key = p'.st.key) (e : Int) :
    ∀ (l : List StateInfo) (i : Int), moveDrawLoop p key e l i = some .none →
      drawLoop p' e l i = some .none ∨ drawLoop p' e l i = some .superior ∨ drawLoop p' e l i = some .inferior
  | [], i, h => by simp [moveDrawLoop] at h
  | [_], i, h => by simp [moveDrawLoop] at h
  | _ :: stp :: l, i, h => by
    subst hk
    unfold moveDrawLoop at h
    unfold drawLoop
    by_cases h1 : stp.key = p'.st.key
    · rw [if_pos h1] at h
      repeat' split at h
      all_goals cases h
    · rw [if_neg h1] at h
      rw [if_neg h1]
      by_cases h2 : i + 2 ≤ e
      · rw [if_pos h2] at h
        have := loops_not (Z := Z) (p := p) rfl e l (i + 2) h
        repeat' split
        all_goals first | exact .inr (.inl rfl) | exact .inr (.inr rfl) | exact this
      · repeat' split
        all_goals first | exact .inr (.inl rfl) | exact .inr (.inr rfl) | exact .inl rfl

/-- Both functions run the same loop bounds over the same records. -/
theorem moveIsDraw_start {Z : Zobrist} {p p' : Position} {m : Move} (he : doMove Z p m = some p') (n : Int) (hn : -2147483648 < n)
    (hl : p.st.pliesFromNull ≤ p.prev.length) :
    (p.moveIsDraw Z m n = some .none ∧ p'.isDraw n = some .none) ∨
    (4 ≤ min (p.st.pliesFromNull + 1) n ∧
      p.moveIsDraw Z m n = moveDrawLoop p (getKeyAfter Z p m) (min (p.st.pliesFromNull + 1) n) (p'.prev.drop 2) 4 ∧
      p'.isDraw n = drawLoop p' (min (p.st.pliesFromNull + 1) n) (p'.prev.drop 2) 4) := by
  obtain ⟨r1, r2, r3, r4⟩ := doMove_record he
  unfold moveIsDraw isDraw
  rw [r1, r2, if_neg (by omega), show min p.st.pliesFromNull (n - 1) + 1 = min (p.st.pliesFromNull + 1) n by omega]
  by_cases h4 : 4 ≤ min (p.st.pliesFromNull + 1) n
  · right
    refine ⟨h4, ?_⟩
    simp only [h4, if_true]
    match hpv : p.prev with
    | [] => rw [hpv] at hl; simp at hl; omega
    | _ :: l => exact ⟨rfl, rfl⟩
  · left
    simp [h4]

theorem perpetual_same {q' q : Pos} {h : List Pos} (ha : Alternate (q' :: q :: h)) {i : Nat} (hi : i % 2 = 0) (h0 : 0 < i)
    (hr : (q' :: q :: h)[i]? = some q') :
    Perpetual (q :: h) q.turn i ↔ Perpetual (q' :: q :: h) q.turn i := by
  have ht : q'.turn = q.turn.opp := by rw [ha.1, opp_opp]
  constructor
  · intro hp j hj r hrj hrt
    cases j with
    | zero =>
      cases hrj
      obtain ⟨k, rfl⟩ : ∃ k, i = k + 1 := ⟨i - 1, by omega⟩
      exact hp k (by omega) q' hr ht
    | succ j => exact hp j (by omega) r hrj hrt
  · intro hp j hj r hrj hrt
    by_cases h1 : j + 1 < i
    · exact hp (j + 1) h1 r hrj hrt
    · have : j + 1 = i := by omega
      rw [← this] at hr
      have : some r = some q' := by rw [← hrj, ← hr]; rfl
      cases this
      exact hp 0 h0 _ rfl ht

theorem loops_agree {Z : Zobrist} {h : List Pos} {p p' : Position} (hp' : Inv Z p')
    (hr' : Recorded Z (absPos p :: h) p') (hr : Recorded Z h p) (limit : Int) (ht : p'.turn = p.turn.opp)
    (hopp : p'.st.continuousCheck p.turn.opp = p.st.continuousCheck p.turn.opp)
    (hc : NoCollision Z (absPos p') (absPos p :: h) limit)
    (hA : ∀ (d : Nat) (r : Pos), Distance limit d → (absPos p' :: absPos p :: h)[d]? = some r → (absPos p').Recurs r → r = absPos p')
    (hB : ∀ d : Nat, Distance limit d → (absPos p' :: absPos p :: h)[d]? = some (absPos p') → d ≤ h.length)
    (hC : ∀ d : Nat, Distance limit d → (absPos p' :: absPos p :: h)[d]? = some (absPos p') →
      ¬ (Perpetual (absPos p' :: absPos p :: h) .black d ∧ Perpetual (absPos p' :: absPos p :: h) .white d)) (n : Nat) :
    ∀ i : Nat, (absPos p :: h).length ≤ i + n → 4 ≤ i → i % 2 = 0 → (i : Int) ≤ min ((absPos p :: h).length : Int) limit →
    moveDrawLoop p p'.st.key (min ((absPos p :: h).length : Int) limit) (p'.prev.drop (i - 2)) i =
      drawLoop p' (min ((absPos p :: h).length : Int) limit) (p'.prev.drop (i - 2)) i := by
  induction n with
  | zero | succ n ih =>
    intro i hn h4 h2 hle
    have hil : i ≤ (absPos p :: h).length := by omega
    obtain ⟨s, st, r, e, hri, p1, hp1, rfl, rfl⟩ := hr'.drop h4 hil
    have hD : Distance limit i := ⟨h4, h2, by omega⟩
    obtain ⟨k1, k2⟩ := hc i _ hD hri
    rw [← key_spec Z p1 hp1, ← key_spec Z p' hp'] at k1
    rw [← recKey_spec Z p1 hp1, ← recKey_spec Z p' hp'] at k2
    rw [e]
    unfold moveDrawLoop drawLoop
    by_cases hk : p1.st.key = p'.st.key
    · rw [if_pos hk, if_pos hk]
      have hq := k1 hk
      rw [hq] at hri
      have hih := hB i hD hri
      have c1 := hr'.counts.1 i h2 hil
      have c2 := hr'.counts.2 i h2 (by omega)
      have c3 := hr.counts.1 i h2 hih
      rw [show (absPos p').turn = p'.turn from rfl, ht] at c1 c2
      rw [opp_opp] at c2
      rw [show (absPos p).turn = p.turn from rfl] at c3
      have hsame := perpetual_same hr'.alt h2 (by omega) hri
      rw [show (absPos p).turn = p.turn from rfl, ← c2, ← c3] at hsame
      have hnb : ¬ ((i : Int) ≤ p'.st.continuousCheck p.turn ∧ (i : Int) ≤ p'.st.continuousCheck p.turn.opp) := by
        rintro ⟨x1, x2⟩
        apply hC i hD hri
        have y1 := c2.mp x1
        have y2 := c1.mp x2
        cases hpt : p.turn <;> rw [hpt] at y1 y2
        · exact ⟨y1, y2⟩
        · exact ⟨y2, y1⟩
      rw [ht, opp_opp]
      rw [← hopp]
      simp only [hsame]
      by_cases z1 : (i : Int) ≤ p'.st.continuousCheck p.turn
      · have z2 : ¬ (i : Int) ≤ p'.st.continuousCheck p.turn.opp := fun z => hnb ⟨z1, z⟩
        rw [if_pos z1, if_neg z2, if_pos z1]
      · rw [if_neg z1, if_neg z1]
    · rw [if_neg hk, if_neg hk]
      have hq : absPos p1 ≠ absPos p' := by
        intro hh
        apply hk
        rw [key_spec Z p1 hp1, key_spec Z p' hp', hh]
      have n1 : ¬ (p1.st.boardKey = p'.st.boardKey ∧ p'.st.hand.isEqualOrSuperior p1.st.hand = true) := by
        rintro ⟨b, g⟩
        obtain ⟨b1, b2⟩ := k2 b
        exact hq (hA i _ hD hri ⟨b1, b2, .inr (.inl ((superior_spec hp' hp1 b2).mp g))⟩)
      have n2 : ¬ (p1.st.boardKey = p'.st.boardKey ∧ p1.st.hand.isEqualOrSuperior p'.st.hand = true) := by
        rintro ⟨b, g⟩
        obtain ⟨b1, b2⟩ := k2 b
        exact hq (hA i _ hD hri ⟨b1, b2, .inr (.inr ((superior_spec hp1 hp' b2.symm).mp g))⟩)
      rw [if_neg n1, if_neg n2]
      by_cases hgo : (i : Int) + 2 ≤ min ((absPos p :: h).length : Int) limit
      · rw [if_pos hgo, if_pos hgo]
        first
        | (exfalso; omega)
        | (have e1 := ih (i + 2) (by omega) (by omega) (by omega) (by push_cast; exact hgo)
           rw [show i + 2 - 2 = i by omega] at e1
           push_cast at e1 ⊢
           exact e1)
      · rw [if_neg hgo, if_neg hgo]

end Verif
