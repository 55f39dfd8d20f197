import Verif.Spec.Match
import Verif.Model.Env
import Verif.Props.Repetition
import Verif.Props.PositionText

/-!
# Counting positions by their keys
-/

namespace Verif
open Spec Bitboard Position

theorem record_append (P : Pos) (h : List Pos) (mvs : List Mv) (mv : Mv) :
    P.record h (mvs ++ [mv]) = (P.after mvs).play mv :: P.record h mvs := by
  induction mvs generalizing P h with
  | nil => rfl
  | cons m mvs ih => exact ih (P.play m) (P :: h)

theorem record_head (P : Pos) (h : List Pos) (mvs : List Mv) : ∃ t, P.record h mvs = P.after mvs :: t := by
  induction mvs generalizing P h with
  | nil => exact ⟨h, rfl⟩
  | cons m mvs ih => exact ih (P.play m) (P :: h)

/-- The key of a position. -/
noncomputable def keyCount (Z : Zobrist) (l : List Pos) (k : BitVec 64) : Nat := l.countP fun r => decide (specKey Z r = k)

theorem keyCount_cons (Z : Zobrist) (q : Pos) (l : List Pos) : keyCount Z (q :: l) = Env.count (keyCount Z l) (specKey Z q) := by
  funext k
  unfold keyCount Env.count
  rw [List.countP_cons]
  by_cases h : specKey Z q = k
  · rw [if_pos (decide_eq_true h), if_pos h.symm]
  · rw [if_neg (by simpa using h), if_neg (fun e => h e.symm)]; rfl

/-- Without collisions, keys count positions. -/
theorem keyCount_occurrences {Z : Zobrist} {q : Pos} {l : List Pos} (h : ∀ r ∈ l, specKey Z r = specKey Z q → r = q) :
    keyCount Z l (specKey Z q) = occurrences q l := by
  classical
  unfold keyCount occurrences
  refine List.countP_congr fun r hr => ?_
  simp only [decide_eq_true_eq]
  exact ⟨h r hr, fun e => by rw [e]⟩

theorem occurrences_first {q : Pos} {l : List Pos} (h : 0 < occurrences q l) : ∃ d, FirstAt q l d := by
  classical
  have hex : ∃ d : Nat, l[d]? = some q := by
    unfold occurrences at h
    obtain ⟨r, hr, e⟩ := List.countP_pos_iff.mp h
    obtain ⟨d, hd⟩ := List.mem_iff_getElem?.mp hr
    rw [of_decide_eq_true e] at hd
    exact ⟨d, hd⟩
  have hb : ∀ d : Nat, l[d]? = some q → d ≤ l.length := fun d hd => Nat.le_of_lt (List.getElem?_eq_some_iff.mp hd).1
  obtain ⟨d0, h0⟩ := hex
  refine ⟨Nat.findGreatest (fun d : Nat => l[d]? = some q) l.length, Nat.findGreatest_spec (P := fun d : Nat => l[d]? = some q) (hb d0 h0) h0, fun d' hd' => Nat.le_findGreatest (hb d' hd') hd'⟩

/-- Each occurrence is somewhere: with more than `n` of them, the first is at least `n` plies ago. -/
theorem occurrences_le {q : Pos} : ∀ {l : List Pos} {d : Nat}, (∀ d', l[d']? = some q → d' ≤ d) → occurrences q l ≤ d + 1
  | [], _, _ => by unfold occurrences; simp
  | r :: l, d, h => by
    classical
    unfold occurrences
    rw [List.countP_cons]
    cases d with
    | zero =>
      have : l.countP (fun r => decide (r = q)) = 0 := by
        rw [List.countP_eq_zero]
        intro x hx e
        obtain ⟨i, hi⟩ := List.mem_iff_getElem?.mp hx
        have := h (i + 1) (by rw [List.getElem?_cons_succ, hi, of_decide_eq_true e])
        omega
      rw [this]; split <;> omega
    | succ d =>
      have := occurrences_le (q := q) (l := l) (d := d) fun d' hd' => by
        have := h (d' + 1) (by rw [List.getElem?_cons_succ, hd'])
        omega
      unfold occurrences at this
      split <;> omega

/-- What the verdict on the nearest recurrence says about the result. -/
theorem verdict_repeated {q : Pos} {h : List Pos} (ha : Alternate (q :: h)) (hlen : h.length ≤ 2147483647) (h4 : occurrences q (q :: h) = 4)
    (hs : Steady q h) {v : Repetition} (hv : IsVerdict q h 2147483647 v) :
    (v = .lose ∧ Repeated q h (.wins q.turn.opp)) ∨ (v = .win ∧ Repeated q h (.wins q.turn)) ∨ (v = .draw ∧ Repeated q h .draw) := by
  obtain ⟨D, hD⟩ := occurrences_first (q := q) (l := q :: h) (by omega)
  have huniq : ∀ d, FirstAt q (q :: h) d → d = D := fun d hd => Nat.le_antisymm (hD.2 d hd.1) (hd.2 D hD.1)
  have heven : ∀ d, (q :: h)[d]? = some q → d % 2 = 0 := by
    intro d hd
    have := ha.turn d q hd
    by_contra hne
    rw [if_neg hne] at this
    revert this
    cases q.turn <;> decide
  have hD4 : 4 ≤ D := by
    have h1 := occurrences_le (q := q) (l := q :: h) (d := D) hD.2
    have h2 := heven D hD.1
    omega
  have hDl : D < (q :: h).length := (List.getElem?_eq_some_iff.mp hD.1).1
  simp only [List.length_cons] at hDl
  have hrec : q.Recurs q := ⟨rfl, rfl, Or.inl rfl⟩
  rcases hv with ⟨d, r, hd, hr, hrr, hj, -⟩ | ⟨-, hno⟩
  · have hrq : r = q := by
      obtain ⟨d', rfl⟩ : ∃ d', d = d' + 1 := ⟨d - 1, by have := hd.1; omega⟩
      rw [List.getElem?_cons_succ] at hr
      exact hs.1 r (List.mem_of_getElem? hr) hrr
    subst hrq
    have hmono : ∀ c, Perpetual (r :: h) c D → Perpetual (r :: h) c d :=
      fun c hp j hj => hp j (Nat.lt_of_lt_of_le hj (hD.2 d hr))
    have hiff : ∀ c, Perpetual (r :: h) c d ↔ Perpetual (r :: h) c D := fun c => ⟨hs.2.1 d D c hd.1 hr hD, hmono c⟩
    have hboth := hs.2.2 D
    match v, hj with
    | .lose, hj =>
      refine Or.inl ⟨rfl, fun d' hd' => ?_⟩
      rw [huniq d' hd']
      have hp := (hiff _).mp hj.2
      rw [show r.turn.opp.opp = r.turn by cases r.turn <;> rfl]
      exact ⟨hp, fun hx => hboth r.turn hD ⟨hp, hx⟩⟩
    | .win, hj =>
      refine Or.inr (Or.inl ⟨rfl, fun d' hd' => ?_⟩)
      rw [huniq d' hd']
      exact ⟨(hiff _).mp hj.2.2, fun hx => hj.2.1 ((hiff _).mpr hx)⟩
    | .draw, hj =>
      refine Or.inr (Or.inr ⟨rfl, fun d' hd' c hx => ?_⟩)
      rw [huniq d' hd'] at hx
      have hx := (hiff c).mpr hx
      rcases (by cases c <;> cases r.turn <;> simp [Color.opp] : c = r.turn ∨ c = r.turn.opp) with rfl | rfl
      · exact hj.2.1 hx
      · exact hj.2.2 hx
    | .superior, hj => exact absurd rfl hj.1
    | .inferior, hj => exact absurd rfl hj.1
  · exact absurd hrec (hno D q ⟨hD4, heven D hD.1, by omega⟩ hD.1)

/-- The board and the record after a line of legal moves from a fresh position. -/
structure Played (Z : Zobrist) (p0 : Position) (P : Pos) (h : List Pos) (b : Board) : Prop where
  good : Csa.Good Z b.pos
  now : absPos b.pos = P
  line : ∃ saved, GameLine Z p0 True h saved b

theorem Played.push {Z : Zobrist} {p0 : Position} {P : Pos} {h : List Pos} {b : Board} (hp : Played Z p0 P h b) {mv : Mv} (hm : P.Legal mv) :
    ∃ b', b.push Z (encode b.pos mv) = some b' ∧ b' = ⟨b'.pos, .move (encode b.pos mv) :: b.hist⟩ ∧ Played Z p0 (P.play mv) (P :: h) b' ∧
      b.pos.isLegal (encode b.pos mv) = some true ∧ encode b.pos mv ≠ 0#32 ∧ b'.pos.gamePly = b.pos.gamePly + 1 := by
  obtain ⟨hg, rfl, saved, hl⟩ := hp
  obtain ⟨p', e, hg', ha⟩ := hg.doMove hm
  have hlegal : b.pos.isLegal (encode b.pos mv) = some true := by
    obtain ⟨l, e, hl⟩ := C27_listed_partial _ hg.inv.views hg.check hg.regular
    obtain ⟨l', e', -, hmem⟩ := genLegal_spec hg.inv.views hg.check hg.regular
    rw [e] at e'; cases e'
    exact hl _ ((hmem _).mpr ⟨mv, rfl, hm⟩)
  refine ⟨⟨p', .move (encode b.pos mv) :: b.hist⟩, ?_, rfl, ⟨hg', ha, _, .push _ _ b mv p' hl hm.1 e⟩, hlegal, encode_ne_zero hm.1.1, ?_⟩
  · unfold Board.push; rw [e]; rfl
  · show p'.gamePly = _
    unfold doMove at e
    split at e
    · split at e <;> (cases e; rfl)
    · cases e

theorem Played.recorded {Z : Zobrist} {p0 : Position} {P : Pos} {h : List Pos} {b : Board} (hp : Played Z p0 P h b) : Recorded Z h b.pos := by
  obtain ⟨saved, hl⟩ := hp.line
  exact hl.recorded

/-- `is_draw` never leaves the record. -/
theorem Played.isDraw_safe {Z : Zobrist} {p0 : Position} {P : Pos} {h : List Pos} {b : Board} (hp : Played Z p0 P h b) :
    ∃ v, b.pos.isDraw 2147483647 = some v := by
  have hr := hp.recorded
  have hl : b.pos.st.pliesFromNull ≤ b.pos.prev.length := by
    obtain ⟨st, e, -⟩ := hr.recs h.length _ (List.getElem?_eq_getElem (by simp))
    have := (List.getElem?_eq_some_iff.mp e).1
    rw [hr.plies]
    simp only [List.length_cons] at this
    omega
  exact Option.ne_none_iff_exists'.mp (Verif.isDraw_safe hl _)

/-- No two positions of a record share a key or a board key with the current one by accident. -/
def Distinct (Z : Zobrist) (q : Pos) (h : List Pos) : Prop :=
  ∀ r ∈ h, (specKey Z r = specKey Z q → r = q) ∧ (specBoardKey Z r = specBoardKey Z q → r.board = q.board ∧ r.turn = q.turn)

theorem Distinct.noCollision {Z : Zobrist} {q : Pos} {h : List Pos} (hd : Distinct Z q h) (limit : Int) : NoCollision Z q h limit := by
  intro d r hD hr
  obtain ⟨d', rfl⟩ : ∃ d', d = d' + 1 := ⟨d - 1, by have := hD.1; omega⟩
  rw [List.getElem?_cons_succ] at hr
  exact hd r (List.mem_of_getElem? hr)

theorem Played.isDraw {Z : Zobrist} {p0 : Position} {P : Pos} {h : List Pos} {b : Board} (hp : Played Z p0 P h b) (hd : Distinct Z P h) :
    ∃ v, b.pos.isDraw 2147483647 = some v ∧ IsVerdict P h 2147483647 v := by
  have hr := hp.recorded
  obtain ⟨hg, rfl, -⟩ := hp
  exact isDraw_spec hg.inv hr _ (hd.noCollision _)

theorem Played.over {Z : Zobrist} {p0 : Position} {P : Pos} {h : List Pos} {b : Board} (hp : Played Z p0 P h b) :
    ∃ over, b.pos.isGameOver = some over ∧ (over = true ↔ ∀ mv, ¬ P.Legal mv) := by
  obtain ⟨hg, rfl, -⟩ := hp
  exact C25_game_over b.pos hg.inv.views hg.check hg.regular

theorem Played.key {Z : Zobrist} {p0 : Position} {P : Pos} {h : List Pos} {b : Board} (hp : Played Z p0 P h b) : b.pos.getKey = specKey Z P := by
  obtain ⟨hg, rfl, -⟩ := hp
  exact getKey_spec Z b.pos hg.inv.views.code hg.inv.keys

end Verif
