import Verif.Lemmas.DfpnSame
import Verif.Lemmas.DfpnLine
import Verif.Spec.Variation

/-!
# The principal variation of the df-pn search
-/

namespace Verif
open Spec Bitboard Position HandDom

namespace Dfpn

variable {Z : Zobrist}

/-- The move integers `ms`, played one after the other from `p`, are those of the moves `l`. The integer of a last move that mates may
name a gold where a promoted minor piece moves. -/
inductive Spells (Z : Zobrist) : Position → List Move → List Mv → Prop
  | nil (p : Position) : Spells Z p [] []
  | cons {p p' : Position} {mv : Mv} {ms : List Move} {l : List Mv} (he : doMove Z p (encode p mv) = some p') (h : Spells Z p' ms l) :
      Spells Z p (encode p mv :: ms) (mv :: l)
  | last {p : Position} {m : Move} {mv : Mv} (hw : Word p m mv) (hm : ((absPos p).play mv).Mated) : Spells Z p [m] [mv]

/-- The moves `pv` form a variation. -/
def Reads2 (Z : Zobrist) (W : Pos → Prop) (n : Nat) (orNode : Bool) (p : Position) (pv : List Move) : Prop :=
  ∃ l, Spells Z p pv l ∧ Variation W n orNode (absPos p) l

/-- What the loops need to know of a node. `G n orNode` holds of the nodes, `P` of the tables. -/
structure Walk (Z : Zobrist) (W : Pos → Prop) (G : Nat → Bool → Position → Prop) (P : Table → Prop) : Prop where
  or : ∀ n p l m, G n true p → picker true p = some l → m ∈ l → ∃ mv p', m = encode p mv ∧ (absPos p).Legal mv ∧
    ((absPos p).play mv).InCheck p.turn.opp ∧ doMove Z p m = some p' ∧ undoMove p' m = some p ∧ absPos p' = (absPos p).play mv ∧
    G (n - 1) false p' ∧ ∀ T, P T → P (T.child p (child Z true p m)).1 ∧
      (((T.child p (child Z true p m)).1.get (T.child p (child Z true p m)).2).pn = 0 → 0 < n → W (absPos p'))
  and : ∀ n p l m, G n false p → picker false p = some l → m ∈ l → ∃ mv p', m = encode p mv ∧ (absPos p).Legal mv ∧
    doMove Z p m = some p' ∧ undoMove p' m = some p ∧ absPos p' = (absPos p).play mv ∧
    G (n - 1) true p' ∧ ∀ T, P T → P (T.child p (child Z false p m)).1
  mate : ∀ n p r, G n true p → p.inCheck = false → p.mateMoveIn1Ply = some r → r ≠ 0#32 → Found2 p r
  mated : ∀ q : Pos, q.Mated → W q

variable {W : Pos → Prop} {G : Nat → Bool → Position → Prop} {P : Table → Prop}

/-- What `get_pv_inner` has to do. -/
def PvOK (Z : Zobrist) (W : Pos → Prop) (G : Nat → Bool → Position → Prop) (P : Table → Prop)
    (I : Bool → Position → Table → Option PvRes) : Prop :=
  ∀ n orNode p T s, I orNode p T = some s → G n orNode p → P T → s.pos = p ∧ P s.tt ∧ Reads2 Z W n orNode p s.pv

theorem pvOr_ok (hw : Walk Z W G P) {I : Bool → Position → Table → Option PvRes} (hI : PvOK Z W G P I) {n : Nat} {p : Position}
    (hp : G n true p) {l0 : List Move} (hl0 : picker true p = some l0) : ∀ (l : List Move), (∀ m ∈ l, m ∈ l0) → ∀ (T : Table), P T →
      ∀ s, pvOr Z I l p T = some s → s.pos = p ∧ P s.tt ∧ Reads2 Z W n true p s.pv := by
  intro l
  induction l with
  | nil =>
    intro _ T hT s he
    unfold pvOr at he; cases he
    exact ⟨rfl, hT, [], .nil p, .stop ..⟩
  | cons m l ih =>
    intro hsub T hT s he
    have ih := ih fun m hm => hsub m (List.mem_cons_of_mem _ hm)
    obtain ⟨mv, p', rfl, hlg, hck, e1, e2, ea, hg, hT'⟩ := hw.or n p l0 m hp hl0 (hsub m (List.mem_cons_self ..))
    obtain ⟨hT', hW⟩ := hT' T hT
    unfold pvOr at he
    dsimp only at he
    split at he
    · next hpn =>
      rw [ea] at hW
      split at he
      · cases he
        exact ⟨rfl, hT', [mv], .cons e1 (.nil _), .check hlg hck (hW hpn) (.stop ..)⟩
      · rw [e1, Option.bind_some] at he
        obtain ⟨d, -, he⟩ := Option.bind_eq_some_iff.mp he
        split at he
        · obtain ⟨s1, he1, he⟩ := Option.bind_eq_some_iff.mp he
          obtain ⟨i1, i2, l', i3, i4⟩ := hI _ _ _ _ _ he1 hg hT'
          rw [i1, e2, Option.map_some] at he
          cases he
          rw [ea] at i4
          exact ⟨rfl, i2, mv :: l', .cons e1 i3, .check hlg hck (hW hpn) i4⟩
        · rw [e2, Option.bind_some] at he
          exact ih _ hT' s he
    · exact ih _ hT' s he

theorem pvReply_ok (hw : Walk Z W G P) {I : Bool → Position → Table → Option PvRes} (hI : PvOK Z W G P I) {n : Nat} {p : Position}
    (hp : G n true p) {e : Entry} {T : Table} (hT : P T) {s : PvRes} (he : pvReply I e p T = some s) :
    s.pos = p ∧ P s.tt ∧ Reads2 Z W n true p s.pv := by
  unfold pvReply at he
  split at he
  · next hc =>
    obtain ⟨r, hr, he⟩ := Option.bind_eq_some_iff.mp he
    split at he
    · next hne =>
      cases he
      obtain ⟨mv, h1, h2, h3⟩ := hw.mate n p r hp hc.2 hr hne
      have hck : ((absPos p).play mv).InCheck p.turn.opp := by
        have := h2.1; rw [play_turn] at this; exact this
      exact ⟨rfl, hT, [mv], .last h3 h2, .check h1 hck (fun _ => hw.mated _ h2) (.stop ..)⟩
    · exact hI _ _ _ _ _ he hp hT
  · exact hI _ _ _ _ _ he hp hT

theorem pvAnd_ok (hw : Walk Z W G P) {I : Bool → Position → Table → Option PvRes} (hI : PvOK Z W G P I) {n : Nat} {p : Position}
    (hp : G n false p) {l0 : List Move} (hl0 : picker false p = some l0) : ∀ (l : List Move), (∀ m ∈ l, m ∈ l0) → ∀ (T : Table) (d : Int)
      (pv : List Move), P T → Reads2 Z W n false p pv → ∀ s, pvAnd Z I l p T d pv = some s → s.pos = p ∧ P s.tt ∧ Reads2 Z W n false p s.pv := by
  intro l
  induction l with
  | nil =>
    intro _ T d pv hT hr s he
    unfold pvAnd at he; cases he
    split
    · exact ⟨rfl, hT, hr⟩
    · exact ⟨rfl, hT, [], .nil p, .stop ..⟩
  | cons m l ih =>
    intro hsub T d pv hT hr s he
    have ih := ih fun m hm => hsub m (List.mem_cons_of_mem _ hm)
    obtain ⟨mv, p', rfl, hlg, e1, e2, ea, hg, hT'⟩ := hw.and n p l0 m hp hl0 (hsub m (List.mem_cons_self ..))
    have hT' := hT' T hT
    unfold pvAnd at he
    dsimp only at he
    split at he
    · rw [e1, Option.bind_some] at he
      obtain ⟨s1, he1, he⟩ := Option.bind_eq_some_iff.mp he
      obtain ⟨i1, i2, l', i3, i4⟩ := pvReply_ok hw hI hg hT' he1
      rw [i1, e2, Option.bind_some] at he
      rw [ea] at i4
      split at he
      · exact ih _ _ _ i2 ⟨mv :: l', .cons e1 i3, .reply hlg i4⟩ s he
      · exact ih _ _ _ i2 hr s he
    · exact ih _ _ _ hT' hr s he

theorem pvInner_ok (hw : Walk Z W G P) (fuel : Nat) : PvOK Z W G P (pvInner Z fuel) := by
  induction fuel with
  | zero => intro _ _ _ _ s he; unfold pvInner at he; cases he
  | succ fuel ih =>
    intro n orNode p T s he hp hT
    unfold pvInner at he
    obtain ⟨l, hl, he⟩ := Option.bind_eq_some_iff.mp he
    cases orNode with
    | true => rw [if_pos rfl] at he; exact pvOr_ok hw ih hp hl l (fun _ h => h) T hT s he
    | false =>
      rw [if_neg Bool.false_ne_true] at he
      exact pvAnd_ok hw ih hp hl l (fun _ h => h) T 0 [] hT ⟨[], .nil p, .stop ..⟩ s he

/-- Whatever the table, the moves are legal and the attacker's give check. -/
theorem walk_any : Walk Z (fun _ => True) (fun _ o p => Good Z o p) (fun _ => True) where
  or n p l m hp hl hm := by
    obtain ⟨mv, rfl, h1, h2⟩ := orPicker_sound hp.1 hp.1.checks.inCheck hl m hm
    obtain ⟨p', e1, -, h3, h4, h5, h6, h7⟩ := hp.1.step h1
    exact ⟨mv, p', rfl, h1, h2, e1, h5, h4, ⟨h3, fun _ => by rw [h6, h4]; exact h2⟩, fun _ _ => ⟨trivial, fun _ _ => trivial⟩⟩
  and n p l m hp hl hm := by
    rcases andPicker_res hp.1 (hp.2 rfl) with ⟨r, h1, h2, h3⟩ | ⟨h1, -⟩
    · cases hl.symm.trans h1
      obtain ⟨mv, rfl, hmv⟩ := h2 m hm
      obtain ⟨p', e1, -, h3, h4, h5, h6, h7⟩ := hp.1.step hmv
      exact ⟨mv, p', rfl, hmv, e1, h5, h4, ⟨h3, fun e => by cases e⟩, fun _ _ => trivial⟩
    · cases hl.symm.trans h1
  mate n p r hp hc hr hne := by
    obtain ⟨r', h1, h2⟩ := mate1_found hp.1 (fun h => by rw [hp.1.checks.inCheck.mpr h] at hc; cases hc)
    cases hr.symm.trans h1
    exact h2 hne
  mated _ _ := trivial

/-- With a table of proved positions, the opponent loses after each check within the limit of depth. -/
theorem walk_line {maxDepth : Int} {A : Color} {p0 : Position} (hV : Tree Z maxDepth A (Line Z maxDepth A p0)) :
    Walk Z (fun q => ∃ n, LosesIn keenReply n q)
      (fun n o p => Good Z o p ∧ (o = true ↔ p.turn = A) ∧ (0 < n → Line Z maxDepth A p0 p ∧ p.gamePly + n = maxDepth))
      (TableOK (Proved A (Line Z maxDepth A p0))) where
  or n p l m hp hl hm := by
    obtain ⟨hp, ht, hn⟩ := hp
    have ht := ht.mp rfl
    obtain ⟨mv, rfl, h1, h2⟩ := orPicker_sound hp.1 hp.1.checks.inCheck hl m hm
    obtain ⟨p', e1, -, h3, h4, h5, h6, h7⟩ := hp.1.step h1
    refine ⟨mv, p', rfl, h1, h2, e1, h5, h4, ⟨⟨h3, fun _ => by rw [h6, h4]; exact h2⟩, ?_, fun h => ?_⟩, fun T hT => ⟨?_, fun h0 hpos => ?_⟩⟩
    · rw [h6, ht]; cases A <;> decide
    · obtain ⟨hL, hd⟩ := hn (by omega)
      exact ⟨.check hL ht (by omega) h1 h2 e1, by rw [doMove_ply e1]; omega⟩
    · refine (look_found hT ?_ _ _).2
      show (childHand true p (encode p mv)).WF
      rw [childHand_or hp.1.inv.views (pseudo_playable h1.1.1 hp.1.regular.waiting) e1]
      exact h3.inv.views.hand _
    · obtain ⟨hL, hd⟩ := hn hpos
      obtain ⟨p2, hs⟩ := hV.step_check hL ht (by omega) h1 h2
      cases hs.make.symm.trans e1
      obtain ⟨hf, hT2⟩ := hV.child hL hs (orNode := true) (by rw [ht]; exact iff_of_true rfl rfl) hT
      obtain ⟨w1, w2⟩ := hV.found_wins hs.mem hf hT2 h0
      exact (w1.wins (fun k => counts_le w2 k)).2 (by show p'.turn = _; rw [h6, ht])
  and n p l m hp hl hm := by
    obtain ⟨hp, ht, hn⟩ := hp
    have ht : p.turn = A.opp := by
      have : p.turn ≠ A := fun e => by cases ht.mpr e
      revert this; cases p.turn <;> cases A <;> decide
    rcases andPicker_res hp.1 (hp.2 rfl) with ⟨r, h1, h2, h3⟩ | ⟨h1, -⟩
    · cases hl.symm.trans h1
      obtain ⟨mv, rfl, hmv⟩ := h2 m hm
      obtain ⟨p', e1, -, h3, h4, h5, h6, h7⟩ := hp.1.step hmv
      refine ⟨mv, p', rfl, hmv, e1, h5, h4, ⟨⟨h3, fun e => by cases e⟩, ?_, fun h => ?_⟩, fun T hT => ?_⟩
      · rw [h6, ht]; cases A <;> decide
      · obtain ⟨hL, hd⟩ := hn (by omega)
        exact ⟨.reply hL ht hmv e1, by rw [doMove_ply e1]; omega⟩
      · refine (look_found hT ?_ _ _).2
        show (childHand false p (encode p mv)).WF
        rw [childHand_and hp.1 h3 h4]
        exact h3.inv.views.hand _
    · cases hl.symm.trans h1
  mate n p r hp hc hr hne := walk_any.mate n p r hp.1 hc hr hne
  mated q hq := ⟨0, hq⟩

end Dfpn
end Verif
