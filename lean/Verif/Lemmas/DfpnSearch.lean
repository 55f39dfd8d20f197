import Verif.Lemmas.DfpnScan

/-!
# The df-pn search: the fixed-depth searches, the rounds and the recursion
-/

namespace Verif
namespace Dfpn
open Spec Hand Position Bitboard HandDom

variable {Z : Zobrist} {A : Color} {V : Position → Prop} {maxDepth : Int}

theorem wins_of_found {p : Position} {m : Move} (h : Found2 p m) : Wins p.turn (absPos p) := by
  obtain ⟨mv, h1, h2, -⟩ := h
  exact ⟨fun _ => ⟨0, mv, h1, h2⟩, fun e => absurd e (by show ¬ p.turn = p.turn.opp; cases p.turn <;> decide)⟩

/-- An entry the search may write at depth `g` without touching an open entry of a shallower node. -/
def Free (g : Nat) (T : Table) (r : Ref) : Prop := ¬ ((T.get r).Unsettled ∧ (T.get r).depth < g)

/-- The entry of the node the search is at. -/
structure Own (A : Color) (p : Position) (T : Table) (r : Ref) : Prop where
  key : r.key = p.st.boardKey
  valid : r.Valid T
  unsettled : (T.get r).Unsettled
  hand : (T.get r).hand = p.hand A
  depth : (T.get r).depth = depthOf p.gamePly

theorem Own.free {p : Position} {T : Table} {r : Ref} (h : Own A p T r) : Free (depthOf p.gamePly) T r := fun ⟨_, h2⟩ => by
  rw [h.depth] at h2; omega

theorem Own.keep {p : Position} {T T' : Table} {r : Ref} (h : Own A p T r) (hk : Keep (depthOf p.gamePly + 1) T T') : Own A p T' r := by
  obtain ⟨h1, h2⟩ := hk.get h.valid h.unsettled (by rw [h.depth]; omega)
  exact ⟨h.key, h2, by rw [h1]; exact h.unsettled, by rw [h1]; exact h.hand, by rw [h1]; exact h.depth⟩

theorem own_of_found {p : Position} {T T' : Table} {r : Ref} (h : Found T p.st.boardKey (p.hand A) (depthOf p.gamePly) T' r)
    (hu : (T'.get r).Unsettled) : Own A p T' r := by
  rcases h.kind with ⟨h1, h2⟩ | ⟨h1, -⟩ | ⟨-, h1, -⟩
  · exact ⟨h.same, h.valid, hu, h1, h2⟩
  · exact absurd h1 hu.1
  · exact absurd h1 hu.2

variable (hV : Tree Z maxDepth A V)
include hV

theorem Tree.depth_step {p p' : Position} (hp : V p) {mv : Mv} (hs : Step Z V p mv p') : depthOf p'.gamePly = depthOf p.gamePly + 1 := by
  have h1 := hV.depth hp
  have h2 := hV.depth hs.mem
  have h3 := hs.ply
  omega

/-- Settling an entry of a won position, keeping its hand. -/
theorem cell_proved {k : BitVec 64} {e : Entry} (hw : e.hand.WF) (hp : Proved A V k e.hand) {d : Int} (hd : inf ≤ d) :
    CellOK (Proved A V) k { e with pn := 0, dn := d } := by
  have : (0 : Int) < inf := by decide
  refine ⟨le_refl (0 : Int), ?_, fun _ => hd, ?_, .inl hw, fun _ => ⟨hw, hp⟩⟩
  all_goals dsimp only
  all_goals omega

theorem cell_refuted {k : BitVec 64} {h : Hand} (hw : h.WF ∨ h.Dead) (d n : Nat) : CellOK (Proved A V) k ⟨h, inf, 0, d, n⟩ := by
  refine ⟨by show (0 : Int) ≤ inf; decide, le_refl (0 : Int), fun e => absurd e (by show ¬ inf = 0; decide), fun _ => le_refl inf, hw,
    fun e => absurd e (by show ¬ inf = 0; decide)⟩

/-- The replies of the three-ply search. -/
theorem replies3_ok {p : Position} (hp : V p) (hturn : p.turn = A.opp) : ∀ (l : List Move) (T : Table),
    TableOK (Proved A V) T → (∀ m ∈ l, ∃ mv p', m = encode p mv ∧ Step Z V p mv p') → ∀ res, replies3 Z l p T = some res →
    res.2.1 = p ∧ TableOK (Proved A V) res.2.2 ∧ Keep (depthOf p.gamePly + 1) T res.2.2 ∧ Firm T res.2.2 ∧
      (res.1 = true → ∀ mv, encode p mv ∈ l → Wins A ((absPos p).play mv)) := by
  intro l
  induction l with
  | nil =>
    intro T hT _ res he
    unfold replies3 at he
    cases he
    exact ⟨rfl, hT, Keep.refl _ _, Firm.refl _, fun _ mv h => by cases h⟩
  | cons m l ih =>
    intro T hT hl res he
    obtain ⟨mv, p', rfl, hs⟩ := hl m List.mem_cons_self
    unfold replies3 at he
    split at he
    · cases he
      exact ⟨rfl, hT, Keep.refl _ _, Firm.refl _, fun h => by cases h⟩
    · next hg =>
      have hgc := hs.gc
      rw [Bool.not_eq_true] at hg
      rw [hg] at hgc
      rw [hgc, Option.bind_some] at he
      have hcalm : ¬ (absPos p').InCheck p'.turn := fun h => by rw [hs.gives.mpr h] at hg; cases hg
      obtain ⟨mate, hm1, hm2⟩ := mate1_found (hV.sound p' hs.mem) hcalm
      rw [hm1, Option.bind_some] at he
      have hA : p'.turn = A := by rw [hs.turn, hturn, opp_opp]
      split at he
      · rw [hs.undo] at he
        cases he
        exact ⟨rfl, hT, Keep.refl _ _, Firm.refl _, fun h => by cases h⟩
      · next hne =>
        have hw : Wins A (absPos p') := by have := wins_of_found (hm2 hne); rwa [hA] at this
        obtain ⟨hf, hT'⟩ := hV.node hs.mem (orNode := true) ⟨fun _ => hA, fun _ => rfl⟩ hT
        dsimp only at he
        rw [hs.undo, Option.bind_some] at he
        revert hf hT' he
        generalize T.node true p' = R
        obtain ⟨T', e1⟩ := R
        intro he hf hT'
        dsimp only at hf hT' he
        have hcell : CellOK (Proved A V) e1.key { T'.get e1 with pn := 0, dn := inf + 2 } :=
          cell_proved hV hf.wf (hV.found_proved hs.mem hw hf hT') (by decide)
        obtain ⟨i1, i2, i3, i4, i5⟩ := ih _ (put_ok hT' hcell) (fun m h => hl m (List.mem_cons_of_mem _ h)) res he
        have hkeep : Keep (depthOf p.gamePly + 1) T' (T'.put e1 { T'.get e1 with pn := 0, dn := inf + 2 }) :=
          put_keep (hf.free (by rw [hV.depth_step hp hs]))
        have hfirm : Firm T' (T'.put e1 { T'.get e1 with pn := 0, dn := inf + 2 }) := put_firm rfl rfl fun h => absurd rfl h.1
        refine ⟨i1, i2, ((hf.grow.keep _).trans hkeep).trans i3, (hf.grow.firm.trans hfirm).trans i4, fun hb mv' hmem => ?_⟩
        rw [List.mem_cons] at hmem
        rcases hmem with e | hmem
        · obtain rfl : mv' = mv := encode_inj p e
          rw [← hs.abs]; exact hw
        · exact i5 hb mv' hmem

omit hV in
/-- If every keen reply is lost, so is the node. -/
theorem wins_replies (hV : Tree Z maxDepth A V) {p : Position} (hp : V p) (hturn : p.turn = A.opp)
    (h : ∀ mv, (absPos p).Legal mv → keenReply (absPos p) mv → Wins A ((absPos p).play mv)) : Wins A (absPos p) := by
  have hs : Suffices A (absPos p) (counts (p.hand A)) := by
    refine suffices_replies hturn (hV.sound p hp).regular.waiting (hV.inCheck p hp hturn) (.inr fun k _ => Nat.le_refl _) fun m hl hk => ?_
    refine (h m hl hk).suffices (waiting_play hl) fun k => ?_
    rw [play_hand_def hturn m]; exact Nat.le_refl _
  exact hs.wins fun k => Nat.le_refl _

/-- The lists of replies. -/
theorem replies_list {p : Position} (hp : V p) (hturn : p.turn = A.opp) {l : List Move} (hl : andPicker p = some l) :
    (∀ m ∈ l, ∃ mv p', m = encode p mv ∧ Step Z V p mv p') ∧
      ∀ mv, (absPos p).Legal mv → keenReply (absPos p) mv → encode p mv ∈ l := by
  rcases andPicker_res (hV.sound p hp) (hV.inCheck p hp hturn) with ⟨r, h1, h2, h3⟩ | ⟨h1, -⟩
  · rw [hl] at h1; cases h1
    refine ⟨fun m hm => ?_, h3⟩
    obtain ⟨mv, rfl, hmv⟩ := h2 m hm
    obtain ⟨p', hs⟩ := hV.step_reply hp hturn hmv
    exact ⟨mv, p', rfl, hs⟩
  · rw [hl] at h1; cases h1

theorem checks_list {p : Position} (hp : V p) (hturn : p.turn = A) (hd : p.gamePly + 1 ≤ maxDepth) {l : List Move} (hl : orPicker p p.inCheck = some l) :
    ∀ m ∈ l, ∃ mv p', m = encode p mv ∧ Step Z V p mv p' ∧ p.moveGivesCheck m = true := by
  intro m hm
  obtain ⟨mv, rfl, h1, h2⟩ := orPicker_sound (hV.sound p hp) ((hV.sound p hp).checks.inCheck ) hl m hm
  obtain ⟨p', hs⟩ := hV.step_check hp hturn hd h1 h2
  refine ⟨mv, p', rfl, hs, hs.gives.mpr ?_⟩
  rw [hs.turn, hs.abs]; exact h2

/-- No reply. -/
theorem lost_of_empty {p : Position} (hp : V p) (hturn : p.turn = A.opp) (hl : andPicker p = some []) : Lost (absPos p) :=
  ⟨hV.inCheck p hp hturn, fun mv h1 h2 => by cases (replies_list hV hp hturn hl).2 mv h1 h2⟩

theorem Tree.turn_key {p p' : Position} (hp : V p) {mv : Mv} (hs : Step Z V p mv p') : p'.st.boardKey ≠ p.st.boardKey := fun e => by
  have h := (hV.keys p' p hs.mem hp e).turn
  have h1 : p'.turn = p.turn := h
  rw [hs.turn] at h1
  revert h1; cases p.turn <;> decide

/-- The three-ply search at an attacker's node. -/
theorem checks3_ok {p : Position} (hp : V p) (hturn : p.turn = A) {r : Ref} : ∀ (l : List Move) (T : Table),
    TableOK (Proved A V) T → Own A p T r → (∀ m ∈ l, ∃ mv p', m = encode p mv ∧ Step Z V p mv p' ∧ p.moveGivesCheck m = true) →
    ∀ res, checks3 Z maxDepth r l p T = some res →
    res.2.1 = p ∧ TableOK (Proved A V) res.2.2 ∧ Keep (depthOf p.gamePly) T res.2.2 ∧ (res.1 = false → Own A p res.2.2 r) := by
  intro l
  induction l with
  | nil =>
    intro T hT ho _ res he
    unfold checks3 at he
    cases he
    exact ⟨rfl, hT, Keep.refl _ _, fun _ => ho⟩
  | cons m l ih =>
    intro T hT ho hl res he
    obtain ⟨mv, p', rfl, hs, hg⟩ := hl m List.mem_cons_self
    have ih' := fun T hT ho => ih T hT ho (fun m h => hl m (List.mem_cons_of_mem _ h)) res
    unfold checks3 at he
    have hgc := hs.gc
    rw [hg] at hgc
    rw [hgc, Option.bind_some] at he
    obtain ⟨d, -, he⟩ := Option.bind_eq_some_iff.mp he
    split at he
    · rw [hs.undo, Option.bind_some] at he
      exact ih' T hT ho he
    · have hA : p'.turn = A.opp := by rw [hs.turn, hturn]
      obtain ⟨hf, hT'⟩ := hV.node hs.mem (not_or_of_opp hA) hT
      dsimp only at he
      revert he hf hT'
      generalize T.node false p' = R
      obtain ⟨T', e2⟩ := R
      intro he hf hT'
      dsimp only at hf hT' he
      have hds := hV.depth_step hp hs
      have hg1 : Keep (depthOf p.gamePly + 1) T T' := hf.grow.keep _
      have ho' := ho.keep hg1
      have hfree : Free (depthOf p.gamePly + 1) T' e2 := hf.free (by rw [hds])
      obtain ⟨l2, hl2, he⟩ := Option.bind_eq_some_iff.mp he
      obtain ⟨hr1, hr2⟩ := replies_list hV hs.mem hA hl2
      split at he
      · next hemp =>
        obtain rfl := List.isEmpty_iff.mp hemp
        rw [hs.undo, Option.bind_some] at he
        have hlost := lost_of_empty hV hs.mem hA hl2
        have hw : Wins A (absPos p') := wins_replies hV hs.mem hA fun mv h1 h2 => absurd h2 (hlost.2 mv h1)
        rw [hs.abs] at hlost
        obtain ⟨h, hm, hwf, hsf⟩ := mateHand_ok (hV.sound p hp) hs.legal hlost (m := encode p mv) (.inl rfl)
        rw [hm] at he
        cases he
        have hc2 : CellOK (Proved A V) e2.key { T'.get e2 with pn := 0, dn := inf + 1 } :=
          cell_proved hV hf.wf (hV.found_proved hs.mem hw hf hT') (by decide)
        have hT2 := put_ok hT' hc2
        have hk2 : Keep (depthOf p.gamePly + 1) T' (T'.put e2 { T'.get e2 with pn := 0, dn := inf + 1 }) := put_keep hfree
        have ho2 := ho'.keep hk2
        rw [hturn] at hsf
        refine ⟨rfl, put_ok hT2 ?_, ((hg1.trans hk2).mono (by omega)).trans (put_keep ho2.free), fun h => by cases h⟩
        have := hV.proved hp hsf
        rw [← ho.key] at this
        exact cell_proved hV (e := { (T'.put e2 { T'.get e2 with pn := 0, dn := inf + 1 }).get r with hand := h }) hwf this (le_refl inf)
      · next hemp =>
        split at he
        · rw [hs.undo, Option.bind_some] at he
          obtain ⟨i1, i2, i3, i4⟩ := ih' _ (put_ok hT' (cell_refuted hV (.inl hf.wf) _ _)) (ho'.keep (put_keep hfree)) he
          exact ⟨i1, i2, ((hg1.mono (by omega)).trans ((put_keep hfree : Keep (depthOf p.gamePly + 1) _ _).mono (by omega))).trans i3, i4⟩
        · obtain ⟨⟨b, p1, T2⟩, hrep, he⟩ := Option.bind_eq_some_iff.mp he
          obtain ⟨j1, j2, j3, j4, j5⟩ := replies3_ok hV hs.mem hA l2 T' hT' hr1 _ hrep
          dsimp only at j1 j2 j3 j4 j5 he
          rw [j1, hs.undo, Option.bind_some] at he
          obtain ⟨f1, f2, f3, f4⟩ := j4.get hf.valid
          have hk1 : Keep (depthOf p.gamePly + 1) T' T2 := j3.mono (by rw [hds]; omega)
          have ho2 := ho'.keep hk1
          have hfree2 : Free (depthOf p.gamePly + 1) T2 e2 := fun ⟨u, v⟩ => hfree ⟨f3 u, by rw [← f2]; exact v⟩
          have hwf2 : (T2.get e2).hand.WF := by rw [f1]; exact hf.wf
          split at he
          · next hb =>
            cases he
            have hw : Wins A (absPos p') := wins_replies hV hs.mem hA fun mv h1 h2 => j5 hb mv (hr2 mv h1 h2)
            have hpr : Proved A V e2.key (T2.get e2).hand := by rw [f1]; exact hV.found_proved hs.mem hw hf hT'
            have hk2 : Keep (depthOf p.gamePly + 1) T2 (T2.put e2 { T2.get e2 with pn := 0, dn := inf }) := put_keep hfree2
            have ho3 := ho2.keep hk2
            refine ⟨rfl, put_ok (put_ok j2 (cell_proved hV hwf2 hpr (le_refl inf))) ?_,
              (((hg1.trans hk1).trans hk2).mono (by omega)).trans (put_keep ho3.free), fun h => by cases h⟩
            refine cell_proved hV (by rw [ho3.hand]; exact hV.wf hp A) ?_ (le_refl inf)
            rw [ho3.key, ho3.hand]
            exact hV.proved_wins hp (wins_of_child hturn hs.legal (by rw [← hs.abs]; exact hw)) fun _ _ => Nat.le_refl _
          · by_cases hn : (T2.get e2).num = 0
            · rw [if_pos hn] at he
              have hlen : (0 : Int) < l2.length := by
                cases l2 with
                | nil => exact absurd rfl hemp
                | cons _ _ => rw [List.length_cons]; omega
              have hcell : CellOK (Proved A V) e2.key { T2.get e2 with num := 1, pn := l2.length, dn := l2.length } := by
                refine ⟨?_, ?_, ?_, ?_, .inl hwf2, ?_⟩
                all_goals dsimp only
                all_goals omega
              obtain ⟨i1, i2, i3, i4⟩ := ih' _ (put_ok j2 hcell) (ho2.keep (put_keep hfree2)) he
              exact ⟨i1, i2, ((((hg1.trans hk1).trans (put_keep hfree2 : Keep (depthOf p.gamePly + 1) _ _))).mono (by omega)).trans i3, i4⟩
            · rw [if_neg hn] at he
              obtain ⟨i1, i2, i3, i4⟩ := ih' _ j2 ho2 he
              exact ⟨i1, i2, ((hg1.trans hk1).mono (by omega)).trans i3, i4⟩

theorem refuteHand_ok {p : Position} (hp : V p) {mv : Mv} (hm : (absPos p).Legal mv) {own ch : Hand} (ho : own.WF) (hc : ch.WF) :
    (refuteHand p (encode p mv) own ch).WF ∨ (refuteHand p (encode p mv) own ch).Dead := by
  have hr := encode_reads (hV.sound p hp).inv.views (hV.playable hp hm)
  unfold refuteHand
  revert hr
  generalize encode p mv = m
  intro hr
  cases hr with
  | drop k t h1 h2 =>
    rw [if_pos h1, h2]
    by_cases h0 : ch.numOf k.code = 0
    · exact .inr (minus_dead hc (hcode_lt k) h0)
    · exact .inl (minus_wf hc (hcode_lt k) (by omega)).1
  | quiet s t pro h1 h2 h3 =>
    rw [if_neg (by rw [h1]; exact Bool.false_ne_true), if_neg (fun e => e h2)]
    exact .inl ho
  | capture s t pro kd x h1 h2 h3 h4 h5 =>
    rw [if_neg (by rw [h1]; exact Bool.false_ne_true), if_pos h2]
    simp only [h5]
    left
    split
    · have := numOf_lt own x.code (hcode_lt x)
      exact (plus_wf hc (hcode_lt x) (by omega)).1
    · exact ho

theorem dp_ok {p : Position} (hp : V p) : (dp (p.hand p.turn) (p.hand p.turn.opp)).WF :=
  (dp_wf (hV.wf hp _) fun _ hi => sum_room (hV.sound p hp).inv.inSet _ _ rfl hi).1

/-- The two-ply search at a defender's node. -/
theorem replies2_ok {p : Position} (hp : V p) (hturn : p.turn = A.opp) {r : Ref} : ∀ (l : List Move) (T : Table),
    TableOK (Proved A V) T → Own A p T r → (∀ m ∈ l, ∃ mv p', m = encode p mv ∧ Step Z V p mv p') →
    (∀ mv, (absPos p).Legal mv → keenReply (absPos p) mv → encode p mv ∈ l ∨ Wins A ((absPos p).play mv)) →
    ∀ res, replies2 Z r l p T = some res →
    res.2.1 = p ∧ TableOK (Proved A V) res.2.2 ∧ Keep (depthOf p.gamePly) T res.2.2 ∧ (res.1 = false → Own A p res.2.2 r) := by
  intro l
  induction l with
  | nil =>
    intro T hT ho _ hall res he
    unfold replies2 at he
    cases he
    refine ⟨rfl, put_ok hT ?_, put_keep ho.free, fun h => by cases h⟩
    refine cell_proved hV (by rw [ho.hand]; exact hV.wf hp A) ?_ (le_refl inf)
    rw [ho.key, ho.hand]
    refine hV.proved_wins hp (wins_replies hV hp hturn fun mv h1 h2 => ?_) fun _ _ => Nat.le_refl _
    rcases hall mv h1 h2 with h | h
    · cases h
    · exact h
  | cons m l ih =>
    intro T hT ho hl hall res he
    obtain ⟨mv, p', rfl, hs⟩ := hl m List.mem_cons_self
    unfold replies2 at he
    split at he
    · cases he
      exact ⟨rfl, hT, Keep.refl _ _, fun _ => ho⟩
    · next hg =>
      have hgc := hs.gc
      rw [Bool.not_eq_true] at hg
      rw [hg] at hgc
      rw [hgc, Option.bind_some] at he
      have hcalm : ¬ (absPos p').InCheck p'.turn := fun h => by rw [hs.gives.mpr h] at hg; cases hg
      obtain ⟨mate, hm1, hm2⟩ := mate1_found (hV.sound p' hs.mem) hcalm
      rw [hm1, Option.bind_some] at he
      have hA : p'.turn = A := by rw [hs.turn, hturn, opp_opp]
      have hds := hV.depth_step hp hs
      obtain ⟨hf, hT'⟩ := hV.node hs.mem (orNode := true) ⟨fun _ => hA, fun _ => rfl⟩ hT
      revert he hf hT'
      generalize T.node true p' = R
      obtain ⟨T', e1⟩ := R
      intro he hf hT'
      dsimp only at hf hT' he
      have hg1 : Keep (depthOf p.gamePly + 1) T T' := hf.grow.keep _
      have ho' := ho.keep hg1
      have hfree : Free (depthOf p.gamePly + 1) T' e1 := hf.free (by rw [hds])
      split at he
      · obtain ⟨l2, -, he⟩ := Option.bind_eq_some_iff.mp he
        split at he
        · rw [hs.undo] at he
          cases he
          have hdp := dp_ok hV hs.mem
          have hk2 : Keep (depthOf p.gamePly + 1) T' (T'.put e1 { T'.get e1 with pn := inf, dn := 0, hand := dp (p'.hand p'.turn) (p'.hand p'.turn.opp) }) :=
            put_keep hfree
          have ho2 := ho'.keep hk2
          refine ⟨rfl, put_ok (put_ok hT' (cell_refuted hV (.inl hdp) _ _)) (cell_refuted hV ?_ _ _),
            ((hg1.trans hk2).mono (by omega)).trans (put_keep ho2.free), fun h => by cases h⟩
          exact refuteHand_ok hV hp hs.legal (by rw [ho2.hand]; exact hV.wf hp A) hdp
        · rw [hs.undo] at he
          cases he
          exact ⟨rfl, hT, Keep.refl _ _, fun _ => ho⟩
      · next hne =>
        obtain ⟨mv', w1, w2, w3⟩ := hm2 hne
        have hw : Wins A (absPos p') := by have := wins_of_found (hm2 hne); rwa [hA] at this
        obtain ⟨h, hm, hwf, hsf⟩ := mateHand_ok (hV.sound p' hs.mem) w1 (Mated.lost w2) w3
        rw [hm, Option.bind_some, hs.undo, Option.bind_some] at he
        rw [hA] at hsf
        have hpr := hV.proved hs.mem hsf
        rw [← hf.same] at hpr
        have hcell : CellOK (Proved A V) e1.key { T'.get e1 with pn := 0, dn := inf + 2, hand := h } :=
          cell_proved hV (e := { T'.get e1 with hand := h }) hwf hpr (by decide)
        obtain ⟨i1, i2, i3, i4⟩ := ih _ (put_ok hT' hcell) (ho'.keep (put_keep hfree)) (fun m h => hl m (List.mem_cons_of_mem _ h))
          (fun mv' h1 h2 => by
            rcases hall mv' h1 h2 with h | h
            · rw [List.mem_cons] at h
              rcases h with e | h
              · obtain rfl : mv' = mv := encode_inj p e
                right; rw [← hs.abs]; exact hw
              · exact .inl h
            · exact .inr h) res he
        exact ⟨i1, i2, ((hg1.trans (put_keep hfree : Keep (depthOf p.gamePly + 1) _ _)).mono (by omega)).trans i3, i4⟩

/-! ### Rounds -/

/-- What a call of the search guarantees. -/
def InnerOK (Z : Zobrist) (A : Color) (V : Position → Prop) (I : Inner) : Prop :=
  ∀ (orNode : Bool) (thpn thdn : Int) (s s' : State), I orNode thpn thdn s = some s' → V s.pos → (orNode = true ↔ s.pos.turn = A) →
    TableOK (Proved A V) s.tt → thpn ≤ inf → thdn ≤ inf → ((s.tt.node orNode s.pos).1.get (s.tt.node orNode s.pos).2).Unsettled →
    s'.pos = s.pos ∧ TableOK (Proved A V) s'.tt ∧ Keep (depthOf s.pos.gamePly) s.tt s'.tt

theorem rounds_ok {L : Limits} {I : Inner} (hI : InnerOK Z A V I) {p : Position} (hp : V p) {orNode : Bool} (hor : orNode = true ↔ p.turn = A)
    {r : Ref} {cs : List Child} (hcs : cs ≠ []) (hk : ∀ c ∈ cs, Kid Z V orNode p c)
    (hall : orNode = false → ∀ mv, (absPos p).Legal mv → keenReply (absPos p) mv → Dfpn.child Z false p (encode p mv) ∈ cs)
    {thpn thdn : Int} (h1 : thpn ≤ inf) (h2 : thdn ≤ inf) : ∀ (fuel : Nat) (s s' : State), s.pos = p → TableOK (Proved A V) s.tt →
      Own A p s.tt r → rounds Z L I orNode r cs thpn thdn fuel s = some s' →
      s'.pos = p ∧ TableOK (Proved A V) s'.tt ∧ Keep (depthOf p.gamePly) s.tt s'.tt := by
  intro fuel
  induction fuel with
  | zero => intro s s' _ _ _ he; unfold rounds at he; cases he
  | succ fuel ih =>
    intro s s' hpos hT ho he
    unfold rounds at he
    split at he
    · obtain ⟨T', a, e', hscan, hsc⟩ : ∃ T' a e', scan orNode p cs s.tt (s.tt.get r) = some (T', a, e') ∧
          Scanned Z A V p s.tt T' (s.tt.get r).depth a e' := by
        cases orNode with
        | true => exact scan_or hV hp (hor.mp rfl) hcs hT hk ho.hand
        | false =>
          have : p.turn = A.opp := by
            have : p.turn ≠ A := fun e => by cases hor.mpr e
            revert this; cases p.turn <;> cases A <;> decide
          exact scan_and hV hp this hT hk (hall rfl) ho.hand
      rw [hpos, hscan, Option.bind_some] at he
      dsimp only at he
      have hcell : CellOK (Proved A V) r.key e' := by rw [ho.key]; exact hsc.cell
      have hTT := put_ok hsc.table hcell
      have hg1 : Keep (depthOf p.gamePly + 1) s.tt T' := hsc.grow.keep _
      have ho1 := ho.keep hg1
      have hk1 : Keep (depthOf p.gamePly) s.tt (T'.put r e') := (hg1.mono (by omega)).trans (put_keep ho1.free)
      split at he
      · cases he
        exact ⟨rfl, hTT, hk1⟩
      · next hth =>
        rw [not_or, not_le, not_le] at hth
        have hu : e'.Unsettled := ⟨fun h => by have := hcell.pn_zero h; omega, fun h => by have := hcell.dn_zero h; omega⟩
        obtain ⟨k1, k2⟩ := hsc.kept hu
        have ho2 : Own A p (T'.put r e') r := by
          have hv : r.Valid (T'.put r e') := put_valid ho1.valid e'
          have hg := put_get ho1.valid e'
          exact ⟨ho.key, hv, by rw [hg]; exact hu, by rw [hg]; exact k1, by rw [hg, k2]; exact ho.depth⟩
        obtain ⟨m, hm, he⟩ := Option.bind_eq_some_iff.mp he
        obtain ⟨mv, p', T0, T1, rc, rfl, hs, hf, hgr, huc⟩ := hsc.move m hm (by omega) (by omega) hu
        rw [hs.make, Option.bind_some] at he
        obtain ⟨s1, he1, he⟩ := Option.bind_eq_some_iff.mp he
        have hor' : (!orNode) = true ↔ p'.turn = A := by
          rw [hs.turn]
          cases orNode with
          | true => rw [hor.mp rfl]; cases A <;> decide
          | false =>
            have : p.turn ≠ A := fun e => by cases hor.mpr e
            revert this; cases p.turn <;> cases A <;> decide
        have hlook : (T'.put r e').node (!orNode) p' = (T'.put r e', rc) ∧ (T'.put r e').get rc = T1.get rc := by
          unfold Table.node
          rw [attHand_eq hor']
          refine hf.again_grow ?_
          obtain ⟨l, hl1, hl2⟩ := hgr p'.st.boardKey
          refine ⟨l, ?_, hl2⟩
          have : p'.st.boardKey ≠ r.key := by rw [ho.key]; exact hV.turn_key hp hs
          show (if p'.st.boardKey = r.key then _ else T' p'.st.boardKey) = _
          rw [if_neg this]; exact hl1
        obtain ⟨i1, i2, i3⟩ := hI _ _ _ _ _ he1 hs.mem hor' hTT (by unfold thpnChild; split <;> omega) (by unfold thdnChild; split <;> omega)
          (by rw [hlook.1]; show ((T'.put r e').get rc).Unsettled; rw [hlook.2]; exact huc)
        dsimp only at i1 i2 i3
        rw [i1, hs.undo, Option.bind_some] at he
        rw [hV.depth_step hp hs] at i3
        obtain ⟨j1, j2, j3⟩ := ih { s1 with pos := p } s' rfl i2 (ho2.keep i3) he
        exact ⟨j1, j2, (hk1.trans (i3.mono (by omega))).trans j3⟩
    · cases he
      exact ⟨hpos, hT, Keep.refl _ _⟩

theorem inner_ok {L : Limits} (hL : L.maxDepth = maxDepth) (fuel : Nat) : InnerOK Z A V (inner Z L fuel) := by
  induction fuel with
  | zero => intro _ _ _ s s' he; unfold inner at he; cases he
  | succ fuel ih =>
    intro orNode thpn thdn s s' he hp hor hT h1 h2 hun
    obtain ⟨hf, hT'⟩ := hV.node hp hor hT
    unfold inner at he
    dsimp only at he
    revert he hf hT' hun
    generalize s.tt.node orNode s.pos = R
    obtain ⟨T, r⟩ := R
    intro hun hf hT' he
    dsimp only at hun hf hT' he
    have ho := own_of_found hf hun
    have hg1 : Keep (depthOf s.pos.gamePly) s.tt T := hf.grow.keep _
    have hfin : ∀ {e : Entry}, CellOK (Proved A V) r.key e → TableOK (Proved A V) (T.put r e) ∧ Keep (depthOf s.pos.gamePly) s.tt (T.put r e) :=
      fun hc => ⟨put_ok hT' hc, hg1.trans (put_keep ho.free)⟩
    have hwf := hV.wf hp A
    have hoph : orNode = false → s.pos.turn = A.opp := fun e => by
      have : s.pos.turn ≠ A := fun e' => by have := hor.mpr e'; rw [e] at this; cases this
      revert this; cases s.pos.turn <;> cases A <;> decide
    split at he
    · cases he
      exact ⟨rfl, hfin (cell_refuted hV (.inl hf.wf) _ _)⟩
    · next hdepth =>
      obtain ⟨l, hl, he⟩ := Option.bind_eq_some_iff.mp he
      split at he
      · next hemp =>
        obtain rfl := List.isEmpty_iff.mp hemp
        cases he
        refine ⟨rfl, hfin ?_⟩
        cases orNode with
        | true => exact cell_refuted hV (.inl (dp_ok hV hp)) _ _
        | false =>
          have hlost := lost_of_empty hV hp (hoph rfl) hl
          refine cell_proved hV hf.wf (hV.found_proved hp (wins_replies hV hp (hoph rfl) fun mv h1 h2 => absurd h2 (hlost.2 mv h1)) hf hT') (le_refl inf)
      · next hemp =>
        obtain ⟨⟨b, p1, T1⟩, hsh, he⟩ := Option.bind_eq_some_iff.mp he
        dsimp only at he
        have hsteps : (∀ c ∈ l.map (Dfpn.child Z orNode s.pos), Kid Z V orNode s.pos c) ∧
            (orNode = false → ∀ mv, (absPos s.pos).Legal mv → keenReply (absPos s.pos) mv → Dfpn.child Z false s.pos (encode s.pos mv) ∈ l.map (Dfpn.child Z orNode s.pos)) := by
          cases orNode with
          | true =>
            have hd : s.pos.gamePly + 1 ≤ maxDepth := by
              rw [← hL]
              by_contra h
              exact hdepth ⟨rfl, by omega⟩
            have := checks_list hV hp (hor.mp rfl) hd hl
            refine ⟨fun c hc => ?_, fun e => by cases e⟩
            obtain ⟨m, hm, rfl⟩ := List.mem_map.mp hc
            obtain ⟨mv, p', rfl, hs, -⟩ := this m hm
            exact ⟨mv, p', rfl, hs⟩
          | false =>
            obtain ⟨q1, q2⟩ := replies_list hV hp (hoph rfl) hl
            refine ⟨fun c hc => ?_, fun _ mv a b => List.mem_map.mpr ⟨_, q2 mv a b, rfl⟩⟩
            obtain ⟨m, hm, rfl⟩ := List.mem_map.mp hc
            obtain ⟨mv, p', rfl, hs⟩ := q1 m hm
            exact ⟨mv, p', rfl, hs⟩
        obtain ⟨a1, a2, a3, a4⟩ : p1 = s.pos ∧ TableOK (Proved A V) T1 ∧ Keep (depthOf s.pos.gamePly) T T1 ∧ (b = false → Own A s.pos T1 r) := by
          unfold shallow at hsh
          split at hsh
          · cases orNode with
            | true =>
              have hd : s.pos.gamePly + 1 ≤ maxDepth := by
                rw [← hL]
                by_contra h
                exact hdepth ⟨rfl, by omega⟩
              rw [if_pos rfl, hL] at hsh
              exact checks3_ok hV hp (hor.mp rfl) l T hT' ho (checks_list hV hp (hor.mp rfl) hd hl) _ hsh
            | false =>
              rw [if_neg Bool.false_ne_true] at hsh
              obtain ⟨q1, q2⟩ := replies_list hV hp (hoph rfl) hl
              exact replies2_ok hV hp (hoph rfl) l T hT' ho q1 (fun mv a b => .inl (q2 mv a b)) _ hsh
          · cases hsh
            exact ⟨rfl, hT', Keep.refl _ _, fun _ => ho⟩
        subst a1
        split at he
        · cases he
          exact ⟨rfl, a2, hg1.trans a3⟩
        · next hb =>
          rw [Bool.not_eq_true] at hb
          have ho1 := a4 hb
          unfold general at he
          dsimp only at he
          obtain ⟨d, hd, he⟩ := Option.bind_eq_some_iff.mp he
          cases hv : verdict orNode d with
          | some v =>
            rw [hv] at he
            cases he
            have hput : Keep (depthOf s.pos.gamePly) T1 (T1.put r { T1.get r with pn := v.1, dn := v.2, num := repeatMark }) := put_keep ho1.free
            refine ⟨rfl, put_ok a2 ?_, (hg1.trans a3).trans hput⟩
            have hvv : v = (inf, 0) := by
              cases orNode with
              | true =>
                have := hV.win _ hp (hor.mp rfl)
                cases d <;> simp only [verdict] at hv <;> first | (cases hv; rfl) | (exact absurd hd this) | cases hv
              | false =>
                have := hV.lose _ hp (hoph rfl)
                cases d <;> simp only [verdict] at hv <;> first | (cases hv; rfl) | (exact absurd hd this) | cases hv
            rw [hvv]
            exact cell_refuted hV (.inl (by rw [ho1.hand]; exact hwf)) _ _
          | none =>
            rw [hv] at he
            obtain ⟨j1, j2, j3⟩ := rounds_ok hV ih hp hor (by
              intro h
              rw [List.map_eq_nil_iff] at h
              rw [h] at hemp; exact hemp rfl) hsteps.1 hsteps.2 h1 h2 fuel { s with tt := T1 } s' rfl a2 ho1 he
            exact ⟨j1, j2, (hg1.trans a3).trans j3⟩

end Dfpn
end Verif
