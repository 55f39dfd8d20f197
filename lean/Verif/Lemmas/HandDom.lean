import Verif.Lemmas.Promote
import Verif.Lemmas.Mated

/-!
# Forced mates and pieces in hand

A forced mate stays one if the attacker holds more and the defender less. Hands that suffice for a mate are passed from a move to
the position before it.
-/

namespace Verif
open Spec

namespace HandDom

/-- The same board and side to move; only the hands may differ. -/
structure Twin (a b : Pos) : Prop where
  board : a.board = b.board
  turn : a.turn = b.turn

variable {a b : Pos}

theorem Twin.symm (h : Twin a b) : Twin b a := ⟨h.board.symm, h.turn.symm⟩

theorem Twin.inCheck (h : Twin a b) (c : Color) : a.InCheck c ↔ b.InCheck c := by
  apply inCheck_same
  · unfold Pos.occ; rw [h.board]
  · intro s kd; rw [h.board]
  · intro s; rw [h.board]

theorem Twin.play (h : Twin a b) (m : Mv) : Twin (a.play m) (b.play m) := by
  cases m with
  | move s t pro =>
    cases hs : a.board s with
    | none =>
      have hs' : b.board s = none := by rw [← h.board]; exact hs
      have e1 : a.play (.move s t pro) = { a with turn := a.turn.opp } := by simp only [Pos.play, hs]
      have e2 : b.play (.move s t pro) = { b with turn := b.turn.opp } := by simp only [Pos.play, hs']
      rw [e1, e2]
      exact ⟨h.board, congrArg Color.opp h.turn⟩
    | some x =>
      have hs' : b.board s = some x := by rw [← h.board]; exact hs
      obtain ⟨d, kd⟩ := x
      rw [play_piece hs, play_piece hs']
      exact ⟨by simp only [h.board], congrArg Color.opp h.turn⟩
  | drop k t =>
    simp only [Pos.play]
    exact ⟨by rw [h.board, h.turn], congrArg Color.opp h.turn⟩

/-- The move is not a drop, or the piece is in hand. -/
def Held (q : Pos) : Mv → Prop
  | .move _ _ _ => True
  | .drop k _ => 1 ≤ q.hand q.turn k

theorem held_of_pseudo {m : Mv} (h : a.Pseudo m) : Held a m := by
  cases m with
  | move s t pro => exact trivial
  | drop k t => exact h.1

theorem Twin.pseudo (h : Twin a b) {m : Mv} (hm : a.Pseudo m) (hh : Held b m) : b.Pseudo m := by
  have ho : b.occ = a.occ := by unfold Pos.occ; rw [h.board]
  cases m with
  | move s t pro =>
    unfold Pos.Pseudo at hm ⊢
    rw [ho, ← h.board, ← h.turn]
    exact hm
  | drop k t =>
    unfold Pos.Pseudo at hm ⊢
    refine ⟨hh, ?_⟩
    rw [← h.board, ← h.turn]
    exact hm.2

theorem Twin.safe (h : Twin a b) {m : Mv} (hm : a.Safe m) (hh : Held b m) : b.Safe m :=
  ⟨h.pseudo hm.1 hh, by rw [← h.turn, ← (h.play m).inCheck]; exact hm.2⟩

/-- A piece gives check that no interposed piece can stop. -/
def Contact (q : Pos) : Prop :=
  ∃ s ks kd, q.board ks = some (q.turn, .king) ∧ q.board s = some (q.turn.opp, kd) ∧ ∀ occ, Attacks q.turn.opp kd occ s ks

theorem Twin.contact (h : Twin a b) (hc : Contact a) : Contact b := by
  unfold Contact at hc ⊢
  rw [← h.board, ← h.turn]
  exact hc

/-- No drop answers such a check. -/
theorem Contact.drop {q : Pos} (h : Contact q) {k : HKind} {t : Square} (hs : q.Safe (.drop k t)) : False := by
  obtain ⟨s, ks, kd, h1, h2, h3⟩ := h
  apply hs.2
  have ht : q.board t = none := hs.1.2.1
  have hks : ks ≠ t := by intro e; rw [e, ht] at h1; cases h1
  have hst : s ≠ t := by intro e; rw [e, ht] at h2; cases h2
  refine ⟨ks, ?_, s, kd, ?_, h3 _⟩
  · show Pos.set q.board t _ ks = _
    unfold Pos.set; rw [if_neg hks]; exact h1
  · show Pos.set q.board t _ s = _
    unfold Pos.set; rw [if_neg hst]; exact h2

/-- A mate that no drop could answer does not depend on the hands. -/
theorem Twin.mated (h : Twin a b) (hc : Contact a) (hm : a.Mated) : b.Mated := by
  refine ⟨?_, fun m hs => ?_⟩
  · rw [← h.turn, ← h.inCheck]; exact hm.1
  · cases m with
    | move s t pro => exact hm.2 _ (h.symm.safe hs trivial)
    | drop k t => exact (h.contact hc).drop hs

/-- An attack through a square that was empty and is now occupied. -/
theorem attacks_fewer {occ occ' : Square → Bool} {c : Color} {kd : Kind} {s t : Square} (h : ∀ u, occ u = true → occ' u = true)
    (ha : Attacks c kd occ' s t) : Attacks c kd occ s t := attacks_mono' (fun u _ => h u) ha

/-- If the side not to move is not in check and is mated by a pawn drop, no drop could answer. -/
theorem contact_pawn {q : Pos} (hw : ¬ q.InCheck q.turn.opp) {t : Square} (ht : q.board t = none)
    (hm : (q.play (.drop .pawn t)).InCheck q.turn.opp) : Contact (q.play (.drop .pawn t)) := by
  obtain ⟨ks, hk, s, kd, hs, ha⟩ := hm
  have hb : ∀ u, (q.play (.drop .pawn t)).board u = if u = t then some (q.turn, .pawn) else q.board u := fun u => rfl
  have hT : (q.play (.drop .pawn t)).turn = q.turn.opp := rfl
  by_cases hst : s = t
  · subst hst
    have hkd : kd = .pawn := by
      rw [hb, if_pos rfl] at hs
      simp only [Option.some.injEq, Prod.mk.injEq] at hs
      exact hs.2.symm
    subst hkd
    refine ⟨s, ks, .pawn, by rw [hT]; exact hk, by rw [hT]; exact hs, fun occ => ?_⟩
    rw [hT]
    rcases ha with ⟨d, hd, ha⟩ | ⟨d, hd, -⟩
    · exact Or.inl ⟨d, hd, ha⟩
    · cases hd
  · exfalso
    apply hw
    have hkt : ks ≠ t := by
      intro e; rw [hb, if_pos e] at hk
      simp only [Option.some.injEq, Prod.mk.injEq] at hk
      exact absurd hk.2 (by decide)
    rw [hb, if_neg hst] at hs
    rw [hb, if_neg hkt] at hk
    refine ⟨ks, hk, s, kd, hs, attacks_fewer (fun u hu => ?_) ha⟩
    unfold Pos.occ at hu ⊢
    rw [hb]
    split
    · rfl
    · exact hu

theorem Twin.legal (h : Twin a b) (hw : ¬ a.InCheck a.turn.opp) {m : Mv} (hm : a.Legal m) (hh : Held b m) : b.Legal m := by
  refine ⟨h.safe hm.1 hh, fun hp => hm.2 ?_⟩
  obtain ⟨t, e, hmt⟩ := hp
  subst e
  refine ⟨t, rfl, ((h.play _).symm).mated ?_ hmt⟩
  have hw' : ¬ b.InCheck b.turn.opp := by rw [← h.turn, ← h.inCheck]; exact hw
  have hP : b.Pseudo (.drop .pawn t) := h.pseudo hm.1.1 hh
  exact contact_pawn hw' hP.2.1 hmt.1

theorem Twin.declines (h : Twin a b) (m : Mv) : Declines a m ↔ Declines b m := by
  unfold Declines; rw [h.board, h.turn]

theorem Twin.keen (h : Twin a b) (m : Mv) : keenReply a m ↔ keenReply b m := not_congr (h.declines m)

/-- After a legal move the side that moved is not in check. -/
theorem waiting_play {q : Pos} {m : Mv} (hm : q.Legal m) : ¬ (q.play m).InCheck (q.play m).turn.opp := by
  rw [play_turn, opp_opp]; exact hm.1.2

/-! ### More for the attacker, less for the defender -/

theorem play_hand_mono (h : Twin a b) {c : Color} {k : HKind} (hk : a.hand c k ≤ b.hand c k) (m : Mv) :
    (a.play m).hand c k ≤ (b.play m).hand c k := by
  cases m with
  | move s t pro =>
    cases hs : a.board s with
    | none =>
      have hs' : b.board s = none := by rw [← h.board]; exact hs
      simp only [Pos.play, hs, hs']
      exact hk
    | some x =>
      have hs' : b.board s = some x := by rw [← h.board]; exact hs
      obtain ⟨d, kd⟩ := x
      rw [play_piece hs, play_piece hs']
      simp only [h.board, h.turn]
      split <;> omega
  | drop x t =>
    simp only [Pos.play, h.turn]
    split <;> omega

/-- The attacker holds at least as much in `b`, the defender at most as much. -/
structure Better (A : Color) (a b : Pos) : Prop extends Twin a b where
  att : ∀ k, a.hand A k ≤ b.hand A k
  defd : ∀ k, b.hand A.opp k ≤ a.hand A.opp k

theorem Better.play {A : Color} (h : Better A a b) (m : Mv) : Better A (a.play m) (b.play m) :=
  ⟨h.toTwin.play m, fun k => play_hand_mono h.toTwin (h.att k) m, fun k => play_hand_mono h.toTwin.symm (h.defd k) m⟩

theorem Better.held_att {A : Color} (h : Better A a b) (hT : a.turn = A) {m : Mv} (hm : Held a m) : Held b m := by
  cases m with
  | move => exact trivial
  | drop k t =>
    have := h.att k
    unfold Held at hm ⊢
    rw [← h.turn]; rw [hT] at hm ⊢; omega

theorem Better.held_def {A : Color} (h : Better A a b) (hT : a.turn = A.opp) {m : Mv} (hm : Held b m) : Held a m := by
  cases m with
  | move => exact trivial
  | drop k t =>
    have := h.defd k
    unfold Held at hm ⊢
    rw [← h.turn, hT] at hm; rw [hT]; omega

theorem Better.mated {A : Color} (h : Better A a b) (hT : a.turn = A.opp) (hm : a.Mated) : b.Mated := by
  refine ⟨by rw [← h.turn, ← h.toTwin.inCheck]; exact hm.1, fun m hs => hm.2 m (h.toTwin.symm.safe hs ?_)⟩
  exact h.held_def hT (held_of_pseudo hs.1)

theorem Better.loses {A : Color} : ∀ (n : Nat) {a b : Pos}, Better A a b → a.turn = A.opp → ¬ a.InCheck A → LosesIn keenReply n a →
    LosesIn keenReply n b := by
  intro n
  induction n with
  | zero => intro a b h hT _ hm; exact h.mated hT hm
  | succ n ih =>
    intro a b h hT hw hm
    refine ⟨by rw [← h.turn, ← h.toTwin.inCheck]; exact hm.1, fun m hl hk => ?_⟩
    have hTb : b.turn = A.opp := by rw [← h.turn]; exact hT
    have hwb : ¬ b.InCheck b.turn.opp := by rw [hTb, opp_opp, ← h.toTwin.inCheck]; exact hw
    have hla : a.Legal m := h.toTwin.symm.legal hwb hl (h.held_def hT (held_of_pseudo hl.1.1))
    obtain ⟨m', hl', hn⟩ := hm.2 m hla ((h.toTwin.keen m).mpr hk)
    have hB := h.play m
    have hT1 : (a.play m).turn = A := by rw [play_turn, hT, opp_opp]
    refine ⟨m', hB.toTwin.legal (waiting_play hla) hl' (hB.held_att hT1 (held_of_pseudo hl'.1.1)), ih (hB.play m') ?_ ?_ hn⟩
    · rw [play_turn, hT1]
    · have := hl'.1.2
      rw [hT1] at this
      exact this

theorem Better.mates {A : Color} {n : Nat} (h : Better A a b) (hT : a.turn = A) (hw : ¬ a.InCheck A.opp) (hm : MatesIn keenReply n a) :
    MatesIn keenReply n b := by
  obtain ⟨m, hl, hn⟩ := hm
  have hw' : ¬ a.InCheck a.turn.opp := by rw [hT]; exact hw
  refine ⟨m, h.toTwin.legal hw' hl (h.held_att hT (held_of_pseudo hl.1.1)), Better.loses n (h.play m) ?_ ?_ hn⟩
  · rw [play_turn, hT]
  · have := hl.1.2; rw [hT] at this; exact this

/-! ### Longer mates -/

theorem losesIn_succ : ∀ (n : Nat) {q : Pos}, LosesIn keenReply n q → LosesIn keenReply (n + 1) q := by
  intro n
  induction n with
  | zero => intro q h; exact ⟨h.1, fun m hl _ => absurd hl.1 (h.2 m)⟩
  | succ n ih =>
    intro q h
    refine ⟨h.1, fun m hl hk => ?_⟩
    obtain ⟨m', h1, h2⟩ := h.2 m hl hk
    exact ⟨m', h1, ih h2⟩

theorem losesIn_mono {n n' : Nat} (h : n ≤ n') {q : Pos} (hq : LosesIn keenReply n q) : LosesIn keenReply n' q := by
  induction h with
  | refl => exact hq
  | step _ ih => exact losesIn_succ _ ih

/-- All moves. -/
def allMv : List Mv :=
  (List.finRange 81).flatMap (fun s => (List.finRange 81).flatMap fun t => [.move s t false, .move s t true]) ++
  [HKind.pawn, .lance, .knight, .silver, .gold, .bishop, .rook].flatMap fun k => (List.finRange 81).map fun t => .drop k t

theorem mem_allMv (m : Mv) : m ∈ allMv := by
  unfold allMv
  rw [List.mem_append]
  cases m with
  | move s t pro =>
    left
    refine List.mem_flatMap.mpr ⟨s, List.mem_finRange s, List.mem_flatMap.mpr ⟨t, List.mem_finRange t, ?_⟩⟩
    cases pro <;> simp
  | drop k t =>
    right
    refine List.mem_flatMap.mpr ⟨k, by cases k <;> simp, List.mem_map.mpr ⟨t, List.mem_finRange t, rfl⟩⟩

theorem uniform {P : Mv → Nat → Prop} (hmono : ∀ m n n', n ≤ n' → P m n → P m n') (l : List Mv) (h : ∀ m : Mv, m ∈ l → ∃ n, P m n) :
    ∃ N, ∀ m : Mv, m ∈ l → P m N := by
  induction l with
  | nil => exact ⟨0, fun m hm => absurd hm (List.not_mem_nil)⟩
  | cons x l ih =>
    obtain ⟨N, hN⟩ := ih fun m hm => h m (List.mem_cons_of_mem _ hm)
    obtain ⟨n, hn⟩ := h x List.mem_cons_self
    refine ⟨max N n, fun m hm => ?_⟩
    rcases List.mem_cons.mp hm with e | hm
    · subst e; exact hmono _ _ _ (Nat.le_max_right _ _) hn
    · exact hmono _ _ _ (Nat.le_max_left _ _) (hN m hm)

/-! ### Sufficient hands -/

/-- The attacker `A` has a forced mate. -/
def Wins (A : Color) (q : Pos) : Prop := (q.turn = A → ∃ n, MatesIn keenReply n q) ∧ (q.turn = A.opp → ∃ n, LosesIn keenReply n q)

/-- The same board, side to move and pieces in both hands together. -/
structure Similar (a b : Pos) : Prop extends Twin a b where
  sum : ∀ k, a.hand .black k + a.hand .white k = b.hand .black k + b.hand .white k

theorem Similar.refl (a : Pos) : Similar a a := ⟨⟨rfl, rfl⟩, fun _ => rfl⟩
theorem Similar.symm (h : Similar a b) : Similar b a := ⟨h.toTwin.symm, fun k => (h.sum k).symm⟩
theorem Similar.trans {c : Pos} (h : Similar a b) (h' : Similar b c) : Similar a c :=
  ⟨⟨h.board.trans h'.board, h.turn.trans h'.turn⟩, fun k => (h.sum k).trans (h'.sum k)⟩

theorem Similar.sum' (h : Similar a b) (A : Color) (k : HKind) : a.hand A k + a.hand A.opp k = b.hand A k + b.hand A.opp k := by
  have := h.sum k
  cases A
  · exact this
  · show a.hand .white k + a.hand .black k = b.hand .white k + b.hand .black k
    omega

/-- In every such position in which the attacker holds at least `h` there is a forced mate. -/
def Suffices (A : Color) (n : Pos) (h : HKind → Nat) : Prop := ∀ q, Similar q n → (∀ k, h k ≤ q.hand A k) → Wins A q

variable {A : Color} {n : Pos} {h h' : HKind → Nat}

theorem Suffices.mono (hs : Suffices A n h) (hh : ∀ k, h k ≤ h' k) : Suffices A n h' := fun q hq hk =>
  hs q hq fun k => (hh k).trans (hk k)

theorem Suffices.similar {n' : Pos} (hs : Suffices A n h) (hn : Similar n n') : Suffices A n' h := fun q hq hk =>
  hs q (hq.trans hn.symm) hk

theorem Suffices.wins (hs : Suffices A n h) (hh : ∀ k, h k ≤ n.hand A k) : Wins A n := hs n (Similar.refl n) hh

theorem Similar.better {q : Pos} (hq : Similar n q) (hh : ∀ k, n.hand A k ≤ q.hand A k) : Better A n q :=
  ⟨hq.toTwin, hh, fun k => by have := hq.sum' A k; have := hh k; omega⟩

theorem Wins.suffices (hw : Wins A n) (hn : ¬ n.InCheck n.turn.opp) (hh : ∀ k, n.hand A k ≤ h k) : Suffices A n h := by
  intro q hq hk
  have hB : Better A n q := hq.symm.better fun k => (hh k).trans (hk k)
  refine ⟨fun hT => ?_, fun hT => ?_⟩
  · have hT' : n.turn = A := by rw [← hq.turn]; exact hT
    obtain ⟨i, hi⟩ := hw.1 hT'
    exact ⟨i, hB.mates hT' (by rw [← hT']; exact hn) hi⟩
  · have hT' : n.turn = A.opp := by rw [← hq.turn]; exact hT
    obtain ⟨i, hi⟩ := hw.2 hT'
    refine ⟨i, Better.loses i hB hT' ?_ hi⟩
    rw [hT', opp_opp] at hn; exact hn

/-! #### One move of the attacker -/

theorem wins_of_child {m : Mv} (hT : n.turn = A) (hm : n.Legal m) (hw : Wins A (n.play m)) : Wins A n := by
  refine ⟨fun _ => ?_, fun h => ?_⟩
  · obtain ⟨i, hi⟩ := hw.2 (by rw [play_turn, hT])
    exact ⟨i, m, hm, hi⟩
  · rw [hT] at h; exact absurd h (by cases A <;> decide)

theorem similar_play {q : Pos} (hq : Similar q n) {m : Mv} (h1 : Held q m) (h2 : Held n m) : Similar (q.play m) (n.play m) := by
  refine ⟨hq.toTwin.play m, fun k => ?_⟩
  have hs := hq.sum k
  cases m with
  | move s t pro =>
    cases hb : q.board s with
    | none =>
      have hb' : n.board s = none := by rw [← hq.board]; exact hb
      simp only [Pos.play, hb, hb']
      exact hs
    | some x =>
      have hb' : n.board s = some x := by rw [← hq.board]; exact hb
      obtain ⟨d, kd⟩ := x
      rw [play_piece hb, play_piece hb']
      simp only [hq.board, hq.turn]
      by_cases he : ∃ k', (n.board t).map Prod.snd = some k' ∧ k'.hand = some k
      · simp only [he, and_true]
        cases n.turn
        · simp only [if_true, reduceCtorEq, if_false]; omega
        · simp only [if_true, reduceCtorEq, if_false]; omega
      · simp only [he, and_false, if_false]; exact hs
  | drop x t =>
    unfold Held at h1 h2
    rw [hq.turn] at h1
    simp only [Pos.play, hq.turn]
    by_cases he : k = x
    · subst he
      cases hT : n.turn
      · rw [hT] at h1 h2
        simp only [if_true, reduceCtorEq, false_and, true_and, if_false]; omega
      · rw [hT] at h1 h2
        simp only [if_true, reduceCtorEq, false_and, true_and, if_false]; omega
    · simp only [he, and_false, if_false]; exact hs

/-- The pieces needed before a drop and after it. -/
theorem suffices_drop {x : HKind} {t : Square} (hT : n.turn = A) (hn : ¬ n.InCheck n.turn.opp) (hm : n.Legal (.drop x t))
    (hs : Suffices A (n.play (.drop x t)) h) : Suffices A n (fun k => if k = x then h k + 1 else h k) := by
  intro q hq hk
  have hTq : q.turn = A := by rw [hq.turn]; exact hT
  have hx : 1 ≤ q.hand A x := by have := hk x; simp only [if_true] at this; omega
  have hH : Held q (.drop x t) := by unfold Held; rw [hTq]; exact hx
  have hl : q.Legal (.drop x t) := hq.toTwin.symm.legal hn hm hH
  refine wins_of_child hTq hl (hs _ (similar_play hq hH (held_of_pseudo hm.1.1)) fun k => ?_)
  have := hk k
  simp only [Pos.play, hTq, true_and]
  by_cases e : k = x
  · simp only [e, if_true] at this ⊢; omega
  · simp only [e, if_false] at this ⊢; omega

/-- The pieces needed before a move that captures a piece of kind `x` and after it. -/
theorem suffices_capture {s t : Square} {pro : Bool} {x : HKind} {kd : Kind} (hT : n.turn = A) (hn : ¬ n.InCheck n.turn.opp)
    (hm : n.Legal (.move s t pro)) (hc : (n.board t).map Prod.snd = some kd) (hx : kd.hand = some x)
    (hs : Suffices A (n.play (.move s t pro)) h) : Suffices A n (fun k => if k = x then h k - 1 else h k) := by
  intro q hq hk
  have hTq : q.turn = A := by rw [hq.turn]; exact hT
  have hl : q.Legal (.move s t pro) := hq.toTwin.symm.legal hn hm trivial
  refine wins_of_child hTq hl (hs _ (similar_play hq trivial trivial) fun k => ?_)
  have := hk k
  obtain ⟨kd0, hb, -⟩ := hl.1.1
  rw [play_piece hb]
  have hcq : (q.board t).map Prod.snd = some kd := by rw [hq.board]; exact hc
  simp only [hTq, true_and]
  by_cases e : k = x
  · subst e
    simp only [if_true] at this
    rw [if_pos ⟨kd, hcq, hx⟩]; omega
  · simp only [e, if_false] at this
    split <;> omega

theorem suffices_move {m : Mv} (hT : n.turn = A) (hn : ¬ n.InCheck n.turn.opp) (hm : n.Legal m) (hs : Suffices A (n.play m) h')
    (hh' : ∀ k, h' k ≤ (n.play m).hand A k) (hh : ∀ k, n.hand A k ≤ h k) : Suffices A n h :=
  (wins_of_child hT hm (hs.wins hh')).suffices hn hh

/-! #### All replies -/

/-- The kinds that may be dropped: there are no more of them than in `n`. -/
def Covered (A : Color) (n : Pos) (h : HKind → Nat) : Prop := ∀ k, n.hand A.opp k = 0 → n.hand A k ≤ h k

theorem Similar.held {q : Pos} (hq : Similar q n) (hT : n.turn = A.opp) (hk : ∀ k, h k ≤ q.hand A k) (hc : Contact n ∨ Covered A n h)
    {m : Mv} (hm : q.Safe m) : Held n m := by
  cases m with
  | move => exact trivial
  | drop k t =>
    rcases hc with hc | hc
    · exact ((hq.toTwin.symm.contact hc).drop hm).elim
    · unfold Held
      have h1 : 1 ≤ q.hand q.turn k := hm.1.1
      rw [hq.turn, hT] at h1
      rw [hT]
      by_contra h0
      have hz : n.hand A.opp k = 0 := by omega
      have := hc k hz
      have := hk k
      have := hq.sum' A k
      omega

theorem suffices_mated (hT : n.turn = A.opp) (hm : n.Mated) (hc : Contact n ∨ Covered A n h) {q : Pos} (hq : Similar q n)
    (hk : ∀ k, h k ≤ q.hand A k) : q.Mated := by
  refine ⟨by rw [hq.turn, hq.toTwin.inCheck]; exact hm.1, fun m hs => hm.2 m (hq.toTwin.safe hs (hq.held hT hk hc hs))⟩

theorem play_hand_def {q : Pos} (hT : q.turn = A.opp) (m : Mv) : (q.play m).hand A = q.hand A := by
  have := play_hand_opp (q := q) m
  rw [hT, opp_opp] at this
  exact this

/-- The pieces needed before a reply are those needed after every reply. -/
theorem suffices_replies (hT : n.turn = A.opp) (hn : ¬ n.InCheck n.turn.opp) (hin : n.InCheck n.turn) (hc : Contact n ∨ Covered A n h)
    (hs : ∀ m : Mv, n.Legal m → keenReply n m → Suffices A (n.play m) h) : Suffices A n h := by
  intro q hq hk
  have hTq : q.turn = A.opp := by rw [hq.turn]; exact hT
  refine ⟨fun e => by rw [hTq] at e; exact absurd e (by cases A <;> decide), fun _ => ?_⟩
  have hnq : ¬ q.InCheck q.turn.opp := by rw [hq.turn, hq.toTwin.inCheck]; exact hn
  have hall : ∀ m : Mv, m ∈ allMv → ∃ i, (q.Legal m → keenReply q m → ∃ m', (q.play m).Legal m' ∧ LosesIn keenReply i ((q.play m).play m')) := by
    intro m _
    by_cases hl : q.Legal m ∧ keenReply q m
    · obtain ⟨hl, hkn⟩ := hl
      have hH := hq.held hT hk hc hl.1
      have hln : n.Legal m := hq.toTwin.legal hnq hl hH
      have hw := hs m hln ((hq.toTwin.keen m).mp hkn) (q.play m) (similar_play hq (held_of_pseudo hl.1.1) hH)
        (fun k => by rw [play_hand_def hTq]; exact hk k)
      obtain ⟨i, m', h1, h2⟩ := hw.1 (by rw [play_turn, hTq, opp_opp])
      exact ⟨i, fun _ _ => ⟨m', h1, h2⟩⟩
    · exact ⟨0, fun h1 h2 => absurd ⟨h1, h2⟩ hl⟩
  obtain ⟨N, hN⟩ := uniform (fun m i i' hi hp h1 h2 => by
    obtain ⟨m', h3, h4⟩ := hp h1 h2
    exact ⟨m', h3, losesIn_mono hi h4⟩) allMv hall
  exact ⟨N + 1, by rw [hq.turn, hq.toTwin.inCheck]; exact hin, fun m hl hkn => hN m (mem_allMv m) hl hkn⟩

/-- In check without a keen reply. (A reply by a pawn drop that mates is against the rules.) -/
def Lost (q : Pos) : Prop := q.InCheck q.turn ∧ ∀ m, q.Legal m → ¬ keenReply q m

theorem Mated.lost {q : Pos} (h : q.Mated) : Lost q := ⟨h.1, fun m hm => absurd hm.1 (h.2 m)⟩

/-- The pieces needed for a mating move. -/
theorem suffices_mate {m : Mv} (hT : n.turn = A) (hn : ¬ n.InCheck n.turn.opp) (hm : n.Legal m) (hmt : Lost (n.play m))
    (hd : ∀ x t, m = .drop x t → 1 ≤ h x) (hc : Contact (n.play m) ∨ Covered A n h) : Suffices A n h := by
  intro q hq hk
  have hTq : q.turn = A := by rw [hq.turn]; exact hT
  have hH : Held q m := by
    cases m with
    | move => exact trivial
    | drop x t => unfold Held; rw [hTq]; exact (hd x t rfl).trans (hk x)
  have hHn := held_of_pseudo hm.1.1
  have hl : q.Legal m := hq.toTwin.symm.legal hn hm hH
  refine ⟨fun _ => ⟨1, m, hl, ?_⟩, fun e => by rw [hTq] at e; exact absurd e (by cases A <;> decide)⟩
  have hS := similar_play hq hH hHn
  have hT1 : (n.play m).turn = A.opp := by rw [play_turn, hT]
  refine ⟨by rw [hS.turn, hS.toTwin.inCheck]; exact hmt.1, fun m' hs hkn => absurd ((hS.toTwin.keen m').mp hkn) (hmt.2 m' (hS.toTwin.legal (waiting_play hl) hs ?_))⟩
  replace hs := hs.1
  cases m' with
  | move => exact trivial
  | drop k t =>
    rcases hc with hc | hc
    · exact ((hS.toTwin.symm.contact hc).drop hs).elim
    · unfold Held
      have h1 : 1 ≤ (q.play m).hand (q.play m).turn k := hs.1.1
      have e1 : (q.play m).hand A.opp = q.hand A.opp := by have := play_hand_opp (q := q) m; rw [hTq] at this; exact this
      have e2 : (n.play m).hand A.opp = n.hand A.opp := by have := play_hand_opp (q := n) m; rw [hT] at this; exact this
      rw [hS.turn, hT1, e1] at h1
      rw [hT1, e2]
      by_contra h0
      have hz : n.hand A.opp k = 0 := by omega
      have := hc k hz
      have := hk k
      have := hq.sum' A k
      omega

end HandDom
end Verif
