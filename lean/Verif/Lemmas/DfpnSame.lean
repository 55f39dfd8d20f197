import Verif.Lemmas.DfpnSearch

/-!
# The df-pn search takes back all its moves

This holds whatever the hash keys and the contents of the table are.
-/

namespace Verif
open Spec Bitboard Position

namespace Dfpn

variable {Z : Zobrist}

/-- `m` can be played in `p`, taken back, and leads to a position with `Good (!orNode)`. -/
def Goes (Z : Zobrist) (Good : Bool → Position → Prop) (orNode : Bool) (p : Position) (m : Move) : Prop :=
  ∃ p', doMove Z p m = some p' ∧ doMoveGC Z p m (p.moveGivesCheck m) = some p' ∧ undoMove p' m = some p ∧ Good (!orNode) p' ∧
    (orNode = true → p.moveGivesCheck m = true)

/-- Positions in which a search may start: at AND nodes the side to move is in check. -/
def Good (Z : Zobrist) (orNode : Bool) (p : Position) : Prop := Sound Z p ∧ (orNode = false → (absPos p).InCheck p.turn)

theorem good_list {orNode : Bool} {p : Position} (h : Good Z orNode p) {l : List Move} (hl : picker orNode p = some l) :
    ∀ m ∈ l, Goes Z (Good Z) orNode p m := by
  intro m hm
  cases orNode with
  | true =>
    obtain ⟨mv, rfl, h1, h2⟩ := orPicker_sound h.1 h.1.checks.inCheck hl m hm
    obtain ⟨p', e1, e2, h3, h4, h5, h6, h7⟩ := h.1.step h1
    have hin : (absPos p').InCheck p'.turn := by rw [h6, h4]; exact h2
    exact ⟨p', e1, e2, h5, ⟨h3, fun _ => hin⟩, fun _ => h7.mpr hin⟩
  | false =>
    rcases andPicker_res h.1 (h.2 rfl) with ⟨r, h1, h2, h3⟩ | ⟨h1, -⟩
    · cases hl.symm.trans h1
      obtain ⟨mv, rfl, hmv⟩ := h2 m hm
      obtain ⟨p', e1, e2, h3, h4, h5, h6, h7⟩ := h.1.step hmv
      exact ⟨p', e1, e2, h5, ⟨h3, fun e => by cases e⟩, fun e => by cases e⟩
    · cases hl.symm.trans h1

theorem replies3_same {p : Position} : ∀ (l : List Move) (T : Table), (∀ m ∈ l, Goes Z (Good Z) false p m) →
    ∀ res, replies3 Z l p T = some res → res.2.1 = p := by
  intro l
  induction l with
  | nil => intro T _ res he; unfold replies3 at he; cases he; rfl
  | cons m l ih =>
    intro T hl res he
    obtain ⟨p', e1, e2, e3, -⟩ := hl m (List.mem_cons_self ..)
    unfold replies3 at he
    split at he
    · cases he; rfl
    · next hg =>
      rw [Bool.not_eq_true] at hg
      rw [hg] at e2
      rw [e2, Option.bind_some] at he
      obtain ⟨r, -, he⟩ := Option.bind_eq_some_iff.mp he
      split at he
      · rw [e3, Option.map_some] at he; cases he; rfl
      · dsimp only at he
        rw [e3, Option.bind_some] at he
        exact ih _ (fun m hm => hl m (List.mem_cons_of_mem _ hm)) res he

theorem checks3_same {maxDepth : Int} {r : Ref} {p : Position} : ∀ (l : List Move) (T : Table), (∀ m ∈ l, Goes Z (Good Z) true p m) →
    ∀ res, checks3 Z maxDepth r l p T = some res → res.2.1 = p := by
  intro l
  induction l with
  | nil => intro T _ res he; unfold checks3 at he; cases he; rfl
  | cons m l ih =>
    intro T hl res he
    have ih := fun T => ih T (fun m hm => hl m (List.mem_cons_of_mem _ hm))
    obtain ⟨p', e1, e2, e3, hgood, hg⟩ := hl m (List.mem_cons_self ..)
    rw [hg rfl] at e2
    unfold checks3 at he
    rw [e2, Option.bind_some] at he
    obtain ⟨d, -, he⟩ := Option.bind_eq_some_iff.mp he
    split at he
    · rw [e3, Option.bind_some] at he; exact ih _ res he
    · dsimp only at he
      obtain ⟨l2, hl2, he⟩ := Option.bind_eq_some_iff.mp he
      split at he
      · rw [e3, Option.bind_some] at he
        obtain ⟨h, -, he⟩ := Option.map_eq_some_iff.mp he
        rw [← he]
      · split at he
        · rw [e3, Option.bind_some] at he; exact ih _ res he
        · obtain ⟨res2, hr2, he⟩ := Option.bind_eq_some_iff.mp he
          rw [replies3_same l2 _ (good_list hgood hl2) res2 hr2, e3, Option.bind_some] at he
          split at he
          · cases he; rfl
          · exact ih _ res he

theorem replies2_same {r : Ref} {p : Position} : ∀ (l : List Move) (T : Table), (∀ m ∈ l, Goes Z (Good Z) false p m) →
    ∀ res, replies2 Z r l p T = some res → res.2.1 = p := by
  intro l
  induction l with
  | nil => intro T _ res he; unfold replies2 at he; cases he; rfl
  | cons m l ih =>
    intro T hl res he
    obtain ⟨p', e1, e2, e3, -⟩ := hl m (List.mem_cons_self ..)
    unfold replies2 at he
    split at he
    · cases he; rfl
    · next hg =>
      rw [Bool.not_eq_true] at hg
      rw [hg] at e2
      rw [e2, Option.bind_some] at he
      obtain ⟨r, -, he⟩ := Option.bind_eq_some_iff.mp he
      split at he
      · obtain ⟨l2, hl2, he⟩ := Option.bind_eq_some_iff.mp he
        split at he
        · dsimp only at he
          rw [e3, Option.map_some] at he; cases he; rfl
        · rw [e3, Option.map_some] at he; cases he; rfl
      · dsimp only at he
        obtain ⟨h, -, he⟩ := Option.bind_eq_some_iff.mp he
        rw [e3, Option.bind_some] at he
        exact ih _ (fun m hm => hl m (List.mem_cons_of_mem _ hm)) res he

theorem scanOr_move {p : Position} : ∀ (cs : List Child) (T : Table) (a : Acc) (m : Move), (scanOr p cs T a).2.move = some m →
    a.move = some m ∨ ∃ c ∈ cs, c.move = m := by
  intro cs
  induction cs with
  | nil => intro T a m h; exact .inl h
  | cons c l ih =>
    intro T a m h
    unfold scanOr at h
    dsimp only at h
    split at h
    · exact .inl h
    · rcases ih _ _ m h with h | ⟨c', h1, h2⟩
      · dsimp only at h
        split at h
        · cases h; exact .inr ⟨c, List.mem_cons_self .., rfl⟩
        · exact .inl h
      · exact .inr ⟨c', List.mem_cons_of_mem _ h1, h2⟩

theorem scanAnd_move {p : Position} : ∀ (cs : List Child) (T : Table) (a : Acc) (m : Move), (scanAnd p cs T a).2.move = some m →
    a.move = some m ∨ ∃ c ∈ cs, c.move = m := by
  intro cs
  induction cs with
  | nil => intro T a m h; exact .inl h
  | cons c l ih =>
    intro T a m h
    unfold scanAnd at h
    dsimp only at h
    split at h
    · exact .inl h
    · rcases ih _ _ m h with h | ⟨c', h1, h2⟩
      · dsimp only at h
        split at h
        · cases h; exact .inr ⟨c, List.mem_cons_self .., rfl⟩
        · exact .inl h
      · exact .inr ⟨c', List.mem_cons_of_mem _ h1, h2⟩

theorem scan_move {orNode : Bool} {p : Position} {cs : List Child} {T : Table} {e : Entry} {res : Table × Acc × Entry}
    (h : scan orNode p cs T e = some res) {m : Move} (hm : res.2.1.move = some m) : ∃ c ∈ cs, c.move = m := by
  unfold scan at h
  split at h
  · cases h
    rcases scanOr_move _ _ _ _ hm with h | h
    · cases h
    · exact h
  · obtain ⟨e', -, rfl⟩ := Option.map_eq_some_iff.mp h
    rcases scanAnd_move _ _ _ _ hm with h | h
    · cases h
    · exact h

/-- A search takes back its moves. -/
def Restores (Z : Zobrist) (I : Inner) : Prop :=
  ∀ (orNode : Bool) (thpn thdn : Int) (s s' : State), I orNode thpn thdn s = some s' → Good Z orNode s.pos → s'.pos = s.pos

theorem rounds_same {L : Limits} {I : Inner} (hI : Restores Z I) {orNode : Bool} {r : Ref} {cs : List Child} {thpn thdn : Int} {p : Position}
    (hk : ∀ c ∈ cs, Goes Z (Good Z) orNode p c.move) : ∀ (fuel : Nat) (s s' : State), s.pos = p →
      rounds Z L I orNode r cs thpn thdn fuel s = some s' → s'.pos = p := by
  intro fuel
  induction fuel with
  | zero => intro s s' _ he; unfold rounds at he; cases he
  | succ fuel ih =>
    intro s s' hpos he
    unfold rounds at he
    split at he
    · obtain ⟨res, hres, he⟩ := Option.bind_eq_some_iff.mp he
      dsimp only at he
      split at he
      · cases he; exact hpos
      · obtain ⟨m, hm, he⟩ := Option.bind_eq_some_iff.mp he
        obtain ⟨c, hc, rfl⟩ := scan_move hres hm
        obtain ⟨p', e1, -, e3, hgood, -⟩ := hk c hc
        rw [hpos, e1, Option.bind_some] at he
        obtain ⟨s1, he1, he⟩ := Option.bind_eq_some_iff.mp he
        rw [hI _ _ _ _ _ he1 hgood] at he
        dsimp only at he
        rw [e3, Option.bind_some] at he
        exact ih _ s' rfl he
    · cases he; exact hpos

theorem inner_same {L : Limits} (fuel : Nat) : Restores Z (inner Z L fuel) := by
  induction fuel with
  | zero => intro _ _ _ s s' he; unfold inner at he; cases he
  | succ fuel ih =>
    intro orNode thpn thdn s s' he hp
    unfold inner at he
    dsimp only at he
    split at he
    · cases he; rfl
    · obtain ⟨l, hl, he⟩ := Option.bind_eq_some_iff.mp he
      have hgo := good_list hp hl
      split at he
      · cases he; rfl
      · obtain ⟨⟨b, p1, T1⟩, hsh, he⟩ := Option.bind_eq_some_iff.mp he
        dsimp only at he
        have : p1 = s.pos := by
          unfold shallow at hsh
          split at hsh
          · cases orNode with
            | true => rw [if_pos rfl] at hsh; exact checks3_same l _ hgo _ hsh
            | false => rw [if_neg Bool.false_ne_true] at hsh; exact replies2_same l _ hgo _ hsh
          · cases hsh; rfl
        subst this
        split at he
        · cases he; rfl
        · unfold general at he
          dsimp only at he
          obtain ⟨d, -, he⟩ := Option.bind_eq_some_iff.mp he
          cases hv : verdict orNode d with
          | some v => rw [hv] at he; cases he; rfl
          | none =>
            rw [hv] at he
            refine rounds_same ih (p := s.pos) (fun c hc => ?_) fuel { s with tt := T1 } s' rfl he
            obtain ⟨m, hm, rfl⟩ := List.mem_map.mp hc
            exact hgo m hm

end Dfpn
end Verif
