import Verif.Lemmas.HandOps

/-!
# The transposition table of the df-pn search

Lookups, what they return, and what writing to an entry leaves alone.
-/

namespace Verif
namespace Dfpn
open Hand

/-- An entry is neither proved nor disproved. -/
def Entry.Unsettled (e : Entry) : Prop := e.pn ≠ 0 ∧ e.dn ≠ 0

theorem fresh_unsettled (h : Hand) (d : Nat) : (Entry.fresh h d).Unsettled := ⟨(by decide : (1 : Int) ≠ 0), (by decide : (1 : Int) ≠ 0)⟩

theorem not_serves {e : Entry} (h : e.Unsettled) (hand : Hand) : e.serves hand = false := by
  unfold Entry.serves; rw [if_neg h.1, if_neg h.2]

/-- What every entry with key `k` satisfies. `P` holds of the hands that are proved. -/
structure CellOK (P : BitVec 64 → Hand → Prop) (k : BitVec 64) (e : Entry) : Prop where
  pn_nonneg : 0 ≤ e.pn
  dn_nonneg : 0 ≤ e.dn
  pn_zero : e.pn = 0 → inf ≤ e.dn
  dn_zero : e.dn = 0 → inf ≤ e.pn
  hand : e.hand.WF ∨ e.hand.Dead
  proved : e.pn = 0 → e.hand.WF ∧ P k e.hand

def TableOK (P : BitVec 64 → Hand → Prop) (T : Table) : Prop := ∀ k e, e ∈ T k → CellOK P k e

variable {P : BitVec 64 → Hand → Prop}

theorem fresh_ok {h : Hand} (hw : h.WF) (d : Nat) (k : BitVec 64) : CellOK P k (.fresh h d) where
  pn_nonneg := (by decide : (0 : Int) ≤ 1)
  dn_nonneg := (by decide : (0 : Int) ≤ 1)
  pn_zero h := by exact absurd h (by decide : ¬ (1 : Int) = 0)
  dn_zero h := by exact absurd h (by decide : ¬ (1 : Int) = 0)
  hand := Or.inl hw
  proved h := by exact absurd h (by decide : ¬ (1 : Int) = 0)

theorem empty_ok : TableOK P .empty := fun _ _ h => absurd h (List.not_mem_nil)

/-! ### Finding an entry -/

theorem findRest_spec {hand : Hand} : ∀ {l : List Entry} {i j : Nat}, findRest hand l i = some j →
    i ≤ j ∧ ∃ e, l[j - i]? = some e ∧ e.serves hand = true := by
  intro l
  induction l with
  | nil => intro i j h; cases h
  | cons e l ih =>
    intro i j h
    unfold findRest at h
    split at h
    · next hs => cases h; exact ⟨Nat.le_refl _, e, by simp, hs⟩
    · obtain ⟨h1, e', h2, h3⟩ := ih h
      exact ⟨by omega, e', by rw [show j - i = (j - (i + 1)) + 1 by omega]; simpa using h2, h3⟩

theorem find_spec {hand : Hand} {depth : Nat} : ∀ {l : List Entry} {i j : Nat}, find hand depth l i = some j →
    i ≤ j ∧ ∃ e, l[j - i]? = some e ∧ (hand = e.hand ∧ depth = e.depth ∨ e.serves hand = true) := by
  intro l
  induction l with
  | nil => intro i j h; cases h
  | cons e l ih =>
    intro i j h
    unfold find at h
    split at h
    · next he =>
      cases hr : findRest hand l (i + 1) with
      | none =>
        rw [hr] at h; cases h
        exact ⟨Nat.le_refl _, e, by simp, Or.inl he⟩
      | some x =>
        rw [hr] at h; cases h
        obtain ⟨h1, e', h2, h3⟩ := findRest_spec hr
        exact ⟨by simp only [Option.getD_some]; omega, e', by
          simp only [Option.getD_some]
          rw [show x - i = (x - (i + 1)) + 1 by omega]; simpa using h2, Or.inr h3⟩
    · split at h
      · next hs => cases h; exact ⟨Nat.le_refl _, e, by simp, Or.inr hs⟩
      · obtain ⟨h1, e', h2, h3⟩ := ih h
        exact ⟨by omega, e', by rw [show j - i = (j - (i + 1)) + 1 by omega]; simpa using h2, h3⟩

theorem findRest_append {hand : Hand} {m : List Entry} (hm : ∀ e ∈ m, e.Unsettled) : ∀ {l : List Entry} {i : Nat},
    findRest hand (l ++ m) i = findRest hand l i := by
  intro l
  induction l with
  | nil =>
    intro i
    have : ∀ (m : List Entry) (i : Nat), (∀ e ∈ m, e.Unsettled) → findRest hand m i = none := by
      intro m
      induction m with
      | nil => intro i _; rfl
      | cons e m ih =>
        intro i h
        unfold findRest
        rw [not_serves (h e List.mem_cons_self) hand, if_neg Bool.false_ne_true]
        exact ih _ fun x hx => h x (List.mem_cons_of_mem _ hx)
    exact this m i hm
  | cons e l ih =>
    intro i
    rw [List.cons_append]
    unfold findRest
    rw [ih]

theorem find_append {hand : Hand} {depth : Nat} {m : List Entry} (hm : ∀ e ∈ m, e.Unsettled) : ∀ {l : List Entry} {i j : Nat},
    find hand depth l i = some j → find hand depth (l ++ m) i = some j := by
  intro l
  induction l with
  | nil => intro i j h; cases h
  | cons e l ih =>
    intro i j h
    rw [List.cons_append]
    unfold find at h ⊢
    rw [findRest_append hm]
    split
    · next he => rw [if_pos he] at h; exact h
    · next he =>
      rw [if_neg he] at h
      split
      · next hs => rw [if_pos hs] at h; exact h
      · next hs => rw [if_neg hs] at h; exact ih h

theorem find_fresh {hand : Hand} {depth : Nat} : ∀ {l : List Entry} {i : Nat}, find hand depth l i = none →
    find hand depth (l ++ [.fresh hand depth]) i = some (i + l.length) := by
  intro l
  induction l with
  | nil =>
    intro i _
    rw [List.nil_append]
    unfold find
    rw [if_pos ⟨rfl, rfl⟩]
    rfl
  | cons e l ih =>
    intro i h
    rw [List.cons_append]
    unfold find at h ⊢
    split
    · next he => rw [if_pos he] at h; cases h
    · next he =>
      rw [if_neg he] at h
      split
      · next hs => rw [if_pos hs] at h; cases h
      · next hs =>
        rw [if_neg hs] at h
        rw [ih h, List.length_cons]
        congr 1
        omega

/-! ### Growing tables -/

/-- `T'` has the entries of `T` and new, unsettled ones. -/
def Grow (T T' : Table) : Prop := ∀ k, ∃ l, T' k = T k ++ l ∧ ∀ e ∈ l, e.Unsettled

theorem Grow.refl (T : Table) : Grow T T := fun k => ⟨[], by simp, by simp⟩

theorem Grow.trans {T T' T'' : Table} (h : Grow T T') (h' : Grow T' T'') : Grow T T'' := by
  intro k
  obtain ⟨l, e, hl⟩ := h k
  obtain ⟨l', e', hl'⟩ := h' k
  refine ⟨l ++ l', by rw [e', e, List.append_assoc], fun x hx => ?_⟩
  rcases List.mem_append.mp hx with hx | hx
  · exact hl x hx
  · exact hl' x hx

theorem Grow.cell {T T' : Table} (h : Grow T T') {k : BitVec 64} {i : Nat} {e : Entry} (he : (T k)[i]? = some e) : (T' k)[i]? = some e := by
  obtain ⟨l, e', -⟩ := h k
  rw [e', List.getElem?_append_left (List.getElem?_eq_some_iff.mp he).1]
  exact he

/-- A reference to an existing entry. -/
def Ref.Valid (r : Ref) (T : Table) : Prop := r.idx < (T r.key).length

theorem get_cell {T : Table} {r : Ref} (h : r.Valid T) : (T r.key)[r.idx]? = some (T.get r) := by
  unfold Table.get
  rw [List.getElem?_eq_getElem h, Option.getD_some]

theorem get_of_cell {T : Table} {r : Ref} {e : Entry} (h : (T r.key)[r.idx]? = some e) : T.get r = e := by
  unfold Table.get; rw [h, Option.getD_some]

theorem valid_of_cell {T : Table} {r : Ref} {e : Entry} (h : (T r.key)[r.idx]? = some e) : r.Valid T :=
  (List.getElem?_eq_some_iff.mp h).1

theorem TableOK.get {T : Table} (hT : TableOK P T) {r : Ref} (h : r.Valid T) : CellOK P r.key (T.get r) :=
  hT _ _ (List.mem_of_getElem? (get_cell h))

/-- What a lookup returns. -/
structure Found (T : Table) (key : BitVec 64) (hand : Hand) (depth : Nat) (T' : Table) (r : Ref) : Prop where
  grow : Grow T T'
  same : r.key = key
  valid : r.Valid T'
  again : find hand depth (T' key) 0 = some r.idx
  wf : (T'.get r).hand.WF
  kind : (T'.get r).hand = hand ∧ (T'.get r).depth = depth ∨
    (T'.get r).pn = 0 ∧ (∀ i < 7, (T'.get r).hand.numOf i ≤ hand.numOf i) ∨
    (T'.get r).pn ≠ 0 ∧ (T'.get r).dn = 0 ∧ ∀ i < 7, hand.numOf i ≤ (T'.get r).hand.numOf i

theorem look_found {T : Table} (hT : TableOK P T) {hand : Hand} (hw : hand.WF) (key : BitVec 64) (depth : Nat) :
    Found T key hand depth (T.look key hand depth).1 (T.look key hand depth).2 ∧ TableOK P (T.look key hand depth).1 := by
  unfold Table.look
  cases hf : find hand depth (T key) 0 with
  | some i =>
    obtain ⟨-, e, he, hk⟩ := find_spec hf
    rw [Nat.sub_zero] at he
    have hg : T.get ⟨key, i⟩ = e := get_of_cell (r := ⟨key, i⟩) he
    have hv : (⟨key, i⟩ : Ref).Valid T := valid_of_cell (r := ⟨key, i⟩) he
    have hc := hT.get hv
    rw [hg] at hc
    refine ⟨⟨Grow.refl T, rfl, hv, hf, ?_, ?_⟩, hT⟩
    · dsimp only
      rw [hg]
      rcases hk with ⟨h1, -⟩ | hs
      · rw [← h1]; exact hw
      · unfold Entry.serves at hs
        split at hs
        · next h0 => exact (hc.proved h0).1
        · split at hs
          · rcases hc.hand with h | h
            · exact h
            · rw [h.2 _ hw] at hs; cases hs
          · cases hs
    · dsimp only
      rw [hg]
      rcases hk with ⟨h1, h2⟩ | hs
      · exact Or.inl ⟨h1.symm, h2.symm⟩
      · unfold Entry.serves at hs
        split at hs
        · next h0 =>
          rw [Bool.and_eq_true, superior_iff hw (hc.proved h0).1] at hs
          exact Or.inr (Or.inl ⟨h0, hs.1⟩)
        · next h0 =>
          split at hs
          · next h1 =>
            rcases hc.hand with h | h
            · rw [Bool.and_eq_true, superior_iff h hw] at hs
              exact Or.inr (Or.inr ⟨h0, h1, hs.1⟩)
            · rw [h.2 _ hw] at hs; cases hs
          · cases hs
  | none =>
    dsimp only
    have hself : (fun k => if k = key then T k ++ [Entry.fresh hand depth] else T k) key = T key ++ [.fresh hand depth] := if_pos rfl
    have hcell : ((fun k => if k = key then T k ++ [Entry.fresh hand depth] else T k) (⟨key, (T key).length⟩ : Ref).key)[(⟨key, (T key).length⟩ : Ref).idx]? =
        some (Entry.fresh hand depth) := by
      dsimp only
      rw [if_pos rfl]
      simp
    have hg := get_of_cell (T := fun k => if k = key then T k ++ [Entry.fresh hand depth] else T k) hcell
    refine ⟨⟨fun k => ?_, rfl, valid_of_cell (T := fun k => if k = key then T k ++ [Entry.fresh hand depth] else T k) hcell, ?_, ?_, ?_⟩, fun k e he => ?_⟩
    · show ∃ l, (if k = key then T k ++ [Entry.fresh hand depth] else T k) = T k ++ l ∧ _
      split
      · exact ⟨[.fresh hand depth], rfl, fun e he => by rw [List.mem_singleton.mp he]; exact fresh_unsettled _ _⟩
      · exact ⟨[], by simp, by simp⟩
    · rw [if_pos rfl, find_fresh hf, Nat.zero_add]
    · rw [hg]; exact hw
    · rw [hg]; exact Or.inl ⟨rfl, rfl⟩
    · dsimp only at he
      split at he
      · rcases List.mem_append.mp he with he | he
        · exact hT k e he
        · rw [List.mem_singleton.mp he]; exact fresh_ok hw _ _
      · exact hT k e he

/-- The same lookup in a table that has grown finds the same entry. -/
theorem Found.again_grow {T T1 T2 : Table} {key : BitVec 64} {hand : Hand} {depth : Nat} {r : Ref} (h : Found T key hand depth T1 r)
    (hg : ∃ l, T2 key = T1 key ++ l ∧ ∀ e ∈ l, e.Unsettled) : T2.look key hand depth = (T2, r) ∧ T2.get r = T1.get r := by
  obtain ⟨l, e, hl⟩ := hg
  refine ⟨?_, ?_⟩
  · unfold Table.look
    rw [e, find_append hl h.again]
    dsimp only
    obtain ⟨rk, ri⟩ := r
    have := h.same
    dsimp only at this ⊢
    rw [this]
  · apply get_of_cell
    have hc := get_cell h.valid
    rw [h.same] at hc ⊢
    rw [e, List.getElem?_append_left (List.getElem?_eq_some_iff.mp hc).1]
    exact hc

/-! ### Writing -/

theorem put_cell {T : Table} {r : Ref} {e : Entry} {k : BitVec 64} {i : Nat} :
    ((T.put r e) k)[i]? = if k = r.key ∧ i = r.idx then (T k)[i]?.map (fun _ => e) else (T k)[i]? := by
  unfold Table.put
  by_cases hk : k = r.key
  · rw [if_pos hk]
    by_cases hi : i = r.idx
    · rw [if_pos ⟨hk, hi⟩, hi, List.getElem?_set_self']
      rfl
    · rw [if_neg (fun h => hi h.2), List.getElem?_set_ne (fun h => hi h.symm)]
  · rw [if_neg hk, if_neg (fun h => hk h.1)]

theorem put_get {T : Table} {r : Ref} (h : r.Valid T) (e : Entry) : (T.put r e).get r = e := by
  apply get_of_cell
  rw [put_cell, if_pos ⟨rfl, rfl⟩, get_cell h]
  rfl

theorem put_valid {T : Table} {r r' : Ref} (h : r.Valid T) (e : Entry) : r.Valid (T.put r' e) := by
  have hc := get_cell h
  have := put_cell (T := T) (r := r') (e := e) (k := r.key) (i := r.idx)
  by_cases hk : r.key = r'.key ∧ r.idx = r'.idx
  · rw [if_pos hk, hc] at this; exact valid_of_cell this
  · rw [if_neg hk, hc] at this; exact valid_of_cell this

theorem put_ok {T : Table} (hT : TableOK P T) {r : Ref} {e : Entry} (he : CellOK P r.key e) : TableOK P (T.put r e) := by
  intro k x hx
  obtain ⟨i, hi⟩ := List.mem_iff_getElem?.mp hx
  rw [put_cell] at hi
  split at hi
  · next h =>
    rw [Option.map_eq_some_iff] at hi
    obtain ⟨-, -, e'⟩ := hi
    rw [← e', h.1]; exact he
  · exact hT k x (List.mem_of_getElem? hi)

/-- Unsettled entries of earlier plies are left alone. -/
def Keep (g : Nat) (T T' : Table) : Prop :=
  ∀ (k : BitVec 64) (i : Nat) (e : Entry), (T k)[i]? = some e → e.Unsettled → e.depth < g → (T' k)[i]? = some e

theorem Keep.refl (g : Nat) (T : Table) : Keep g T T := fun _ _ _ h _ _ => h

theorem Keep.trans {g : Nat} {T T' T'' : Table} (h : Keep g T T') (h' : Keep g T' T'') : Keep g T T'' := fun k i e h1 h2 h3 =>
  h' k i e (h k i e h1 h2 h3) h2 h3

theorem Keep.mono {g g' : Nat} {T T' : Table} (h : Keep g T T') (hg : g' ≤ g) : Keep g' T T' := fun k i e h1 h2 h3 =>
  h k i e h1 h2 (by omega)

theorem Grow.keep {T T' : Table} (h : Grow T T') (g : Nat) : Keep g T T' := fun _ _ _ h1 _ _ => h.cell h1

theorem put_keep {g : Nat} {T : Table} {r : Ref} {e : Entry} (h : ¬ ((T.get r).Unsettled ∧ (T.get r).depth < g)) : Keep g T (T.put r e) := by
  intro k i x h1 h2 h3
  rw [put_cell]
  split
  · next hk =>
    exfalso
    apply h
    have : T.get r = x := get_of_cell (by rw [← hk.1, ← hk.2]; exact h1)
    rw [this]; exact ⟨h2, h3⟩
  · exact h1

theorem Keep.get {g : Nat} {T T' : Table} (h : Keep g T T') {r : Ref} (hv : r.Valid T) (hu : (T.get r).Unsettled) (hd : (T.get r).depth < g) :
    T'.get r = T.get r ∧ r.Valid T' := by
  have := h _ _ _ (get_cell hv) hu hd
  exact ⟨get_of_cell this, valid_of_cell this⟩

/-- The entry found is not one that has to be kept. -/
theorem Found.free {T T' : Table} {key : BitVec 64} {hand : Hand} {depth g : Nat} {r : Ref} (h : Found T key hand depth T' r) (hg : g ≤ depth) :
    ¬ ((T'.get r).Unsettled ∧ (T'.get r).depth < g) := by
  rintro ⟨⟨h1, h2⟩, h3⟩
  rcases h.kind with ⟨-, h⟩ | ⟨h, -⟩ | ⟨-, h, -⟩
  · omega
  · exact h1 h
  · exact h2 h

/-- Every entry keeps its hand and its depth, and is not made open again. -/
def Firm (T T' : Table) : Prop := ∀ (k : BitVec 64) (i : Nat) (e : Entry), (T k)[i]? = some e →
  ∃ e' : Entry, (T' k)[i]? = some e' ∧ e'.hand = e.hand ∧ e'.depth = e.depth ∧ (e'.Unsettled → e.Unsettled)

theorem Firm.refl (T : Table) : Firm T T := fun _ _ e h => ⟨e, h, rfl, rfl, id⟩

theorem Firm.trans {T T' T'' : Table} (h : Firm T T') (h' : Firm T' T'') : Firm T T'' := fun k i e h1 => by
  obtain ⟨e1, h2, a1, a2, a3⟩ := h k i e h1
  obtain ⟨e2, h4, b1, b2, b3⟩ := h' k i e1 h2
  exact ⟨e2, h4, b1.trans a1, b2.trans a2, fun u => a3 (b3 u)⟩

theorem Grow.firm {T T' : Table} (h : Grow T T') : Firm T T' := fun _ _ e h1 => ⟨e, h.cell h1, rfl, rfl, id⟩

theorem put_firm {T : Table} {r : Ref} {e : Entry} (h1 : e.hand = (T.get r).hand) (h2 : e.depth = (T.get r).depth)
    (h3 : e.Unsettled → (T.get r).Unsettled) : Firm T (T.put r e) := by
  intro k i x hx
  rw [put_cell]
  split
  · next hk =>
    have : T.get r = x := get_of_cell (by rw [← hk.1, ← hk.2]; exact hx)
    rw [this] at h1 h2 h3
    exact ⟨e, by rw [hx]; rfl, h1, h2, h3⟩
  · exact ⟨x, hx, rfl, rfl, id⟩

theorem Firm.get {T T' : Table} (h : Firm T T') {r : Ref} (hv : r.Valid T) :
    (T'.get r).hand = (T.get r).hand ∧ (T'.get r).depth = (T.get r).depth ∧ ((T'.get r).Unsettled → (T.get r).Unsettled) ∧ r.Valid T' := by
  obtain ⟨e, h1, h2⟩ := h _ _ _ (get_cell hv)
  rw [get_of_cell h1]
  exact ⟨h2.1, h2.2.1, h2.2.2, valid_of_cell h1⟩

end Dfpn
end Verif
