import Verif.Lemmas.DfpnMate

/-!
# The df-pn search: reading the children of a node
-/

namespace Verif
namespace Dfpn
open Spec Hand Position Bitboard HandDom

/-- Seven fields, each at its place. -/
def Filled (f : Nat → BitVec 32) (c : Nat → Nat) : Prop := ∀ i < 7, c i < 2 ^ width i ∧ (f i).toNat = c i * 2 ^ shiftBits i

theorem Filled.join {f : Nat → BitVec 32} {c : Nat → Nat} (h : Filled f c) : (Hand.join f).WF ∧ ∀ i < 7, (Hand.join f).numOf i = c i :=
  join_wf (fun i hi => (h i hi).1) fun i hi => (h i hi).2

theorem filled_field (h : Hand) : Filled h.field h.numOf := fun _ hi => ⟨numOf_lt _ _ hi, field_toNat h hi⟩

theorem Filled.ite {f g : Nat → BitVec 32} {c d : Nat → Nat} (hf : Filled f c) (hg : Filled g d) (b : Nat → Prop) [DecidablePred b] :
    Filled (fun i => if b i then f i else g i) (fun i => if b i then c i else d i) := fun i hi => by
  dsimp only
  split
  · exact hf i hi
  · exact hg i hi

theorem Filled.lt {f g : Nat → BitVec 32} {c d : Nat → Nat} (hf : Filled f c) (hg : Filled g d) {i : Nat} (hi : i < 7) :
    f i < g i ↔ c i < d i := by
  rw [BitVec.lt_def, (hf i hi).2, (hg i hi).2]
  exact Nat.mul_lt_mul_right (Nat.two_pow_pos _)

theorem filled_top {f : Nat → BitVec 32} {c : Nat → Nat} (hf : Filled f c) {i : Nat} (hi : i < 7) : f i < 0xffffffff#32 := by
  obtain ⟨h1, h2⟩ := hf i hi
  rw [BitVec.lt_def, h2]
  have : c i * 2 ^ shiftBits i < 2 ^ width i * 2 ^ shiftBits i := Nat.mul_lt_mul_of_pos_right h1 (Nat.two_pow_pos _)
  have : 2 ^ width i * 2 ^ shiftBits i ≤ 2 ^ 31 := by interval_cases i <;> decide
  have : (0xffffffff#32).toNat = 4294967295 := rfl
  omega

theorem not_or_of_opp {A c : Color} (h : c = A.opp) : (false = true) ↔ c = A :=
  ⟨fun e => (by cases e), fun e => by rw [h] at e; revert e; cases A <;> decide⟩

variable (Z : Zobrist) (A : Color) (V : Position → Prop)

/-- The child the search goes on with: found and open. -/
def Chosen (p : Position) (T : Table) (m : Move) : Prop :=
  ∃ mv p' T0 T1 r, m = encode p mv ∧ Step Z V p mv p' ∧ Found T0 p'.st.boardKey (p'.hand A) (depthOf p'.gamePly) T1 r ∧ Grow T1 T ∧
    (T1.get r).Unsettled

def Kid (orNode : Bool) (p : Position) (c : Child) : Prop := ∃ mv p', c = Dfpn.child Z orNode p (encode p mv) ∧ Step Z V p mv p'

structure OrInv (p : Position) (d : Nat) (l : List Child) (T : Table) (a : Acc) : Prop where
  hand : a.e.hand = p.hand A
  depth : a.e.depth = d
  pn : 0 < a.e.pn ∧ a.e.pn ≤ inf
  dn : 0 ≤ a.e.dn
  zero : a.e.dn = 0 → a.e.pn = inf
  best : a.best = a.e.pn
  hands : a.e.dn = 0 → (∃ c, Filled a.hands c) ∨ l ≠ [] ∧ ∀ i, a.hands i = 0xffffffff#32
  move : ∀ m, a.move = some m → a.best < inf → Chosen Z A V p T m

structure OrDone (p : Position) (a : Acc) : Prop where
  pn : a.e.pn = 0
  dn : a.e.dn = inf
  wf : a.e.hand.WF
  suffices' : Suffices A (absPos p) (counts a.e.hand)

structure AndInv (p : Position) (d : Nat) (l : List Child) (T : Table) (a : Acc) : Prop where
  hand : a.e.hand = p.hand A
  depth : a.e.depth = d
  dn : 0 < a.e.dn ∧ a.e.dn ≤ inf
  pn : 0 ≤ a.e.pn
  best : a.best = a.e.dn
  flag : a.e.pn = 0 → a.flag = true ∧ a.e.dn = inf ∧ ∃ c, Filled a.hands c ∧ (∀ i < 7, c i ≤ (p.hand A).numOf i) ∧
    ∀ mv, (absPos p).Legal mv → keenReply (absPos p) mv → Dfpn.child Z false p (encode p mv) ∈ l ∨
      Suffices A ((absPos p).play mv) (fun k => c k.code)
  move : ∀ m, a.move = some m → a.best < inf → Chosen Z A V p T m

structure AndDone (a : Acc) : Prop where
  pn : a.e.pn = inf
  dn : a.e.dn = 0
  wf : a.e.hand.WF

variable {Z A V}

theorem Chosen.grow {p : Position} {T T' : Table} {m : Move} (h : Chosen Z A V p T m) (hg : Grow T T') : Chosen Z A V p T' m := by
  obtain ⟨mv, p', T0, T1, r, h1, h2, h3, h4, h5⟩ := h
  exact ⟨mv, p', T0, T1, r, h1, h2, h3, h4.trans hg, h5⟩

variable {maxDepth : Int} (hV : Tree Z maxDepth A V)
include hV

theorem scanOr_ok {p : Position} (hp : V p) (hturn : p.turn = A) {d : Nat} : ∀ (cs : List Child) (T : Table) (a : Acc),
    TableOK (Proved A V) T → (∀ c ∈ cs, Kid Z V true p c) → OrInv Z A V p d cs T a →
    Grow T (scanOr p cs T a).1 ∧ TableOK (Proved A V) (scanOr p cs T a).1 ∧
      (OrInv Z A V p d [] (scanOr p cs T a).1 (scanOr p cs T a).2 ∨ OrDone A p (scanOr p cs T a).2) := by
  intro cs
  induction cs with
  | nil => exact fun T a hT _ ha => ⟨Grow.refl T, hT, .inl ha⟩
  | cons c l ih =>
    intro T a hT hk ha
    obtain ⟨mv, p', rfl, hs⟩ := hk c List.mem_cons_self
    have ho : (true = true ↔ p.turn = A) := ⟨fun _ => hturn, fun _ => rfl⟩
    obtain ⟨hf, hT'⟩ := hV.child hp hs ho hT
    unfold scanOr
    dsimp only
    revert hf hT'
    generalize Table.child T p (child Z true p (encode p mv)) = R
    obtain ⟨T', r⟩ := R
    intro hf hT'
    dsimp only at hf hT' ⊢
    have hc := hT'.get hf.valid
    split
    · next h0 =>
      refine ⟨hf.grow, hT', .inr ?_⟩
      obtain ⟨h1, h2⟩ := hV.found_wins hs.mem hf hT' h0
      obtain ⟨h3, h4⟩ := hV.orHand hp hturn hs hf.wf h1 h2
      rw [show (child Z true p (encode p mv)).move = encode p mv from rfl, ha.hand]
      exact ⟨rfl, rfl, h3, h4⟩
    · next h0 =>
      have n0 := hc.pn_nonneg
      have n1 := hc.dn_nonneg
      have n2 := ha.pn
      have n3 := ha.dn
      refine (fun h => ⟨hf.grow.trans h.1, h.2⟩) (ih T' _ hT' (fun c h => hk c (List.mem_cons_of_mem _ h)) ?_)
      · constructor
        · exact ha.hand
        · exact ha.depth
        · dsimp only; omega
        · dsimp only; omega
        · intro hz
          dsimp only at hz ⊢
          have h1 := ha.zero (by omega)
          have h2 := hc.dn_zero (by omega)
          omega
        · have hb := ha.best
          dsimp only
          split <;> omega
        · intro hz
          dsimp only at hz ⊢
          left
          rw [if_pos ⟨by omega, by omega⟩]
          rcases ha.hands (by omega) with ⟨c, h1⟩ | ⟨-, h1⟩
          · exact ⟨_, Filled.ite (filled_field _) h1 _⟩
          · refine ⟨(T'.get r).hand.numOf, fun i hi => ?_⟩
            have e := filled_field (T'.get r).hand i hi
            dsimp only
            rw [h1, if_pos (filled_top (filled_field _) hi)]
            exact e
        · intro m hm hb
          dsimp only at hm hb
          split at hm
          · next hif =>
            cases hm
            rw [if_pos hif] at hb
            exact ⟨mv, p', T, T', r, rfl, hs, hf, Grow.refl _, h0, fun h => by have := hc.dn_zero h; omega⟩
          · next hif =>
            rw [if_neg hif] at hb
            exact (ha.move m hm hb).grow hf.grow

theorem hand_eq_reply {p p' : Position} {mv : Mv} (hturn : p.turn = A.opp) (hp : V p) (hs : Step Z V p mv p') {i : Nat} (hi : i < 7) :
    (p'.hand A).numOf i = (p.hand A).numOf i := by
  obtain ⟨k, rfl⟩ := hcode_surj i hi
  have : (absPos p').hand A = (absPos p).hand A := by rw [hs.abs]; exact play_hand_def hturn mv
  exact congrFun this k

theorem andHand_wf {p : Position} (hp : V p) {mv : Mv} (hm : (absPos p).Legal mv) {own ch : Hand} (ho : own.WF) (hc : ch.WF) :
    (andHand p (encode p mv) own ch).WF := by
  have hr := encode_reads (hV.sound p hp).inv.views (hV.playable hp hm)
  unfold andHand
  revert hr
  generalize encode p mv = m
  intro hr
  cases hr with
  | drop k t h1 h2 =>
    rw [if_pos h1, h2]
    split
    · exact (minus_wf hc (hcode_lt k) (by omega)).1
    · exact ho
  | quiet s t pro h1 h2 h3 =>
    rw [if_neg (by rw [h1]; exact Bool.false_ne_true), if_neg (fun e => e h2)]
    exact ho
  | capture s t pro kd x h1 h2 h3 h4 h5 =>
    rw [if_neg (by rw [h1]; exact Bool.false_ne_true), if_pos h2]
    simp only [h5]
    split
    · have := numOf_lt own x.code (hcode_lt x)
      exact (plus_wf hc (hcode_lt x) (by omega)).1
    · exact ho

theorem scanAnd_ok {p : Position} (hp : V p) (hturn : p.turn = A.opp) {d : Nat} : ∀ (cs : List Child) (T : Table) (a : Acc),
    TableOK (Proved A V) T → (∀ c ∈ cs, Kid Z V false p c) → AndInv Z A V p d cs T a →
    Grow T (scanAnd p cs T a).1 ∧ TableOK (Proved A V) (scanAnd p cs T a).1 ∧
      (AndInv Z A V p d [] (scanAnd p cs T a).1 (scanAnd p cs T a).2 ∨ AndDone (scanAnd p cs T a).2) := by
  intro cs
  induction cs with
  | nil => exact fun T a hT _ ha => ⟨Grow.refl T, hT, .inl ha⟩
  | cons c l ih =>
    intro T a hT hk ha
    obtain ⟨mv, p', rfl, hs⟩ := hk c List.mem_cons_self
    have ho : (false = true ↔ p.turn = A) := not_or_of_opp hturn
    obtain ⟨hf, hT'⟩ := hV.child hp hs ho hT
    unfold scanAnd
    dsimp only
    have hfw := fun h0 => hV.found_wins hs.mem hf hT' h0
    revert hf hT' hfw
    generalize Table.child T p (child Z false p (encode p mv)) = R
    obtain ⟨T', r⟩ := R
    intro hf hT' hfw
    dsimp only at hf hT' hfw ⊢
    have hc := hT'.get hf.valid
    split
    · next h0 =>
      refine ⟨hf.grow, hT', .inr ?_⟩
      split
      · exact ⟨rfl, rfl, by rw [show ∀ a : Acc, ({ a.e with pn := inf, dn := 0, num := repeatMark } : Entry).hand = a.e.hand from fun _ => rfl, ha.hand]; exact hV.wf hp A⟩
      · refine ⟨rfl, rfl, ?_⟩
        dsimp only
        rw [show (child Z false p (encode p mv)).move = encode p mv from rfl, ha.hand]
        exact andHand_wf hV hp hs.legal (hV.wf hp A) hf.wf
    · next h0 =>
      have n0 := hc.pn_nonneg
      have n1 := hc.dn_nonneg
      have n2 := ha.pn
      have n3 := ha.dn
      refine (fun h => ⟨hf.grow.trans h.1, h.2⟩) (ih T' _ hT' (fun c h => hk c (List.mem_cons_of_mem _ h)) ?_)
      · constructor
        · exact ha.hand
        · exact ha.depth
        · dsimp only; omega
        · dsimp only; omega
        · have hb := ha.best
          dsimp only
          split <;> omega
        · intro hz
          dsimp only at hz ⊢
          obtain ⟨h1, h2, c, h3, h4, h5⟩ := ha.flag (by omega)
          have hz0 : (T'.get r).pn = 0 := by omega
          have h6 := hc.pn_zero hz0
          obtain ⟨w1, w2⟩ := hfw hz0
          refine ⟨by rw [h1, hz0]; rfl, by omega, fun i => if a.hands i < (T'.get r).hand.field i then (T'.get r).hand.numOf i else c i, ?_, ?_, ?_⟩
          · rw [if_pos ⟨h1, hz0⟩]
            exact Filled.ite (filled_field _) h3 _
          · intro i hi
            have e1 := w2 i hi
            rw [hand_eq_reply hV hturn hp hs hi] at e1
            have e2 := h4 i hi
            dsimp only
            split <;> omega
          · intro mv' hl hkr
            rcases h5 mv' hl hkr with h | h
            · rw [List.mem_cons] at h
              rcases h with h | h
              · right
                have : encode p mv' = encode p mv := congrArg Child.move h
                obtain rfl : mv' = mv := encode_inj p this
                rw [← hs.abs]
                refine w1.mono fun k => ?_
                have := h3.lt (filled_field (T'.get r).hand) (hcode_lt k)
                unfold counts
                dsimp only
                split
                · exact Nat.le_refl _
                · next hn => rw [this] at hn; omega
              · exact .inl h
            · right
              refine h.mono fun k => ?_
              have := h3.lt (filled_field (T'.get r).hand) (hcode_lt k)
              dsimp only
              split
              · next hn => rw [this] at hn; omega
              · exact Nat.le_refl _
        · intro m hm hb
          dsimp only at hm hb
          split at hm
          · next hif =>
            cases hm
            rw [if_pos hif] at hb
            exact ⟨mv, p', T, T', r, rfl, hs, hf, Grow.refl _, fun h => by have := hc.pn_zero h; omega, h0⟩
          · next hif =>
            rw [if_neg hif] at hb
            exact (ha.move m hm hb).grow hf.grow

/-- What a scan leaves for the entry of the node. -/
structure Scanned (Z : Zobrist) (A : Color) (V : Position → Prop) (p : Position) (T T' : Table) (d : Nat) (a : Acc) (e : Entry) : Prop where
  grow : Grow T T'
  table : TableOK (Proved A V) T'
  cell : CellOK (Proved A V) p.st.boardKey e
  kept : e.Unsettled → e.hand = p.hand A ∧ e.depth = d
  move : ∀ m, a.move = some m → e.pn < inf → e.dn < inf → e.Unsettled → Chosen Z A V p T' m

theorem scan_or {p : Position} (hp : V p) (hturn : p.turn = A) {cs : List Child} (hcs : cs ≠ []) {T : Table} (hT : TableOK (Proved A V) T)
    (hk : ∀ c ∈ cs, Kid Z V true p c) {e : Entry} (he : e.hand = p.hand A) :
    ∃ T' a e', scan true p cs T e = some (T', a, e') ∧ Scanned Z A V p T T' e.depth a e' := by
  have h0 : OrInv Z A V p e.depth cs T (startAcc true e) := by
    refine ⟨he, rfl, ⟨show (0 : Int) < inf by decide, le_refl inf⟩, le_refl (0 : Int), fun _ => rfl, rfl, fun _ => .inr ⟨hcs, fun _ => rfl⟩, fun m hm => ?_⟩
    cases hm
  obtain ⟨h1, h2, h3⟩ := scanOr_ok hV hp hturn cs T _ hT hk h0
  refine ⟨_, _, _, by unfold scan; rw [if_pos rfl], ?_⟩
  revert h1 h2 h3
  generalize scanOr p cs T (startAcc true e) = R
  obtain ⟨T', a⟩ := R
  intro h1 h2 h3
  dsimp only at h1 h2 h3 ⊢
  have hwf := hV.wf hp A
  have hinf : (0 : Int) < inf := by decide
  rcases h3 with h | h
  · have n1 := h.pn
    have n2 := h.dn
    unfold closeOr
    dsimp only
    split
    · next hz =>
      have n3 : a.e.dn = 0 := by omega
      have n4 := h.zero n3
      split
      · refine ⟨h1, h2, ⟨?_, ?_, ?_, ?_, .inl ?_, ?_⟩, fun hu => absurd hz hu.2, fun _ _ _ _ hu => absurd hz hu.2⟩
        all_goals (try dsimp only)
        · omega
        · omega
        · omega
        · omega
        · rw [h.hand]; exact hwf
        · omega
      · rcases h.hands n3 with ⟨c, hc⟩ | ⟨e, -⟩
        · refine ⟨h1, h2, ⟨?_, ?_, ?_, ?_, .inl ?_, ?_⟩, fun hu => absurd hz hu.2, fun _ _ _ _ hu => absurd hz hu.2⟩
          all_goals (try dsimp only)
          · omega
          · omega
          · omega
          · omega
          · rw [h.hand]
            refine (Filled.join (c := fun i => if (p.hand A).field i = 0#32 then 0 else if a.hands i < (p.hand A).field i then (p.hand A).numOf i else c i) ?_).1
            intro i hi
            unfold orField
            dsimp only
            split
            · exact ⟨Nat.two_pow_pos _, by simp⟩
            · split
              · exact filled_field _ i hi
              · exact hc i hi
          · omega
        · exact absurd rfl e
    · next hz =>
      refine ⟨h1, h2, ⟨?_, ?_, ?_, ?_, .inl ?_, ?_⟩, fun _ => ⟨h.hand, h.depth⟩, fun m hm hpn _ _ => h.move m hm (by rw [h.best]; exact hpn)⟩
      all_goals (try dsimp only at hz ⊢)
      · omega
      · omega
      · omega
      · intro hz'; exact absurd hz' hz
      · rw [h.hand]; exact hwf
      · omega
  · have n1 := h.pn
    have n2 := h.dn
    unfold closeOr
    dsimp only
    rw [if_neg (by omega)]
    refine ⟨h1, h2, ⟨?_, ?_, ?_, ?_, .inl ?_, fun _ => ⟨h.wf, hV.proved hp h.suffices'⟩⟩, fun hu => absurd n1 hu.1, fun _ _ _ _ hu => absurd n1 hu.1⟩
    all_goals (try dsimp only)
    · omega
    · omega
    · omega
    · omega
    · exact h.wf

theorem scan_and {p : Position} (hp : V p) (hturn : p.turn = A.opp) {cs : List Child} {T : Table} (hT : TableOK (Proved A V) T)
    (hk : ∀ c ∈ cs, Kid Z V false p c)
    (hall : ∀ mv, (absPos p).Legal mv → keenReply (absPos p) mv → Dfpn.child Z false p (encode p mv) ∈ cs) {e : Entry} (he : e.hand = p.hand A) :
    ∃ T' a e', scan false p cs T e = some (T', a, e') ∧ Scanned Z A V p T T' e.depth a e' := by
  have hwf := hV.wf hp A
  have hinf : (0 : Int) < inf := by decide
  have h0 : AndInv Z A V p e.depth cs T (startAcc false e) := by
    refine ⟨he, rfl, ⟨show (0 : Int) < inf by decide, le_refl inf⟩, le_refl (0 : Int), rfl, fun _ => ⟨rfl, rfl, fun _ => 0, fun i _ => ⟨Nat.two_pow_pos _, ?_⟩, fun _ _ => Nat.zero_le _,
      fun mv h1 h2 => .inl (hall mv h1 h2)⟩, fun m hm => ?_⟩
    · show (0#32).toNat = _; simp
    · cases hm
  obtain ⟨h1, h2, h3⟩ := scanAnd_ok hV hp hturn cs T _ hT hk h0
  have hscan : scan false p cs T e = (closeAnd p (scanAnd p cs T (startAcc false e)).2).map fun e' =>
      ((scanAnd p cs T (startAcc false e)).1, (scanAnd p cs T (startAcc false e)).2, e') := by
    unfold scan; rw [if_neg Bool.false_ne_true]
  revert h1 h2 h3 hscan
  generalize scanAnd p cs T (startAcc false e) = R
  obtain ⟨T', a⟩ := R
  intro h1 h2 h3 hscan
  dsimp only at h1 h2 h3 hscan
  have fin : ∀ e', closeAnd p a = some e' → Scanned Z A V p T T' e.depth a e' →
      ∃ T' a e', scan false p cs T e = some (T', a, e') ∧ Scanned Z A V p T T' e.depth a e' :=
    fun e' hc hs => ⟨T', a, e', by rw [hscan, hc]; rfl, hs⟩
  rcases h3 with h | h
  · have n1 := h.dn
    have n2 := h.pn
    unfold closeAnd at fin
    dsimp only at fin
    by_cases hz : min a.e.pn inf = 0
    · rw [if_pos hz] at fin
      have n3 : a.e.pn = 0 := by omega
      obtain ⟨-, n4, c, h5, h6, h7⟩ := h.flag n3
      obtain ⟨near, hn1, hn2⟩ := contactCheck_ok (hV.sound p hp)
      rw [hn1] at fin
      rw [h.hand] at fin
      have hj : Filled (andField (p.hand A) a.hands) c := by
        intro i hi
        have h8 := h6 i hi
        have := (filled_field (p.hand A)).lt h5 hi
        unfold andField
        rw [if_neg (by rw [this]; omega)]
        exact h5 i hi
      obtain ⟨j1, j2⟩ := hj.join
      obtain ⟨s1, s2⟩ := setPP_wf (p.hand p.turn) j1 (hV.wf hp p.turn.opp)
      have hoA : p.turn.opp = A := by rw [hturn, opp_opp]
      have key : ∀ H : Hand, (∀ i < 7, c i ≤ H.numOf i) → (Contact (absPos p) ∨ Covered A (absPos p) (counts H)) → Suffices A (absPos p) (counts H) := by
        intro H hle hcc
        refine suffices_replies hturn (hV.sound p hp).regular.waiting (hV.inCheck p hp hturn) hcc fun m hl hkr => ?_
        rcases h7 m hl hkr with h | h
        · cases h
        · exact h.mono fun k => hle _ (hcode_lt k)
      refine fin _ rfl ⟨h1, h2, ?_, fun hu => absurd hz hu.1, fun _ _ _ _ hu => absurd hz hu.1⟩
      refine ⟨?_, ?_, ?_, ?_, .inl ?_, fun _ => ⟨?_, hV.proved hp ?_⟩⟩
      all_goals (try dsimp only)
      · omega
      · omega
      · omega
      · omega
      · split
        · exact j1
        · exact s1
      · split
        · exact j1
        · exact s1
      · cases near with
        | true =>
          rw [if_pos rfl]
          exact key _ (fun i hi => by rw [j2 i hi]) (.inl (hn2 rfl))
        | false =>
          rw [if_neg Bool.false_ne_true]
          refine key _ (fun i hi => ?_) (.inr fun k hk0 => ?_)
          · rw [s2 i hi, j2 i hi, hoA]
            have := h6 i hi
            split <;> omega
          · have e0 : (p.hand p.turn).numOf k.code = 0 := by
              have : (absPos p).hand A.opp k = (p.hand p.turn).numOf k.code := by rw [← hturn]; rfl
              rw [← this]; exact hk0
            have : (p.hand p.turn).has k.code = false := by
              rw [Bool.eq_false_iff]; intro hh
              have := (Hand.has_iff (hV.wf hp _) (hcode_lt k)).mp hh
              omega
            show (p.hand A).numOf k.code ≤ Hand.numOf _ _
            rw [s2 _ (hcode_lt k), this, if_neg Bool.false_ne_true, hoA]
    · rw [if_neg hz] at fin
      refine fin _ rfl ⟨h1, h2, ⟨?_, ?_, ?_, ?_, .inl ?_, ?_⟩, fun _ => ⟨h.hand, h.depth⟩, fun m hm _ hdn _ => h.move m hm (by rw [h.best]; exact hdn)⟩
      all_goals (try dsimp only at hz ⊢)
      · omega
      · omega
      · omega
      · omega
      · rw [h.hand]; exact hwf
      · omega
  · have n1 := h.pn
    have n2 := h.dn
    unfold closeAnd at fin
    dsimp only at fin
    rw [if_neg (by omega)] at fin
    refine fin _ rfl ⟨h1, h2, ⟨?_, ?_, ?_, ?_, .inl ?_, ?_⟩, fun hu => absurd n2 hu.2, fun _ _ _ _ hu => absurd n2 hu.2⟩
    all_goals (try dsimp only)
    · omega
    · omega
    · omega
    · omega
    · exact h.wf
    · omega

end Dfpn
end Verif
