import Verif.Model.Switch
import Verif.Props.Planes

/-!
# C112: the number of planes is the one that is needed
-/

namespace Verif
open Spec Position Switch

/-- What a program last asked for; off at first. -/
def asked : List Call → Bool
  | [] => false
  | .use b :: _ => b
  | _ :: cs => asked cs

/-- No private functions are called. -/
def Documented (cs : List Call) : Prop := ∀ b, Call.useInner b ∉ cs

theorem run_state (cs : List Call) (h : Documented cs) :
    (Switch.run cs).flag = asked cs.reverse ∧ (Switch.run cs).inner = features2Num (asked cs.reverse) ∧ (Switch.run cs).outer = features2Num (asked cs.reverse) := by
  induction cs using List.reverseRecOn with
  | nil => exact ⟨rfl, rfl, rfl⟩
  | append_singleton l c ih =>
    obtain ⟨h1, h2, h3⟩ := ih fun b hb => h b (by simp [hb])
    rw [List.reverse_append, Switch.run, List.foldl_append]
    change (call (Switch.run l) c).flag = asked (c :: l.reverse) ∧ (call (Switch.run l) c).inner = features2Num (asked (c :: l.reverse)) ∧
      (call (Switch.run l) c).outer = features2Num (asked (c :: l.reverse))
    cases c with
    | use b => exact ⟨rfl, rfl, rfl⟩
    | importName => exact ⟨h1, h2, h3⟩
    | useInner b => exact absurd (h b) (by simp)

/-- **C112**: whatever a program has called, `dlshogi.FEATURES2_NUM` is 119 if it last switched the declaration planes on, and 57 otherwise. -/
theorem C112_number (cs : List Call) (h : Documented cs) : (Switch.run cs).outer = if asked cs.reverse then 119 else 57 := by
  rw [(run_state cs h).2.2]
  cases asked cs.reverse <;> rfl

/-- **C112**: arrays with `FEATURES1_NUM` = 62 and `FEATURES2_NUM` planes are large enough: `make_input_features` writes nothing behind them. -/
theorem C112_fits (cs : List Call) (h : Documented cs) (p : Position) (hp : Consistent p) (hc : CheckOK p) (hs : (absPos p).InSet) (a1 a2 : Floats) :
    (∀ i, 62 * 81 ≤ i → (makeInputFeatures (Switch.run cs) p a1 a2).1 i = a1 i) ∧
      ∀ i, (Switch.run cs).outer * 81 ≤ i → (makeInputFeatures (Switch.run cs) p a1 a2).2 i = a2 i := by
  obtain ⟨h1, -, h3⟩ := run_state cs h
  unfold makeInputFeatures
  rw [h1, h3]
  exact ⟨fun i hi => (C63_features1 p hp _ a1 a2).2.2 i hi, fun i hi => (C63_features2 p hp hc hs _ a1 a2).2.2 i hi⟩

/-- **C112**: with the declaration planes switched on, the 57 planes of before are not enough: behind them the first plane of a side is written in any position where its
king has entered, whatever stood there. -/
theorem C112_needed (cs : List Call) (h : Documented cs) (ha : asked cs.reverse = true) (p : Position) (hp : Consistent p) (hs : (absPos p).InSet) (c : Color)
    (hk : (absPos p).KingIn c) (a1 a2 : Floats) (t : Nat) (ht : t < 81) :
    57 * 81 ≤ (57 + (absPos p).side c * 31) * 81 + t ∧ (makeInputFeatures (Switch.run cs) p a1 a2).2 ((57 + (absPos p).side c * 31) * 81 + t) = 1 := by
  refine ⟨by omega, ?_⟩
  unfold makeInputFeatures
  rw [(run_state cs h).1, ha]
  rcases declaration_cell hp hs a1 a2 c (j := 0) (by omega) ht with ⟨h1, -⟩ | ⟨-, h2⟩
  · exact h1
  · exact absurd (.inl ⟨rfl, hk⟩) h2

/-- **C112**: with the planes switched off again nothing is written behind the 57 planes. -/
theorem C112_off (cs : List Call) (h : Documented cs) (p : Position) (hp : Consistent p) (hc : CheckOK p) (hs : (absPos p).InSet) (a1 a2 : Floats) :
    (Switch.run (cs ++ [.use false])).outer = 57 ∧ ∀ i, 57 * 81 ≤ i → (makeInputFeatures (Switch.run (cs ++ [.use false])) p a1 a2).2 i = a2 i := by
  have hd : Documented (cs ++ [.use false]) := fun b hb => by
    rcases List.mem_append.mp hb with hb | hb
    · exact h b hb
    · simp at hb
  have ho : (Switch.run (cs ++ [.use false])).outer = 57 := by rw [C112_number _ hd]; simp [asked]
  refine ⟨ho, fun i hi => (C112_fits _ hd p hp hc hs a1 a2).2 i (by rw [ho]; exact hi)⟩

/-! ### Where it does not hold -/

/-- **C112 fails** for an imported name: it stays what it was, whatever is switched afterwards. -/
theorem C112_fails_name (cs ds : List Call) (h : Documented cs) (h' : Documented ds) (ha : asked cs.reverse = false) :
    57 ∈ (Switch.run (cs ++ .importName :: (ds ++ [.use true]))).names ∧
      (Switch.run (cs ++ .importName :: (ds ++ [.use true]))).outer = 119 ∧
      ∀ (p : Position), Consistent p → (absPos p).InSet → ∀ c, (absPos p).KingIn c → ∀ a1 a2 : Floats,
        ∃ i, 57 * 81 ≤ i ∧ (makeInputFeatures (Switch.run (cs ++ .importName :: (ds ++ [.use true]))) p a1 a2).2 i = 1 := by
  have hd : Documented (cs ++ .importName :: (ds ++ [.use true])) := by
    intro b hb
    simp only [List.mem_append, List.mem_cons, reduceCtorEq, List.not_mem_nil, or_false, false_or] at hb
    rcases hb with hb | hb
    · exact h b hb
    · exact h' b hb
  have hr : asked (cs ++ Call.importName :: (ds ++ [Call.use true])).reverse = true := by simp [asked]
  refine ⟨?_, by rw [C112_number _ hd, hr]; rfl, fun p hp hs c hk a1 a2 => ⟨_, C112_needed _ hd hr p hp hs c hk a1 a2 0 (by decide)⟩⟩
  have keep : ∀ (l : List Call) (m : Modules) (n : Nat), n ∈ m.names → n ∈ (l.foldl call m).names := by
    intro l
    induction l with
    | nil => exact fun _ _ h => h
    | cons a l ih =>
      intro m n hn
      refine ih _ n ?_
      cases a with
      | use b => exact hn
      | importName => exact List.mem_cons_of_mem _ hn
      | useInner b => exact hn
  unfold Switch.run
  rw [List.foldl_append, List.foldl_cons]
  refine keep _ _ _ ?_
  have e := C112_number cs h
  rw [ha] at e
  rw [← show (Switch.run cs).outer = 57 from e]
  exact List.mem_cons_self

/-- **C112 fails** for the private function: `dlshogi.FEATURES2_NUM` does not follow. -/
theorem C112_fails_inner : (Switch.run [.useInner true]).outer = 57 ∧ (Switch.run [.useInner true]).inner = 119 ∧ (Switch.run [.useInner true]).flag = true := by
  exact ⟨rfl, rfl, rfl⟩

/-- The hypotheses are met: a program that switches twice and a position in which both kings have entered. -/
example : Documented [.use true, .importName, .use false, .use true] ∧ asked [Call.use true, .importName, .use false, .use true].reverse = true ∧
    Consistent (decModel 2) ∧ (absPos (decModel 2)).InSet ∧ (absPos (decModel 2)).KingIn .black := by
  have h := (decModel_spec 2 (by decide)).1
  exact ⟨by intro b; simp, rfl, h, decModel_inSet, by rw [(decModel_spec 2 (by decide)).2]; exact ⟨0, by decide +kernel, by decide⟩⟩

end Verif
