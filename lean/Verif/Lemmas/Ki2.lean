import Verif.Model.Ki2
import Verif.Lemmas.KifMoves

/-!
# Lemmas about KI2 texts: which piece is meant
-/

namespace Verif.Ki2
open Position Kif Spec

/-! ### Two pieces of a kind come from different sides -/

theorem dir_sign (k : Kind) : ∀ d ∈ k.steps ++ k.slides, ∀ e ∈ k.steps ++ k.slides, d.1.sign = e.1.sign → d.2.sign = e.2.sign → d = e := by
  cases k <;> decide

theorem step_not_slide (k : Kind) : ∀ d ∈ k.steps, d ∉ k.slides := by cases k <;> decide

theorem orient_inj {c : Color} {d e : Spec.Dir} (h1 : (orient c d).1.sign = (orient c e).1.sign)
    (h2 : (orient c d).2.sign = (orient c e).2.sign) : d.1.sign = e.1.sign ∧ d.2.sign = e.2.sign := by
  cases c
  · exact ⟨h1, h2⟩
  · simp only [orient, Int.sign_neg] at h1 h2; omega

/-- A piece attacks a square by a number of steps in one direction, over empty squares. -/
theorem attacks_dir {c : Color} {k : Kind} {occ : Square → Bool} {s t : Square} (h : Attacks c k occ s t) :
    ∃ d ∈ k.steps ++ k.slides, ∃ n : Nat, 1 ≤ n ∧ At s (orient c d) n t ∧ (d ∈ k.steps → n = 1) ∧
      ∀ j : Nat, 1 ≤ j → j < n → ∀ u, At s (orient c d) j u → occ u = false := by
  rcases h with ⟨d, hd, h⟩ | ⟨d, hd, n, h1, h2, h3⟩
  · exact ⟨d, List.mem_append_left _ hd, 1, le_refl _, h, fun _ => rfl, fun j h1 h2 => by omega⟩
  · exact ⟨d, List.mem_append_right _ hd, n, h1, h2, fun h => absurd hd (step_not_slide k d h), h3⟩

theorem sign_at {s t : Square} {d : Spec.Dir} {n : Nat} (h1 : 1 ≤ n) (h : At s d n t) :
    (X t - X s).sign = d.1.sign ∧ (Y t - Y s).sign = d.2.sign := by
  have hn : ((n : Nat) : Int).sign = 1 := Int.sign_eq_one_of_pos (by omega)
  constructor
  · rw [h.1, show X s + n * d.1 - X s = n * d.1 by omega, Int.sign_mul, hn, one_mul]
  · rw [h.2, show Y s + n * d.2 - Y s = n * d.2 by omega, Int.sign_mul, hn, one_mul]

theorem sq_ext {s t : Square} (h1 : X s = X t) (h2 : Y s = Y t) : s = t := by
  apply Fin.ext; unfold X at h1; unfold Y at h2; omega

theorem one_from_side {c : Color} {k : Kind} {occ : Square → Bool} {s s' t : Square} (h : Attacks c k occ s t) (h' : Attacks c k occ s' t)
    (ho : occ s = true) (ho' : occ s' = true) (hx : (X t - X s).sign = (X t - X s').sign) (hy : (Y t - Y s).sign = (Y t - Y s').sign) :
    s = s' := by
  obtain ⟨d, hd, n, hn, ha, -, hf⟩ := attacks_dir h
  obtain ⟨e, he, m, hm, ha', -, hf'⟩ := attacks_dir h'
  obtain ⟨a1, a2⟩ := sign_at hn ha
  obtain ⟨b1, b2⟩ := sign_at hm ha'
  obtain ⟨o1, o2⟩ := orient_inj (c := c) (a1.symm.trans (hx.trans b1)) (a2.symm.trans (hy.trans b2))
  obtain rfl := dir_sign k d hd e he o1 o2
  obtain ⟨⟨x, y⟩, hxy⟩ : ∃ z, z = orient c d := ⟨_, rfl⟩
  rw [← hxy] at ha ha' hf hf'
  obtain ⟨p1, p2⟩ := ha
  obtain ⟨q1, q2⟩ := ha'
  simp only at p1 p2 q1 q2
  have key : ∀ {n m : Nat} {s s' : Square}, X t = X s + n * x → Y t = Y s + n * y → X t = X s' + m * x → Y t = Y s' + m * y →
      n < m → At s' (x, y) (m - n) s := by
    intro n m s s' p1 p2 q1 q2 hlt
    have hc : ((m - n : Nat) : Int) = (m : Int) - n := by omega
    refine ⟨?_, ?_⟩ <;> simp only [hc, Int.sub_mul] <;> omega
  rcases Nat.lt_trichotomy n m with hlt | rfl | hlt
  · rw [hf' (m - n) (by omega) (by omega) s (key p1 p2 q1 q2 hlt)] at ho; cases ho
  · exact sq_ext (by omega) (by omega)
  · rw [hf (n - m) (by omega) (by omega) s' (key q1 q2 p1 p2 hlt)] at ho'; cases ho'

theorem seen_file (c : Color) (s : Square) : (((seen c s.val) / 9 : Nat) : Int) = if c = .black then X s else 8 - X s := by
  unfold seen X
  cases c <;> simp <;> omega
theorem seen_rank (c : Color) (s : Square) : (((seen c s.val) % 9 : Nat) : Int) = if c = .black then Y s else 8 - Y s := by
  unfold seen Y
  cases c <;> simp <;> omega

theorem seen_inj {c : Color} {s s' : Square} (h : seen c s.val = seen c s'.val) : s = s' := by
  apply Fin.ext; unfold seen at h; cases c <;> simp at h <;> omega

theorem rel_sign {c : Color} {s s' t : Square} (h : relOf (seen c s.val) (seen c t.val) = relOf (seen c s'.val) (seen c t.val)) :
    (X t - X s).sign = (X t - X s').sign := by
  have hs := seen_file c s
  have hs' := seen_file c s'
  have ht := seen_file c t
  unfold relOf at h
  rcases Int.lt_trichotomy (X t - X s) 0 with a | a | a <;> rcases Int.lt_trichotomy (X t - X s') 0 with b | b | b <;>
  first
    | rw [a, b]
    | rw [Int.sign_eq_neg_one_of_neg a, Int.sign_eq_neg_one_of_neg b]
    | rw [Int.sign_eq_one_of_pos a, Int.sign_eq_one_of_pos b]
    | (exfalso; revert h; cases c <;> simp at hs hs' ht <;> split_ifs <;> first | (exfalso; omega) | decide)

theorem dirOf_sign {c : Color} {s s' t : Square} (h : dirOf (seen c s.val) (seen c t.val) = dirOf (seen c s'.val) (seen c t.val)) :
    (Y t - Y s).sign = (Y t - Y s').sign := by
  have hs := seen_rank c s
  have hs' := seen_rank c s'
  have ht := seen_rank c t
  unfold dirOf at h
  rcases Int.lt_trichotomy (Y t - Y s) 0 with a | a | a <;> rcases Int.lt_trichotomy (Y t - Y s') 0 with b | b | b <;>
  first
    | rw [a, b]
    | rw [Int.sign_eq_neg_one_of_neg a, Int.sign_eq_neg_one_of_neg b]
    | rw [Int.sign_eq_one_of_pos a, Int.sign_eq_one_of_pos b]
    | (exfalso; revert h; cases c <;> simp at hs hs' ht <;> split_ifs <;> first | (exfalso; omega) | decide)

/-! ### The words for two candidates -/

/-- What a word says about the origin `f` meant, the other origin `g` and the destination. -/
def Tells (f g t : Nat) (w : Char) : Prop :=
  (w = '上' ∧ g % 9 < f % 9) ∨ (w = '引' ∧ f % 9 < g % 9) ∨ (w = '寄' ∧ f % 9 = t % 9 ∧ g % 9 ≠ t % 9) ∨
  (w = '左' ∧ g / 9 < f / 9) ∨ (w = '右' ∧ f / 9 < g / 9) ∨ (w = '直' ∧ f / 9 = t / 9 ∧ g / 9 ≠ t / 9)

theorem relOf_left {f t : Nat} : relOf f t = .left ↔ t / 9 < f / 9 := by unfold relOf; split_ifs <;> simp <;> omega
theorem relOf_right {f t : Nat} : relOf f t = .right ↔ f / 9 < t / 9 := by unfold relOf; split_ifs <;> simp <;> omega
theorem relOf_same {f t : Nat} : relOf f t = .same ↔ f / 9 = t / 9 := by unfold relOf; split_ifs <;> simp <;> omega
theorem dirOf_up {f t : Nat} : dirOf f t = .up ↔ t % 9 < f % 9 := by unfold dirOf; split_ifs <;> simp <;> omega
theorem dirOf_down {f t : Nat} : dirOf f t = .down ↔ f % 9 < t % 9 := by unfold dirOf; split_ifs <;> simp <;> omega
theorem dirOf_side {f t : Nat} : dirOf f t = .side ↔ f % 9 = t % 9 := by unfold dirOf; split_ifs <;> simp <;> omega

theorem qualifiers_two {os : List Nat} {pt : PieceType} {f g t : Nat} (hos : os = [f, g] ∨ os = [g, f]) (hft : f ≠ t) (hfg : f ≠ g)
    (hd : ¬ (relOf f t = relOf g t ∧ dirOf f t = dirOf g t)) : ∃ w, qualifiers os pt f t = [w] ∧ Tells f g t w := by
  by_cases hdir : dirOf g t = dirOf f t
  · have hrel : relOf f t ≠ relOf g t := fun e => hd ⟨e, hdir.symm⟩
    have h2 : cntDir os t (dirOf f t) = 2 := by rcases hos with rfl | rfl <;> simp [cntDir, hdir]
    have hsame : ¬ (relOf f t = .same ∧ dirOf f t = .side) := by
      rintro ⟨a, b⟩; rw [relOf_same] at a; rw [dirOf_side] at b; omega
    have hany : ∀ r, (os.any fun x => relOf x t = r && x ≠ f) = decide (relOf g t = r) := by
      intro r; rcases hos with rfl | rfl <;> simp [Ne.symm hfg]
    have hcount : ∀ r, cntRel os t r = (if relOf f t = r then 1 else 0) + (if relOf g t = r then 1 else 0) := by
      intro r
      rcases hos with rfl | rfl <;> simp only [cntRel, List.countP_cons, List.countP_nil, decide_eq_true_eq] <;> omega
    have hcnt : ∀ r, cnt os t r (dirOf f t) = cntRel os t r := by
      intro r; rcases hos with rfl | rfl <;> simp [cnt, cntRel, List.countP_cons, hdir]
    have hneed : ∀ r, needMotion os t r (dirOf f t) = false := by
      intro r
      unfold needMotion
      rw [hcnt, if_neg, Nat.sub_self, if_neg (by omega)]
      rw [hcount]
      split_ifs with a b
      · exact absurd (a.trans b.symm) hrel
      all_goals omega
    unfold qualifiers
    simp only []
    rw [if_neg (by omega)]
    have done : ∀ r, relative os pt f t = some r → Tells f g t r.char → ∃ w, (match relative os pt f t with
        | none => [(dirOf f t).char]
        | some r => r.char :: if (decide (0 < cntRel os t r) && needMotion os t r (dirOf f t)) = true then [(dirOf f t).char] else []) = [w] ∧
          Tells f g t w := by
      intro r hr ht
      rw [hr]
      exact ⟨r.char, by simp [hneed], ht⟩
    rcases hf : relOf f t with _ | _ | _
    · refine done .left (by simp [relative, hf]) ?_
      rw [hf] at hrel
      refine Or.inr (Or.inr (Or.inr (Or.inl ⟨rfl, ?_⟩)))
      rw [relOf_left] at hf
      have : ¬ t / 9 < g / 9 := fun e => hrel (relOf_left.mpr e).symm
      omega
    · refine done .right (by simp [relative, hf]) ?_
      rw [hf] at hrel
      refine Or.inr (Or.inr (Or.inr (Or.inr (Or.inl ⟨rfl, ?_⟩))))
      rw [relOf_right] at hf
      have : ¬ g / 9 < t / 9 := fun e => hrel (relOf_right.mpr e).symm
      omega
    · have hns : dirOf f t ≠ .side := fun e => hsame ⟨hf, e⟩
      have hg : g / 9 ≠ t / 9 := fun e => hrel (hf.trans (relOf_same.mpr e).symm)
      have hff := relOf_same.mp hf
      by_cases hpt : pt ≠ PT.Horse ∧ pt ≠ PT.Dragon
      · refine done .same (by simp [relative, hf, hns, hpt.1, hpt.2]) ?_
        exact Or.inr (Or.inr (Or.inr (Or.inr (Or.inr ⟨rfl, hff, hg⟩))))
      · have hr : relative os pt f t = if decide (relOf g t = .right) = true ∧ ¬ decide (relOf g t = .left) = true then some .left
            else if decide (relOf g t = .left) = true ∧ ¬ decide (relOf g t = .right) = true then some .right else none := by
          unfold relative
          rw [hf]
          simp only [hns, if_false, if_neg hpt, hany]
        rcases Nat.lt_or_gt_of_ne hg with hlt | hlt
        · have e := relOf_right.mpr hlt
          refine done .left (by rw [hr, e]; decide) (Or.inr (Or.inr (Or.inr (Or.inl ⟨rfl, by omega⟩))))
        · have e := relOf_left.mpr hlt
          refine done .right (by rw [hr, e]; decide) (Or.inr (Or.inr (Or.inr (Or.inr (Or.inl ⟨rfl, by omega⟩)))))
  · have h1 : cntDir os t (dirOf f t) = 1 := by rcases hos with rfl | rfl <;> simp [cntDir, hdir]
    refine ⟨(dirOf f t).char, by unfold qualifiers; simp [h1], ?_⟩
    rcases hf : dirOf f t with _ | _ | _
    · rw [hf] at hdir
      refine Or.inl ⟨rfl, ?_⟩
      have a := dirOf_up.mp hf
      have : ¬ t % 9 < g % 9 := fun e => hdir (dirOf_up.mpr e)
      omega
    · rw [hf] at hdir
      refine Or.inr (Or.inl ⟨rfl, ?_⟩)
      have a := dirOf_down.mp hf
      have : ¬ g % 9 < t % 9 := fun e => hdir (dirOf_down.mpr e)
      omega
    · rw [hf] at hdir
      exact Or.inr (Or.inr (Or.inl ⟨rfl, dirOf_side.mp hf, fun e => hdir (dirOf_side.mpr e)⟩))

end Verif.Ki2
