import Verif.Model.Label
import Verif.Props.Moves
import Verif.Props.Legal

/-!
# C08: move labels
-/

namespace Verif
open Spec Position

/-- The square seen from the player's side. -/
def turned : Color → Square → Nat
  | .black, s => s.val
  | .white, s => 80 - s.val

/-- Direction class of a board move, from the player's side. -/
def dirOf (c : Color) (f t : Square) : Nat :=
  match c with
  | .black => moveDirection (X f - X t) (Y t - Y f)
  | .white => moveDirection (X t - X f) (Y f - Y t)

theorem label_board (p : Position) (c : Color) (f t : Square) (pro : Bool) :
    moveLabel (encode p (.move f t pro)) c = 81 * (dirOf c f t + if pro then 10 else 0) + turned c t := by
  have e := boardMove_toNat p.piece f t pro
  have h1 : pieceType (p.piece t) < 16 := Nat.mod_lt _ (by decide)
  have h2 : pieceType (p.piece f) < 16 := Nat.mod_lt _ (by decide)
  obtain ⟨m, hm⟩ : ∃ m, m = encode p (.move f t pro) := ⟨_, rfl⟩
  replace e := (congrArg BitVec.toNat hm).trans e
  rw [← hm]
  have hf := f.isLt
  have ht := t.isLt
  obtain ⟨v, hv⟩ : ∃ v : BitVec 16, v = m.truncate 16 := ⟨_, rfl⟩
  have hvn : v.toNat = f.val * 128 + t.val + if pro then 2 ^ 14 else 0 := by
    rw [hv]
    simp only [BitVec.truncate_eq_setWidth, BitVec.toNat_setWidth]
    rw [e]
    cases pro <;> simp only [if_true, if_false, Bool.false_eq_true] <;> omega
  have hto : (v &&& 0x7f#16).toNat = t.val := by
    rw [lo7, hvn]; cases pro <;> simp only [if_true, if_false, Bool.false_eq_true] <;> omega
  have hfr : ((v >>> 7) &&& 0x7f#16).toNat = f.val := by
    rw [mid7, hvn]; cases pro <;> simp only [if_true, if_false, Bool.false_eq_true] <;> omega
  have hpro : ((v &&& 0b100000000000000#16).toNat > 0) = (pro = true) := by
    have := bit16 v 14 (by decide)
    have h3 : (1#16 <<< 14) = 0b100000000000000#16 := by decide
    rw [h3] at this
    have h4 : ((v &&& 0b100000000000000#16).toNat > 0) ↔ ((v &&& 0b100000000000000#16) != 0#16) = true := by
      simp only [bne_iff_ne, ne_eq, ← BitVec.toNat_inj]
      show 0 < _ ↔ ¬ _ = 0
      omega
    rw [propext h4, this, hvn, decide_eq_true_eq]
    clear this h4
    cases pro
    · refine propext ⟨fun h => ?_, fun h => by cases h⟩
      rw [if_neg (by decide)] at h; omega
    · refine propext ⟨fun h => rfl, fun h => ?_⟩
      rw [if_pos rfl]; omega
  unfold moveLabel
  simp only [← hv, hfr, hf, if_true, hpro]
  have hsub : ∀ x : BitVec 16, x.toNat < 81 → (80#16 - x).toNat = 80 - x.toNat := by
    intro x hx
    rw [BitVec.toNat_sub_of_le]
    · rfl
    · rw [BitVec.le_def]; show _ ≤ 80; omega
  cases c
  · simp only [hto, hfr, dirOf, turned, X, Y, Int.natCast_ediv, Int.natCast_emod, Nat.cast_ofNat]
    cases pro <;> simp only [if_true, if_false, Bool.false_eq_true] <;> omega
  · have a1 := hsub (v &&& 0x7f#16) (by omega)
    have a2 := hsub ((v >>> 7) &&& 0x7f#16) (by omega)
    rw [hto] at a1
    rw [hfr] at a2
    simp only [a1, a2, dirOf, turned]
    have b1 : (((80 - f.val) / 9 : Nat) : Int) - ((80 - t.val) / 9 : Nat) = X t - X f := by
      simp only [X]; omega
    have b2 : (((80 - t.val) % 9 : Nat) : Int) - ((80 - f.val) % 9 : Nat) = Y f - Y t := by
      simp only [Y]; omega
    rw [b1, b2]
    cases pro <;> simp only [if_true, if_false, Bool.false_eq_true] <;> omega

theorem label_drop (p : Position) (c : Color) (k : HKind) (t : Square) :
    moveLabel (encode p (.drop k t)) c = 81 * (19 + k.kind.code) + turned c t := by
  have hk : 1 ≤ k.kind.code ∧ k.kind.code ≤ 7 := by cases k <;> decide
  have ht := t.isLt
  have e := makeDropMove_toNat k.kind.code t.val (by omega) (by omega)
  obtain ⟨m, hm⟩ : ∃ m, m = encode p (.drop k t) := ⟨_, rfl⟩
  replace e := (congrArg BitVec.toNat hm).trans e
  rw [← hm]
  obtain ⟨v, hv⟩ : ∃ v : BitVec 16, v = m.truncate 16 := ⟨_, rfl⟩
  have hvn : v.toNat = (80 + k.kind.code) * 128 + t.val := by
    rw [hv]
    simp only [BitVec.truncate_eq_setWidth, BitVec.toNat_setWidth]
    rw [e]
    omega
  have hto : (v &&& 0x7f#16).toNat = t.val := by rw [lo7, hvn]; omega
  have hfr : ((v >>> 7) &&& 0x7f#16).toNat = 80 + k.kind.code := by rw [mid7, hvn]; omega
  unfold moveLabel
  simp only [← hv, hfr]
  rw [if_neg (by omega)]
  cases c
  · simp only [hto, turned]; omega
  · have a1 : (80#16 - (v &&& 0x7f#16)).toNat = 80 - t.val := by
      rw [BitVec.toNat_sub_of_le, hto]
      · rfl
      · rw [BitVec.le_def, hto]; show _ ≤ 80; omega
    simp only [a1, turned]; omega

theorem turned_lt (c : Color) (t : Square) : turned c t < 81 := by
  have := t.isLt
  cases c <;> simp only [turned] <;> omega

theorem turned_inj {c : Color} {s t : Square} (h : turned c s = turned c t) : s = t := by
  have := t.isLt
  have := s.isLt
  apply Fin.ext
  cases c <;> simp only [turned] at h <;> omega

theorem moveDirection_lt (x y : Int) : moveDirection x y < 10 := by
  unfold moveDirection
  repeat' split
  all_goals decide

theorem dirOf_lt (c : Color) (f t : Square) : dirOf c f t < 10 := by
  cases c <;> exact moveDirection_lt _ _

/-- **C08** (range), for every move of the board or drop whatever, legal or not, and either colour. -/
theorem C08_range_any (p : Position) (c : Color) (mv : Mv) : moveLabel (encode p mv) c < 27 * 81 := by
  cases mv with
  | move f t pro =>
    rw [label_board]
    have := turned_lt c t
    have := dirOf_lt c f t
    split <;> omega
  | drop k t =>
    rw [label_drop]
    have := turned_lt c t
    have : k.kind.code ≤ 7 := by cases k <;> decide
    omega

/-- The ten directions in which pieces move, for Black. -/
def tenDirs : List Dir := orth ++ diag ++ [(-1, -2), (1, -2)]

/-- A piece that attacks `t` stands some steps away in one of the ten directions; in between there is nothing, and only
one step is made in the two knight directions. -/
theorem attacks_line {c : Color} {k : Kind} {occ : Square → Bool} {f t : Square} (h : Attacks c k occ f t) :
    ∃ d ∈ tenDirs, ∃ n : Nat, 1 ≤ n ∧ At f (orient c d) n t ∧ (n = 1 ∨ d ∈ orth ++ diag) ∧
      ∀ j : Nat, 1 ≤ j → j < n → ∀ u, At f (orient c d) j u → occ u = false := by
  rcases h with ⟨d, hd, h⟩ | ⟨d, hd, n, hn, h, hcl⟩
  · refine ⟨d, ?_, 1, Nat.le_refl 1, h, .inl rfl, fun j h1 h2 => by omega⟩
    revert hd
    clear h
    revert d
    cases k <;> decide
  · have hd : d ∈ orth ++ diag := by
      revert hd
      clear h hcl
      revert d
      cases k <;> decide
    exact ⟨d, List.mem_append_left _ hd, n, hn, h, .inr hd, hcl⟩

theorem moveDirection_congr {x y a b : Int} (h1 : x < 0 ↔ a < 0) (h2 : x = 0 ↔ a = 0) (h3 : y < 0 ↔ b < 0) (h4 : y = 0 ↔ b = 0)
    (h5 : ¬ (y = -2 ∧ (x = -1 ∨ x = 1))) (h6 : ¬ (b = -2 ∧ (a = -1 ∨ a = 1))) : moveDirection x y = moveDirection a b :=
  if_congr (by omega) rfl <| if_congr (by omega) rfl <| if_congr (by omega) rfl <| if_congr (by omega) rfl <|
  if_congr (by omega) rfl <| if_congr (by omega) rfl <| if_congr (by omega) rfl <| if_congr (by omega) rfl <|
  if_congr (by omega) rfl rfl

/-- Length does not matter for the direction class. -/
theorem dirOf_at {c : Color} {f t : Square} {d : Dir} {n : Nat} (hd : d ∈ tenDirs) (hn : 1 ≤ n)
    (h : At f (orient c d) n t) (hk : n = 1 ∨ d ∈ orth ++ diag) : dirOf c f t = moveDirection (-d.1) d.2 := by
  obtain ⟨h1, h2⟩ := h
  have e : dirOf c f t = moveDirection (-(n * d.1)) (n * d.2) := by
    cases c
    · simp only [dirOf, orient] at *
      congr 1 <;> omega
    · simp only [dirOf, orient] at *
      rw [Int.mul_neg] at h1 h2
      congr 1 <;> omega
  rw [e]
  rcases hk with rfl | hk
  · simp
  · clear e h1 h2 hd
    simp only [orth, diag, List.cons_append, List.nil_append, List.mem_cons, List.not_mem_nil, or_false] at hk
    rcases hk with rfl | rfl | rfl | rfl | rfl | rfl | rfl | rfl <;>
      apply moveDirection_congr <;> simp only [Int.mul_zero] <;> omega

theorem tenDirs_inj {d e : Dir} (hd : d ∈ tenDirs) (he : e ∈ tenDirs)
    (h : moveDirection (-d.1) d.2 = moveDirection (-e.1) e.2) : d = e := by
  revert h
  revert e
  revert d
  decide

/-- Two attackers of the same square from the same direction are the same piece. -/
theorem attackers_eq {c : Color} {k k' : Kind} {occ : Square → Bool} {f g t : Square} (h : Attacks c k occ f t)
    (h' : Attacks c k' occ g t) (hf : occ f = true) (hg : occ g = true) (hd : dirOf c f t = dirOf c g t) : f = g := by
  obtain ⟨d, hd1, n, hn, ha, hk, hcl⟩ := attacks_line h
  obtain ⟨e, he1, n', hn', ha', hk', hcl'⟩ := attacks_line h'
  rw [dirOf_at hd1 hn ha hk, dirOf_at he1 hn' ha' hk'] at hd
  have := tenDirs_inj hd1 he1 hd
  subst this
  obtain ⟨o, ho⟩ : ∃ o, o = orient c d := ⟨_, rfl⟩
  rw [← ho] at ha ha' hcl hcl'
  have key : ∀ {f g : Square} {n n' : Nat}, At f o n t → At g o n' t → n' < n → At f o (n - n') g := by
    intro f g n n' a b hlt
    obtain ⟨a1, a2⟩ := a
    obtain ⟨b1, b2⟩ := b
    have hc : ((n - n' : Nat) : Int) = n - n' := by omega
    refine ⟨?_, ?_⟩
    · rw [hc, Int.sub_mul]; omega
    · rw [hc, Int.sub_mul]; omega
  rcases Nat.lt_trichotomy n n' with hlt | heq | hlt
  · have := hcl' (n' - n) (by omega) (by omega) f (key ha' ha hlt)
    rw [hf] at this; cases this
  · subst heq
    obtain ⟨a1, a2⟩ := ha
    obtain ⟨b1, b2⟩ := ha'
    have hx : X f = X g := by omega
    have hy : Y f = Y g := by omega
    apply Fin.ext
    simp only [X, Y] at hx hy
    omega
  · have := hcl (n - n') (by omega) (by omega) g (key ha ha' hlt)
    rw [hg] at this; cases this

/-- Labels tell the moves allowed by the movement rules apart. -/
theorem label_inj (p : Position) {a b : Mv} (ha : (absPos p).Pseudo a) (hb : (absPos p).Pseudo b)
    (h : moveLabel (encode p a) p.turn = moveLabel (encode p b) p.turn) : a = b := by
  cases a with
  | move f t pro =>
    cases b with
    | move g u pro' =>
      rw [label_board, label_board] at h
      have := turned_lt p.turn t
      have := turned_lt p.turn u
      have := dirOf_lt p.turn f t
      have := dirOf_lt p.turn g u
      have ht : turned p.turn t = turned p.turn u := by omega
      have := turned_inj ht
      subst this
      have hpro : pro = pro' := by
        cases pro <;> cases pro' <;> simp only [if_true, if_false, Bool.false_eq_true] at h <;> first | rfl | omega
      subst hpro
      obtain ⟨k, k1, k2, -⟩ := ha
      obtain ⟨k', k1', k2', -⟩ := hb
      have := attackers_eq k2 k2' (by unfold Pos.occ; rw [k1]; rfl) (by unfold Pos.occ; rw [k1']; rfl)
        (show dirOf p.turn f t = dirOf p.turn g t by omega)
      rw [this]
    | drop k u =>
      rw [label_board, label_drop] at h
      have := turned_lt p.turn t
      have := turned_lt p.turn u
      have := dirOf_lt p.turn f t
      have : 1 ≤ k.kind.code := by cases k <;> decide
      split at h <;> omega
  | drop k t =>
    cases b with
    | move f u pro =>
      rw [label_board, label_drop] at h
      have := turned_lt p.turn t
      have := turned_lt p.turn u
      have := dirOf_lt p.turn f u
      have : 1 ≤ k.kind.code := by cases k <;> decide
      split at h <;> omega
    | drop k' u =>
      rw [label_drop, label_drop] at h
      have := turned_lt p.turn t
      have := turned_lt p.turn u
      have ht : turned p.turn t = turned p.turn u := by omega
      have := turned_inj ht
      subst this
      have hk : k.kind.code = k'.kind.code := by omega
      have : k = k' := by
        revert hk
        cases k <;> cases k' <;> decide
      rw [this]

/-- **C08**: labels of listed moves are in range, and different listed moves have different labels. -/
theorem C08_labels (p : Position) (hp : Consistent p) (hc : CheckOK p) (hr : (absPos p).Regular) :
    ∃ l, genLegal p true = some l ∧ (∀ m ∈ l, moveLabel m p.turn < 27 * 81) ∧
      ∀ m ∈ l, ∀ m' ∈ l, moveLabel m p.turn = moveLabel m' p.turn → m = m' := by
  obtain ⟨l, e, -, hl⟩ := genLegal_spec hp hc hr
  refine ⟨l, e, ?_, ?_⟩
  · intro m hm
    obtain ⟨mv, rfl, -⟩ := (hl m).mp hm
    exact C08_range_any p _ mv
  · intro m hm m' hm' h
    obtain ⟨a, rfl, ha⟩ := (hl m).mp hm
    obtain ⟨b, rfl, hb⟩ := (hl m').mp hm'
    rw [label_inj p ha.1.1 hb.1.1 h]

/-- The start position qualifies; P7g-7f gets label 59 = 81 * 0 + 59 and P*5e is 81 * 20 + 40. -/
example : (∃ l, genLegal (startModel zeroKeys) true = some l ∧ encode (startModel zeroKeys) (.move 60 59 false) ∈ l) ∧
    moveLabel (encode (startModel zeroKeys) (.move 60 59 false)) .black = 59 ∧
    moveLabel (makeDropMove 1 40) .white = 81 * 20 + 40 ∧
    moveLabel (encode (startModel zeroKeys) (.move 2 3 false)) .white = 77 := by
  obtain ⟨h1, h2, h3⟩ := startModel_ok zeroKeys
  refine ⟨?_, by decide +kernel, by decide +kernel, by decide +kernel⟩
  obtain ⟨l, e, -, -⟩ := genLegal_spec h1.views h2 h3
  refine ⟨l, e, ?_⟩
  have h : (genLegal (startModel zeroKeys) true).map
      (fun l => decide (encode (startModel zeroKeys) (.move 60 59 false) ∈ l)) = some true := by decide +kernel
  rw [e] at h
  simpa using h

end Verif
