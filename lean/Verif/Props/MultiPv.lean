import Verif.Model.MultiPv
import Verif.Props.UsiInfo

/-!
# C93: the variations that an engine reported, by their number
-/

namespace Verif.Usi
open Spec Position

/-- A line that is heard: information about the variation number `k`, or a line without a variation. -/
inductive Heard where
  | info (k : Nat) (l : InfoLine)
  | other (s : List Char)

/-- The text of the line. -/
def Heard.text : Heard → List Char
  | .info _ l => infoText l
  | .other s => s

/-- The line names its number once, as `multipv`; no name is given twice; no move is called `multipv`; a mate has a length.
Other lines have no word `pv`. -/
def Heard.Valid : Heard → Prop
  | .info k l => l.Valid ∧ ((l.before ++ l.after).map (·.1)).Nodup ∧ ("multipv".toList, (k : Int)) ∈ l.before ++ l.after ∧
      (∀ w ∈ l.first :: l.rest, w ≠ "multipv".toList) ∧ ∀ lost, l.score ≠ .mateSoon lost
  | .other s => ¬ " pv ".toList <:+: s

theorem digits_end (k : Nat) (vs : List (List Char)) :
    (natChars k ++ flat vs).takeWhile Char.isDigit = natChars k ∧ (natChars k ++ flat vs).dropWhile Char.isDigit = flat vs := by
  have hd : ∀ c ∈ natChars k, Char.isDigit c = true := natChars_isDigit
  have hf : (flat vs).takeWhile Char.isDigit = [] ∧ (flat vs).dropWhile Char.isDigit = flat vs := by
    cases vs with
    | nil => exact ⟨rfl, rfl⟩
    | cons v vs => rw [flat_cons]; exact ⟨rfl, rfl⟩
  constructor
  · rw [List.takeWhile_append_of_pos hd, hf.1, List.append_nil]
  · rw [List.dropWhile_append_of_pos hd, hf.2]

theorem multiTail_at (k : Nat) (vs : List (List Char)) (h : " pv ".toList <:+: flat vs) :
    multiTail (' ' :: ("multipv".toList ++ flat (natChars k :: vs))) = some (natChars k) := by
  unfold multiTail
  have e : afterText " multipv ".toList (' ' :: ("multipv".toList ++ flat (natChars k :: vs))) = some (natChars k ++ flat vs) := by
    rw [flat_cons]
    exact afterText_append " multipv ".toList _
  rw [e, Option.bind_some]
  rw [(digits_end k vs).1, (digits_end k vs).2, if_neg (natChars_ne_nil k), if_pos h]

theorem multiMatch_at (k : Nat) (A B : List (List Char)) (hb : ∀ v ∈ B, ' ' ∉ v ∧ v ≠ "multipv".toList)
    (h : " pv ".toList <:+: flat B) :
    multiMatch ("info".toList ++ flat (A ++ "multipv".toList :: natChars k :: B)) = some (natChars k) := by
  unfold multiMatch
  rw [afterText_append]
  show Option.map _ (greedy multiTail (flat (A ++ "multipv".toList :: natChars k :: B))) = _
  have hn : ' ' ∉ natChars k := fun hh => absurd (natChars_isDigit _ hh) (by decide)
  have hm : natChars k ≠ "multipv".toList := by
    intro e
    have : 'm' ∈ natChars k := by rw [e]; decide
    exact absurd (natChars_isDigit _ this) (by decide)
  have hnone : greedy multiTail ("multipv".toList ++ flat (natChars k :: B)) = none := by
    refine greedy_words (P := fun v => v ≠ "multipv".toList) rfl ?_ ?_ (natChars k :: B) ?_ _ (by decide)
    · intro c w vs hc _
      unfold multiTail
      cases e : afterText " multipv ".toList (c :: (w ++ flat vs)) with
      | none => rfl
      | some r =>
        have := afterText_eq e
        have : c = ' ' := (List.cons.inj this).1
        exact absurd (this ▸ List.mem_cons_self) hc
    · intro v vs hv
      unfold multiTail
      cases e : afterText " multipv ".toList (' ' :: (v ++ flat vs)) with
      | none => rfl
      | some r =>
        have := afterText_eq e
        have h2 : v ++ flat vs = "multipv".toList ++ ' ' :: r := (List.cons.inj this).2
        obtain ⟨h, -⟩ := first_word (t := "multipv".toList) (r := r) (by decide) (hv v List.mem_cons_self).1 h2
        exact absurd h (hv v List.mem_cons_self).2
    · intro v hv
      rcases List.mem_cons.1 hv with rfl | hv
      · exact ⟨hn, hm⟩
      · exact hb v hv
  rw [flat_append, flat_cons, greedy_at (multiTail_at k B h) hnone]
  rfl

theorem intChars_nat (k : Nat) : intChars (k : Int) = natChars k := by
  unfold intChars
  rw [if_neg (by omega)]
  rfl

theorem numberWords_append (a b : List (List Char × Int)) : numberWords (a ++ b) = numberWords a ++ numberWords b := by
  unfold numberWords
  rw [List.flatMap_append]

theorem number_not_multi {l : List (List Char × Int)} (h : ∀ x ∈ l, NumberName x.1) (hm : ∀ x ∈ l, x.1 ≠ "multipv".toList) :
    ∀ v ∈ numberWords l, ' ' ∉ v ∧ v ≠ "multipv".toList := by
  intro v hv
  obtain ⟨x, hx, hv'⟩ := List.mem_flatMap.1 hv
  refine ⟨(plain_numbers h v hv).blank, ?_⟩
  rcases List.mem_cons.1 hv' with rfl | hv'
  · exact hm x hx
  · rw [List.mem_singleton.1 hv']
    exact intChars_word x.2 (by decide)

theorem score_not_multi (s : Score) : ∀ v ∈ scoreWords s, ' ' ∉ v ∧ v ≠ "multipv".toList := by
  intro v hv
  refine ⟨(plain_score s v hv).blank, ?_⟩
  cases s with
  | cp n =>
    rcases List.mem_cons.1 hv with rfl | hv
    · decide
    rcases List.mem_cons.1 hv with rfl | hv
    · decide
    rw [List.mem_singleton.1 hv]
    exact intChars_word n (by decide)
  | mate n =>
    rcases List.mem_cons.1 hv with rfl | hv
    · decide
    rcases List.mem_cons.1 hv with rfl | hv
    · decide
    rw [List.mem_singleton.1 hv]
    exact intChars_word n (by decide)
  | mateSoon lost =>
    rcases List.mem_cons.1 hv with rfl | hv
    · decide
    rcases List.mem_cons.1 hv with rfl | hv
    · decide
    rw [List.mem_singleton.1 hv]
    cases lost <;> decide

/-- The number is read from the line. -/
theorem multiMatch_text {k : Nat} {l : InfoLine} (h : (Heard.info k l).Valid) : multiMatch (infoText l) = some (natChars k) := by
  obtain ⟨hv, hnd, hmem, hmv, -⟩ := h
  have htext : infoText l = "info".toList ++ flat (headWords l ++ "pv".toList :: l.first :: l.rest) := by
    unfold infoText
    rw [flat_append, flat_cons, flat_cons]
    rfl
  have hmoves : ∀ v ∈ "pv".toList :: l.first :: l.rest, ' ' ∉ v ∧ v ≠ "multipv".toList := by
    intro v hh
    rcases List.mem_cons.1 hh with rfl | hh
    · exact ⟨by decide, by decide⟩
    refine ⟨?_, hmv v hh⟩
    rcases List.mem_cons.1 hh with rfl | hh
    · exact (plain_move hv.first).blank
    · exact (plain_move (hv.rest v hh)).blank
  have hpv : ∀ X : List (List Char), " pv ".toList <:+: flat (X ++ "pv".toList :: l.first :: l.rest) := by
    intro X
    rw [flat_append, flat_cons, flat_cons]
    exact ⟨flat X, l.first ++ flat l.rest, by rw [List.append_assoc]; rfl⟩
  rw [htext]
  rw [List.map_append] at hnd
  obtain ⟨n1, n2, n3⟩ := List.nodup_append.1 hnd
  rcases List.mem_append.1 hmem with hb | ha
  · obtain ⟨b1, b2, hb12⟩ := List.append_of_mem hb
    have hrest : ∀ x ∈ b2, x.1 ≠ "multipv".toList := by
      intro x hx e
      rw [hb12, List.map_append, List.map_cons] at n1
      have := (List.nodup_append.1 n1).2.1
      exact (List.nodup_cons.1 this).1 (List.mem_map.2 ⟨x, hx, e⟩)
    have hafter : ∀ x ∈ l.after, x.1 ≠ "multipv".toList := by
      intro x hx e
      exact n3 _ (List.mem_map.2 ⟨_, hb, rfl⟩) _ (List.mem_map.2 ⟨x, hx, rfl⟩) e.symm
    have hw : headWords l ++ "pv".toList :: l.first :: l.rest = numberWords b1 ++ "multipv".toList :: natChars k ::
        ((numberWords b2 ++ (scoreWords l.score ++ numberWords l.after)) ++ "pv".toList :: l.first :: l.rest) := by
      unfold headWords
      rw [hb12, numberWords_append, ← intChars_nat]
      simp only [numberWords, List.flatMap_cons, List.append_assoc, List.cons_append, List.nil_append]
    rw [hw]
    refine multiMatch_at k _ _ ?_ (hpv _)
    intro v hvv
    rcases List.mem_append.1 hvv with hvv | hvv
    · rcases List.mem_append.1 hvv with hvv | hvv
      · exact number_not_multi (fun x hx => hv.before x (by rw [hb12]; exact List.mem_append_right _ (List.mem_cons_of_mem _ hx))) hrest v hvv
      · rcases List.mem_append.1 hvv with hvv | hvv
        · exact score_not_multi _ v hvv
        · exact number_not_multi hv.after hafter v hvv
    · exact hmoves v hvv
  · obtain ⟨a1, a2, ha12⟩ := List.append_of_mem ha
    have hrest : ∀ x ∈ a2, x.1 ≠ "multipv".toList := by
      intro x hx e
      rw [ha12, List.map_append, List.map_cons] at n2
      have := (List.nodup_append.1 n2).2.1
      exact (List.nodup_cons.1 this).1 (List.mem_map.2 ⟨x, hx, e⟩)
    have hw : headWords l ++ "pv".toList :: l.first :: l.rest = (numberWords l.before ++ (scoreWords l.score ++ numberWords a1)) ++
        "multipv".toList :: natChars k :: (numberWords a2 ++ "pv".toList :: l.first :: l.rest) := by
      unfold headWords
      rw [ha12, numberWords_append, ← intChars_nat]
      simp only [numberWords, List.flatMap_cons, List.append_assoc, List.cons_append, List.nil_append]
    rw [hw]
    refine multiMatch_at k _ _ ?_ (hpv _)
    intro v hvv
    rcases List.mem_append.1 hvv with hvv | hvv
    · exact number_not_multi (fun x hx => hv.after x (by rw [ha12]; exact List.mem_append_right _ (List.mem_cons_of_mem _ hx))) hrest v hvv
    · exact hmoves v hvv

theorem multiMatch_other {s : List Char} (h : ¬ " pv ".toList <:+: s) : multiMatch s = none := by
  unfold multiMatch
  cases e : afterText "info".toList s with
  | none => rfl
  | some r =>
    show Option.map _ (greedy multiTail r) = none
    cases eg : greedy multiTail r with
    | none => rfl
    | some x =>
      obtain ⟨u, hu, hk⟩ := greedy_sound (pre := x.1) (b := x.2) eg
      unfold multiTail at hk
      obtain ⟨v, hv, hk⟩ := Option.bind_eq_some_iff.mp hk
      split at hk
      · cases hk
      · split at hk
        · rename_i hin
          refine absurd ?_ h
          obtain ⟨a, b, hab⟩ := hin
          rw [afterText_eq e, hu, afterText_eq hv]
          refine ⟨"info".toList ++ (x.1 ++ (" multipv ".toList ++ (v.takeWhile Char.isDigit ++ a))), b, ?_⟩
          have : v = v.takeWhile Char.isDigit ++ (a ++ " pv ".toList ++ b) := by rw [hab, List.takeWhile_append_dropWhile]
          conv_rhs => rw [this]
          simp only [List.append_assoc]
        · cases hk

/-! ### The dictionary -/

theorem setKey_keys (d : List (Nat × List Char)) (k : Nat) (v : List Char) (h : (d.map (·.1)).Nodup) :
    ((setKey d k v).map (·.1)).Nodup ∧ ∀ k' v', (k', v') ∈ setKey d k v ↔ (k' = k ∧ v' = v) ∨ (k' ≠ k ∧ (k', v') ∈ d) := by
  induction d with
  | nil =>
    refine ⟨by simp [setKey], fun k' v' => ?_⟩
    simp [setKey]
  | cons x d ih =>
    obtain ⟨h1, h2⟩ := List.nodup_cons.1 h
    obtain ⟨i1, i2⟩ := ih h2
    unfold setKey
    by_cases e : x.1 = k
    · rw [if_pos e]
      refine ⟨by rw [List.map_cons, List.nodup_cons]; exact ⟨by rw [← e]; exact h1, h2⟩, fun k' v' => ?_⟩
      rw [List.mem_cons, List.mem_cons]
      constructor
      · rintro (hh | hh)
        · cases hh; exact Or.inl ⟨rfl, rfl⟩
        · refine Or.inr ⟨?_, Or.inr hh⟩
          intro hk
          exact h1 (List.mem_map.2 ⟨_, hh, hk.trans e.symm⟩)
      · rintro (⟨rfl, rfl⟩ | ⟨hne, hh | hh⟩)
        · exact Or.inl rfl
        · rw [← hh] at e; exact absurd e hne
        · exact Or.inr hh
    · rw [if_neg e]
      refine ⟨?_, fun k' v' => ?_⟩
      · rw [List.map_cons, List.nodup_cons]
        refine ⟨fun hh => ?_, i1⟩
        obtain ⟨⟨k', v'⟩, hy, hyk⟩ := List.mem_map.1 hh
        rcases (i2 k' v').1 hy with ⟨rfl, -⟩ | ⟨-, hy⟩
        · exact e hyk.symm
        · exact h1 (List.mem_map.2 ⟨_, hy, hyk⟩)
      · rw [List.mem_cons, i2, List.mem_cons]
        constructor
        · rintro (hh | ⟨rfl, rfl⟩ | ⟨hne, hh⟩)
          · refine Or.inr ⟨?_, Or.inl hh⟩
            rw [← hh] at e; exact e
          · exact Or.inl ⟨rfl, rfl⟩
          · exact Or.inr ⟨hne, Or.inr hh⟩
        · rintro (⟨rfl, rfl⟩ | ⟨hne, hh | hh⟩)
          · exact Or.inr (Or.inl ⟨rfl, rfl⟩)
          · exact Or.inl hh
          · exact Or.inr (Or.inr ⟨hne, hh⟩)

/-- What is stored after some lines: for every number the last line that names it. -/
theorem stored (hs : List Heard) (hv : ∀ h ∈ hs, h.Valid) :
    (((hs.map Heard.text).foldl hearMulti []).map (·.1)).Nodup ∧
      ∀ k s, (k, s) ∈ (hs.map Heard.text).foldl hearMulti [] ↔
        ∃ a l b, hs = a ++ .info k l :: b ∧ s = infoText l ∧ ∀ l', Heard.info k l' ∉ b := by
  induction hs using List.reverseRecOn with
  | nil =>
    refine ⟨List.nodup_nil, fun k s => ⟨fun h => absurd h List.not_mem_nil, ?_⟩⟩
    rintro ⟨a, l, b, h, -⟩
    cases a <;> cases h
  | append_singleton hs x ih =>
    obtain ⟨i1, i2⟩ := ih fun h hh => hv h (List.mem_append_left _ hh)
    have hx := hv x (List.mem_append_right _ List.mem_cons_self)
    rw [List.map_append, List.map_cons, List.map_nil, List.foldl_append, List.foldl_cons, List.foldl_nil]
    obtain ⟨D, hD⟩ : ∃ D, D = (hs.map Heard.text).foldl hearMulti [] := ⟨_, rfl⟩
    rw [← hD] at i1 i2 ⊢
    cases x with
    | other s =>
      have : hearMulti D (Heard.other s).text = D := by
        unfold hearMulti
        rw [show (Heard.other s).text = s from rfl, multiMatch_other hx]
      rw [this]
      refine ⟨i1, fun k t => ?_⟩
      rw [i2]
      constructor
      · rintro ⟨a, l, b, h1, h2, h3⟩
        refine ⟨a, l, b ++ [.other s], by rw [h1]; simp, h2, fun l' hl => ?_⟩
        rcases List.mem_append.1 hl with hl | hl
        · exact h3 l' hl
        · cases List.mem_singleton.1 hl
      · rintro ⟨a, l, b, h1, h2, h3⟩
        rcases List.eq_nil_or_concat b with rfl | ⟨b', y, rfl⟩
        · have := List.append_inj_right' h1 rfl
          cases this
        · rw [List.concat_eq_append] at h1 h3
          have h1' : hs ++ [Heard.other s] = (a ++ .info k l :: b') ++ [y] := by rw [h1]; simp
          obtain ⟨e1, e2⟩ := List.append_inj' h1' rfl
          exact ⟨a, l, b', e1, h2, fun l' hl => h3 l' (List.mem_append_left _ hl)⟩
    | info n l0 =>
      have : hearMulti D (Heard.info n l0).text = setKey D n (infoText l0) := by
        unfold hearMulti
        rw [show (Heard.info n l0).text = infoText l0 from rfl, multiMatch_text hx]
        dsimp only
        rw [readNat_natChars]
      rw [this]
      obtain ⟨s1, s2⟩ := setKey_keys D n (infoText l0) i1
      refine ⟨s1, fun k t => ?_⟩
      rw [s2, i2]
      constructor
      · rintro (⟨rfl, rfl⟩ | ⟨hne, a, l, b, h1, h2, h3⟩)
        · exact ⟨hs, l0, [], rfl, rfl, fun l' => List.not_mem_nil⟩
        · refine ⟨a, l, b ++ [.info n l0], by rw [h1]; simp, h2, fun l' hl => ?_⟩
          rcases List.mem_append.1 hl with hl | hl
          · exact h3 l' hl
          · cases List.mem_singleton.1 hl; exact hne rfl
      · rintro ⟨a, l, b, h1, h2, h3⟩
        rcases List.eq_nil_or_concat b with rfl | ⟨b', y, rfl⟩
        · have := List.append_inj_right' h1 rfl
          cases this
          exact Or.inl ⟨rfl, h2⟩
        · rw [List.concat_eq_append] at h1 h3
          have h1' : hs ++ [Heard.info n l0] = (a ++ .info k l :: b') ++ [y] := by rw [h1]; simp
          obtain ⟨e1, e2⟩ := List.append_inj' h1' rfl
          refine Or.inr ⟨?_, a, l, b', e1, h2, fun l' hl => h3 l' (List.mem_append_left _ hl)⟩
          rintro rfl
          cases e2
          exact h3 l0 (List.mem_append_right _ List.mem_cons_self)

theorem insertKey_mem (x : Nat × List Char) (d : List (Nat × List Char)) (y : Nat × List Char) : y ∈ insertKey x d ↔ y = x ∨ y ∈ d := by
  induction d with
  | nil => simp [insertKey]
  | cons z d ih =>
    unfold insertKey
    split
    · simp
    · rw [List.mem_cons, ih, List.mem_cons]
      constructor
      · rintro (h | h | h)
        · exact Or.inr (Or.inl h)
        · exact Or.inl h
        · exact Or.inr (Or.inr h)
      · rintro (h | h | h)
        · exact Or.inr (Or.inl h)
        · exact Or.inl h
        · exact Or.inr (Or.inr h)

theorem sortKeys_mem (d : List (Nat × List Char)) (y : Nat × List Char) : y ∈ sortKeys d ↔ y ∈ d := by
  induction d with
  | nil => rfl
  | cons z d ih => unfold sortKeys; rw [insertKey_mem, ih, List.mem_cons]

theorem insertKey_sorted (x : Nat × List Char) (d : List (Nat × List Char)) (hd : d.Pairwise fun a b => a.1 < b.1)
    (hx : ∀ y ∈ d, y.1 ≠ x.1) : (insertKey x d).Pairwise fun a b => a.1 < b.1 := by
  induction d with
  | nil => simp [insertKey]
  | cons z d ih =>
    obtain ⟨h1, h2⟩ := List.pairwise_cons.1 hd
    have hz := hx z List.mem_cons_self
    unfold insertKey
    split
    · rename_i hle
      refine List.pairwise_cons.2 ⟨fun y hy => ?_, hd⟩
      rcases List.mem_cons.1 hy with rfl | hy
      · omega
      · have := h1 y hy; omega
    · rename_i hle
      refine List.pairwise_cons.2 ⟨fun y hy => ?_, ih h2 fun y hy => hx y (List.mem_cons_of_mem _ hy)⟩
      rcases (insertKey_mem x d y).1 hy with rfl | hy
      · omega
      · exact h1 y hy

theorem sortKeys_sorted (d : List (Nat × List Char)) (h : (d.map (·.1)).Nodup) : (sortKeys d).Pairwise fun a b => a.1 < b.1 := by
  induction d with
  | nil => exact List.Pairwise.nil
  | cons z d ih =>
    obtain ⟨h1, h2⟩ := List.nodup_cons.1 h
    unfold sortKeys
    refine insertKey_sorted z _ (ih h2) fun y hy e => h1 (List.mem_map.2 ⟨y, (sortKeys_mem d y).1 hy, e⟩)

/-- What a line's entry says: its numbers and its moves. -/
def Says (l : InfoLine) (d : Dict) : Prop :=
  (∀ name v, (name, v) ∈ l.before ++ l.after → d.get name = some (.int v)) ∧ d.get "pv".toList = some (.words (l.first :: l.rest))

theorem lineInfo_text {k : Nat} {l : InfoLine} (h : (Heard.info k l).Valid) : ∃ d, lineInfo (infoText l) = .ok d ∧ Says l d := by
  obtain ⟨hv, hnd, -, -, hs⟩ := h
  obtain ⟨d, hd, h1, h2⟩ := C83_info_partial hv (pre := []) (post := []) (fun s hs => absurd hs List.not_mem_nil) none hs hnd
  rw [dict_line hv (fun s hs => absurd hs List.not_mem_nil) none] at hd
  unfold lineInfo
  rw [infoMatch_text hv]
  dsimp only
  cases e : splitInfo ⟨joinedHead l ++ [' '], l.first, flat l.rest⟩ with
  | ok d' =>
    rw [e] at hd
    cases hd
    exact ⟨_, rfl, h1, h2⟩
  | error => rw [e] at hd; cases hd
  | ub => rw [e] at hd; cases hd

theorem lineInfos_ok (d : List (Nat × List Char)) (h : ∀ x ∈ d, ∃ l, x.2 = infoText l ∧ (Heard.info x.1 l).Valid) :
    ∃ ds : List (Nat × Dict), lineInfos d = .ok (ds.map (·.2)) ∧ ds.map (·.1) = d.map (·.1) ∧
      ∀ k e, (k, e) ∈ ds → ∃ l, (k, infoText l) ∈ d ∧ ∀ l', infoText l' = infoText l → (Heard.info k l').Valid → Says l' e := by
  induction d with
  | nil => exact ⟨[], rfl, rfl, fun k e h => absurd h List.not_mem_nil⟩
  | cons x d ih =>
    obtain ⟨ds, h1, h2, h3⟩ := ih fun y hy => h y (List.mem_cons_of_mem _ hy)
    obtain ⟨l, hl, hlv⟩ := h x List.mem_cons_self
    obtain ⟨e, he, -⟩ := lineInfo_text hlv
    refine ⟨(x.1, e) :: ds, ?_, by rw [List.map_cons, List.map_cons, h2], fun k e' hk => ?_⟩
    · unfold lineInfos
      rw [hl, he, h1]
      rfl
    · rcases List.mem_cons.1 hk with hk | hk
      · cases hk
        refine ⟨l, by rw [← hl]; exact List.mem_cons_self, fun l' hl' hv' => ?_⟩
        obtain ⟨e2, he2, hs2⟩ := lineInfo_text hv'
        rw [hl', he] at he2
        cases he2
        exact hs2
      · obtain ⟨l', m1, m2⟩ := h3 k e' hk
        exact ⟨l', List.mem_cons_of_mem _ m1, m2⟩

theorem last_named (hs : List Heard) (k : Nat) : ∀ l, Heard.info k l ∈ hs →
    ∃ a l' b, hs = a ++ Heard.info k l' :: b ∧ ∀ l'', Heard.info k l'' ∉ b := by
  induction hs with
  | nil => intro l hl; exact absurd hl List.not_mem_nil
  | cons x hs ih =>
    intro l hl
    by_cases hr : ∃ l, Heard.info k l ∈ hs
    · obtain ⟨l2, h2⟩ := hr
      obtain ⟨a, l', b, e1, e2⟩ := ih l2 h2
      exact ⟨x :: a, l', b, by rw [e1]; rfl, e2⟩
    · rcases List.mem_cons.1 hl with hl | hl
      · exact ⟨[], l, hs, by rw [hl]; rfl, fun l'' h => hr ⟨l'', h⟩⟩
      · exact absurd ⟨l, hl⟩ hr

/-- **C93**, the part that holds: `info` has one entry for each number that the engine gave to a variation, in increasing order,
and the entry shows the numbers and the moves of the last line with that number. -/
theorem C93_info_partial (hs : List Heard) (hv : ∀ h ∈ hs, h.Valid) :
    ∃ ds : List (Nat × Dict), multiInfo (hs.map Heard.text) = .ok (ds.map (·.2)) ∧ ds.Pairwise (fun a b => a.1 < b.1) ∧
      (∀ k, k ∈ ds.map (·.1) ↔ ∃ l, Heard.info k l ∈ hs) ∧
      ∀ k d, (k, d) ∈ ds → ∃ a l b, hs = a ++ .info k l :: b ∧ (∀ l', Heard.info k l' ∉ b) ∧ Says l d := by
  obtain ⟨s1, s2⟩ := stored hs hv
  have hmem := sortKeys_mem ((hs.map Heard.text).foldl hearMulti [])
  obtain ⟨ds, h1, h2, h3⟩ := lineInfos_ok (sortKeys ((hs.map Heard.text).foldl hearMulti [])) (by
    rintro ⟨k, s⟩ hx
    obtain ⟨a, l, b, e1, e2, -⟩ := (s2 k s).1 ((hmem _).1 hx)
    exact ⟨l, e2, hv _ (by rw [e1]; exact List.mem_append_right _ List.mem_cons_self)⟩)
  refine ⟨ds, h1, ?_, fun k => ?_, fun k d hk => ?_⟩
  · have := sortKeys_sorted _ s1
    have h : (ds.map (·.1)).Pairwise (· < ·) := by rw [h2, List.pairwise_map]; exact this
    rwa [List.pairwise_map] at h
  · rw [h2]
    constructor
    · intro hk
      obtain ⟨⟨k', s⟩, hx, rfl⟩ := List.mem_map.1 hk
      obtain ⟨a, l, b, e1, -, -⟩ := (s2 k' s).1 ((hmem _).1 hx)
      exact ⟨l, by rw [e1]; exact List.mem_append_right _ List.mem_cons_self⟩
    · rintro ⟨l, hl⟩
      obtain ⟨a, l', b, e1, e2⟩ := last_named hs k l hl
      exact List.mem_map.2 ⟨(k, infoText l'), (hmem _).2 ((s2 _ _).2 ⟨a, l', b, e1, rfl, e2⟩), rfl⟩
  · obtain ⟨l, m1, m2⟩ := h3 k d hk
    obtain ⟨a, l', b, e1, e2, e3⟩ := (s2 _ _).1 ((hmem _).1 m1)
    exact ⟨a, l', b, e1, e3, m2 l' e2.symm (hv _ (by rw [e1]; exact List.mem_append_right _ List.mem_cons_self))⟩

/-- **C93** fails if one of the variations is a mate of unknown length at the end of the numbers: `info` raises, and nothing can be
read about the other variations either. -/
theorem C93_fails_mate :
    multiInfo ["info depth 9 multipv 1 score cp 31 pv 7g7f".toList, "info depth 9 multipv 2 score mate - pv 2g2f".toList] = .error ∧
    ∃ d, multiInfo ["info depth 9 multipv 1 score cp 31 pv 7g7f".toList] = .ok [d] ∧ d.get "cp".toList = some (.int 31) := by
  refine ⟨by decide +kernel, [("pv".toList, .words ["7g7f".toList]), ("cp".toList, .int 31), ("score".toList, .text "cp".toList),
    ("multipv".toList, .int 1), ("depth".toList, .int 9)], by decide +kernel, by decide +kernel⟩

/-- **C93** fails for a line whose list of moves is empty: it is stored, but it cannot be read, so that `info` raises. -/
theorem C93_fails_empty : multiInfo ["info multipv 1 score cp 31 pv 7g7f".toList, "info multipv 2 score cp 12 pv ".toList] = .error := by
  decide +kernel

/-- **C93** fails for messages: a text after `string` that looks like a variation takes the place of the variation. -/
theorem C93_fails_string : ∃ d, multiInfo ["info multipv 1 score cp 31 pv 7g7f".toList,
    "info string best multipv 1 has pv none".toList] = .ok [d] ∧ d.get "pv".toList = some (.words ["none".toList]) ∧ d.get "cp".toList = none := by
  refine ⟨[("pv".toList, .words ["none".toList]), ("string".toList, .text "best multipv 1 has ".toList)], by decide +kernel, by decide +kernel,
    by decide +kernel⟩

/-- A line with a number. -/
def numbered (k : Nat) (n : Int) (w : List Char) : InfoLine :=
  ⟨[("depth".toList, 12), ("multipv".toList, (k : Int))], .cp n, [("nodes".toList, 48211)], w, ["3c3d".toList]⟩

theorem numbered_valid (k : Nat) (n : Int) (w : List Char) (hw : MoveWord w) (hm : w ≠ "multipv".toList) :
    (Heard.info k (numbered k n w)).Valid := by
  have hn : ∀ w : List Char, (decide (w ≠ []) && w.all (fun c => decide (97 ≤ c.toNat) && decide (c.toNat ≤ 122)) && decide (w ≠ "pv".toList) &&
      decide (w ≠ "string".toList) && decide (w ≠ "score".toList) && decide (w ≠ "cp".toList) && decide (w ≠ "mate".toList)) = true → NumberName w := by
    intro w h
    simp only [Bool.and_eq_true, decide_eq_true_eq, List.all_eq_true] at h
    obtain ⟨⟨⟨⟨⟨⟨h1, h2⟩, h3⟩, h4⟩, h5⟩, h6⟩, h7⟩ := h
    exact ⟨h1, h2, h3, h4, h5, h6, h7⟩
  have hmv : MoveWord "3c3d".toList := ⟨by decide, by decide, by decide⟩
  refine ⟨⟨?_, ?_, hw, ?_⟩, ?_, ?_, ?_, ?_⟩
  · intro x hx
    rcases List.mem_cons.mp hx with rfl | hx
    · exact hn _ (by decide)
    rw [List.mem_singleton.1 hx]
    exact hn "multipv".toList (by decide)
  · intro x hx
    rw [List.mem_singleton.1 hx]
    exact hn "nodes".toList (by decide)
  · intro x hx
    rw [List.mem_singleton.1 hx]
    exact hmv
  · show ["depth".toList, "multipv".toList, "nodes".toList].Nodup
    decide
  · exact List.mem_cons_of_mem _ List.mem_cons_self
  · intro x hx
    rcases List.mem_cons.mp hx with rfl | hx
    · exact hm
    · rw [List.mem_singleton.1 hx]
      decide
  · intro lost h
    cases h

example : ∀ h ∈ [Heard.info 2 (numbered 2 5 "2g2f".toList), .info 1 (numbered 1 31 "7g7f".toList), .other "info string done".toList,
    .info 2 (numbered 2 9 "6i7h".toList)], h.Valid := by
  intro h hh
  rcases List.mem_cons.1 hh with rfl | hh
  · exact numbered_valid 2 5 _ ⟨by decide, by decide, by decide⟩ (by decide)
  rcases List.mem_cons.1 hh with rfl | hh
  · exact numbered_valid 1 31 _ ⟨by decide, by decide, by decide⟩ (by decide)
  rcases List.mem_cons.1 hh with rfl | hh
  · show ¬ " pv ".toList <:+: "info string done".toList
    decide
  rw [List.mem_singleton.1 hh]
  exact numbered_valid 2 9 _ ⟨by decide, by decide, by decide⟩ (by decide)

example : infoText (numbered 2 9 "6i7h".toList) = "info depth 12 multipv 2 score cp 9 nodes 48211 pv 6i7h 3c3d".toList := by decide +kernel

end Verif.Usi
