import Verif.Lemmas.Usi

/-!
# C83: the score and the moves that an engine reported
-/

namespace Verif.Usi
open Spec Position

theorem greedy_sound {β : Type} {k : List Char → Option β} {s pre : List Char} {b : β} (h : greedy k s = some (pre, b)) :
    ∃ u, s = pre ++ u ∧ k u = some b := by
  induction s generalizing pre with
  | nil =>
    rw [greedy] at h
    obtain ⟨b', e, h⟩ := Option.map_eq_some_iff.mp h
    cases h
    exact ⟨[], rfl, e⟩
  | cons c s ih =>
    rw [greedy] at h
    cases e : greedy k s with
    | some x =>
      rw [e] at h
      cases h
      obtain ⟨u, rfl, hu⟩ := ih (pre := x.1) e
      exact ⟨u, rfl, hu⟩
    | none =>
      rw [e] at h
      obtain ⟨b', e, h⟩ := Option.map_eq_some_iff.mp h
      cases h
      exact ⟨c :: s, rfl, e⟩

theorem infoMatch_other {s : List Char} (h : ¬ " pv ".toList <:+: s) : infoMatch s = none := by
  unfold infoMatch
  cases e : afterText "info ".toList s with
  | none => rfl
  | some r =>
    have hs := afterText_eq e
    have hg : ∀ t g, pvGroups t = some g → ∃ u, t = "pv ".toList ++ u := by
      intro t g hg
      unfold pvGroups at hg
      obtain ⟨u, hu, -⟩ := Option.bind_eq_some_iff.mp hg
      exact ⟨u, afterText_eq hu⟩
    have h1 : greedy (fun s => (afterText [' '] s).bind pvGroups) r = none := by
      cases eg : greedy (fun s => (afterText [' '] s).bind pvGroups) r with
      | none => rfl
      | some x =>
        obtain ⟨u, hu, hk⟩ := greedy_sound (pre := x.1) (b := x.2) eg
        obtain ⟨v, hv, hk⟩ := Option.bind_eq_some_iff.mp hk
        obtain ⟨z, rfl⟩ := hg _ _ hk
        refine absurd ⟨"info ".toList ++ x.1, z, ?_⟩ h
        rw [hs, hu, afterText_eq hv, List.append_assoc, List.append_assoc]
        rfl
    have h2 : pvGroups r = none := by
      cases eg : pvGroups r with
      | none => rfl
      | some x =>
        obtain ⟨z, rfl⟩ := hg _ _ eg
        refine absurd ⟨"info".toList, z, ?_⟩ h
        rw [hs, List.append_assoc]
        rfl
    show (match greedy (fun s => (afterText [' '] s).bind pvGroups) r with | some (pre, g) => some (InfoMatch.mk (pre ++ [' ']) g.1 g.2) | none => (pvGroups r).map fun g => ⟨[], g.1, g.2⟩) = none
    rw [h1, h2]
    rfl

theorem answer_info (m : List Char) (x : Option (List Char)) : infoMatch (answerText m x) = none := by
  unfold infoMatch afterText
  rw [if_neg]
  · rfl
  · cases x
    · show "bestm".toList ≠ "info ".toList; decide
    · show "bestm".toList ≠ "info ".toList; decide

theorem listener_info (ls : List (List Char)) (l : Listener) :
    (ls.foldl Listener.hear l).info = (ls.filterMap infoMatch).reverse ++ l.info := by
  induction ls generalizing l with
  | nil => rfl
  | cons s ls ih =>
    rw [List.foldl_cons, ih]
    unfold Listener.hear
    cases h : infoMatch s with
    | none => simp [h]
    | some m => simp [h]

theorem listener_last (ls : List (List Char)) (s : List Char) (l : Listener) : ((ls ++ [s]).foldl Listener.hear l).last = s := by
  rw [List.foldl_append]; rfl

theorem bestWord_answer {m : List Char} {x : Option (List Char)} (hm : ' ' ∉ m) (hn : m ≠ []) : bestWord (answerText m x) = some m := by
  have hall : ∀ c ∈ m, decide (c ≠ ' ') = true := fun c hc => by simp; rintro rfl; exact hm hc
  have key : ∀ r : List Char, (m ++ r).takeWhile (fun c => decide (c ≠ ' ')) = m ++ r.takeWhile (fun c => decide (c ≠ ' ')) :=
    fun r => List.takeWhile_append_of_pos hall
  unfold bestWord
  cases x with
  | none =>
    have : afterText "bestmove ".toList (answerText m none) = some (m ++ []) := by
      rw [List.append_nil]; exact afterText_append _ _
    rw [this]
    show (if _ then _ else _) = _
    rw [key, show ([] : List Char).takeWhile (fun c => decide (c ≠ ' ')) = [] from rfl, List.append_nil, if_neg hn]
  | some x =>
    rw [show afterText "bestmove ".toList (answerText m (some x)) = some (m ++ (' ' :: ("ponder ".toList ++ x))) from afterText_append _ _]
    show (if _ then _ else _) = _
    rw [key, show (' ' :: ("ponder ".toList ++ x)).takeWhile (fun c => decide (c ≠ ' ')) = [] from rfl, List.append_nil, if_neg hn]

/-- Lines without a variation that begins with the move. -/
def Silent (m : List Char) (s : List Char) : Prop :=
  (¬ " pv ".toList <:+: s) ∨ ∃ l : InfoLine, l.Valid ∧ l.first ≠ m ∧ s = infoText l

theorem found_line {l : InfoLine} (h : l.Valid) {pre post : List (List Char)} (hp : ∀ s ∈ post, Silent l.first s) (x : Option (List Char)) :
    (Listener.of (pre ++ infoText l :: post ++ [answerText l.first x])).found l.first = some ⟨joinedHead l ++ [' '], l.first, flat l.rest⟩ := by
  unfold Listener.found Listener.of
  rw [listener_info]
  have hpost : ∀ m ∈ post.filterMap infoMatch, m.first ≠ l.first := by
    intro m hm
    obtain ⟨s, hs, e⟩ := List.mem_filterMap.mp hm
    rcases hp s hs with h' | ⟨l', hv, hne, rfl⟩
    · rw [infoMatch_other h'] at e; cases e
    · rw [infoMatch_text hv] at e
      cases e
      exact hne
  have e1 : List.filterMap infoMatch (pre ++ infoText l :: post ++ [answerText l.first x]) =
      pre.filterMap infoMatch ++ (⟨joinedHead l ++ [' '], l.first, flat l.rest⟩ :: post.filterMap infoMatch) := by
    rw [List.filterMap_append, List.filterMap_append, List.filterMap_cons, infoMatch_text h]
    rw [show List.filterMap infoMatch [answerText l.first x] = [] by rw [List.filterMap_cons, answer_info]; rfl, List.append_nil]
  rw [e1, List.reverse_append, List.reverse_cons, List.append_assoc, List.append_assoc, List.find?_append]
  rw [List.find?_eq_none.mpr (fun m hm => by simpa using hpost m (List.mem_reverse.mp hm))]
  simp

theorem last_line (pre post : List (List Char)) (l : InfoLine) (x : Option (List Char)) :
    (Listener.of (pre ++ infoText l :: post ++ [answerText l.first x])).last = answerText l.first x := by
  unfold Listener.of
  exact listener_last _ _ _

/-- **C83**: after the engine's answer `pv` is the variation of the last line that begins with the move played. -/
theorem C83_pv {l : InfoLine} (h : l.Valid) {pre post : List (List Char)} (hp : ∀ s ∈ post, Silent l.first s) (x : Option (List Char)) :
    (Listener.of (pre ++ infoText l :: post ++ [answerText l.first x])).pv = .ok (some (l.first :: l.rest)) := by
  unfold Listener.pv
  rw [last_line, bestWord_answer (plain_move h.first).blank h.first.1]
  dsimp only
  rw [found_line h hp x]
  show Out.ok (some (Kif.splitAt ' ' (l.first ++ flat l.rest))) = _
  rw [moves_items h]

theorem dict_line {l : InfoLine} (h : l.Valid) {pre post : List (List Char)} (hp : ∀ s ∈ post, Silent l.first s) (x : Option (List Char)) :
    (Listener.of (pre ++ infoText l :: post ++ [answerText l.first x])).dict =
      (splitInfo ⟨joinedHead l ++ [' '], l.first, flat l.rest⟩).bind fun d => .ok (some d) := by
  unfold Listener.dict
  rw [last_line, bestWord_answer (plain_move h.first).blank h.first.1]
  dsimp only
  rw [found_line h hp x]

theorem find_names {l : List (List Char × Int)} {k : List Char} (h : ∀ x ∈ l, x.1 ≠ k) : (numberDict l).find? (fun x => x.1 = k) = none := by
  rw [List.find?_eq_none]
  intro x hx
  obtain ⟨y, hy, rfl⟩ := List.mem_map.mp (List.mem_reverse.mp hx)
  simpa using h y hy

theorem lineDict_get_other {l : InfoLine} {k : List Char} {n : Int} {t : List Char} (ht : t ≠ "pv".toList) (ha : ∀ x ∈ l.after, x.1 ≠ t) :
    (lineDict l k n).get t = Dict.get ((k, .int n) :: ("score".toList, .text k) :: (numberDict l.before ++ [])) t := by
  unfold lineDict Dict.get
  rw [List.find?_cons_of_neg (by simpa using ht.symm), List.find?_append, find_names ha]
  rfl

/-- **C83**, the part that holds: after the engine's answer, with a score in centipawns or a mate of known length in the last line that begins with
the move played, `score` is that score, or the number for mate with the sign of the side that mates. -/
theorem C83_score_partial {l : InfoLine} (h : l.Valid) {pre post : List (List Char)} (hp : ∀ s ∈ post, Silent l.first s) (x : Option (List Char))
    (big : Int) (hs : ∀ lost, l.score ≠ .mateSoon lost) :
    ∃ v, (Listener.of (pre ++ infoText l :: post ++ [answerText l.first x])).score big = .ok (some v) ∧ l.score.Is big v := by
  have key : ∀ k n, scoreParts l.score = some (k, n) → (Listener.of (pre ++ infoText l :: post ++ [answerText l.first x])).score big =
      scoreOf big (lineDict l k n) := by
    intro k n e
    unfold Listener.score
    rw [dict_line h hp x, splitInfo_text h e]
    rfl
  have na : ∀ t, (t = "cp".toList ∨ t = "mate".toList) → (∀ y ∈ l.after, y.1 ≠ t) ∧ (∀ y ∈ l.before, y.1 ≠ t) := by
    rintro t (rfl | rfl)
    · exact ⟨fun y hy => (h.after y hy).2.2.2.2.2.1, fun y hy => (h.before y hy).2.2.2.2.2.1⟩
    · exact ⟨fun y hy => (h.after y hy).2.2.2.2.2.2, fun y hy => (h.before y hy).2.2.2.2.2.2⟩
  cases e : l.score with
  | cp n =>
    refine ⟨n, ?_, rfl⟩
    rw [key _ _ (by rw [e]; rfl)]
    unfold scoreOf
    rw [lineDict_get_other (by decide) (na _ (Or.inl rfl)).1]
    have g : ∀ d : Dict, Dict.get (("cp".toList, .int n) :: d) "cp".toList = some (.int n) := fun d => by
      unfold Dict.get
      rw [List.find?_cons_of_pos (by simp)]
      rfl
    rw [g]
  | mate n =>
    have g1 : (lineDict l "mate".toList n).get "cp".toList = none := by
      rw [lineDict_get_other (by decide) (na _ (Or.inl rfl)).1]
      unfold Dict.get
      rw [List.find?_cons_of_neg (by simp), List.find?_cons_of_neg (by simp), List.append_nil, find_names (na _ (Or.inl rfl)).2]
      rfl
    have g2 : (lineDict l "mate".toList n).get "mate".toList = some (.int n) := by
      rw [lineDict_get_other (by decide) (na _ (Or.inr rfl)).1]
      unfold Dict.get
      rw [List.find?_cons_of_pos (by simp)]
      rfl
    refine ⟨if n > 0 then big else -big, ?_, ?_, ?_⟩
    · rw [key _ _ (by rw [e]; rfl)]
      unfold scoreOf
      rw [g1, g2]
    · intro hf
      unfold Score.forced at hf
      dsimp only at hf
      split at hf
      · rename_i hn; rw [if_pos hn]
      · split at hf <;> simp at hf
    · intro hf
      unfold Score.forced at hf
      dsimp only at hf
      split at hf
      · simp at hf
      · rename_i hn; rw [if_neg hn]
  | mateSoon b => exact absurd e (hs b)

/-- **C83**, the part that holds: under the same conditions `info` gives every number under its name, as said last. -/
theorem C83_info_partial {l : InfoLine} (h : l.Valid) {pre post : List (List Char)} (hp : ∀ s ∈ post, Silent l.first s) (x : Option (List Char))
    (hs : ∀ lost, l.score ≠ .mateSoon lost) (hn : ((l.before ++ l.after).map (·.1)).Nodup) :
    ∃ d, (Listener.of (pre ++ infoText l :: post ++ [answerText l.first x])).dict = .ok (some d) ∧
      (∀ name v, (name, v) ∈ l.before ++ l.after → d.get name = some (.int v)) ∧ d.get "pv".toList = some (.words (l.first :: l.rest)) := by
  obtain ⟨k, n, hk, e⟩ : ∃ k n, (k = "cp".toList ∨ k = "mate".toList) ∧ scoreParts l.score = some (k, n) := by
    cases e : l.score with
    | cp n => exact ⟨_, n, Or.inl rfl, rfl⟩
    | mate n => exact ⟨_, n, Or.inr rfl, rfl⟩
    | mateSoon b => exact absurd e (hs b)
  refine ⟨lineDict l k n, by rw [dict_line h hp x, splitInfo_text h e]; rfl, ?_, ?_⟩
  · intro name v hm
    have hname : NumberName name := by
      rcases List.mem_append.mp hm with hm | hm
      · exact h.before _ hm
      · exact h.after _ hm
    have hkn : k ≠ name := by
      rcases hk with rfl | rfl
      · exact hname.2.2.2.2.2.1.symm
      · exact hname.2.2.2.2.2.2.symm
    -- the only entry of that name
    have only : ∀ y ∈ lineDict l k n, y.1 = name → y = (name, .int v) := by
      have hu : ∀ y ∈ l.before ++ l.after, y.1 = name → y = (name, v) := by
        intro y hy e
        exact List.inj_on_of_nodup_map hn hy hm e
      have hd : ∀ q : List (List Char × Int), (∀ y ∈ q, y ∈ l.before ++ l.after) → ∀ y ∈ numberDict q, y.1 = name → y = (name, .int v) := by
        intro q hq y hy e
        obtain ⟨z, hz, rfl⟩ := List.mem_map.mp (List.mem_reverse.mp hy)
        rw [hu z (hq z hz) e]
      intro y hy e
      rcases List.mem_cons.mp hy with rfl | hy
      · exact absurd e hname.2.2.1.symm
      rcases List.mem_append.mp hy with hy | hy
      · exact hd _ (fun y hy => List.mem_append_right _ hy) y hy e
      rcases List.mem_cons.mp hy with rfl | hy
      · exact absurd e hkn
      rcases List.mem_cons.mp hy with rfl | hy
      · exact absurd e hname.2.2.2.2.1.symm
      rw [List.append_nil] at hy
      exact hd _ (fun y hy => List.mem_append_left _ hy) y hy e
    have hmem : (name, Val.int v) ∈ lineDict l k n := by
      unfold lineDict numberDict
      rcases List.mem_append.mp hm with hm | hm
      · refine List.mem_cons_of_mem _ (List.mem_append_right _ (List.mem_cons_of_mem _ (List.mem_cons_of_mem _ ?_)))
        rw [List.append_nil, List.mem_reverse]
        exact List.mem_map.mpr ⟨_, hm, rfl⟩
      · refine List.mem_cons_of_mem _ (List.mem_append_left _ ?_)
        rw [List.mem_reverse]
        exact List.mem_map.mpr ⟨_, hm, rfl⟩
    unfold Dict.get
    cases ef : (lineDict l k n).find? fun x => x.1 = name with
    | none =>
      have := List.find?_eq_none.mp ef _ hmem
      simp at this
    | some y =>
      rw [only y (List.mem_of_find?_eq_some ef) (by simpa using List.find?_some ef)]
      rfl
  · rfl

/-! ### Mates of unknown length -/

theorem pyInt_name {w : List Char} (h : NumberName w) : pyInt w = none := by
  obtain ⟨c, t, rfl⟩ := List.exists_cons_of_ne_nil h.1
  have hc := h.2.1 c List.mem_cons_self
  have hr : readSign (c :: t) = (false, c :: t) := by
    unfold readSign
    split
    · rename_i e; cases e; exact absurd hc (by decide)
    · rename_i e; cases e; exact absurd hc (by decide)
    · rfl
  unfold pyInt
  rw [hr]
  dsimp only
  rw [if_pos]
  right
  rw [List.all_cons]
  have : c.isDigit = false := by
    unfold Char.isDigit
    have e : c.toNat = c.val.toNat := rfl
    simp only [Bool.and_eq_false_iff, decide_eq_false_iff_not, UInt32.le_iff_toNat_le]
    right
    show ¬ c.val.toNat ≤ 57
    omega
  rw [this]; rfl

theorem intChars_first (n : Int) : ∃ c t, intChars n = c :: t ∧ c.toNat < 58 := by
  unfold intChars
  split
  · exact ⟨_, _, rfl, by decide⟩
  · obtain ⟨d, t, hd, e⟩ := natChars_head n.natAbs
    exact ⟨_, t, e, by rw [digitCh_toNat hd]; omega⟩

theorem intChars_word (n : Int) {c : Char} {t : List Char} (hc : 58 ≤ c.toNat) : intChars n ≠ c :: t := by
  obtain ⟨d, u, e, hd⟩ := intChars_first n
  rw [e]
  intro h
  cases h
  omega

/-- What is left after the words `score mate +`. -/
theorem splitItems_soon {m1 w : List Char} (hw : pyInt w = none) {l : List (List Char × Int)} (h : ∀ x ∈ l, NumberName x.1) (d : Dict) (fuel : Nat)
    (hf : l.length < fuel) :
    splitItems m1 (fuel + 1) ("score".toList :: "mate".toList :: w :: numberWords l) d = .error ∨
      ∃ d' x, splitItems m1 (fuel + 1) ("score".toList :: "mate".toList :: w :: numberWords l) d = .ok d' ∧ NumberName x ∧
        ∃ e : Dict, d' = e ++ ("mate".toList, .text x) :: ("score".toList, .text "mate".toList) :: d ∧ ∀ y ∈ e, y.1 ≠ "cp".toList ∧ y.1 ≠ "mate".toList := by
  have h0 : ∀ r, splitItems m1 (fuel + 1) ("score".toList :: "mate".toList :: w :: r) d =
      match r with
      | [] => .error
      | v :: r => splitItems m1 fuel r (("mate".toList, .text v) :: ("score".toList, .text "mate".toList) :: d) := by
    intro r
    rw [splitItems]
    dsimp only
    rw [if_neg (by decide), if_neg (by decide), if_pos rfl, hw]
    cases r <;> rfl
  rw [h0]
  cases l with
  | nil => exact Or.inl rfl
  | cons x l =>
    have hx := h x List.mem_cons_self
    show splitItems m1 fuel (intChars x.2 :: numberWords l) _ = _ ∨ ∃ d' y, splitItems m1 fuel (intChars x.2 :: numberWords l) _ = _ ∧ _
    obtain ⟨f, rfl⟩ : ∃ f, fuel = f + 1 := ⟨fuel - 1, by omega⟩
    have n1 : intChars x.2 ≠ "pv".toList := intChars_word _ (by decide)
    have n2 : intChars x.2 ≠ "string".toList := intChars_word _ (by decide)
    have n3 : intChars x.2 ≠ "score".toList := intChars_word _ (by decide)
    have n4 : intChars x.2 ≠ "cp".toList := intChars_word _ (by decide)
    have n5 : intChars x.2 ≠ "mate".toList := intChars_word _ (by decide)
    cases l with
    | nil =>
      left
      show splitItems m1 (f + 1) [intChars x.2] _ = _
      rw [splitItems]
      dsimp only
      rw [if_neg n1, if_neg n2, if_neg n3]
    | cons y l =>
      right
      have hy := h y (List.mem_cons_of_mem _ List.mem_cons_self)
      have hl : ∀ z ∈ l, NumberName z.1 := fun z hz => h z (List.mem_cons_of_mem _ (List.mem_cons_of_mem _ hz))
      show ∃ d' z, splitItems m1 (f + 1) (intChars x.2 :: y.1 :: intChars y.2 :: numberWords l) _ = _ ∧ _
      rw [splitItems]
      dsimp only
      rw [if_neg n1, if_neg n2, if_neg n3, pyInt_name hy]
      dsimp only
      have := splitItems_numbers (m1 := m1) hl [] ((intChars x.2, .text (intChars y.2)) :: ("mate".toList, .text x.1) :: ("score".toList, .text "mate".toList) :: d) (f - l.length)
      rw [List.append_nil, splitItems_nil] at this
      rw [show l.length + (f - l.length) = f by simp only [List.length_cons] at hf; omega] at this
      refine ⟨_, x.1, this, hx, numberDict l ++ [(intChars x.2, .text (intChars y.2))], by simp, ?_⟩
      intro z hz
      rcases List.mem_append.mp hz with hz | hz
      · obtain ⟨u, hu, rfl⟩ := List.mem_map.mp (List.mem_reverse.mp hz)
        exact ⟨(hl u hu).2.2.2.2.2.1, (hl u hu).2.2.2.2.2.2⟩
      · rw [List.mem_singleton] at hz
        subst hz
        exact ⟨n4, n5⟩

theorem get_append {e d : Dict} {k : List Char} (h : ∀ y ∈ e, y.1 ≠ k) : Dict.get (e ++ d) k = Dict.get d k := by
  unfold Dict.get
  rw [List.find?_append, List.find?_eq_none.mpr (fun y hy => by simpa using h y hy)]
  rfl

/-- **C83** fails for mates of unknown length: with `score mate +` or `score mate -` in the last line that begins with the move played, `score` always raises. -/
theorem C83_fails_mate {l : InfoLine} (h : l.Valid) {pre post : List (List Char)} (hp : ∀ s ∈ post, Silent l.first s) (x : Option (List Char))
    (big : Int) {lost : Bool} (hs : l.score = .mateSoon lost) :
    (Listener.of (pre ++ infoText l :: post ++ [answerText l.first x])).score big = .error := by
  unfold Listener.score
  rw [dict_line h hp x]
  unfold splitInfo
  dsimp only
  rw [head_items h, moves_items h]
  have hl : (headWords l).length = l.before.length + ((l.before.length + 2 + 2 * l.after.length) + 1) := by
    unfold headWords
    rw [List.length_append, List.length_append, numberWords_length, numberWords_length, hs]
    simp only [scoreWords, List.length_cons, List.length_nil]
    omega
  rw [hl]
  unfold headWords
  rw [splitItems_numbers h.before, hs]
  obtain ⟨w, e, hw⟩ : ∃ w, (if lost then ['-'] else ['+']) = w ∧ pyInt w = none := ⟨_, rfl, by cases lost <;> decide⟩
  show Out.bind (Out.bind (Out.bind (splitItems _ _ ("score".toList :: "mate".toList :: (if lost then ['-'] else ['+']) :: numberWords l.after) _) _) _) _ = _
  rw [e]
  rcases splitItems_soon (m1 := joinedHead l ++ [' ']) hw h.after (numberDict l.before ++ []) (l.before.length + 2 + 2 * l.after.length) (by omega) with he | ⟨d', y, he, hy, d, rfl, hd⟩
  · rw [he]; rfl
  · rw [he]
    show scoreOf big (("pv".toList, .words (l.first :: l.rest)) :: (d ++ _)) = .error
    have hb : ∀ z ∈ numberDict l.before ++ [], z.1 ≠ "cp".toList := by
      intro z hz
      rw [List.append_nil] at hz
      obtain ⟨u, hu, rfl⟩ := List.mem_map.mp (List.mem_reverse.mp hz)
      exact (h.before u hu).2.2.2.2.2.1
    have g1 : Dict.get (("pv".toList, .words (l.first :: l.rest)) :: (d ++ ("mate".toList, .text y) :: ("score".toList, .text "mate".toList) :: (numberDict l.before ++ []))) "cp".toList = none := by
      have := get_append (e := ("pv".toList, Val.words (l.first :: l.rest)) :: (d ++ ("mate".toList, .text y) :: ("score".toList, .text "mate".toList) :: (numberDict l.before ++ []))) (d := []) (k := "cp".toList) ?_
      · rw [List.append_nil] at this; rw [this]; rfl
      · intro z hz
        rcases List.mem_cons.mp hz with rfl | hz
        · exact (by decide : "pv".toList ≠ "cp".toList)
        rcases List.mem_append.mp hz with hz | hz
        · exact (hd z hz).1
        rcases List.mem_cons.mp hz with rfl | hz
        · exact (by decide : "mate".toList ≠ "cp".toList)
        rcases List.mem_cons.mp hz with rfl | hz
        · exact (by decide : "score".toList ≠ "cp".toList)
        exact hb z hz
    have g2 : Dict.get (("pv".toList, .words (l.first :: l.rest)) :: (d ++ ("mate".toList, .text y) :: ("score".toList, .text "mate".toList) :: (numberDict l.before ++ []))) "mate".toList = some (.text y) := by
      rw [← List.cons_append, get_append]
      · unfold Dict.get
        rw [List.find?_cons_of_pos (by simp)]
        rfl
      · intro z hz
        rcases List.mem_cons.mp hz with rfl | hz
        · exact (by decide : "pv".toList ≠ "mate".toList)
        · exact (hd z hz).2
    unfold scoreOf
    rw [g1, g2]
    dsimp only
    rw [if_neg]
    rintro rfl
    have := (hy.2.1 '+' List.mem_cons_self).1
    revert this
    decide

/-- **C83** fails when nothing stands before the moves: after `info pv 7g7f` and `bestmove 7g7f`, `info` and `score` raise. -/
theorem C83_fails_bare : (Listener.of ["info pv 7g7f".toList, "bestmove 7g7f".toList]).dict = .error ∧
    (Listener.of ["info pv 7g7f".toList, "bestmove 7g7f".toList]).score 100000 = .error ∧
    (Listener.of ["info pv 7g7f".toList, "bestmove 7g7f".toList]).pv = .ok (some ["7g7f".toList]) := by decide +kernel

/-- **C83** fails for bounds: with `lowerbound` before the moves `score` raises; with a number between them that number is lost, and its value
becomes a name. -/
theorem C83_fails_bound :
    (Listener.of ["info depth 5 score cp 30 lowerbound pv 7g7f".toList, "bestmove 7g7f".toList]).score 100000 = .error ∧
    (Listener.of ["info depth 5 score cp 30 lowerbound nodes 100 pv 7g7f".toList, "bestmove 7g7f".toList]).score 100000 = .ok (some 30) ∧
    ∃ d, (Listener.of ["info depth 5 score cp 30 lowerbound nodes 100 pv 7g7f".toList, "bestmove 7g7f".toList]).dict = .ok (some d) ∧
      d.get "nodes".toList = none ∧ d.get "lowerbound".toList = some (.text "100".toList) :=
  ⟨by decide +kernel, by decide +kernel, _, rfl, by decide +kernel, by decide +kernel⟩

/-- A line with numbers on both sides of the score. -/
def someLine (s : Score) : InfoLine := ⟨[("depth".toList, 12), ("seldepth".toList, 17)], s, [("nodes".toList, 48211), ("nps".toList, 900000)], "7g7f".toList, ["3c3d".toList, "8h2b+".toList]⟩

theorem someLine_valid (s : Score) : (someLine s).Valid := by
  have hn : ∀ w : List Char, (decide (w ≠ []) && w.all (fun c => decide (97 ≤ c.toNat) && decide (c.toNat ≤ 122)) && decide (w ≠ "pv".toList) &&
      decide (w ≠ "string".toList) && decide (w ≠ "score".toList) && decide (w ≠ "cp".toList) && decide (w ≠ "mate".toList)) = true → NumberName w := by
    intro w h
    simp only [Bool.and_eq_true, decide_eq_true_eq, List.all_eq_true] at h
    obtain ⟨⟨⟨⟨⟨⟨h1, h2⟩, h3⟩, h4⟩, h5⟩, h6⟩, h7⟩ := h
    exact ⟨h1, h2, h3, h4, h5, h6, h7⟩
  have hm : ∀ w : List Char, (decide (w ≠ []) && w.all (fun c => decide (32 < c.toNat) && decide (c.toNat < 127)) && decide (w ≠ "pv".toList)) = true → MoveWord w := by
    intro w h
    simp only [Bool.and_eq_true, decide_eq_true_eq, List.all_eq_true] at h
    exact ⟨h.1.1, h.1.2, h.2⟩
  refine ⟨?_, ?_, hm "7g7f".toList (by decide), ?_⟩
  · intro x hx
    rcases List.mem_cons.mp hx with rfl | hx
    · exact hn _ (by decide)
    · rw [List.mem_singleton] at hx; subst hx; exact hn _ (by decide)
  · intro x hx
    rcases List.mem_cons.mp hx with rfl | hx
    · exact hn _ (by decide)
    · rw [List.mem_singleton] at hx; subst hx; exact hn _ (by decide)
  · intro x hx
    rcases List.mem_cons.mp hx with rfl | hx
    · exact hm _ (by decide)
    · rw [List.mem_singleton] at hx; subst hx; exact hm _ (by decide)

-- The text is a line as engines send it, and the theorems speak about it and about other lines before and after it.
example : infoText (someLine (.cp (-35))) = "info depth 12 seldepth 17 score cp -35 nodes 48211 nps 900000 pv 7g7f 3c3d 8h2b+".toList := by decide +kernel
example : (Listener.of ["info depth 1 score cp 9 pv 2g2f".toList, infoText (someLine (.cp (-35))), "info string done".toList,
    "bestmove 7g7f ponder 3c3d".toList]).score 100000 = .ok (some (-35)) := by decide +kernel
example : ((someLine (.mate 3)).before ++ (someLine (.mate 3)).after).map (·.1) |>.Nodup := by decide +kernel
example : Silent "7g7f".toList "info string done".toList ∧ Silent "7g7f".toList "info depth 3 currmove 2g2f".toList := ⟨Or.inl (by decide), Or.inl (by decide)⟩
example : ∃ v, (Listener.of ([] ++ infoText (someLine (.mate (-7))) :: [] ++ [answerText "7g7f".toList none])).score 32000 = .ok (some v) ∧ (Score.mate (-7)).Is 32000 v :=
  C83_score_partial (someLine_valid _) (fun _ h => absurd h List.not_mem_nil) none 32000 (fun lost h => by cases h)

end Verif.Usi
