import Verif.Spec.Usi
import Verif.Props.UsiCommands

/-!
Lines of information: their texts, and what the regular expressions find in them.
-/

namespace Verif.Usi
open Spec Position

/-- Words behind blanks. -/
def flat (ws : List (List Char)) : List Char := ws.flatMap fun w => ' ' :: w

@[simp] theorem flat_nil : flat [] = [] := rfl
@[simp] theorem flat_cons (w : List Char) (ws : List (List Char)) : flat (w :: ws) = ' ' :: (w ++ flat ws) := rfl
theorem flat_append (a b : List (List Char)) : flat (a ++ b) = flat a ++ flat b := by simp [flat]

/-- The words of numbers. -/
def numberWords (l : List (List Char × Int)) : List (List Char) := l.flatMap fun x => [x.1, intChars x.2]

/-- The words of a score. -/
def scoreWords : Score → List (List Char)
  | .cp n => ["score".toList, "cp".toList, intChars n]
  | .mate n => ["score".toList, "mate".toList, intChars n]
  | .mateSoon lost => ["score".toList, "mate".toList, if lost then ['-'] else ['+']]

/-- The words between `info` and `pv`. -/
def headWords (l : InfoLine) : List (List Char) := numberWords l.before ++ (scoreWords l.score ++ numberWords l.after)

/-- The text of a line. -/
def infoText (l : InfoLine) : List Char :=
  "info".toList ++ (flat (headWords l) ++ (" pv ".toList ++ (l.first ++ flat l.rest)))

/-! ### Words -/

theorem isSpace_visible {c : Char} (h : 32 < c.toNat ∧ c.toNat < 127) : Kif.isSpace c = false := by
  unfold Kif.isSpace
  simp only [Bool.or_eq_false_iff, Bool.and_eq_false_iff, beq_eq_false_iff_ne, decide_eq_false_iff_not]
  omega

/-- Words without blanks of any kind. -/
def Plain (w : List Char) : Prop := w ≠ [] ∧ ∀ c ∈ w, 32 < c.toNat ∧ c.toNat < 127

theorem Plain.blank {w : List Char} (h : Plain w) : ' ' ∉ w := fun hm => by have := (h.2 _ hm).1; revert this; decide

theorem plain_int (n : Int) : Plain (intChars n) := by
  refine ⟨(intChars_ok n).2, fun c hc => ?_⟩
  unfold intChars at hc
  have hd : ∀ c, (∃ d < 10, c = digitCh d) → 32 < c.toNat ∧ c.toNat < 127 := by
    rintro c ⟨d, hd, rfl⟩
    rw [digitCh_toNat hd]; omega
  split at hc
  · rcases List.mem_cons.mp hc with rfl | hc
    · decide
    · exact hd c (natChars_mem hc)
  · exact hd c (natChars_mem hc)

theorem plain_name {w : List Char} (h : NumberName w) : Plain w := ⟨h.1, fun c hc => by have := h.2.1 c hc; omega⟩
theorem plain_move {w : List Char} (h : MoveWord w) : Plain w := ⟨h.1, h.2.1⟩

theorem plain_numbers {l : List (List Char × Int)} (h : ∀ x ∈ l, NumberName x.1) : ∀ w ∈ numberWords l, Plain w := by
  intro w hw
  obtain ⟨x, hx, hw⟩ := List.mem_flatMap.mp hw
  simp only [List.mem_cons, List.not_mem_nil, or_false] at hw
  rcases hw with rfl | rfl
  · exact plain_name (h x hx)
  · exact plain_int _

theorem plain_const {w : List Char} (h : (decide (w ≠ []) && w.all fun c => decide (32 < c.toNat) && decide (c.toNat < 127)) = true) : Plain w := by
  simp only [Bool.and_eq_true, decide_eq_true_eq, List.all_eq_true] at h
  exact h

theorem plain_score (s : Score) : ∀ w ∈ scoreWords s, Plain w := by
  intro w hw
  cases s with
  | cp n =>
    simp only [scoreWords, List.mem_cons, List.not_mem_nil, or_false] at hw
    rcases hw with rfl | rfl | rfl
    exacts [plain_const (by decide), plain_const (by decide), plain_int n]
  | mate n =>
    simp only [scoreWords, List.mem_cons, List.not_mem_nil, or_false] at hw
    rcases hw with rfl | rfl | rfl
    exacts [plain_const (by decide), plain_const (by decide), plain_int n]
  | mateSoon b =>
    simp only [scoreWords, List.mem_cons, List.not_mem_nil, or_false] at hw
    rcases hw with rfl | rfl | rfl
    · exact plain_const (by decide)
    · exact plain_const (by decide)
    · cases b <;> exact plain_const (by decide)

theorem plain_head {l : InfoLine} (h : l.Valid) : ∀ w ∈ headWords l, Plain w := by
  intro w hw
  rcases List.mem_append.mp hw with hw | hw
  · exact plain_numbers h.before w hw
  rcases List.mem_append.mp hw with hw | hw
  · exact plain_score _ w hw
  · exact plain_numbers h.after w hw

/-! ### Greedy matching -/

theorem greedy_at {β : Type} {k : List Char → Option β} {c : Char} {s : List Char} {b : β} (h : k (c :: s) = some b) (hn : greedy k s = none)
    (pre : List Char) : greedy k (pre ++ c :: s) = some (pre, b) := by
  induction pre with
  | nil => rw [List.nil_append, greedy, hn]; simp [h]
  | cons d pre ih => rw [List.cons_append, greedy, ih]

theorem greedy_cons_none {β : Type} {k : List Char → Option β} {c : Char} {s : List Char} (h : k (c :: s) = none) (hn : greedy k s = none) :
    greedy k (c :: s) = none := by
  rw [greedy, hn, h]; rfl

theorem afterText_append (t s : List Char) : afterText t (t ++ s) = some s := by
  unfold afterText; simp

theorem afterText_eq {t s r : List Char} (h : afterText t s = some r) : s = t ++ r := by
  unfold afterText at h
  split at h
  · rename_i e
    cases h
    rw [← List.take_append_drop t.length s, e]
    simp
  · cases h

/-- A word and a blank at the front of words is the first of them. -/
theorem first_word {t v : List Char} {vs : List (List Char)} {r : List Char} (ht : ' ' ∉ t) (hv : ' ' ∉ v)
    (h : v ++ flat vs = t ++ ' ' :: r) : v = t ∧ flat vs = ' ' :: r := by
  induction v generalizing t with
  | nil =>
    cases t with
    | nil => exact ⟨rfl, h⟩
    | cons c t =>
      cases vs with
      | nil => cases h
      | cons w ws =>
        rw [List.nil_append, flat_cons, List.cons_append] at h
        have : ' ' = c := (List.cons.inj h).1
        exact absurd (this ▸ List.mem_cons_self) ht
  | cons c v ih =>
    cases t with
    | nil =>
      rw [List.cons_append, List.nil_append] at h
      have : c = ' ' := (List.cons.inj h).1
      exact absurd (this ▸ List.mem_cons_self) hv
    | cons d t =>
      rw [List.cons_append, List.cons_append] at h
      obtain ⟨rfl, h2⟩ := List.cons.inj h
      obtain ⟨rfl, h3⟩ := ih (fun hm => ht (List.mem_cons_of_mem _ hm)) (fun hm => hv (List.mem_cons_of_mem _ hm)) h2
      exact ⟨rfl, h3⟩

/-- Nothing in the words fits, if nothing fits that begins inside a word or at a blank. -/
theorem greedy_words {β : Type} {k : List Char → Option β} (hk : k [] = none) (P : List Char → Prop)
    (hin : ∀ c w vs, ' ' ∉ c :: w → (∀ v ∈ vs, ' ' ∉ v ∧ P v) → k (c :: (w ++ flat vs)) = none)
    (hbl : ∀ v vs, (∀ u ∈ v :: vs, ' ' ∉ u ∧ P u) → k (' ' :: (v ++ flat vs)) = none) (vs : List (List Char)) :
    (∀ v ∈ vs, ' ' ∉ v ∧ P v) → ∀ w, ' ' ∉ w → greedy k (w ++ flat vs) = none := by
  induction vs with
  | nil =>
    intro h w hw
    induction w with
    | nil => show greedy k [] = none; rw [greedy, hk]; rfl
    | cons c w ih => exact greedy_cons_none (hin c w [] hw h) (ih fun hm => hw (List.mem_cons_of_mem _ hm))
  | cons v vs ihv =>
    intro h w hw
    induction w with
    | nil =>
      rw [List.nil_append, flat_cons]
      exact greedy_cons_none (hbl v vs h) (ihv (fun x hx => h x (List.mem_cons_of_mem _ hx)) v (h v List.mem_cons_self).1)
    | cons c w ih => exact greedy_cons_none (hin c w (v :: vs) hw h) (ih fun hm => hw (List.mem_cons_of_mem _ hm))

/-! ### The pattern of the listener -/

theorem pv_none {w : List Char} {vs : List (List Char)} (hw : ∀ v ∈ w :: vs, ' ' ∉ v ∧ v ≠ "pv".toList) :
    greedy (fun s => (afterText [' '] s).bind pvGroups) (w ++ flat vs) = none := by
  refine greedy_words (P := fun v => v ≠ "pv".toList) rfl ?_ ?_ vs (fun v hv => hw v (List.mem_cons_of_mem _ hv)) w (hw w List.mem_cons_self).1
  · intro c w vs hc _
    have : afterText [' '] (c :: (w ++ flat vs)) = none := by
      unfold afterText
      rw [if_neg]
      intro e
      have : c = ' ' := (List.cons.inj e).1
      exact hc (this ▸ List.mem_cons_self)
    rw [this]; rfl
  · intro v vs hv
    rw [show afterText [' '] (' ' :: (v ++ flat vs)) = some (v ++ flat vs) from afterText_append [' '] _]
    show pvGroups (v ++ flat vs) = none
    unfold pvGroups
    cases e : afterText "pv ".toList (v ++ flat vs) with
    | none => rfl
    | some r =>
      have := afterText_eq e
      obtain ⟨h, -⟩ := first_word (t := "pv".toList) (r := r) (by decide) (hv v List.mem_cons_self).1 this
      exact absurd h (hv v List.mem_cons_self).2

theorem takeWhile_word {w : List Char} (hw : Plain w) (vs : List (List Char)) :
    (w ++ flat vs).takeWhile (fun c => !Kif.isSpace c) = w ∧ (w ++ flat vs).dropWhile (fun c => !Kif.isSpace c) = flat vs := by
  have h1 : ∀ c ∈ w, (fun c => !Kif.isSpace c) c = true := fun c hc => by simp [isSpace_visible (hw.2 c hc)]
  have h2 : (flat vs).takeWhile (fun c => !Kif.isSpace c) = [] ∧ (flat vs).dropWhile (fun c => !Kif.isSpace c) = flat vs := by
    cases vs with
    | nil => exact ⟨rfl, rfl⟩
    | cons v vs =>
      have hb : (!Kif.isSpace ' ') = false := by decide
      rw [flat_cons, List.takeWhile_cons, List.dropWhile_cons, hb]
      exact ⟨rfl, rfl⟩
  rw [List.takeWhile_append_of_pos h1, List.dropWhile_append_of_pos h1, h2.1, h2.2]
  exact ⟨List.append_nil _, rfl⟩

/-- The head of a match without the blanks around it. -/
def joinedHead (l : InfoLine) : List Char := (flat (headWords l)).drop 1

theorem headWords_ne (l : InfoLine) : ∃ w ws, headWords l = w :: ws := by
  unfold headWords
  cases hb : numberWords l.before with
  | cons w ws => exact ⟨w, _, rfl⟩
  | nil => cases l.score <;> exact ⟨_, _, rfl⟩

theorem infoMatch_text {l : InfoLine} (h : l.Valid) : infoMatch (infoText l) = some ⟨joinedHead l ++ [' '], l.first, flat l.rest⟩ := by
  obtain ⟨w, ws, e⟩ := headWords_ne l
  have ej : flat (headWords l) = ' ' :: joinedHead l := by unfold joinedHead; rw [e]; rfl
  have e1 : infoText l = "info ".toList ++ (joinedHead l ++ ' ' :: ("pv ".toList ++ (l.first ++ flat l.rest))) := by
    unfold infoText; rw [ej]; rfl
  have hp := plain_move h.first
  have hg : pvGroups ("pv ".toList ++ (l.first ++ flat l.rest)) = some (l.first, flat l.rest) := by
    unfold pvGroups
    rw [afterText_append]
    show (if _ then _ else _) = _
    rw [(takeWhile_word hp _).1, (takeWhile_word hp _).2, if_neg hp.1]
  unfold infoMatch
  rw [e1, afterText_append]
  dsimp only [Option.bind_some]
  rw [greedy_at (b := (l.first, flat l.rest))]
  · rw [show afterText [' '] (' ' :: ("pv ".toList ++ (l.first ++ flat l.rest))) = some ("pv ".toList ++ (l.first ++ flat l.rest)) from afterText_append [' '] _]
    exact hg
  · have := pv_none (w := l.first) (vs := l.rest) (fun v hv => by
      rcases List.mem_cons.mp hv with rfl | hv
      · exact ⟨hp.blank, h.first.2.2⟩
      · exact ⟨(plain_move (h.rest v hv)).blank, (h.rest v hv).2.2⟩)
    have hk : ∀ c s, c ≠ ' ' → (afterText [' '] (c :: s)).bind pvGroups = none := by
      intro c s hc
      unfold afterText
      rw [if_neg]
      · rfl
      · intro e
        exact hc (List.cons.inj e).1
    show greedy _ ('p' :: 'v' :: ' ' :: (l.first ++ flat l.rest)) = none
    refine greedy_cons_none (hk _ _ (by decide)) (greedy_cons_none (hk _ _ (by decide)) (greedy_cons_none ?_ this))
    rw [show afterText [' '] (' ' :: (l.first ++ flat l.rest)) = some (l.first ++ flat l.rest) from afterText_append [' '] _]
    show pvGroups _ = none
    unfold pvGroups
    cases ea : afterText "pv ".toList (l.first ++ flat l.rest) with
    | none => rfl
    | some r =>
      have hw := afterText_eq ea
      exact absurd (first_word (t := "pv".toList) (r := r) (by decide) hp.blank hw).1 h.first.2.2

/-! ### The words of the head -/

theorem splitAt_words {w : List Char} {ws : List (List Char)} (h : ∀ v ∈ w :: ws, ' ' ∉ v) : Kif.splitAt ' ' (w ++ flat ws) = w :: ws :=
  splitAt_flat w ws (h w List.mem_cons_self) fun v hv => h v (List.mem_cons_of_mem _ hv)

theorem ends_plain {w : List Char} {ws : List (List Char)} (h : ∀ v ∈ w :: ws, Plain v) :
    ∃ t c, w ++ flat ws = t ++ [c] ∧ Kif.isSpace c = false := by
  induction ws generalizing w with
  | nil =>
    have hw := h w List.mem_cons_self
    refine ⟨w.dropLast, w.getLast hw.1, ?_, isSpace_visible (hw.2 _ (List.getLast_mem _))⟩
    rw [flat_nil, List.append_nil, List.dropLast_append_getLast]
  | cons v vs ih =>
    obtain ⟨t, c, e, hc⟩ := ih (w := v) (fun x hx => h x (List.mem_cons_of_mem _ hx))
    exact ⟨w ++ ' ' :: t, c, by rw [flat_cons, e]; simp, hc⟩

theorem strip_words {w : List Char} {ws : List (List Char)} (h : ∀ v ∈ w :: ws, Plain v) : strip ((w ++ flat ws) ++ [' ']) = w ++ flat ws := by
  obtain ⟨t, c, e, hc⟩ := ends_plain h
  have hb : Kif.isSpace ' ' = true := by decide
  have hw := h w List.mem_cons_self
  have h1 : ((w ++ flat ws) ++ [' ']).dropWhile Kif.isSpace = (w ++ flat ws) ++ [' '] := by
    obtain ⟨d, w', rfl⟩ := List.exists_cons_of_ne_nil hw.1
    rw [List.cons_append, List.cons_append, List.dropWhile_cons, isSpace_visible (hw.2 d List.mem_cons_self)]
    rfl
  unfold strip
  rw [h1, e, List.reverse_append, List.reverse_append]
  show ((' ' :: (c :: t.reverse)).dropWhile Kif.isSpace).reverse = _
  rw [List.dropWhile_cons, hb]
  show ((c :: t.reverse).dropWhile Kif.isSpace).reverse = _
  rw [List.dropWhile_cons, hc]
  simp

theorem pyInt_intChars (n : Int) : pyInt (intChars n) = some n := by
  have key : ∀ k : Nat, ¬(natChars k = [] ∨ (natChars k).all Char.isDigit = false) := by
    intro k
    rintro (h | h)
    · exact natChars_ne_nil k h
    · rw [List.all_eq_true.mpr natChars_isDigit] at h
      cases h
  have hs : readSign (intChars n) = (decide (n < 0), natChars n.natAbs) := by
    unfold intChars
    split
    · rename_i hn; rw [decide_eq_true hn]; rfl
    · rename_i hn
      obtain ⟨d, l, hd, e⟩ := natChars_head n.natAbs
      rw [e, readSign_digit hd, decide_eq_false hn]
  unfold pyInt
  rw [hs]
  dsimp only
  rw [if_neg (key _), readNat_natChars]
  congr 1
  by_cases hn : n < 0
  · rw [if_pos (decide_eq_true hn)]; omega
  · rw [if_neg (by simpa using hn)]; omega

/-- Numbers as a dictionary, the last first. -/
def numberDict (l : List (List Char × Int)) : Dict := (l.map fun x => (x.1, Val.int x.2)).reverse

theorem splitItems_number {m1 name : List Char} {n : Int} {rest : List (List Char)} {d : Dict} {fuel : Nat}
    (h : name ≠ "pv".toList ∧ name ≠ "string".toList ∧ name ≠ "score".toList) :
    splitItems m1 (fuel + 1) (name :: intChars n :: rest) d = splitItems m1 fuel rest ((name, .int n) :: d) := by
  rw [splitItems]
  dsimp only
  rw [if_neg h.1, if_neg h.2.1, if_neg h.2.2, pyInt_intChars]

theorem splitItems_score {m1 k : List Char} {n : Int} {rest : List (List Char)} {d : Dict} {fuel : Nat} :
    splitItems m1 (fuel + 1) ("score".toList :: k :: intChars n :: rest) d =
      splitItems m1 fuel rest ((k, .int n) :: ("score".toList, .text k) :: d) := by
  rw [splitItems]
  dsimp only
  rw [if_neg (by decide), if_neg (by decide), if_pos rfl, pyInt_intChars]

theorem splitItems_numbers {m1 : List Char} {l : List (List Char × Int)} (h : ∀ x ∈ l, NumberName x.1) (rest : List (List Char)) (d : Dict) (fuel : Nat) :
    splitItems m1 (l.length + fuel) (numberWords l ++ rest) d = splitItems m1 fuel rest (numberDict l ++ d) := by
  induction l generalizing d with
  | nil =>
    show splitItems m1 (0 + fuel) rest d = splitItems m1 fuel rest d
    rw [Nat.zero_add]
  | cons x l ih =>
    have hx := (h x List.mem_cons_self).2.2
    show splitItems m1 (l.length + 1 + fuel) (x.1 :: intChars x.2 :: (numberWords l ++ rest)) d = _
    rw [show l.length + 1 + fuel = (l.length + fuel) + 1 by omega, splitItems_number ⟨hx.1, hx.2.1, hx.2.2.1⟩, ih (fun y hy => h y (List.mem_cons_of_mem _ hy))]
    congr 1
    simp [numberDict]

theorem splitItems_nil (m1 : List Char) (fuel : Nat) (d : Dict) : splitItems m1 fuel [] d = .ok d := by
  cases fuel <;> rfl

theorem numberWords_length (l : List (List Char × Int)) : (numberWords l).length = 2 * l.length := by
  induction l with
  | nil => rfl
  | cons x l ih => show ((x.1 :: intChars x.2 :: numberWords l)).length = _; simp only [List.length_cons, ih]; omega

/-- The kind of a score and its number, if it has one. -/
def scoreParts : Score → Option (List Char × Int)
  | .cp n => some ("cp".toList, n)
  | .mate n => some ("mate".toList, n)
  | .mateSoon _ => none

theorem scoreWords_parts {s : Score} {k : List Char} {n : Int} (h : scoreParts s = some (k, n)) : scoreWords s = ["score".toList, k, intChars n] := by
  cases s <;> simp only [scoreParts, Option.some.injEq, Prod.mk.injEq, reduceCtorEq] at h
  all_goals obtain ⟨rfl, rfl⟩ := h; rfl

/-- The dictionary of a line. -/
def lineDict (l : InfoLine) (k : List Char) (n : Int) : Dict :=
  ("pv".toList, .words (l.first :: l.rest)) :: (numberDict l.after ++ ((k, .int n) :: ("score".toList, .text k) :: (numberDict l.before ++ [])))

theorem head_items {l : InfoLine} (h : l.Valid) : Kif.splitAt ' ' (strip (joinedHead l ++ [' '])) = headWords l := by
  obtain ⟨w, ws, e⟩ := headWords_ne l
  have hp : ∀ v ∈ w :: ws, Plain v := e ▸ plain_head h
  have ej : joinedHead l = w ++ flat ws := by unfold joinedHead; rw [e]; rfl
  rw [ej, strip_words hp, splitAt_words (fun v hv => (hp v hv).blank), e]

theorem moves_items {l : InfoLine} (h : l.Valid) : Kif.splitAt ' ' (l.first ++ flat l.rest) = l.first :: l.rest :=
  splitAt_words fun v hv => by
    rcases List.mem_cons.mp hv with rfl | hv
    · exact (plain_move h.first).blank
    · exact (plain_move (h.rest v hv)).blank

theorem splitInfo_text {l : InfoLine} (h : l.Valid) {k : List Char} {n : Int} (hs : scoreParts l.score = some (k, n)) :
    splitInfo ⟨joinedHead l ++ [' '], l.first, flat l.rest⟩ = .ok (lineDict l k n) := by
  unfold splitInfo
  dsimp only
  rw [head_items h, moves_items h]
  have hl : (headWords l).length = l.before.length + (1 + (l.after.length + (l.before.length + (2 + l.after.length)))) := by
    unfold headWords
    rw [List.length_append, List.length_append, numberWords_length, numberWords_length, scoreWords_parts hs]
    simp only [List.length_cons, List.length_nil]
    omega
  rw [hl]
  unfold headWords
  rw [splitItems_numbers h.before, scoreWords_parts hs, Nat.add_comm 1]
  show (splitItems _ _ ("score".toList :: k :: intChars n :: numberWords l.after) _).bind _ = _
  rw [splitItems_score]
  have := splitItems_numbers (m1 := joinedHead l ++ [' ']) h.after [] ((k, .int n) :: ("score".toList, .text k) :: (numberDict l.before ++ [])) (l.before.length + (2 + l.after.length))
  rw [List.append_nil] at this
  rw [this, splitItems_nil]
  rfl

end Verif.Usi
