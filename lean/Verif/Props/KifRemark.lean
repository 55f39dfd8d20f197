import Verif.Model.KifInfo
import Verif.Spec.KifRemark
import Verif.Props.Kif
import Verif.Props.UsiSession
import Verif.Lemmas.Usi

/-!
# C99: a KIF record keeps what the engines said

What is handed to `Exporter.info` after a move is read back as the comment of that move, and says what the engine said, counted for Black.
-/

namespace Verif.Kif
open Spec Position Spec.Session Spec.Remark

/-- The words of a fact in the line of an engine. -/
def factWords : Fact → List (List Char)
  | .time ms => ["time".toList, natChars ms]
  | .depth n => ["depth".toList, natChars n]
  | .nodes n => ["nodes".toList, natChars n]
  | .cp v => ["score".toList, "cp".toList, intChars v]
  | .mate wins n => ["score".toList, "mate".toList, (if wins then '+' else '-') :: natChars n]
  | .other name value => [name, value]

/-- A line of an engine: facts, and words at the end, like a variation. -/
def said (r : List Fact × List (List Char)) : List Char := Usi.joined ("info".toList :: (r.1.flatMap factWords ++ r.2))

/-- The words that `info` looks for. -/
def keywords : List (List Char) := ["time".toList, "depth".toList, "nodes".toList, "score".toList]

/-- Words that `info` passes over. -/
def Idle (w : List Char) : Prop := ' ' ∉ w ∧ w ∉ keywords

/-- Facts that are told apart from names, and times that are not rounded up to a minute. -/
def FactOK (tenths : Nat → Nat) : Fact → Prop
  | .time ms => tenths (ms % 60000) < 600
  | .other name value => Idle name ∧ Idle value
  | _ => True

/-- Rounding to the nearest tenth of a second, up or down in the middle. -/
def Nearest (tenths : Nat → Nat) : Prop := ∀ x, 100 * tenths x ≤ x + 50 ∧ x ≤ 100 * tenths x + 50

theorem idle_cons {tenths : Nat → Nat} {black : Bool} {w : List Char} (h : Idle w) (ws : List (List Char)) :
    infoLoop tenths black (w :: ws) = infoLoop tenths black ws := by
  obtain ⟨-, h⟩ := h
  simp only [keywords, List.mem_cons, List.not_mem_nil, or_false, not_or] at h
  obtain ⟨h1, h2, h3, h4⟩ := h
  match ws with
  | [] => simp only [infoLoop, h1, h2, h3, h4, or_self, if_false]
  | [v] => conv_lhs => rw [infoLoop, if_neg h1, if_neg h2, if_neg h3, if_neg h4]
  | v :: u :: ws => rw [infoLoop, if_neg h1, if_neg h2, if_neg h3, if_neg h4]

theorem idle_all {tenths : Nat → Nat} {black : Bool} : ∀ {ws : List (List Char)}, (∀ w ∈ ws, Idle w) → infoLoop tenths black ws = some []
  | [], _ => rfl
  | w :: ws, h => by rw [idle_cons (h w (by simp)), idle_all fun x hx => h x (List.mem_cons_of_mem _ hx)]

theorem idle_nat (n : Nat) : Idle (natChars n) := by
  refine ⟨fun h => absurd (natChars_isDigit _ h) (by decide), fun h => ?_⟩
  have key : ∀ w ∈ keywords, w.all Char.isDigit = false := by decide
  have := key _ h
  rw [List.all_eq_true.mpr fun c hc => natChars_isDigit c hc] at this
  cases this

theorem idle_signed (c : Char) (hc : c = '+' ∨ c = '-') (l : List Char) (h : ' ' ∉ l) : Idle (c :: l) := by
  constructor
  · rw [List.mem_cons, not_or]
    exact ⟨by rcases hc with rfl | rfl <;> decide, h⟩
  · intro h
    have key : ∀ w ∈ keywords, w.head? ≠ some '+' ∧ w.head? ≠ some '-' := by decide
    rcases hc with rfl | rfl
    · exact (key _ h).1 rfl
    · exact (key _ h).2 rfl

theorem idle_int (v : Int) : Idle (intChars v) := by
  unfold intChars
  split
  · exact idle_signed _ (.inr rfl) _ (idle_nat _).1
  · exact idle_nat _

theorem loop_time {tenths : Nat → Nat} {black : Bool} (v : List Char) (ws : List (List Char)) :
    infoLoop tenths black ("time".toList :: v :: ws) = (timePart tenths v).bind fun x => (infoLoop tenths black (v :: ws)).map fun y => x ++ y := by
  cases ws with
  | nil => conv_lhs => rw [infoLoop, if_pos rfl]
  | cons u ws => conv_lhs => rw [infoLoop, if_pos rfl]

theorem loop_depth {tenths : Nat → Nat} {black : Bool} (v : List Char) (ws : List (List Char)) :
    infoLoop tenths black ("depth".toList :: v :: ws) = (infoLoop tenths black (v :: ws)).map fun y => " 深さ ".toList ++ (v ++ y) := by
  cases ws with
  | nil => conv_lhs => rw [infoLoop, if_neg (by decide), if_pos rfl]
  | cons u ws => conv_lhs => rw [infoLoop, if_neg (by decide), if_pos rfl]

theorem loop_nodes {tenths : Nat → Nat} {black : Bool} (v : List Char) (ws : List (List Char)) :
    infoLoop tenths black ("nodes".toList :: v :: ws) = (infoLoop tenths black (v :: ws)).map fun y => " ノード数 ".toList ++ (v ++ y) := by
  cases ws with
  | nil => conv_lhs => rw [infoLoop, if_neg (by decide), if_neg (by decide), if_pos rfl]
  | cons u ws => conv_lhs => rw [infoLoop, if_neg (by decide), if_neg (by decide), if_pos rfl]

theorem loop_cp {tenths : Nat → Nat} {black : Bool} (v : List Char) (ws : List (List Char)) :
    infoLoop tenths black ("score".toList :: "cp".toList :: v :: ws) =
      (cpPart black v).bind fun x => (infoLoop tenths black (v :: ws)).map fun y => x ++ y := by
  rw [infoLoop, if_neg (by decide), if_neg (by decide), if_neg (by decide), if_pos rfl, if_pos rfl]

theorem loop_mate {tenths : Nat → Nat} {black : Bool} (v : List Char) (ws : List (List Char)) :
    infoLoop tenths black ("score".toList :: "mate".toList :: v :: ws) = (infoLoop tenths black (v :: ws)).map fun y => matePart black v ++ y := by
  rw [infoLoop, if_neg (by decide), if_neg (by decide), if_neg (by decide), if_pos rfl, if_neg (by decide), if_pos rfl]

/-- The side whose engine spoke. -/
def speaker (black : Bool) : Color := if black then .black else .white

/-- The words a remark has for a fact, in front of which there is a blank each. -/
def shownWords (tenths : Nat → Nat) (black : Bool) : Fact → List (List Char)
  | .time ms => ["時間".toList, zpad 2 (ms / 60000) ++ ':' :: secondsText (tenths (ms % 60000))]
  | .depth n => ["深さ".toList, natChars n]
  | .nodes n => ["ノード数".toList, natChars n]
  | .cp v => ["評価値".toList, intChars (if black then v else -v)]
  | .mate wins n => [(if wins = black then '+' else '-') :: '詰' :: natChars n]
  | .other _ _ => []

/-- Words with a blank in front of each. -/
def blanked (ws : List (List Char)) : List Char := ws.flatMap fun w => ' ' :: w

theorem blanked_cons (w : List Char) (ws : List (List Char)) : blanked (w :: ws) = ' ' :: (w ++ blanked ws) := by
  simp [blanked]

theorem loop_fact (tenths : Nat → Nat) (black : Bool) (f : Fact) (h : FactOK tenths f) (ws : List (List Char)) :
    infoLoop tenths black (factWords f ++ ws) = (infoLoop tenths black ws).map fun y => blanked (shownWords tenths black f) ++ y := by
  cases f with
  | time ms =>
    show infoLoop tenths black ("time".toList :: natChars ms :: ws) = _
    have e : timePart tenths (natChars ms) = some (" 時間 ".toList ++ (zpad 2 (ms / 60000) ++ ':' :: secondsText (tenths (ms % 60000)))) := by
      unfold timePart
      have : Usi.pyInt (natChars ms) = some (Int.ofNat ms) := by
        have := Usi.pyInt_intChars (ms : Int)
        unfold intChars at this
        rw [if_neg (by omega)] at this
        exact this
      rw [this]
    rw [loop_time, e, Option.bind_some, idle_cons (idle_nat ms)]
    congr 1
    funext y
    simp [shownWords, blanked]
  | depth n =>
    show infoLoop tenths black ("depth".toList :: natChars n :: ws) = _
    rw [loop_depth, idle_cons (idle_nat n)]
    congr 1; funext y; simp [shownWords, blanked]
  | nodes n =>
    show infoLoop tenths black ("nodes".toList :: natChars n :: ws) = _
    rw [loop_nodes, idle_cons (idle_nat n)]
    congr 1; funext y; simp [shownWords, blanked]
  | cp v =>
    show infoLoop tenths black ("score".toList :: "cp".toList :: intChars v :: ws) = _
    have e : cpPart black (intChars v) = some (" 評価値 ".toList ++ intChars (if black then v else -v)) := by
      unfold cpPart
      cases black
      · rw [if_neg (by decide), Usi.pyInt_intChars]; rfl
      · rfl
    rw [loop_cp, e, Option.bind_some, idle_cons (idle_int v)]
    congr 1; funext y; simp [shownWords, blanked]
  | mate wins n =>
    show infoLoop tenths black ("score".toList :: "mate".toList :: ((if wins then '+' else '-') :: natChars n) :: ws) = _
    rw [loop_mate, idle_cons (idle_signed _ (by cases wins <;> simp) _ (idle_nat n).1)]
    congr 1; funext y
    have e : matePart black ((if wins then '+' else '-') :: natChars n) = ' ' :: (if wins = black then '+' else '-') :: '詰' :: natChars n := by
      cases wins <;> cases black <;> rfl
    rw [e]
    show _ = blanked [(if wins = black then '+' else '-') :: '詰' :: natChars n] ++ y
    rw [blanked_cons]
    simp [blanked]
  | other name value =>
    show infoLoop tenths black (name :: value :: ws) = _
    rw [idle_cons h.1, idle_cons h.2]
    show _ = (infoLoop tenths black ws).map fun y => [] ++ y
    cases infoLoop tenths black ws <;> rfl

theorem loop_facts (tenths : Nat → Nat) (black : Bool) : ∀ (fs : List Fact), (∀ f ∈ fs, FactOK tenths f) → ∀ pv : List (List Char), (∀ w ∈ pv, Idle w) →
    infoLoop tenths black (fs.flatMap factWords ++ pv) = some (blanked (fs.flatMap (shownWords tenths black)))
  | [], _, pv, hp => idle_all hp
  | f :: fs, h, pv, hp => by
    rw [List.flatMap_cons, List.append_assoc, loop_fact tenths black f (h f (by simp)),
      loop_facts tenths black fs (fun x hx => h x (List.mem_cons_of_mem _ hx)) pv hp]
    simp [blanked]

theorem factWords_blank {tenths : Nat → Nat} {f : Fact} (h : FactOK tenths f) : ∀ w ∈ factWords f, ' ' ∉ w := by
  cases f with
  | time ms => intro w hw; simp only [factWords, List.mem_cons, List.not_mem_nil, or_false] at hw; rcases hw with rfl | rfl; exacts [by decide, (idle_nat _).1]
  | depth n => intro w hw; simp only [factWords, List.mem_cons, List.not_mem_nil, or_false] at hw; rcases hw with rfl | rfl; exacts [by decide, (idle_nat _).1]
  | nodes n => intro w hw; simp only [factWords, List.mem_cons, List.not_mem_nil, or_false] at hw; rcases hw with rfl | rfl; exacts [by decide, (idle_nat _).1]
  | cp v => intro w hw; simp only [factWords, List.mem_cons, List.not_mem_nil, or_false] at hw; rcases hw with rfl | rfl | rfl; exacts [by decide, by decide, (idle_int _).1]
  | mate wins n =>
    intro w hw; simp only [factWords, List.mem_cons, List.not_mem_nil, or_false] at hw
    rcases hw with rfl | rfl | rfl
    exacts [by decide, by decide, (idle_signed _ (by cases wins <;> simp) _ (idle_nat n).1).1]
  | other name value => intro w hw; simp only [factWords, List.mem_cons, List.not_mem_nil, or_false] at hw; rcases hw with rfl | rfl; exacts [h.1.1, h.2.1]

/-- What `info` writes. -/
theorem remark_eq (tenths : Nat → Nat) (num : Nat) (r : List Fact × List (List Char)) (h : ∀ f ∈ r.1, FactOK tenths f) (hp : ∀ w ∈ r.2, Idle w) :
    infoRemark tenths num (said r) = some ("**対局".toList ++ blanked (r.1.flatMap (shownWords tenths (decide (num % 2 = 0))))) := by
  unfold infoRemark said
  rw [← Usi.fields_eq, Usi.fields_joined, List.drop_succ_cons, List.drop_zero, loop_facts _ _ _ h _ hp]
  · rfl
  · intro v hv
    rcases List.mem_cons.mp hv with rfl | hv
    · decide
    · rcases List.mem_append.mp hv with hv | hv
      · obtain ⟨f, hf, hv⟩ := List.mem_flatMap.mp hv
        exact factWords_blank (h f hf) v hv
      · exact (hp v hv).1

/-! ### Reading the remark -/

theorem parts_eq (sep : Char) (l : List Char) : parts sep l = splitAt sep l := by
  induction l with
  | nil => rfl
  | cons c cs ih =>
    unfold parts splitAt
    rw [ih]
    cases splitAt sep cs <;> rfl

theorem decimal_zpad (w n : Nat) : decimal (zpad w n) = n := by
  have h := pyInt_zpad w n
  unfold pyInt at h
  split at h
  · cases h
  · have h := Option.some.inj h
    unfold readNat at h
    rw [takeWhile_all (zpad_digit w n)] at h
    exact h

theorem secondsText_eq (t : Nat) (h : t < 600) : secondsText t = zpad 2 (t / 10) ++ '.' :: natChars (t % 10) := by
  have key : ∀ a < 60, ∀ d < 10, (let s := natChars a ++ '.' :: natChars d; if (s.drop 1).take 1 = ['.'] then '0' :: s else s) =
      zpad 2 a ++ '.' :: natChars d := by decide
  exact key (t / 10) (by omega) (t % 10) (by omega)

theorem parts_two {sep : Char} {a b : List Char} (ha : sep ∉ a) (hb : sep ∉ b) : parts sep (a ++ sep :: b) = [a, b] := by
  rw [parts_eq]
  have := splitAt_cons sep a b ha
  rw [this, splitAt_none _ _ hb]

theorem readTime_text (m t : Nat) (h : t < 600) : Remark.readTime (zpad 2 m ++ ':' :: secondsText t) = some (m * 600 + t) := by
  have d1 : ':' ∉ zpad 2 m := fun h => absurd (zpad_digit _ _ _ h) (by decide)
  have d2 : ':' ∉ zpad 2 (t / 10) ++ '.' :: natChars (t % 10) := by
    simp only [List.mem_append, List.mem_cons, not_or]
    exact ⟨fun h => absurd (zpad_digit _ _ _ h) (by decide), by decide, fun h => absurd (natChars_isDigit _ h) (by decide)⟩
  have d3 : '.' ∉ zpad 2 (t / 10) := fun h => absurd (zpad_digit _ _ _ h) (by decide)
  have d4 : '.' ∉ natChars (t % 10) := fun h => absurd (natChars_isDigit _ h) (by decide)
  rw [secondsText_eq t h]
  unfold Remark.readTime
  rw [parts_two d1 d2]
  dsimp only
  rw [parts_two d3 d4]
  dsimp only
  rw [decimal_zpad, decimal_zpad, Usi.decimal_natChars, if_pos (by omega)]
  congr 1
  omega

/-- What is read of a fact. -/
def notedOf (tenths : Nat → Nat) (black : Bool) : Fact → List Noted
  | .time ms => [.time (ms / 60000 * 600 + tenths (ms % 60000))]
  | .depth n => [.depth n]
  | .nodes n => [.nodes n]
  | .cp v => [.value (if black then v else -v)]
  | .mate wins n => [.mate (decide (wins = black)) n]
  | .other _ _ => []

theorem notedOf_shown {tenths : Nat → Nat} (hn : Nearest tenths) (black : Bool) (f : Fact) : f.Shown (speaker black) (notedOf tenths black f) := by
  cases f with
  | time ms =>
    refine ⟨_, rfl, ?_⟩
    have := hn (ms % 60000)
    omega
  | depth n => rfl
  | nodes n => rfl
  | cp v => cases black <;> rfl
  | mate wins n => cases black <;> cases wins <;> rfl
  | other name value => rfl

theorem mateWord {a : Char} {b : Bool} (n : Nat) (h : a = if b then '+' else '-') : readMateWord (a :: '詰' :: natChars n) = some (.mate b n) := by
  subst h
  have e : readMateWord ((if b then '+' else '-') :: '詰' :: natChars n) = some (.mate b (decimal (natChars n))) := by cases b <;> rfl
  rw [e, Usi.decimal_natChars]

theorem notes_fact (tenths : Nat → Nat) (black : Bool) (f : Fact) (h : FactOK tenths f) (ws : List (List Char)) :
    readNotes (shownWords tenths black f ++ ws) = (readNotes ws).map fun l => notedOf tenths black f ++ l := by
  cases f with
  | time ms =>
    show readNotes ("時間".toList :: (zpad 2 (ms / 60000) ++ ':' :: secondsText (tenths (ms % 60000))) :: ws) = _
    rw [readNotes, if_pos rfl, readTime_text _ _ h]
    rfl
  | depth n =>
    show readNotes ("深さ".toList :: natChars n :: ws) = _
    rw [readNotes, if_neg (by decide), if_pos rfl, Usi.decimal_natChars]
    rfl
  | nodes n =>
    show readNotes ("ノード数".toList :: natChars n :: ws) = _
    rw [readNotes, if_neg (by decide), if_neg (by decide), if_pos rfl, Usi.decimal_natChars]
    rfl
  | cp v =>
    show readNotes ("評価値".toList :: intChars (if black then v else -v) :: ws) = _
    rw [readNotes, if_neg (by decide), if_neg (by decide), if_neg (by decide), if_pos rfl, Usi.integer_intChars]
    rfl
  | mate wins n =>
    obtain ⟨w, hw⟩ : ∃ w, w = (if wins = black then '+' else '-') :: '詰' :: natChars n := ⟨_, rfl⟩
    have hm : readMateWord w = some (.mate (decide (wins = black)) n) := by
      rw [hw]
      exact mateWord n (by by_cases h : wins = black <;> simp [h])
    show readNotes ([(if wins = black then '+' else '-') :: '詰' :: natChars n] ++ ws) = _
    rw [← hw]
    have hd : ∀ t : List Char, t ∈ ["時間".toList, "深さ".toList, "ノード数".toList, "評価値".toList] → w ≠ t := by
      intro t ht e
      have key : ∀ t ∈ ["時間".toList, "深さ".toList, "ノード数".toList, "評価値".toList], readMateWord t = none := by decide
      rw [e, key t ht] at hm
      cases hm
    cases ws with
    | nil =>
      show (readMateWord w).map (fun n => [n]) = _
      rw [hm]; rfl
    | cons v ws =>
      show readNotes (w :: v :: ws) = _
      rw [readNotes, if_neg (hd _ (by simp)), if_neg (hd _ (by simp)), if_neg (hd _ (by simp)), if_neg (hd _ (by simp)), hm]
      rfl
  | other name value =>
    show readNotes ws = (readNotes ws).map fun l => [] ++ l
    cases readNotes ws <;> rfl

theorem notes_facts (tenths : Nat → Nat) (black : Bool) : ∀ (fs : List Fact), (∀ f ∈ fs, FactOK tenths f) →
    readNotes (fs.flatMap (shownWords tenths black)) = some (fs.map (notedOf tenths black)).flatten
  | [], _ => rfl
  | f :: fs, h => by
    rw [List.flatMap_cons, notes_fact _ _ _ (h f (by simp)), notes_facts tenths black fs fun x hx => h x (List.mem_cons_of_mem _ hx)]
    rfl

/-- The characters of a remark. -/
theorem shown_plain (tenths : Nat → Nat) (black : Bool) {f : Fact} (h : FactOK tenths f) : ∀ w ∈ shownWords tenths black f, ∀ c ∈ w, c ≠ ' ' ∧ c ≠ '\n' ∧ c ≠ '\r' := by
  have dig : ∀ c : Char, c.isDigit = true → c ≠ ' ' ∧ c ≠ '\n' ∧ c ≠ '\r' := by
    intro c hc
    refine ⟨?_, ?_, ?_⟩ <;> (intro e; subst e; exact absurd hc (by decide))
  have nat : ∀ n, ∀ c ∈ natChars n, c ≠ ' ' ∧ c ≠ '\n' ∧ c ≠ '\r' := fun n c hc => dig c (natChars_isDigit _ hc)
  have int : ∀ v, ∀ c ∈ intChars v, c ≠ ' ' ∧ c ≠ '\n' ∧ c ≠ '\r' := by
    intro v c hc
    unfold intChars at hc
    split at hc
    · rcases List.mem_cons.mp hc with rfl | hc
      · decide
      · exact nat _ c hc
    · exact nat _ c hc
  cases f with
  | time ms =>
    intro w hw c hc
    simp only [shownWords, List.mem_cons, List.not_mem_nil, or_false] at hw
    rcases hw with rfl | rfl
    · revert c; decide
    · rw [secondsText_eq _ h] at hc
      simp only [List.mem_append, List.mem_cons] at hc
      rcases hc with hc | rfl | hc | rfl | hc
      · exact dig c (zpad_digit _ _ c hc)
      · decide
      · exact dig c (zpad_digit _ _ c hc)
      · decide
      · exact nat _ c hc
  | depth n =>
    intro w hw
    simp only [shownWords, List.mem_cons, List.not_mem_nil, or_false] at hw
    rcases hw with rfl | rfl
    · decide
    · exact nat _
  | nodes n =>
    intro w hw
    simp only [shownWords, List.mem_cons, List.not_mem_nil, or_false] at hw
    rcases hw with rfl | rfl
    · decide
    · exact nat _
  | cp v =>
    intro w hw
    simp only [shownWords, List.mem_cons, List.not_mem_nil, or_false] at hw
    rcases hw with rfl | rfl
    · decide
    · exact int _
  | mate wins n =>
    intro w hw c hc
    simp only [shownWords, List.mem_cons, List.not_mem_nil, or_false] at hw
    subst hw
    rcases List.mem_cons.mp hc with rfl | hc
    · split <;> decide
    · rcases List.mem_cons.mp hc with rfl | hc
      · decide
      · exact nat _ c hc
  | other name value => intro w hw; cases hw

theorem fields_blanked : ∀ (ws : List (List Char)), (∀ w ∈ ws, ' ' ∉ w) → ∀ a, ' ' ∉ a → fields (a ++ blanked ws) = a :: ws
  | [], _, a, ha => by
    show fields (a ++ []) = _
    rw [List.append_nil, Usi.fields_word ha]
  | w :: ws, h, a, ha => by
    rw [blanked_cons, Usi.fields_append, Usi.fields_word ha, fields_blanked ws (fun x hx => h x (List.mem_cons_of_mem _ hx)) w (h w (by simp))]
    rfl

/-- **C99** for one line: what an engine says is written as a remark that says the same, counted for Black. -/
theorem C99_remark_partial {tenths : Nat → Nat} (hn : Nearest tenths) (num : Nat) (r : List Fact × List (List Char)) (h : ∀ f ∈ r.1, FactOK tenths f)
    (hp : ∀ w ∈ r.2, Idle w) :
    ∃ text ls, infoRemark tenths num (said r) = some ("**".toList ++ text) ∧ '\n' ∉ text ∧ '\r' ∉ text ∧
      List.Forall₂ (Fact.Shown (speaker (decide (num % 2 = 0)))) r.1 ls ∧ readRemark text = some ls.flatten := by
  have hw : ∀ w ∈ r.1.flatMap (shownWords tenths (decide (num % 2 = 0))), ∀ c ∈ w, c ≠ ' ' ∧ c ≠ '\n' ∧ c ≠ '\r' := by
    intro w hw
    obtain ⟨f, hf, hw⟩ := List.mem_flatMap.mp hw
    exact shown_plain _ _ (h f hf) w hw
  have hc : ∀ c ∈ "対局".toList ++ blanked (r.1.flatMap (shownWords tenths (decide (num % 2 = 0)))), c ≠ '\n' ∧ c ≠ '\r' := by
    intro c hc
    rcases List.mem_append.mp hc with hc | hc
    · have key : ∀ c ∈ "対局".toList, c ≠ '\n' ∧ c ≠ '\r' := by decide
      exact key c hc
    · obtain ⟨w, h1, h2⟩ := List.mem_flatMap.mp hc
      rcases List.mem_cons.mp h2 with rfl | h2
      · decide
      · exact (hw w h1 c h2).2
  refine ⟨"対局".toList ++ blanked (r.1.flatMap (shownWords tenths (decide (num % 2 = 0)))), r.1.map (notedOf tenths (decide (num % 2 = 0))), ?_, fun h => (hc _ h).1 rfl, fun h => (hc _ h).2 rfl, ?_, ?_⟩
  · rw [remark_eq tenths num r h hp, ← List.append_assoc]
    rfl
  · rw [List.forall₂_map_right_iff]
    exact List.forall₂_same.mpr fun f _ => notedOf_shown hn _ f
  · unfold readRemark
    rw [fields_blanked _ (fun w h1 h2 => (hw w h1 _ h2).1 rfl) _ (by decide)]
    exact notes_facts _ _ _ h

/-! ### The record -/

/-- Lines one after the other. -/
def stacked : List Char → List (List Char) → List Char
  | c, [] => c
  | c, t :: ts => stacked (c ++ '\n' :: t) ts

theorem stacked_parts : ∀ (ts : List (List Char)) (c : List Char), '\n' ∉ c → (∀ t ∈ ts, '\n' ∉ t) → ∀ a : List Char, '\n' ∉ a →
    lines (stacked (a ++ '\n' :: c) ts) = a :: lines (stacked c ts)
  | [], c, hc, _, a, ha => by
    show parts '\n' (a ++ '\n' :: c) = a :: parts '\n' c
    rw [parts_eq, parts_eq, splitAt_cons _ _ _ ha]
  | t :: ts, c, hc, h, a, ha => by
    have gen : ∀ (ts : List (List Char)) (x y : List Char), stacked (x ++ y) ts = x ++ stacked y ts := by
      intro ts
      induction ts with
      | nil => intro x y; rfl
      | cons t ts ih => intro x y; rw [stacked, stacked, List.append_assoc, ih]
    show parts '\n' (stacked (a ++ '\n' :: c) (t :: ts)) = a :: parts '\n' (stacked c (t :: ts))
    rw [gen, ← List.singleton_append, gen, List.singleton_append, parts_eq, parts_eq, splitAt_cons _ _ _ ha]

theorem stacked_lines : ∀ (ts : List (List Char)) (c : List Char), '\n' ∉ c → (∀ t ∈ ts, '\n' ∉ t) → lines (stacked c ts) = c :: ts
  | [], c, hc, _ => by show parts '\n' c = _; rw [parts_eq, splitAt_none _ _ hc]
  | t :: ts, c, hc, h => by
    rw [stacked, stacked_parts ts t (h t (by simp)) (fun x hx => h x (List.mem_cons_of_mem _ hx)) c hc,
      stacked_lines ts t (h t (by simp)) fun x hx => h x (List.mem_cons_of_mem _ hx)]

/-- The comment made of some remarks. -/
def commentOf : List (List Char) → Option (List Char)
  | [] => none
  | t :: ts => some (stacked t ts)

theorem step_star {Z : Zobrist} (s : State) (hm : s.moves ≠ []) (t : List Char) : step Z s ("**".toList ++ t) =
    (if (s.comments ++ List.replicate (s.moves.length - s.comments.length - 1) none).length = s.moves.length then
      match (s.comments ++ List.replicate (s.moves.length - s.comments.length - 1) none).getLast? with
      | some (some c) => .ok ({ s with comments := (s.comments ++ List.replicate (s.moves.length - s.comments.length - 1) none).dropLast ++ [some (c ++ ('\n' :: t))] }, false)
      | _ => .error
    else .ok ({ s with comments := s.comments ++ List.replicate (s.moves.length - s.comments.length - 1) none ++ [some t] }, false)) := by
  show (commentLine s ('*' :: '*' :: t)).bind (fun s => .ok (s, false)) = _
  unfold commentLine
  rw [if_neg hm]
  dsimp only
  rw [if_pos (show ('*' :: '*' :: t).take 2 = ['*', '*'] from rfl)]
  show Out.bind (if _ then _ else _) _ = _
  split
  · obtain ⟨cs, hcs⟩ : ∃ cs, cs = (s.comments ++ List.replicate (s.moves.length - s.comments.length - 1) (none : Option (List Char))).getLast? := ⟨_, rfl⟩
    rw [← hcs]
    rcases cs with _ | _ | c <;> rfl
  · rfl

/-- Remarks after the first. -/
theorem run_more {Z : Zobrist} (rest : List (List Char)) : ∀ (ts : List (List Char)) (s : State) (cs : List (Option (List Char))) (c : List Char),
    s.moves ≠ [] → s.comments = cs ++ [some c] → s.comments.length = s.moves.length →
    run Z (ts.map ("**".toList ++ ·) ++ rest) s = run Z rest { s with comments := cs ++ [some (stacked c ts)] }
  | [], s, cs, c, hm, hc, hl => by
    show run Z rest s = _
    rw [show stacked c [] = c from rfl, ← hc]
  | t :: ts, s, cs, c, hm, hc, hl => by
    have e := step_star (Z := Z) s hm t
    have z : s.moves.length - s.comments.length - 1 = 0 := by omega
    rw [z, List.replicate_zero, List.append_nil, if_pos hl, hc, List.getLast?_concat, List.dropLast_concat] at e
    show run Z (("**".toList ++ t) :: (ts.map ("**".toList ++ ·) ++ rest)) s = _
    rw [run_cons e]
    have := run_more (Z := Z) rest ts { s with comments := cs ++ [some (c ++ '\n' :: t)] } cs (c ++ '\n' :: t) hm rfl (by
      show (cs ++ [some (c ++ '\n' :: t)]).length = s.moves.length
      rw [← hl, hc]; simp)
    rw [this]
    rfl

/-- All remarks on a move. -/
theorem run_remarks {Z : Zobrist} (ts : List (List Char)) (s : State) (hl : s.comments.length < s.moves.length) :
    ∃ C : List (Option (List Char)), (∀ rest, run Z (ts.map ("**".toList ++ ·) ++ rest) s = run Z rest { s with comments := C }) ∧ C.length ≤ s.moves.length ∧
      (∀ i, i + 1 < s.moves.length → C[i]?.getD none = s.comments[i]?.getD none) ∧ C[s.moves.length - 1]?.getD none = commentOf ts := by
  cases ts with
  | nil =>
    refine ⟨s.comments, fun _ => rfl, by omega, fun _ _ => rfl, ?_⟩
    rw [List.getElem?_eq_none (by omega)]
    rfl
  | cons t ts =>
    have hm : s.moves ≠ [] := by intro h; rw [h] at hl; cases hl
    have e := step_star (Z := Z) s hm t
    have len : (s.comments ++ List.replicate (s.moves.length - s.comments.length - 1) (none : Option (List Char))).length = s.moves.length - 1 := by
      rw [List.length_append, List.length_replicate]; omega
    rw [if_neg (by omega)] at e
    obtain ⟨cs, hcs⟩ : ∃ cs, cs = s.comments ++ List.replicate (s.moves.length - s.comments.length - 1) (none : Option (List Char)) := ⟨_, rfl⟩
    rw [← hcs] at e len
    refine ⟨cs ++ [some (stacked t ts)], fun rest => ?_, by rw [List.length_append, len, List.length_singleton]; omega, fun i hi => ?_, ?_⟩
    · show run Z (("**".toList ++ t) :: (ts.map ("**".toList ++ ·) ++ rest)) s = _
      rw [run_cons e, run_more rest ts { s with comments := cs ++ [some t] } cs t hm rfl (by
        show (cs ++ [some t]).length = s.moves.length
        rw [List.length_append, len, List.length_singleton]; omega)]
    · rw [List.getElem?_append_left (by omega), hcs]
      by_cases h : i < s.comments.length
      · rw [List.getElem?_append_left h]
      · rw [List.getElem?_append_right (by omega), List.getElem?_replicate, List.getElem?_eq_none (by omega : s.comments.length ≤ i)]
        split <;> rfl
    · rw [List.getElem?_append_right (by omega), len, Nat.sub_self]
      rfl

/-- What `info` makes of the lines, without the asterisks. -/
def textsOf (tenths : Nat → Nat) (num : Nat) (infos : List (List Char)) : List (List Char) :=
  infos.map fun i => ((infoRemark tenths num i).getD []).drop 2

/-- A line that `info` turns into one line. -/
def Speaks (tenths : Nat → Nat) (num : Nat) (i : List Char) : Prop :=
  ∃ t, infoRemark tenths num i = some ("**".toList ++ t) ∧ '\n' ∉ t ∧ '\r' ∉ t

theorem exportInfos_lines {tenths : Nat → Nat} {num : Nat} : ∀ {infos : List (List Char)}, (∀ i ∈ infos, Speaks tenths num i) →
    exportInfos tenths num infos = some (unlines ((textsOf tenths num infos).map ("**".toList ++ ·)))
  | [], _ => rfl
  | i :: is, h => by
    obtain ⟨t, ht, -⟩ := h i (by simp)
    rw [exportInfos, ht, exportInfos_lines fun x hx => h x (List.mem_cons_of_mem _ hx)]
    have e : textsOf tenths num (i :: is) = t :: textsOf tenths num is := by
      show ((infoRemark tenths num i).getD []).drop 2 :: _ = _
      rw [ht]; rfl
    rw [e]
    rfl

theorem texts_plain {tenths : Nat → Nat} {num : Nat} {infos : List (List Char)} (h : ∀ i ∈ infos, Speaks tenths num i) :
    ∀ t ∈ textsOf tenths num infos, '\n' ∉ t ∧ '\r' ∉ t := by
  intro t ht
  obtain ⟨i, hi, rfl⟩ := List.mem_map.mp ht
  obtain ⟨u, hu, h1, h2⟩ := h i hi
  rw [hu]
  exact ⟨h1, h2⟩

/-- All moves of a game with remarks. -/
theorem run_noted {Z : Zobrist} (tenths : Nat → Nat) (ms : List ((Move × Nat × Nat) × List (List Char))) : ∀ (n : Nat) (prev : Move) (s : State),
    Csa.Good Z s.board.pos → prev = peek s.board → Always LegalOp Z s.board (ms.map fun x => .push x.1.1) → s.comments.length ≤ s.moves.length →
    (∀ i (h : i < ms.length), ∀ t ∈ ms[i].2, Speaks tenths (n + i + 1) t) →
    ∃ ls b C, exportNoted tenths n prev ms = some (unlines ls) ∧ (∀ l ∈ ls, '\n' ∉ l ∧ '\r' ∉ l) ∧
      Board.run Z s.board (ms.map fun x => .push x.1.1) = some b ∧
      (∀ rest, run Z (ls ++ rest) s =
        run Z rest { s with moves := s.moves ++ ms.map (·.1.1), times := s.times ++ ms.map (·.1.2.1), board := b, comments := C }) ∧
      C.length ≤ s.moves.length + ms.length ∧ (∀ i < s.moves.length, C[i]?.getD none = s.comments[i]?.getD none) ∧
      ∀ i (h : i < ms.length), C[s.moves.length + i]?.getD none = commentOf (textsOf tenths (n + i + 1) ms[i].2) := by
  induction ms with
  | nil =>
    intro n prev s hg hprev ho hc hs
    refine ⟨[], s.board, s.comments, rfl, by simp, rfl, fun rest => ?_, by simpa using hc, fun _ _ => rfl, fun i h => absurd h (Nat.not_lt_zero _)⟩
    simp
  | cons x ms ih =>
    obtain ⟨⟨m, sec, sum⟩, infos⟩ := x
    intro n prev s hg hprev ho hc hs
    obtain ⟨⟨mv, rfl, hm⟩, hrest⟩ := ho
    obtain ⟨t, b', e1, e2, e3, e4, e5, e6⟩ := step_move hg hm hprev n sec sum
    have hs0 : ∀ i ∈ infos, Speaks tenths (n + 1) i := hs 0 (Nat.zero_lt_succ _)
    obtain ⟨s1, hs1⟩ : ∃ s1 : State, s1 = { s with moves := s.moves ++ [encode s.board.pos mv], times := s.times ++ [sec], board := b' } := ⟨_, rfl⟩
    have l1 : s1.moves.length = s.moves.length + 1 := by rw [hs1]; simp
    have c1 : s1.comments = s.comments := by rw [hs1]
    obtain ⟨C1, r1, r2, r3, r4⟩ : ∃ C1 : List (Option (List Char)), (∀ rest, run Z ((textsOf tenths (n + 1) infos).map ("**".toList ++ ·) ++ rest) s1 = run Z rest { s1 with comments := C1 }) ∧
        C1.length ≤ s1.moves.length ∧ (∀ i, i + 1 < s1.moves.length → C1[i]?.getD none = s1.comments[i]?.getD none) ∧
        C1[s1.moves.length - 1]?.getD none = commentOf (textsOf tenths (n + 1) infos) :=
      run_remarks _ s1 (by rw [l1, c1]; omega)
    obtain ⟨ls, b, C, i1, i2, i3, i4, i5, i6, i7⟩ := ih (n + 1) (encode s.board.pos mv) { s1 with comments := C1 }
      (by rw [hs1]; exact e3) (by rw [hs1]; exact (peek_push e2).symm) (by rw [hs1]; exact hrest b' e2) r2
      (fun i h t ht => by
        have := hs (i + 1) (Nat.succ_lt_succ h) t ht
        rwa [show n + (i + 1) + 1 = n + 1 + i + 1 by omega] at this)
    refine ⟨lineText n (t ++ padding (encode s.board.pos mv)) sec sum :: ((textsOf tenths (n + 1) infos).map ("**".toList ++ ·) ++ ls), b, C, ?_, ?_, ?_,
      fun rest => ?_, ?_, fun i hi => ?_, fun i hi => ?_⟩
    · rw [exportNoted, exportMove, e1]
      simp only [Option.map_some, Option.bind_some, i1, tableLine_eq, exportInfos_lines hs0]
      show some (_ ++ (unlines _ ++ unlines _)) = some (unlines ([_] ++ (_ ++ _)))
      rw [unlines_append, unlines_append]
      simp [unlines]
    · intro l hl
      rcases List.mem_cons.mp hl with rfl | hl
      · exact calm_line e5
      · rcases List.mem_append.mp hl with hl | hl
        · obtain ⟨u, hu, rfl⟩ := List.mem_map.mp hl
          have := texts_plain hs0 u hu
          refine ⟨fun h => ?_, fun h => ?_⟩
          · rcases List.mem_append.mp h with h | h
            · exact absurd h (by decide)
            · exact this.1 h
          · rcases List.mem_append.mp h with h | h
            · exact absurd h (by decide)
            · exact this.2 h
        · exact i2 l hl
    · show (s.board.push Z (encode s.board.pos mv)).bind _ = _
      rw [e2]
      have := i3
      rw [show ({ s1 with comments := C1 } : State).board = b' by rw [hs1]] at this
      exact this
    · rw [List.cons_append, run_cons (s' := s1) (by rw [e6, hs1]), List.append_assoc, r1, i4]
      rw [hs1]
      simp [List.append_assoc]
    · have : ({ s1 with comments := C1 } : State).moves.length = s.moves.length + 1 := l1
      rw [this] at i5
      rw [List.length_cons]; omega
    · have h1 := i6 i (by show i < s1.moves.length; omega)
      rw [h1]
      show C1[i]?.getD none = _
      rw [r3 i (by omega), c1]
    · cases i with
      | zero =>
        have h1 := i6 s.moves.length (by show s.moves.length < s1.moves.length; omega)
        rw [Nat.add_zero, h1]
        show C1[s.moves.length]?.getD none = _
        have : s1.moves.length - 1 = s.moves.length := by omega
        rw [← this, r4]
        rfl
      | succ i =>
        have h1 := i7 i (Nat.lt_of_succ_lt_succ hi)
        have : ({ s1 with comments := C1 } : State).moves.length + i = s.moves.length + (i + 1) := by
          show s1.moves.length + i = _
          omega
        rw [this] at h1
        rw [h1, show n + 1 + i + 1 = n + (i + 1) + 1 by omega]
        rfl

theorem exportNoted_lines {tenths : Nat → Nat} {time : List Char} {st : Start} {black white : List Char} {ms : List ((Move × Nat × Nat) × List (List Char))}
    {ls : List (List Char)} (h : exportNoted tenths 1 0#32 ms = some (unlines ls)) (r : Reason) (sec sum : Nat) :
    exportNotedGame tenths time st black white ms r sec sum = some (unlines (headerLines time st black white ++ (ls ++
      [lineText (ms.length + 1) r.text sec sum, resultLine (ms.length + 1) r]))) := by
  have e := exportGame_lines (time := time) (st := st) (black := black) (white := white) (ms := []) (ls := []) rfl r sec sum
  unfold exportNotedGame
  rw [h]
  show some (exportHeader time st black white ++ (unlines ls ++ exportEnd r (ms.length + 1) sec sum)) = _
  have e1 : exportEnd r (ms.length + 1) sec sum = unlines [lineText (ms.length + 1) r.text sec sum, resultLine (ms.length + 1) r] := by
    unfold exportEnd
    rw [tableLine_eq, resultLine_eq]
    simp [unlines]
  rw [e1, unlines_append, unlines_append]
  rfl

/-- What is read of a record with remarks, from every named start. -/
theorem noted_read (Z : Zobrist) (tenths : Nat → Nat) {n : String} {off : List Square} (hoff : (n, off) ∈ handicapSquares) {st : Start}
    (hst : st = .named n.toList ∨ st = .even ∧ n = "平手") :
    ∃ text p, setSfen Z text = .ok p ∧ absPos p = handicapPos off ∧ (off = [] → text = startSfen) ∧
      ∀ ms : List ((Move × Nat × Nat) × List (List Char)), Always LegalOp Z ⟨p, []⟩ (ms.map fun x => .push x.1.1) →
      (∀ i (h : i < ms.length), ∀ t ∈ ms[i].2, Speaks tenths (i + 2) t) →
      ∀ time black white, Field time → Field black → Field white → ∀ r sec sum,
      ∃ record s, exportNotedGame tenths time st black white ms r sec sum = some record ∧ parse Z record = .ok s ∧ s.sfen = text ∧
        s.moves = ms.map (·.1.1) ∧ s.times.take ms.length = ms.map (·.1.2.1) ∧ s.comments.length ≤ ms.length ∧
        ∀ i (h : i < ms.length), s.comments[i]?.getD none = commentOf (textsOf tenths (i + 2) ms[i].2) := by
  obtain ⟨x, hx, e1, e2, e6⟩ := off_name _ hoff
  obtain ⟨q, q1, q2, q3, q4⟩ := handicap_read Z (handicaps_ok x hx).1
  obtain ⟨p0, h0, -⟩ := handicap_read Z (x := ("平手".toList, startSfen)) (handicaps_ok _ (by decide +kernel)).1
  have hl : st.lines = ["手合割：".toList ++ x.1] := by
    rcases hst with rfl | ⟨rfl, hn⟩
    · rw [e1]; rfl
    · rw [e1]
      rw [hn]
      show ["手合割：平手".toList] = ["手合割：".toList ++ "平手".toList]
      decide
  refine ⟨x.2, q, q1, by rw [q2, e2], e6, fun ms ho hs time black white ht hb hw r sec sum => ?_⟩
  obtain ⟨ls, b, C, i1, i2, -, i4, i5, -, i7⟩ := run_noted tenths ms 1 0#32
    { names := fun c => if c = .white then some white else if c = .black then some black else none, sfen := x.2,
      info := [("開始日時".toList, rstrip time)], board := ⟨q, []⟩ } q4 rfl ho (Nat.le_refl _)
      (fun i h t ht => by rw [show 1 + i + 1 = i + 2 by omega]; exact hs i h t ht)
  obtain ⟨t, et⟩ : ∃ t : State, t =
    { names := fun c => if c = .white then some white else if c = .black then some black else none, sfen := x.2,
      info := [("開始日時".toList, rstrip time)], board := b, moves := ms.map (·.1.1),
      times := ms.map (·.1.2.1) ++ (if r = .win then [] else [sec]), comments := C,
      win := (readEnd (ms.length + 1) r).1, endgame := (readEnd (ms.length + 1) r).2 } := ⟨_, rfl⟩
  refine ⟨_, t, exportNoted_lines i1 r sec sum, ?_, by rw [et], by rw [et], ?_, ?_, ?_⟩
  · rw [parse_unlines h0, List.append_assoc, run_header hx q1 hl time hb hw, List.append_assoc, i4]
    · show run Z [_, _, []] _ = _
      rw [run_end _ rfl rfl, et]
      rfl
    · intro l hl'
      rcases List.mem_append.mp hl' with h | h
      · exact header_plain hx hl ht hb hw l h
      · rcases List.mem_append.mp h with h | h
        · exact i2 l h
        · simp only [List.mem_cons, List.not_mem_nil, or_false] at h
          rcases h with rfl | rfl
          · exact calm_line fun c hc => (reason_calm _ _ _ _ c hc).1
          · exact calm_line fun c hc => (resultLine_calm _ _ c hc).1
  · rw [et]
    exact List.take_left' (by simp)
  · rw [et]
    have h : C.length ≤ 0 + ms.length := i5
    rwa [Nat.zero_add] at h
  · intro i h
    have := i7 i h
    rw [show 1 + i + 1 = i + 2 by omega] at this
    rw [← this, et]
    show C[i]?.getD none = C[0 + i]?.getD none
    rw [Nat.zero_add]

/-- The side that makes the move with index `i` in a game that Black begins. -/
def mover (i : Nat) : Color := if i % 2 = 0 then .black else .white

theorem comment_ok {tenths : Nat → Nat} (hn : Nearest tenths) (i : Nat) (rs : List (List Fact × List (List Char)))
    (h : ∀ r ∈ rs, (∀ f ∈ r.1, FactOK tenths f) ∧ ∀ w ∈ r.2, Idle w) : Comment (mover i) rs (commentOf (textsOf tenths (i + 2) (rs.map said))) := by
  have hc : speaker (decide ((i + 2) % 2 = 0)) = mover i := by
    unfold speaker mover
    rw [Nat.add_mod_right]
    by_cases h : i % 2 = 0 <;> simp [h]
  have hsp : ∀ t ∈ rs.map said, Speaks tenths (i + 2) t := by
    intro t ht
    obtain ⟨r, hr, rfl⟩ := List.mem_map.mp ht
    obtain ⟨text, ls, h1, h2, h3, -⟩ := C99_remark_partial hn (i + 2) r (h r hr).1 (h r hr).2
    exact ⟨text, h1, h2, h3⟩
  have hall : List.Forall₂ (fun r l => ∃ ls, List.Forall₂ (Fact.Shown (mover i)) r.1 ls ∧ readRemark l = some ls.flatten) rs (textsOf tenths (i + 2) (rs.map said)) := by
    unfold textsOf
    rw [List.map_map, List.forall₂_map_right_iff]
    refine List.forall₂_same.mpr fun r hr => ?_
    obtain ⟨text, ls, h1, -, -, h4, h5⟩ := C99_remark_partial hn (i + 2) r (h r hr).1 (h r hr).2
    refine ⟨ls, hc ▸ h4, ?_⟩
    show readRemark (((infoRemark tenths (i + 2) (said r)).getD []).drop 2) = _
    rw [h1]
    exact h5
  have hpl := texts_plain hsp
  cases rs with
  | nil => rfl
  | cons r rs =>
    obtain ⟨t, ts, e⟩ : ∃ t ts, textsOf tenths (i + 2) ((r :: rs).map said) = t :: ts := ⟨_, _, rfl⟩
    rw [e] at hall hpl ⊢
    refine ⟨by simp, ?_⟩
    rw [stacked_lines ts t (hpl t (by simp)).1 fun x hx => (hpl x (List.mem_cons_of_mem _ hx)).1]
    exact hall

/-- **C99** (partial: see `FactOK` and `Idle`). A game of legal moves from the starting position, with what the engines said handed to `info`
after each move, is read back with its moves and times, and the comment of every move says what its engine said about it, counted for Black. -/
theorem C99_record_partial (Z : Zobrist) {tenths : Nat → Nat} (hn : Nearest tenths) :
    ∃ p, setSfen Z startSfen = .ok p ∧ absPos p = startPos ∧
      ∀ ms : List ((Move × Nat × Nat) × List (List Fact × List (List Char))), Always LegalOp Z ⟨p, []⟩ (ms.map fun x => .push x.1.1) →
      (∀ x ∈ ms, ∀ r ∈ x.2, (∀ f ∈ r.1, FactOK tenths f) ∧ ∀ w ∈ r.2, Idle w) →
      ∀ time black white, Field time → Field black → Field white → ∀ r sec sum,
      ∃ record s, exportNotedGame tenths time .even black white (ms.map fun x => (x.1, x.2.map said)) r sec sum = some record ∧
        parse Z record = .ok s ∧ s.moves = ms.map (·.1.1) ∧ s.times.take ms.length = ms.map (·.1.2.1) ∧ s.comments.length ≤ ms.length ∧
        ∀ i (h : i < ms.length), Comment (mover i) ms[i].2 (s.comments[i]?.getD none) := by
  have hoff : ("平手", ([] : List Square)) ∈ handicapSquares := by decide +kernel
  obtain ⟨text, p, h1, h2, ht, h3⟩ := noted_read Z tenths hoff (st := .even) (.inr ⟨rfl, rfl⟩)
  refine ⟨p, ht rfl ▸ h1, h2.trans (pos_ext (by funext s; simp [handicapPos, startPos]) rfl rfl), fun ms ho hs time black white hf1 hf2 hf3 r sec sum => ?_⟩
  obtain ⟨record, s, e1, e2, -, e3, e4, e5, e6⟩ := h3 (ms.map fun x => (x.1, x.2.map said)) (by rw [List.map_map]; exact ho)
    (fun i h t ht => by
      have h' : i < ms.length := by rwa [List.length_map] at h
      rw [List.getElem_map] at ht
      obtain ⟨r, hr, rfl⟩ := List.mem_map.mp ht
      have := hs _ (List.getElem_mem h') r hr
      obtain ⟨text, ls, h1, h2, h3, -⟩ := C99_remark_partial hn (i + 2) r this.1 this.2
      exact ⟨text, h1, h2, h3⟩) time black white hf1 hf2 hf3 r sec sum
  rw [List.length_map] at e4 e5
  rw [List.map_map] at e3 e4
  refine ⟨record, s, e1, e2, e3, e4, e5, fun i h => ?_⟩
  rw [e6 i (by rwa [List.length_map]), List.getElem_map]
  exact comment_ok hn i _ (hs _ (List.getElem_mem h))

/-! ### Where the record does not say what the engine said -/

/-- **C99 fails** for a mate without a sign: the engine that plays Black announces its mate with `score mate 12`, which the protocol allows,
and the remark tells of a mate for White, in as many plies as are left when the first digit is dropped. -/
theorem C99_fails_mate (tenths : Nat → Nat) (num : Nat) (hnum : num % 2 = 0) (n : Nat) :
    ∃ text, infoRemark tenths num (Usi.joined ["info".toList, "score".toList, "mate".toList, natChars n]) = some ("**".toList ++ text) ∧
      readRemark text = some [.mate false (decimal ((natChars n).drop 1))] ∧
      ∀ l, readRemark text = some l → ¬ Fact.Shown .black (.mate true n) l := by
  have hd : ∀ c ∈ (natChars n).drop 1, c ≠ ' ' := fun c hc e => by
    subst e
    exact absurd (natChars_isDigit _ (List.mem_of_mem_drop hc)) (by decide)
  have hr : readRemark ("対局 -詰".toList ++ (natChars n).drop 1) = some [.mate false (decimal ((natChars n).drop 1))] := by
    have e : fields ("対局 -詰".toList ++ (natChars n).drop 1) = ["対局".toList, "-詰".toList ++ (natChars n).drop 1] := by
      have := fields_blanked ["-詰".toList ++ (natChars n).drop 1] (fun w hw h => by
        rw [List.mem_singleton] at hw
        subst hw
        rcases List.mem_append.mp h with h | h
        · exact absurd h (by decide)
        · exact hd _ h rfl) "対局".toList (by decide)
      rw [← this]
      show _ = fields ("対局".toList ++ (' ' :: ("-詰".toList ++ (natChars n).drop 1) ++ []))
      rw [List.append_nil]
      rfl
    unfold readRemark
    rw [e]
    rfl
  refine ⟨_, ?_, hr, fun l hl => ?_⟩
  · unfold infoRemark
    rw [← Usi.fields_eq, Usi.fields_joined, List.drop_succ_cons, List.drop_zero, loop_mate, idle_all fun w hw => ?_, decide_eq_true hnum]
    · have e : matePart true (natChars n) = " -詰".toList ++ (natChars n).drop 1 := by
        unfold matePart
        rw [if_neg]
        · rfl
        · intro h
          have : '+' ∈ natChars n := List.mem_of_mem_take (h ▸ List.mem_singleton.mpr rfl)
          exact absurd (natChars_isDigit _ this) (by decide)
      rw [e]
      show some ("**対局".toList ++ ((" -詰".toList ++ _) ++ [])) = _
      rw [List.append_nil]
      rfl
    · rw [List.mem_singleton] at hw
      exact hw ▸ idle_nat n
    · intro v hv
      simp only [List.mem_cons, List.not_mem_nil, or_false] at hv
      rcases hv with rfl | rfl | rfl | rfl
      · decide
      · decide
      · decide
      · exact (idle_nat n).1
  · rw [hr] at hl
    obtain rfl := Option.some.inj hl
    intro h
    cases h

/-- **C99 fails** for a time just below a minute: it is written as sixty seconds, which is no time of a clock. -/
theorem C99_fails_time {tenths : Nat → Nat} (hn : Nearest tenths) (num ms : Nat) (h1 : 59950 < ms) (h2 : ms < 60000) :
    infoRemark tenths num (said ([.time ms], [])) = some "**対局 時間 00:60.0".toList ∧ readRemark "対局 時間 00:60.0".toList = none := by
  refine ⟨?_, by decide⟩
  have ht : tenths (ms % 60000) = 600 := by
    have := hn (ms % 60000)
    have e : ms % 60000 = ms := Nat.mod_eq_of_lt h2
    rw [e] at this ⊢
    omega
  unfold infoRemark said
  rw [← Usi.fields_eq, Usi.fields_joined, List.drop_succ_cons, List.drop_zero]
  · show (infoLoop tenths _ ["time".toList, natChars ms]).map _ = _
    rw [loop_time, idle_all fun w hw => by rw [List.mem_singleton] at hw; exact hw ▸ idle_nat ms]
    have e : timePart tenths (natChars ms) = some " 時間 00:60.0".toList := by
      unfold timePart
      have : Usi.pyInt (natChars ms) = some (.ofNat ms) := by
        have := Usi.pyInt_intChars (ms : Int)
        unfold intChars at this
        rw [if_neg (by omega)] at this
        exact this
      rw [this]
      simp only
      rw [ht, Nat.div_eq_of_lt h2]
      decide
    rw [e]
    rfl
  · intro v hv
    have hv : v ∈ ["info".toList, "time".toList, natChars ms] := hv
    simp only [List.mem_cons, List.not_mem_nil, or_false] at hv
    rcases hv with rfl | rfl | rfl
    · decide
    · decide
    · exact (idle_nat ms).1

/-- **C99 fails** for free text: a message with the word `time` in it, which is not followed by a number, makes `info` raise, and the record
ends there. -/
theorem C99_fails_string (tenths : Nat → Nat) (num : Nat) : infoRemark tenths num "info string time is short".toList = none := by
  unfold infoRemark
  have e : (splitAt ' ' "info string time is short".toList).drop 1 = ["string".toList, "time".toList, "is".toList, "short".toList] := by decide
  have e1 : timePart tenths "is".toList = none := by
    unfold timePart
    have : Usi.pyInt "is".toList = none := by decide
    rw [this]
  rw [e, idle_cons ⟨by decide, by decide⟩, loop_time, e1]
  rfl

/-- **C99 fails** for games with a handicap, in which White moves first: the value that White's engine gives for White is written down as the
value for Black. -/
theorem C99_fails_handicap (Z : Zobrist) {tenths : Nat → Nat} (hn : Nearest tenths) {n : String} {off : List Square} (hoff : (n, off) ∈ handicapSquares)
    (h0 : off ≠ []) (v : Int) (hv : v ≠ 0) :
    ∃ text p, setSfen Z text = .ok p ∧ absPos p = handicapPos off ∧ (absPos p).turn = .white ∧
      ∀ m sec sum, LegalOp ⟨p, []⟩ (.push m) → ∀ time black white, Field time → Field black → Field white → ∀ r sec' sum',
      ∃ record s c, exportNotedGame tenths time (.named n.toList) black white [((m, sec, sum), [said ([.cp v], [])])] r sec' sum' = some record ∧
        parse Z record = .ok s ∧ s.moves = [m] ∧ s.comments[0]?.getD none = some c ∧
        readRemark c = some [.value v] ∧ ¬ Comment .white [([.cp v], [])] (some c) := by
  obtain ⟨text, p, h1, h2, -, h3⟩ := noted_read Z tenths hoff (st := .named n.toList) (.inl rfl)
  refine ⟨text, p, h1, h2, by rw [h2]; exact if_neg h0, fun m sec sum hm time black white hf1 hf2 hf3 r sec' sum' => ?_⟩
  have ok : ∀ r ∈ [(([.cp v], []) : List Fact × List (List Char))], (∀ f ∈ r.1, FactOK tenths f) ∧ ∀ w ∈ r.2, Idle w := by
    intro r hr
    rw [List.mem_singleton] at hr
    subst hr
    refine ⟨fun f hf => ?_, fun w hw => absurd hw (by simp)⟩
    rw [List.mem_singleton] at hf
    subst hf
    trivial
  obtain ⟨record, s, e1, e2, -, e3, -, -, e6⟩ := h3 [((m, sec, sum), [said ([.cp v], [])])] ⟨hm, fun _ _ => trivial⟩
    (fun i h t ht => by
      obtain rfl : i = 0 := by simp at h; omega
      obtain rfl : t = said ([.cp v], []) := List.mem_singleton.mp ht
      obtain ⟨text, ls, h1, h2, h3, -⟩ := C99_remark_partial hn 2 ([.cp v], []) (ok _ (by simp)).1 (ok _ (by simp)).2
      exact ⟨text, h1, h2, h3⟩) time black white hf1 hf2 hf3 r sec' sum'
  have hc := comment_ok hn 0 _ ok
  obtain ⟨text, ls, g1, g2, -, g4, g5⟩ := C99_remark_partial hn 2 ([.cp v], []) (ok _ (by simp)).1 (ok _ (by simp)).2
  have et : textsOf tenths 2 [said ([.cp v], [])] = [text] := by
    unfold textsOf
    rw [List.map_singleton, g1]
    rfl
  have hl : ls.flatten = [.value v] := by
    cases g4 with
    | cons a b =>
      cases b
      have : _ = [Noted.value v] := a
      rw [this]
      rfl
  rw [hl] at g5
  refine ⟨record, s, text, e1, e2, e3, ?_, g5, ?_⟩
  · rw [e6 0 (by simp)]
    show commentOf (textsOf tenths 2 [said ([.cp v], [])]) = _
    rw [et]
    rfl
  · intro h
    obtain ⟨-, h⟩ := h
    have : lines text = [text] := stacked_lines [] text g2 (by simp)
    rw [this] at h
    cases h with
    | cons a b =>
      obtain ⟨ls, a1, a2⟩ := a
      rw [g5] at a2
      cases a1 with
      | cons c d =>
        cases d
        have : _ = [Noted.value (-v)] := c
        rw [this] at a2
        have := Option.some.inj a2
        have : v = -v := by simpa using this
        omega

/-- Rounding half up. -/
def halfUp (x : Nat) : Nat := (x + 50) / 100

/-- What two engines said after the first two moves of a game. -/
def chatty : List ((Move × Nat × Nat) × List (List Fact × List (List Char))) :=
  [((makeMove PT.Pawn 60 59, 75, 75), [([.depth 8, .other "seldepth".toList "12".toList, .cp 35, .nodes 4711, .time 1250], ["pv".toList, "7g7f".toList])]),
   ((makeMove PT.Pawn 20 21, 3, 3), [([.depth 6, .cp (-20)], []), ([.mate true 5, .time 61000], [])])]

/-- The game meets what the theorem asks for, and its record is as written here. -/
example : Nearest halfUp ∧ Always LegalOp zeroKeys ⟨startModel zeroKeys, []⟩ (chatty.map fun x => .push x.1.1) ∧
    (∀ x ∈ chatty, ∀ r ∈ x.2, (∀ f ∈ r.1, FactOK halfUp f) ∧ ∀ w ∈ r.2, Idle w) ∧
    exportNotedGame halfUp "2026/11/16 10:00:00".toList .even "A".toList "B".toList (chatty.map fun x => (x.1, x.2.map said)) .resign 5 80 = some
      ("開始日時：2026/11/16 10:00:00\n手合割：平手\n先手：A\n後手：B\n手数----指手---------消費時間--\n" ++
       "   1 ７六歩(77)        ( 1:15/00:01:15)\n**対局 深さ 8 評価値 35 ノード数 4711 時間 00:01.3\n" ++
       "   2 ３四歩(33)        ( 0:03/00:00:03)\n**対局 深さ 6 評価値 20\n**対局 -詰5 時間 01:01.0\n" ++
       "   3 投了              ( 0:05/00:01:20)\nまで2手で後手の勝ち\n").toList := by
  refine ⟨fun x => ?_, ?_, ?_, by decide +kernel⟩
  · unfold halfUp; omega
  · have hb : playB zeroKeys ⟨startModel zeroKeys, []⟩ (chatty.map fun x => .push x.1.1) = true := by decide +kernel
    obtain ⟨ops, hops⟩ : ∃ x, x = chatty.map fun x => Op.push x.1.1 := ⟨_, rfl⟩
    rw [← hops] at hb ⊢
    obtain ⟨h1, h2, h3⟩ := startModel_ok zeroKeys
    have hch := LChain.base (p0 := startModel zeroKeys) (startModel zeroKeys).st.continuousCheck h1 h2 h3.waiting
    rw [withCC_self] at hch
    exact (playB_legal h3 hch ops hb).mono fun _ _ h => h.1
  · intro x hx
    simp only [chatty, List.mem_cons, List.not_mem_nil, or_false] at hx
    rcases hx with rfl | rfl <;> simp [FactOK, Idle, keywords, halfUp]

end Verif.Kif
