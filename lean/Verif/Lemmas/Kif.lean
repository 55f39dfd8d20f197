import Verif.Model.Kif
import Verif.Props.MoveText
import Verif.Props.Csa

/-!
# Reading back what the KIF writer writes
-/

namespace Verif.Kif
open Spec Position

/-! ### Lists of characters -/

theorem dropWhile_append_all {f : Char → Bool} {l r : List Char} (h : ∀ c ∈ l, f c = true) (hr : ∀ c ∈ r.head?, f c = false) :
    (l ++ r).dropWhile f = r := by
  induction l with
  | nil => cases r with
    | nil => rfl
    | cons x r => simp [List.dropWhile_cons, hr x rfl]
  | cons x l ih =>
    rw [List.cons_append, List.dropWhile_cons, if_pos (h x (by simp))]
    exact ih fun c hc => h c (by simp [hc])

theorem takeWhile_append_all {f : Char → Bool} {l r : List Char} (h : ∀ c ∈ l, f c = true) (hr : ∀ c ∈ r.head?, f c = false) :
    (l ++ r).takeWhile f = l := by
  induction l with
  | nil => cases r with
    | nil => rfl
    | cons x r => simp [List.takeWhile_cons, hr x rfl]
  | cons x l ih =>
    rw [List.cons_append, List.takeWhile_cons, if_pos (h x (by simp)), ih fun c hc => h c (by simp [hc])]

theorem splitAt_cons (sep : Char) (l t : List Char) (h : sep ∉ l) : splitAt sep (l ++ sep :: t) = l :: splitAt sep t := by
  induction l with
  | nil => simp [splitAt]
  | cons c l ih =>
    simp only [List.mem_cons, not_or] at h
    rw [List.cons_append, splitAt, if_neg (Ne.symm h.1), ih h.2]

theorem splitAt_none (sep : Char) (l : List Char) (h : sep ∉ l) : splitAt sep l = [l] := by
  induction l with
  | nil => rfl
  | cons c l ih =>
    simp only [List.mem_cons, not_or] at h
    rw [splitAt, if_neg (Ne.symm h.1), ih h.2]

theorem splitAt_unlines (ls : List (List Char)) (t : List Char) (h : ∀ l ∈ ls, '\n' ∉ l) :
    splitAt '\n' (unlines ls ++ t) = ls ++ splitAt '\n' t := by
  induction ls with
  | nil => rfl
  | cons l ls ih =>
    have e : unlines (l :: ls) ++ t = l ++ '\n' :: (unlines ls ++ t) := by simp [unlines]
    rw [e, splitAt_cons _ _ _ (h l (by simp)), ih fun x hx => h x (by simp [hx])]
    rfl

theorem unlines_append (a b : List (List Char)) : unlines (a ++ b) = unlines a ++ unlines b := by simp [unlines]

theorem replace1_id {a b : Char} {l : List Char} (h : a ∉ l) : replace1 a b l = l := by
  unfold replace1
  conv_rhs => rw [← List.map_id l]
  refine List.map_congr_left fun c hc => if_neg ?_
  rintro rfl
  exact h hc

theorem replace2_id {a a' b : Char} : ∀ {l : List Char}, a ∉ l → replace2 a a' b l = l
  | [], _ => rfl
  | [_], _ => rfl
  | x :: y :: l, h => by
    have hx : ¬ (x = a ∧ y = a') := fun hh => h (by simp [hh.1])
    rw [replace2, if_neg hx, replace2_id (fun hh => h (List.mem_cons_of_mem _ hh))]

/-- Every '成' is followed by a bracket. -/
def ProOK : List Char → Prop
  | [] => True
  | [_] => True
  | x :: y :: l => (x = '成' → y = '(') ∧ ProOK (y :: l)

theorem ProOK.of_none : ∀ {l : List Char}, '成' ∉ l → ProOK l
  | [], _ => trivial
  | [_], _ => trivial
  | x :: y :: l, h => ⟨fun hx => absurd (by simp [hx]) h, ProOK.of_none fun hh => h (List.mem_cons_of_mem _ hh)⟩

theorem ProOK.append {l r : List Char} (h : '成' ∉ l) (hr : ProOK r) : ProOK (l ++ r) := by
  induction l with
  | nil => exact hr
  | cons x l ih =>
    simp only [List.mem_cons, not_or] at h
    cases hl : l ++ r with
    | nil => rw [List.cons_append, hl]; trivial
    | cons y t =>
      rw [List.cons_append, hl]
      refine ⟨fun hx => absurd hx.symm h.1, ?_⟩
      rw [← hl]
      exact ih h.2

theorem ProOK.replace {a' b : Char} (ha : a' ≠ '(') : ∀ {l : List Char}, ProOK l → replace2 '成' a' b l = l
  | [], _ => rfl
  | [_], _ => rfl
  | x :: y :: l, h => by
    have hx : ¬ (x = '成' ∧ y = a') := fun hh => ha (hh.2 ▸ h.1 hh.1)
    rw [replace2, if_neg hx, ProOK.replace ha h.2]

theorem normalise_id {l : List Char} (h1 : '王' ∉ l) (h2 : '竜' ∉ l) (h3 : ProOK l) : normalise l = l := by
  unfold normalise
  rw [replace1_id h1, replace1_id h2, h3.replace (by decide), h3.replace (by decide), h3.replace (by decide)]

theorem unixNewlines_id {l : List Char} (h : '\r' ∉ l) : unixNewlines l = l := by
  unfold unixNewlines
  rw [replace2_id h, replace1_id h]

/-! ### The characters of a line -/

/-- The characters that occur in the table of moves besides digits. -/
def kifChars : List Char := [' ', '(', ')', '/', ':', '打', '成', '同', '　'] ++ fileChars ++ rankChars ++ pieceChars

/-- A digit or one of those. -/
def Okc (c : Char) : Prop := c.isDigit = true ∨ c ∈ kifChars

theorem Okc.ne {c x : Char} (h : Okc c) (h1 : x.isDigit = false) (h2 : x ∉ kifChars) : c ≠ x := by
  rintro rfl
  rcases h with h | h
  · rw [h1] at h; cases h
  · exact h2 h

theorem natChars_noPro (n : Nat) {x : Char} (hx : x.isDigit = false) : x ∉ natChars n := by
  intro h
  rw [natChars_isDigit _ h] at hx; cases hx

theorem zpad_digit (w n : Nat) : ∀ c ∈ zpad w n, c.isDigit = true := by
  intro c hc
  unfold zpad at hc
  rcases List.mem_append.mp hc with h | h
  · rw [List.eq_of_mem_replicate h]; decide
  · exact natChars_isDigit c h

theorem foldl_zeros (k : Nat) (l : List Char) :
    (List.replicate k '0' ++ l).foldl (fun a c => a * 10 + digitVal c) 0 = l.foldl (fun a c => a * 10 + digitVal c) 0 := by
  induction k with
  | zero => rfl
  | succ k ih => rw [List.replicate_succ, List.cons_append, List.foldl_cons]; exact ih

theorem pyInt_natChars (n : Nat) : pyInt (natChars n) = some n := by
  unfold pyInt
  rw [if_neg (natChars_ne_nil n), readNat_natChars]

theorem pyInt_zpad (w n : Nat) : pyInt (zpad w n) = some n := by
  unfold pyInt
  have hne : zpad w n ≠ [] := by
    unfold zpad
    intro h
    exact natChars_ne_nil n (List.append_eq_nil_iff.mp h).2
  rw [if_neg hne]
  unfold readNat
  rw [takeWhile_all (zpad_digit w n)]
  unfold zpad
  rw [foldl_zeros, natChars_value]

theorem seconds_clock (sec : Nat) : seconds (natChars (sec / 60) ++ ':' :: zpad 2 (sec % 60)) = some sec := by
  unfold seconds
  rw [splitAt_cons _ _ _ (natChars_noPro _ (by decide)), splitAt_none]
  · simp only [List.foldl_cons, List.foldl_nil, Option.bind_some, pyInt_natChars, pyInt_zpad, Option.map_some]
    congr 1
    omega
  · intro h
    have := zpad_digit _ _ _ h
    revert this; decide

theorem isClock_digit {c : Char} (h : c.isDigit = true) : isClock c = true := by
  unfold isClock; rw [h]; simp

theorem readClock_clock (sec sum : Nat) : readClock (clock sec sum) = some (natChars (sec / 60) ++ ':' :: zpad 2 (sec % 60)) := by
  obtain ⟨a, ha⟩ : ∃ a, a = natChars (sec / 60) ++ ':' :: zpad 2 (sec % 60) := ⟨_, rfl⟩
  obtain ⟨b, hb⟩ : ∃ b, b = zpad 2 (sum / 3600) ++ (':' :: (zpad 2 (sum % 3600 / 60) ++ (':' :: zpad 2 (sum % 3600 % 60)))) := ⟨_, rfl⟩
  have hac : ∀ c ∈ a, isClock c = true := by
    intro c hc
    rw [ha] at hc
    rcases List.mem_append.mp hc with h | h
    · exact isClock_digit (natChars_isDigit c h)
    · rcases List.mem_cons.mp h with h | h
      · rw [h]; decide
      · exact isClock_digit (zpad_digit _ _ c h)
  have hbc : ∀ c ∈ b, isClock c = true := by
    intro c hc
    rw [hb] at hc
    simp only [List.mem_append, List.mem_cons] at hc
    rcases hc with h | h | h | h | h
    · exact isClock_digit (zpad_digit _ _ c h)
    · rw [h]; decide
    · exact isClock_digit (zpad_digit _ _ c h)
    · rw [h]; decide
    · exact isClock_digit (zpad_digit _ _ c h)
  have hane : a ≠ [] := by rw [ha]; simp
  have hbne : b ≠ [] := by rw [hb]; simp
  obtain ⟨d, l, hd, hn⟩ := natChars_head (sec / 60)
  have hhead : ∀ c ∈ (a ++ '/' :: (b ++ [')'])).head?, decide (c = ' ') = false := by
    intro c hc
    rw [ha, hn] at hc
    simp only [List.cons_append, List.head?_cons, Option.mem_def, Option.some.injEq] at hc
    have := digitCh_isDigit hd
    rw [hc] at this
    simp only [decide_eq_false_iff_not]
    rintro rfl
    revert this; decide
  have e : clock sec sum = '(' :: (List.replicate (2 - (natChars (sec / 60)).length) ' ' ++ (a ++ '/' :: (b ++ [')']))) := by
    rw [ha, hb]; simp [clock, rjust, List.append_assoc]
  rw [e]
  simp only [readClock, if_true]
  have e1 : (List.replicate (2 - (natChars (sec / 60)).length) ' ' ++ (a ++ '/' :: (b ++ [')']))).dropWhile (fun c => decide (c = ' ')) =
      a ++ '/' :: (b ++ [')']) :=
    dropWhile_append_all (fun c hc => by rw [List.eq_of_mem_replicate hc]; rfl) hhead
  simp only [e1]
  rw [dropWhile_append_all hac (by intro c hc; cases hc; decide), takeWhile_append_all hac (by intro c hc; cases hc; decide)]
  simp only []
  rw [takeWhile_append_all hbc (by intro c hc; cases hc; decide), dropWhile_append_all hbc (by intro c hc; cases hc; decide)]
  rw [if_pos ⟨hane, trivial, hbne, rfl⟩, ← ha]

theorem clock_okc (sec sum : Nat) : ∀ c ∈ clock sec sum, Okc c ∧ c ≠ '成' := by
  have hd : ∀ c : Char, c.isDigit = true → Okc c ∧ c ≠ '成' := by
    intro c hc
    refine ⟨Or.inl hc, ?_⟩
    rintro rfl; revert hc; decide
  intro c hc
  simp only [clock, rjust, List.mem_append, List.mem_cons, List.not_mem_nil, or_false] at hc
  rcases hc with h | (h | h) | h | h | h | h | h | h | h | h | h
  · subst h; exact ⟨Or.inr (by decide), by decide⟩
  · rw [List.eq_of_mem_replicate h]; exact ⟨Or.inr (by decide), by decide⟩
  · exact hd c (natChars_isDigit c h)
  · subst h; exact ⟨Or.inr (by decide), by decide⟩
  · exact hd c (zpad_digit _ _ c h)
  · subst h; exact ⟨Or.inr (by decide), by decide⟩
  · exact hd c (zpad_digit _ _ c h)
  · subst h; exact ⟨Or.inr (by decide), by decide⟩
  · exact hd c (zpad_digit _ _ c h)
  · subst h; exact ⟨Or.inr (by decide), by decide⟩
  · exact hd c (zpad_digit _ _ c h)
  · subst h; exact ⟨Or.inr (by decide), by decide⟩

/-- What stands in front of the text in the table. -/
def numberText (n : Nat) : List Char := rjust 4 (natChars n) ++ [' ']

/-- A line of the table without its newline. -/
def lineText (n : Nat) (text : List Char) (sec sum : Nat) : List Char := numberText n ++ (text ++ ("      ".toList ++ clock sec sum))

theorem tableLine_eq (n : Nat) (text : List Char) (sec sum : Nat) : tableLine n text sec sum = lineText n text sec sum ++ ['\n'] := by
  simp [tableLine, lineText, numberText, List.append_assoc]

theorem number_okc (n : Nat) : ∀ c ∈ numberText n, Okc c ∧ c ≠ '成' := by
  intro c hc
  simp only [numberText, rjust, List.mem_append, List.mem_cons, List.not_mem_nil, or_false] at hc
  rcases hc with (h | h) | h
  · rw [List.eq_of_mem_replicate h]; exact ⟨Or.inr (by decide), by decide⟩
  · refine ⟨Or.inl (natChars_isDigit c h), ?_⟩
    rintro rfl
    exact natChars_noPro n (by decide) h
  · subst h; exact ⟨Or.inr (by decide), by decide⟩

/-- `MOVE_RE` on a line of the table. -/
theorem moveRe_line (n : Nat) (t : List Char) (ht : ∀ c ∈ t.head?, isSpace c = false) :
    moveRe (numberText n ++ t) = (readBody t).map fun (b, r) => (b, readClock (r.dropWhile isSpace)) := by
  obtain ⟨d, l, hd, hn⟩ := natChars_head n
  have e : numberText n ++ t = List.replicate (4 - (natChars n).length) ' ' ++ (natChars n ++ ([' '] ++ t)) := by
    simp [numberText, rjust, List.append_assoc]
  have e1 : (numberText n ++ t).dropWhile (fun c => decide (c = ' ')) = natChars n ++ ([' '] ++ t) := by
    rw [e]
    refine dropWhile_append_all (fun c hc => by rw [List.eq_of_mem_replicate hc]; rfl) ?_
    intro c hc
    rw [hn] at hc
    simp only [List.cons_append, List.head?_cons, Option.mem_def, Option.some.injEq] at hc
    have := digitCh_isDigit hd
    rw [hc] at this
    simp only [decide_eq_false_iff_not]
    rintro rfl
    revert this; decide
  have h2 : ∀ c ∈ ([' '] ++ t).head?, Char.isDigit c = false := by intro c hc; cases hc; decide
  have h3 : ∀ c ∈ [' '], isSpace c = true := by intro c hc; rw [List.mem_singleton.mp hc]; decide
  unfold moveRe
  simp only [e1]
  rw [takeWhile_append_all natChars_isDigit h2, dropWhile_append_all natChars_isDigit h2, dropWhile_append_all h3 ht,
    takeWhile_append_all h3 ht, if_neg]
  rintro (h | h)
  · exact natChars_ne_nil n h
  · cases h

/-! ### The text of a move -/

/-- The text of what `readDest` reads. -/
def destChars : Option (Char × Char) → List Char
  | none => ['同', '　']
  | some (a, b) => [a, b]

/-- The text of what `readAct` reads. -/
def actChars : Act → List Char
  | .drop => ['打']
  | .board pro f r => (if pro then ['成'] else []) ++ ['(', f, r, ')']

/-- Characters of a destination. -/
def DestOK : Option (Char × Char) → Prop
  | none => True
  | some (a, b) => a ∈ fileChars ∧ b ∈ rankChars

/-- Digits of an origin. -/
def ActOK : Act → Prop
  | .drop => True
  | .board _ f r => f.isDigit = true ∧ r.isDigit = true

theorem noEnding {c : Char} (h : c ∈ '同' :: fileChars) (l : List Char) : firstWord endings (c :: l) = none := by
  have h' : c = '同' ∨ c = '１' ∨ c = '２' ∨ c = '３' ∨ c = '４' ∨ c = '５' ∨ c = '６' ∨ c = '７' ∨ c = '８' ∨ c = '９' := by
    simpa [fileChars] using h
  rcases h' with rfl | rfl | rfl | rfl | rfl | rfl | rfl | rfl | rfl | rfl <;> rfl

theorem readAct_chars {a : Act} (h : ActOK a) (l : List Char) : readAct (actChars a ++ l) = some (a, l) := by
  cases a with
  | drop => rfl
  | board pro f r =>
    obtain ⟨h1, h2⟩ := h
    have ho : ∀ p, readOrigin p ('(' :: f :: r :: ')' :: l) = some (.board p f r, l) := by
      intro p; simp [readOrigin, h1, h2]
    cases pro
    · show readAct ('(' :: f :: r :: ')' :: l) = _
      rw [readAct, if_neg (by decide), if_neg (by decide), ho]
    · show readAct ('成' :: '(' :: f :: r :: ')' :: l) = _
      rw [readAct, if_neg (by decide), if_pos rfl, ho]

theorem readBody_move {d : Option (Char × Char)} {c : Char} {a : Act} (hd : DestOK d) (hc : c ∈ pieceChars) (ha : ActOK a)
    (l : List Char) : readBody (destChars d ++ (c :: (actChars a ++ l))) = some (.move d c a, l) := by
  have hr : readDest (destChars d ++ (c :: (actChars a ++ l))) = some (d, c :: (actChars a ++ l)) := by
    cases d with
    | none => rfl
    | some x =>
      obtain ⟨x, y⟩ := x
      show readDest (x :: y :: _) = _
      rw [readDest, if_pos ⟨hd.1, List.mem_cons_of_mem _ hd.2⟩]
      rfl
  have he : firstWord endings (destChars d ++ (c :: (actChars a ++ l))) = none := by
    cases d with
    | none => exact noEnding (by simp) _
    | some x => exact noEnding (List.mem_cons_of_mem _ hd.1) _
  unfold readBody
  rw [he, hr]
  simp only [Option.bind_some]
  rw [if_pos hc, readAct_chars ha]
  rfl

theorem isSpace_file : ∀ c ∈ '同' :: fileChars, isSpace c = false := by decide

theorem dest_okc {d : Option (Char × Char)} (hd : DestOK d) : ∀ c ∈ destChars d, Okc c ∧ c ≠ '成' := by
  cases d with
  | none =>
    intro c hc
    rcases List.mem_cons.mp hc with rfl | hc
    · exact ⟨Or.inr (by decide), by decide⟩
    · rw [List.mem_singleton.mp hc]; exact ⟨Or.inr (by decide), by decide⟩
  | some x =>
    obtain ⟨x, y⟩ := x
    have h1 : ∀ c ∈ fileChars ++ rankChars, c ∈ kifChars ∧ c ≠ '成' := by decide
    intro c hc
    have : c ∈ fileChars ++ rankChars := by
      rcases List.mem_cons.mp hc with rfl | hc
      · exact List.mem_append_left _ hd.1
      · rw [List.mem_singleton.mp hc]; exact List.mem_append_right _ hd.2
    exact ⟨Or.inr (h1 c this).1, (h1 c this).2⟩

theorem act_okc {a : Act} (ha : ActOK a) : ∀ c ∈ actChars a, Okc c := by
  intro c hc
  cases a with
  | drop => rw [List.mem_singleton.mp hc]; exact Or.inr (by decide)
  | board pro f r =>
    have h1 : c = '成' ∨ c = '(' ∨ c = f ∨ c = r ∨ c = ')' := by
      cases pro <;> simp [actChars] at hc <;> tauto
    rcases h1 with rfl | rfl | rfl | rfl | rfl
    · exact Or.inr (by decide)
    · exact Or.inr (by decide)
    · exact Or.inl ha.1
    · exact Or.inl ha.2
    · exact Or.inr (by decide)

theorem ProOK.act {a : Act} (ha : ActOK a) {l : List Char} (hl : '成' ∉ l) : ProOK (actChars a ++ l) := by
  have hdig : ∀ c : Char, c.isDigit = true → c ≠ '成' := by rintro c hc rfl; revert hc; decide
  cases a with
  | drop => exact ProOK.append (by decide) (ProOK.of_none hl)
  | board pro f r =>
    have h : ProOK ('(' :: f :: r :: ')' :: l) := by
      refine ProOK.of_none ?_
      simp only [List.mem_cons, not_or]
      exact ⟨by decide, (hdig f ha.1).symm, (hdig r ha.2).symm, by decide, hl⟩
    cases pro
    · exact h
    · exact ⟨fun _ => rfl, h⟩

/-- The text of a move, read: `d`, `c` and `a` are what the pattern finds, `pad` is the padding. -/
theorem moveRe_move (n : Nat) {d : Option (Char × Char)} {c : Char} {a : Act} (hd : DestOK d) (hc : c ∈ pieceChars) (ha : ActOK a)
    {pad : List Char} (hp : ∀ x ∈ pad, x = ' ') (sec sum : Nat) :
    let line := lineText n (destChars d ++ (c :: actChars a) ++ pad) sec sum
    moveRe (normalise line) = some (.move d c a, some (natChars (sec / 60) ++ ':' :: zpad 2 (sec % 60))) ∧
      ∀ x ∈ line, Okc x := by
  intro line
  have hpc : ∀ x ∈ pieceChars, x ∈ kifChars ∧ x ≠ '成' := by decide
  have e : line = numberText n ++ (destChars d ++ (c :: (actChars a ++ (pad ++ ("      ".toList ++ clock sec sum))))) := by
    show lineText _ _ _ _ = _
    simp [lineText, List.append_assoc]
  have hsp : ∀ x ∈ "      ".toList, x = ' ' := by decide
  have hok : ∀ x ∈ line, Okc x := by
    intro x hx
    rw [e] at hx
    simp only [List.mem_append, List.mem_cons] at hx
    rcases hx with h | h | h | h | h | h | h
    · exact (number_okc n x h).1
    · exact (dest_okc hd x h).1
    · subst h; exact Or.inr (hpc x hc).1
    · exact act_okc ha x h
    · rw [hp x h]; exact Or.inr (by decide)
    · rw [hsp x h]; exact Or.inr (by decide)
    · exact (clock_okc sec sum x h).1
  refine ⟨?_, hok⟩
  have hpro : ProOK line := by
    rw [e]
    refine ProOK.append (fun h => (number_okc n _ h).2 rfl) (ProOK.append (fun h => (dest_okc hd _ h).2 rfl) ?_)
    refine ProOK.append (l := [c]) ?_ (ProOK.act ha ?_)
    · rw [List.mem_singleton]; exact (hpc c hc).2.symm
    · intro h
      rcases List.mem_append.mp h with h | h
      · have := hp _ h; revert this; decide
      · rcases List.mem_append.mp h with h | h
        · have := hsp _ h; revert this; decide
        · exact (clock_okc sec sum _ h).2 rfl
  rw [normalise_id (fun h => (hok _ h).ne (by decide) (by decide) rfl) (fun h => (hok _ h).ne (by decide) (by decide) rfl) hpro, e,
    moveRe_line n _ (by
      intro x hx
      refine isSpace_file x ?_
      cases d with
      | none => cases hx; simp
      | some y => cases hx; exact List.mem_cons_of_mem _ hd.1),
    readBody_move hd hc ha]
  simp only [Option.map_some]
  rw [← List.append_assoc, dropWhile_append_all, readClock_clock]
  · intro x hx
    rcases List.mem_append.mp hx with h | h
    · rw [hp x h]; decide
    · rw [hsp x h]; decide
  · intro x hx
    cases hx; decide

end Verif.Kif
