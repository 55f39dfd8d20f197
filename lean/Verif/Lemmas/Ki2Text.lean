import Verif.Lemmas.Ki2

/-!
# Lemmas about KI2 texts: what the parser sees in the text of a move
-/

namespace Verif.Ki2
open Position Kif Spec

theorem replace2_append {a a' b : Char} : ∀ {l : List Char}, a ∉ l → ∀ r, replace2 a a' b (l ++ r) = l ++ replace2 a a' b r
  | [], _, r => rfl
  | [x], h, r => by
    have hx : x ≠ a := fun e => h (by simp [e])
    cases r with
    | nil => rfl
    | cons y r => rw [List.singleton_append, replace2, if_neg (fun e => hx e.1)]; rfl
  | x :: y :: l, h, r => by
    have hx : x ≠ a := fun e => h (by simp [e])
    rw [List.cons_append, List.cons_append, replace2, if_neg (fun e => hx e.1), ← List.cons_append,
      replace2_append (fun hh => h (List.mem_cons_of_mem _ hh))]
    rfl

theorem normalise_append {l : List Char} (h1 : '王' ∉ l) (h2 : '竜' ∉ l) (h3 : '成' ∉ l) (r : List Char) :
    normalise (l ++ r) = l ++ normalise r := by
  have e1 : replace1 '王' '玉' (l ++ r) = l ++ replace1 '王' '玉' r := by
    have := replace1_id (b := '玉') h1
    unfold replace1 at *
    rw [List.map_append, this]
  have e2 : ∀ r, replace1 '竜' '龍' (l ++ r) = l ++ replace1 '竜' '龍' r := by
    intro r
    have := replace1_id (b := '龍') h2
    unfold replace1 at *
    rw [List.map_append, this]
  unfold normalise
  rw [e1, e2, replace2_append h3, replace2_append h3, replace2_append h3]

/-- The text of group 8. -/
def Tail.chars : Tail → List Char
  | .none => [] | .drop => ['打'] | .pro => ['成'] | .noPro => ['不', '成']

/-- No word or one word about the origin. -/
def words : List (List Char) := [[], ['左'], ['直'], ['右'], ['上'], ['寄'], ['引']]
/-- Groups 6 and 7 for such words. -/
def relWord (q : List Char) : Option Char := q.head?.filter (· ∈ ['左', '直', '右'])
/-- Groups 6 and 7 for such words. -/
def dirWord (q : List Char) : Option Char := q.head?.filter (· ∈ ['上', '寄', '引'])

theorem names_ok (k : Kind) : ∃ n c, pieceName k.code = some n ∧ c ∈ pieceChars ∧ indexOf pieceChars c = some (k.code - 1) ∧ n.head? ≠ some '　' ∧ n ≠ [] ∧
    ∀ q ∈ words, ∀ tl ∈ [Tail.none, .pro, .noPro], normalise (n ++ (q ++ tl.chars)) = c :: (q ++ tl.chars) := by
  cases k
  · exact ⟨['歩'], '歩', by decide, by decide, by decide, by decide, by decide, by decide⟩
  · exact ⟨['香'], '香', by decide, by decide, by decide, by decide, by decide, by decide⟩
  · exact ⟨['桂'], '桂', by decide, by decide, by decide, by decide, by decide, by decide⟩
  · exact ⟨['銀'], '銀', by decide, by decide, by decide, by decide, by decide, by decide⟩
  · exact ⟨['角'], '角', by decide, by decide, by decide, by decide, by decide, by decide⟩
  · exact ⟨['飛'], '飛', by decide, by decide, by decide, by decide, by decide, by decide⟩
  · exact ⟨['金'], '金', by decide, by decide, by decide, by decide, by decide, by decide⟩
  · exact ⟨['玉'], '玉', by decide, by decide, by decide, by decide, by decide, by decide⟩
  · exact ⟨['と'], 'と', by decide, by decide, by decide, by decide, by decide, by decide⟩
  · exact ⟨['成', '香'], '杏', by decide, by decide, by decide, by decide, by decide, by decide⟩
  · exact ⟨['成', '桂'], '圭', by decide, by decide, by decide, by decide, by decide, by decide⟩
  · exact ⟨['成', '銀'], '全', by decide, by decide, by decide, by decide, by decide, by decide⟩
  · exact ⟨['馬'], '馬', by decide, by decide, by decide, by decide, by decide, by decide⟩
  · exact ⟨['龍'], '龍', by decide, by decide, by decide, by decide, by decide, by decide⟩

theorem handNames_ok (h : HKind) : ∃ c, handChars[h.code]? = some c ∧ c ∈ pieceChars ∧ indexOf pieceChars c = some (h.kind.code - 1) ∧ c ≠ '　' ∧
    ∀ tl ∈ [Tail.none, .drop], normalise (c :: tl.chars) = c :: tl.chars := by
  cases h
  · exact ⟨'歩', by decide, by decide, by decide, by decide, by decide⟩
  · exact ⟨'香', by decide, by decide, by decide, by decide, by decide⟩
  · exact ⟨'桂', by decide, by decide, by decide, by decide, by decide⟩
  · exact ⟨'銀', by decide, by decide, by decide, by decide, by decide⟩
  · exact ⟨'金', by decide, by decide, by decide, by decide, by decide⟩
  · exact ⟨'角', by decide, by decide, by decide, by decide, by decide⟩
  · exact ⟨'飛', by decide, by decide, by decide, by decide, by decide⟩

/-- The destination as it is written and what it is read as. -/
theorem destText_spec (b : Board) (m : Move) (t : Square) (ht : m.dst = t.val) : ∃ d x, destText b m = some d ∧ destSquare b x = some t.val ∧
    ((d = ['同'] ∧ x = none) ∨ (d = [fileCh t, rankCh t] ∧ x = some (fileCh t, rankCh t))) := by
  obtain ⟨h1, h2, h3, h4⟩ := squareName_spec t
  unfold destText
  rw [ht, h1, Option.map_some]
  by_cases hs : peek b ≠ 0#32 ∧ (peek b).dst = t.val
  · refine ⟨_, none, rfl, ?_, Or.inl ⟨by rw [if_pos hs], rfl⟩⟩
    rw [destSquare, hs.2]
  · exact ⟨_, some (fileCh t, rankCh t), rfl, h4, Or.inr ⟨by rw [if_neg hs], rfl⟩⟩

theorem fileCh_plain : ∀ t : Square, fileCh t ≠ '同' ∧ (∀ x ∈ [fileCh t, rankCh t, '▲', '△', '同', '　'], x ≠ '王' ∧ x ≠ '竜' ∧ x ≠ '成' ∧ x ≠ '：' ∧ x ≠ '\n' ∧ x ≠ '\r') := by
  decide +kernel

theorem moveRe_words {x : Option (Char × Char)} {c : Char} (hc : c ∈ pieceChars) : ∀ q ∈ words, ∀ tl : Tail, ∀ a, a = '▲' ∨ a = '△' →
    ∀ d, readDest (d ++ (c :: (q ++ tl.chars))) = some (x, c :: (q ++ tl.chars)) →
    moveRe (a :: (d ++ (c :: (q ++ tl.chars)))) = some (⟨x, c, relWord q, dirWord q, tl⟩, []) := by
  intro q hq tl a ha d hd
  have key : ∀ q ∈ words, ∀ tl ∈ [Tail.none, .drop, .pro, .noPro],
      (readOpt ['左', '直', '右'] (q ++ tl.chars)).1 = relWord q ∧
      (readOpt ['上', '寄', '引'] (readOpt ['左', '直', '右'] (q ++ tl.chars)).2).1 = dirWord q ∧
      readTail (readOpt ['上', '寄', '引'] (readOpt ['左', '直', '右'] (q ++ tl.chars)).2).2 = (tl, []) := by decide
  obtain ⟨k1, k2, k3⟩ := key q hq tl (by cases tl <;> simp)
  unfold moveRe
  dsimp only
  rw [if_pos ha, hd]
  simp only [Option.bind_some, if_pos hc, k1, k2, k3, List.dropWhile_nil]

/-- The text of a move with words `q` and ending `tl`: how it is written and what the pattern finds. -/
theorem text_read {d n : List Char} {x : Option (Char × Char)} {c : Char} {t : Square}
    (hd : (d = ['同'] ∧ x = none) ∨ (d = [fileCh t, rankCh t] ∧ x = some (fileCh t, rankCh t)))
    (hn : n.head? ≠ some '　') (hne : n ≠ []) (hc : c ∈ pieceChars) {q : List Char} (hq : q ∈ words) {tl : Tail}
    (hnorm : normalise (n ++ (q ++ tl.chars)) = c :: (q ++ tl.chars)) (turn : Color) :
    moveRe (normalise (turnChar turn :: spaced (d ++ (n ++ (q ++ tl.chars))))) = some (⟨x, c, relWord q, dirWord q, tl⟩, []) ∧
    ∀ y ∈ turnChar turn :: spaced (d ++ (n ++ (q ++ tl.chars))), y ∈ [fileCh t, rankCh t, '▲', '△', '同', '　'] ++ (n ++ (q ++ tl.chars)) := by
  obtain ⟨hf, hpl⟩ := fileCh_plain t
  have hcs : c ≠ '　' := by rintro rfl; revert hc; decide
  obtain ⟨n0, n1, rfl⟩ := List.exists_cons_of_ne_nil hne
  have hn0 : n0 ≠ '　' := fun e => hn (by rw [e]; rfl)
  have hturn : turnChar turn = '▲' ∨ turnChar turn = '△' := by cases turn <;> decide
  -- the text but for normalisation
  obtain ⟨d', hd', hr⟩ : ∃ d', spaced (d ++ (n0 :: n1 ++ (q ++ tl.chars))) = d' ++ (n0 :: n1 ++ (q ++ tl.chars)) ∧
      (d' = ['同'] ∧ x = none ∨ d' = ['同', '　'] ∧ x = none ∨ d' = [fileCh t, rankCh t] ∧ x = some (fileCh t, rankCh t)) := by
    obtain ⟨r, hr⟩ : ∃ r, r = n1 ++ (q ++ tl.chars) := ⟨_, rfl⟩
    rw [List.cons_append, ← hr]
    rcases hd with ⟨rfl, rfl⟩ | ⟨rfl, rfl⟩
    · cases r with
      | nil => exact ⟨['同', '　'], rfl, Or.inr (Or.inl ⟨rfl, rfl⟩)⟩
      | cons y r => exact ⟨['同'], rfl, Or.inl ⟨rfl, rfl⟩⟩
    · exact ⟨[fileCh t, rankCh t], rfl, Or.inr (Or.inr ⟨rfl, rfl⟩)⟩
  rw [hd']
  have hmem : ∀ y ∈ turnChar turn :: d', y ∈ [fileCh t, rankCh t, '▲', '△', '同', '　'] := by
    intro y hy
    rcases List.mem_cons.mp hy with rfl | hy
    · rcases hturn with e | e <;> rw [e] <;> simp
    · rcases hr with ⟨rfl, -⟩ | ⟨rfl, -⟩ | ⟨rfl, -⟩
      · simp only [List.mem_singleton] at hy; subst hy; simp
      · simp only [List.mem_cons, List.not_mem_nil, or_false] at hy; rcases hy with rfl | rfl <;> simp
      · simp only [List.mem_cons, List.not_mem_nil, or_false] at hy; rcases hy with rfl | rfl <;> simp
  constructor
  · rw [← List.cons_append, normalise_append (fun h => (hpl _ (hmem _ h)).1 rfl) (fun h => (hpl _ (hmem _ h)).2.1 rfl)
      (fun h => (hpl _ (hmem _ h)).2.2.1 rfl), hnorm, List.cons_append]
    refine moveRe_words hc q hq tl _ hturn d' ?_
    rcases hr with ⟨rfl, rfl⟩ | ⟨rfl, rfl⟩ | ⟨rfl, rfl⟩
    · simp [readDest, hcs]
    · simp [readDest]
    · obtain ⟨-, h2, h3, -⟩ := squareName_spec t
      simp [readDest, hf, h2, h3]
  · intro y hy
    rw [← List.cons_append] at hy
    rcases List.mem_append.mp hy with h | h
    · exact List.mem_append_left _ (hmem y h)
    · exact List.mem_append_right _ h

/-! ### Choosing among the candidates -/

theorem greatest_eq {l : List Nat} {x : Nat} (hx : x ∈ l) (h : ∀ y ∈ l, y ≤ x) : greatest l = x := by
  have key : ∀ (l : List Nat) (a : Nat), a ≤ x → (∀ y ∈ l, y ≤ x) → (x ∈ l ∨ a = x) →
      l.foldl (fun a x => if x > a then x else a) a = x := by
    intro l
    induction l with
    | nil => intro a _ _ h; rcases h with h | h
             · cases h
             · exact h
    | cons y l ih =>
      intro a ha hl hx
      rw [List.foldl_cons]
      have hy := hl y (by simp)
      apply ih
      · split <;> omega
      · exact fun z hz => hl z (List.mem_cons_of_mem _ hz)
      · rcases hx with hx | hx
        · rcases List.mem_cons.mp hx with e | hx
          · right; subst e; split <;> omega
          · exact Or.inl hx
        · right; split <;> omega
  exact key l 0 (by omega) h (Or.inl hx)

theorem least_eq {l : List Nat} {x : Nat} (h9 : x ≤ 9) (hx : x ∈ l) (h : ∀ y ∈ l, x ≤ y) : least l = x := by
  have key : ∀ (l : List Nat) (a : Nat), x ≤ a → (∀ y ∈ l, x ≤ y) → (x ∈ l ∨ a = x) →
      l.foldl (fun a x => if x < a then x else a) a = x := by
    intro l
    induction l with
    | nil => intro a _ _ h; rcases h with h | h
             · cases h
             · exact h
    | cons y l ih =>
      intro a ha hl hx
      rw [List.foldl_cons]
      have hy := hl y (by simp)
      apply ih
      · split <;> omega
      · exact fun z hz => hl z (List.mem_cons_of_mem _ hz)
      · rcases hx with hx | hx
        · rcases List.mem_cons.mp hx with e | hx
          · right; subst e; split <;> omega
          · exact Or.inl hx
        · right; split <;> omega
  exact key l 9 h9 h (Or.inl hx)

theorem eq_singleton {α : Type} {l : List α} {m : α} (hn : l.Nodup) (hm : m ∈ l) (h : ∀ x ∈ l, x = m) : l = [m] := by
  match l, hn, hm, h with
  | [x], _, _, h => rw [h x (by simp)]
  | x :: y :: l, hn, _, h =>
    exfalso
    have := h x (by simp)
    have := h y (by simp)
    subst this
    simp_all

theorem pick_board {l : List Move} {m : Move} (hn : l.Nodup) (hm : m ∈ l) (hd : m.isDrop = false) (h : ∀ x ∈ l, x.isDrop = false → x = m) :
    pick l = some m := by
  unfold pick
  have e : (l.filter fun m => !m.isDrop) = [m] :=
    eq_singleton (hn.filter _) (List.mem_filter.mpr ⟨hm, by simp [hd]⟩) fun x hx => by
      obtain ⟨h1, h2⟩ := List.mem_filter.mp hx
      exact h x h1 (by simpa using h2)
  rw [e]
  split
  · rfl
  · rename_i hlt
    match l, hm, hlt with
    | [x], hm, _ => rw [List.mem_singleton.mp hm]; rfl
    | x :: y :: l, _, hlt => simp at hlt

theorem byTail_sub (tl : Tail) (l : List Move) : (byTail tl l).Sublist l := by
  cases tl
  · exact List.Sublist.refl _
  all_goals exact List.filter_sublist
theorem byRel_sub (turn : Color) (all : List Move) (r : Option Char) (l : List Move) : (byRel turn all r l).Sublist l := by
  unfold byRel; dsimp only; split_ifs <;> first | exact List.filter_sublist | exact List.Sublist.refl _
theorem byDir_sub (turn : Color) (all : List Move) (r : Option Char) (l : List Move) : (byDir turn all r l).Sublist l := by
  unfold byDir; dsimp only; split_ifs <;> first | exact List.filter_sublist | exact List.Sublist.refl _

/-- A word that tells two origins apart leaves only the move meant: `s` its origin, `u` the only other one. -/
theorem filter_word {turn : Color} {all : List Move} {m : Move} {s u t : Square} {w : Char} (hw : Tells (seen turn s.val) (seen turn u.val) (seen turn t.val) w)
    (hm : m ∈ all) (hs : m.src = s.val) (hall : ∀ x ∈ all, (x.src = s.val ∨ x.src = u.val) ∧ x.dst = t.val) :
    [w] ∈ words ∧ m ∈ byDir turn all (dirWord [w]) (byRel turn all (relWord [w]) all) ∧
      ∀ x ∈ byDir turn all (dirWord [w]) (byRel turn all (relWord [w]) all), x.src = s.val := by
  have ht := (hall m hm).2
  have hfm : fileOf m = s.val / 9 := by rw [fileOf, hs]
  have hrm : rankOf m = s.val % 9 := by rw [rankOf, hs]
  have hf : ∀ x ∈ all, fileOf x = s.val / 9 ∨ fileOf x = u.val / 9 := fun x hx => by
    rcases (hall x hx).1 with h | h <;> rw [fileOf, h] <;> simp
  have hr : ∀ x ∈ all, rankOf x = s.val % 9 ∨ rankOf x = u.val % 9 := fun x hx => by
    rcases (hall x hx).1 with h | h <;> rw [rankOf, h] <;> simp
  have fs := seen_file turn s
  have fu := seen_file turn u
  have ft := seen_file turn t
  have rs := seen_rank turn s
  have ru := seen_rank turn u
  have rt := seen_rank turn t
  unfold X at fs fu ft
  unfold Y at rs ru rt
  have sl := s.isLt
  -- one filter
  have one : ∀ f : Move → Nat, ∀ v, f m = v → (∀ x ∈ all, x.src = u.val → x.src ≠ s.val → f x ≠ v) →
      m ∈ all.filter (fun x => f x = v) ∧ ∀ x ∈ all.filter (fun x => f x = v), x.src = s.val := by
    intro f v hv hne
    refine ⟨List.mem_filter.mpr ⟨hm, by simpa using hv⟩, fun x hx => ?_⟩
    obtain ⟨h1, h2⟩ := List.mem_filter.mp hx
    rcases (hall x h1).1 with h | h
    · exact h
    · by_contra hn
      exact hne x h1 h hn (by simpa using h2)
  have hiF : u.val / 9 < s.val / 9 → greatest (all.map fileOf) = s.val / 9 := fun h =>
    greatest_eq (List.mem_map.mpr ⟨m, hm, hfm⟩) fun y hy => by
      obtain ⟨x, hx, rfl⟩ := List.mem_map.mp hy
      rcases hf x hx with e | e <;> omega
  have loF : s.val / 9 < u.val / 9 → least (all.map fileOf) = s.val / 9 := fun h =>
    least_eq (by omega) (List.mem_map.mpr ⟨m, hm, hfm⟩) fun y hy => by
      obtain ⟨x, hx, rfl⟩ := List.mem_map.mp hy
      rcases hf x hx with e | e <;> omega
  have hiR : u.val % 9 < s.val % 9 → greatest (all.map rankOf) = s.val % 9 := fun h =>
    greatest_eq (List.mem_map.mpr ⟨m, hm, hrm⟩) fun y hy => by
      obtain ⟨x, hx, rfl⟩ := List.mem_map.mp hy
      rcases hr x hx with e | e <;> omega
  have loR : s.val % 9 < u.val % 9 → least (all.map rankOf) = s.val % 9 := fun h =>
    least_eq (by omega) (List.mem_map.mpr ⟨m, hm, hrm⟩) fun y hy => by
      obtain ⟨x, hx, rfl⟩ := List.mem_map.mp hy
      rcases hr x hx with e | e <;> omega
  have notF : u.val / 9 ≠ s.val / 9 → ∀ x ∈ all, x.src = u.val → x.src ≠ s.val → fileOf x ≠ s.val / 9 := fun h x _ hx _ => by
    rw [fileOf, hx]; exact h
  have notR : u.val % 9 ≠ s.val % 9 → ∀ x ∈ all, x.src = u.val → x.src ≠ s.val → rankOf x ≠ s.val % 9 := fun h x _ hx _ => by
    rw [rankOf, hx]; exact h
  have dstF : (all.filter fun x => x.dst / 9 = fileOf x) = all.filter fun x => fileOf x = t.val / 9 :=
    List.filter_congr fun x hx => by rw [(hall x hx).2]; simp only [decide_eq_decide]; omega
  have dstR : (all.filter fun x => x.dst % 9 = rankOf x) = all.filter fun x => rankOf x = t.val % 9 :=
    List.filter_congr fun x hx => by rw [(hall x hx).2]; simp only [decide_eq_decide]; omega
  rcases hw with ⟨rfl, h⟩ | ⟨rfl, h⟩ | ⟨rfl, h, h'⟩ | ⟨rfl, h⟩ | ⟨rfl, h⟩ | ⟨rfl, h, h'⟩
  · refine ⟨by decide, ?_⟩
    have e : byDir turn all (dirWord ['上']) (byRel turn all (relWord ['上']) all) =
      all.filter (fun x => rankOf x = if turn = .black then greatest (all.map rankOf) else least (all.map rankOf)) := rfl
    rw [e]
    cases turn
    · simp only [if_true] at *
      rw [hiR (by omega)]
      exact one rankOf _ hrm (notR (by omega))
    · simp only [reduceCtorEq, if_false] at *
      rw [loR (by omega)]
      exact one rankOf _ hrm (notR (by omega))
  · refine ⟨by decide, ?_⟩
    have e : byDir turn all (dirWord ['引']) (byRel turn all (relWord ['引']) all) =
      all.filter (fun x => rankOf x = if turn = .black then least (all.map rankOf) else greatest (all.map rankOf)) := rfl
    rw [e]
    cases turn
    · simp only [if_true] at *
      rw [loR (by omega)]
      exact one rankOf _ hrm (notR (by omega))
    · simp only [reduceCtorEq, if_false] at *
      rw [hiR (by omega)]
      exact one rankOf _ hrm (notR (by omega))
  · refine ⟨by decide, ?_⟩
    have e : byDir turn all (dirWord ['寄']) (byRel turn all (relWord ['寄']) all) = all.filter (fun x => x.dst % 9 = rankOf x) := rfl
    rw [e, dstR]
    have e1 : t.val % 9 = s.val % 9 := by cases turn <;> simp at * <;> omega
    rw [e1]
    exact one rankOf _ hrm (notR (by cases turn <;> simp at * <;> omega))
  · refine ⟨by decide, ?_⟩
    have e : byDir turn all (dirWord ['左']) (byRel turn all (relWord ['左']) all) =
      all.filter (fun x => fileOf x = if turn = .black then greatest (all.map fileOf) else least (all.map fileOf)) := rfl
    rw [e]
    cases turn
    · simp only [if_true] at *
      rw [hiF (by omega)]
      exact one fileOf _ hfm (notF (by omega))
    · simp only [reduceCtorEq, if_false] at *
      rw [loF (by omega)]
      exact one fileOf _ hfm (notF (by omega))
  · refine ⟨by decide, ?_⟩
    have e : byDir turn all (dirWord ['右']) (byRel turn all (relWord ['右']) all) =
      all.filter (fun x => fileOf x = if turn = .black then least (all.map fileOf) else greatest (all.map fileOf)) := rfl
    rw [e]
    cases turn
    · simp only [if_true] at *
      rw [loF (by omega)]
      exact one fileOf _ hfm (notF (by omega))
    · simp only [reduceCtorEq, if_false] at *
      rw [hiF (by omega)]
      exact one fileOf _ hfm (notF (by omega))
  · refine ⟨by decide, ?_⟩
    have e : byDir turn all (dirWord ['直']) (byRel turn all (relWord ['直']) all) = all.filter (fun x => x.dst / 9 = fileOf x) := rfl
    rw [e, dstF]
    have e1 : t.val / 9 = s.val / 9 := by cases turn <;> simp at * <;> omega
    rw [e1]
    exact one fileOf _ hfm (notF (by cases turn <;> simp at * <;> omega))

end Verif.Ki2
