import Verif.Model.HandText
import Verif.Spec.HandText
import Verif.Lemmas.Bod

/-!
# C109: pieces in hand are read as they are written
-/

namespace Verif.Kif
open Spec Position
open Verif.Bod (itemsOf itemsOf_table splitAt_joinSpace)

theorem splitAt_spec (x : Char) : ∀ l : List Char, splitAt x l = Spec.Bod.splitAt x l
  | [] => rfl
  | c :: l => by
    rw [splitAt, Spec.Bod.splitAt, splitAt_spec x l]
    split
    · rfl
    · cases Spec.Bod.splitAt x l <;> rfl

theorem lookup_pair {α β : Type} [BEq α] [LawfulBEq α] {a : α} {b : β} : ∀ {l : List (α × β)}, l.lookup a = some b → (a, b) ∈ l
  | [], h => by cases h
  | (k, v) :: l, h => by
    rw [List.lookup_cons] at h
    cases e : a == k with
    | true =>
      rw [e] at h
      cases h
      rw [LawfulBEq.eq_of_beq e]
      exact List.mem_cons_self
    | false =>
      rw [e] at h
      exact List.mem_cons_of_mem _ (lookup_pair h)

/-- The piece of an item. -/
theorem piece_index {c : Char} {h : HKind}
    (e : [('歩', HKind.pawn), ('香', .lance), ('桂', .knight), ('銀', .silver), ('金', .gold), ('角', .bishop), ('飛', .rook)].lookup c = some h) :
    pieceIndex c = some h.kind.number := by
  have ht : ∀ x ∈ [('歩', HKind.pawn), ('香', .lance), ('桂', .knight), ('銀', .silver), ('金', .gold), ('角', .bishop), ('飛', .rook)],
      pieceIndex x.1 = some x.2.kind.number := by decide +kernel
  exact ht _ (lookup_pair e)

/-- The number of an item. -/
theorem number_index {l : List Char} {n : Nat} (e : Spec.Bod.number l = some n) : (l = [] ∧ n = 1) ∨ (l ≠ [] ∧ l.length ≤ 2 ∧ kanjiIndex l = some n) := by
  have ht : ∀ x ∈ [("", 1), ("二", 2), ("三", 3), ("四", 4), ("五", 5), ("六", 6), ("七", 7), ("八", 8), ("九", 9), ("十", 10), ("十一", 11), ("十二", 12), ("十三", 13),
      ("十四", 14), ("十五", 15), ("十六", 16), ("十七", 17), ("十八", 18)].map fun (x : String × Nat) => (x.1.toList, x.2),
      (x.1 = [] ∧ x.2 = 1) ∨ (x.1 ≠ [] ∧ x.1.length ≤ 2 ∧ kanjiIndex x.1 = some x.2) := by decide +kernel
  exact ht _ (lookup_pair e)

theorem loop_item {i : List Char} {h : HKind} {n : Nat} (e : Spec.Bod.item i = some (h, n)) (is : List (List Char)) (d : Nat → Option Nat) :
    handLoop (i :: is) d = handLoop is (put d h.kind.number n) := by
  cases i with
  | nil => cases e
  | cons c l =>
    obtain ⟨h', e1, e2⟩ := Option.bind_eq_some_iff.1 e
    obtain ⟨n', e3, e4⟩ := Option.map_eq_some_iff.1 e2
    cases e4
    have k1 := piece_index e1
    rcases number_index e3 with ⟨rfl, rfl⟩ | ⟨h1, h2, h3⟩
    · rw [handLoop, k1]
    · cases l with
      | nil => exact absurd rfl h1
      | cons x l =>
        rw [handLoop, if_neg (by omega), k1]
        dsimp only
        rw [h3]

/-- The dictionary after some items. -/
def entered (d : Nat → Option Nat) (xs : List (HKind × Nat)) : Nat → Option Nat := xs.foldl (fun d x => put d x.1.kind.number x.2) d

theorem loop_items : ∀ (is : List (List Char)) (xs : List (HKind × Nat)) (d : Nat → Option Nat),
    (is.filter fun i => decide (i ≠ [])).map Spec.Bod.item = xs.map some → handLoop is d = .dict (entered d xs)
  | [], [], _, _ => rfl
  | [], _ :: _, _, h => by cases h
  | [] :: is, xs, d, h => by
    rw [handLoop]
    exact loop_items is xs d h
  | (c :: l) :: is, xs, d, h => by
    rw [List.filter_cons_of_pos (by simp), List.map_cons] at h
    cases xs with
    | nil => cases h
    | cons x xs =>
      rw [List.map_cons] at h
      obtain ⟨h1, h2⟩ := List.cons.inj h
      rw [loop_item h1, loop_items is xs _ h2]
      rfl

theorem entered_other : ∀ (xs : List (HKind × Nat)) (d : Nat → Option Nat) (k : Nat), (∀ x ∈ xs, k ≠ x.1.kind.number) → entered d xs k = d k
  | [], _, _, _ => rfl
  | x :: xs, d, k, h => by
    have := entered_other xs (put d x.1.kind.number x.2) k fun y hy => h y (List.mem_cons_of_mem _ hy)
    rw [show entered d (x :: xs) = entered (put d x.1.kind.number x.2) xs from rfl, this]
    exact if_neg (h x List.mem_cons_self)

theorem number_inj : ∀ {h h' : HKind}, h.kind.number = h'.kind.number → h = h' := by
  intro h h' e
  cases h <;> cases h' <;> first | rfl | cases e

theorem entered_mem : ∀ (xs : List (HKind × Nat)) (d : Nat → Option Nat), (xs.map (·.1)).Nodup → ∀ h n, (h, n) ∈ xs → entered d xs h.kind.number = some n
  | x :: xs, d, hd, h, n, hm => by
    rw [List.map_cons, List.nodup_cons] at hd
    rw [show entered d (x :: xs) = entered (put d x.1.kind.number x.2) xs from rfl]
    rcases List.mem_cons.1 hm with rfl | hm
    · rw [entered_other]
      · exact if_pos rfl
      · intro y hy e
        exact hd.1 (List.mem_map.2 ⟨y, hy, (number_inj e).symm⟩)
    · exact entered_mem xs _ hd.2 h n hm

/-- **C109**: whatever pieces a text tells, in any order and with spaces wherever they may be, `parse_pieces_in_hand` returns them: each kind under its piece
type with its number, and nothing else. -/
theorem C109_read (l : List Char) (xs : List (HKind × Nat)) (h : TellsHand l xs) :
    ∃ d, parseHand l = .dict d ∧ (∀ h n, d h.kind.number = some n ↔ (h, n) ∈ xs) ∧ ∀ k, (∀ h : HKind, k ≠ h.kind.number) → d k = none := by
  obtain ⟨h1, h2⟩ := h
  refine ⟨entered (fun _ => none) xs, ?_, fun h n => ⟨fun e => ?_, entered_mem xs _ h2 h n⟩, fun k hk => entered_other xs _ k fun x _ => hk _⟩
  · unfold parseHand
    rw [if_neg, splitAt_spec, loop_items _ _ _ h1]
    rintro rfl
    have e : ((Spec.Bod.splitAt '　' "なし".toList).filter fun i => decide (i ≠ [])).map Spec.Bod.item = [none] := by decide +kernel
    rw [e] at h1
    rcases xs with _ | ⟨x, xs⟩
    · cases h1
    · cases h1
  · by_cases hm : ∃ m, (h, m) ∈ xs
    · obtain ⟨m, hm⟩ := hm
      rw [entered_mem xs _ h2 h m hm] at e
      cases e
      exact hm
    · rw [entered_other] at e
      · cases e
      · intro x hx e'
        exact hm ⟨x.2, by rw [number_inj e']; exact hx⟩

/-! ### What `board_to_bod` writes -/

theorem items_table (h : HKind) : ∀ n : Nat, n < 19 → (itemsOf h.code n).map Spec.Bod.item = if n = 0 then [] else [some (h, n)] := by
  cases h <;> decide +kernel

/-- The kinds of a list that are there. -/
def present (f : HKind → Nat) (hs : List HKind) : List (HKind × Nat) := hs.filterMap fun h => if f h = 0 then none else some (h, f h)

theorem present_items {f : HKind → Nat} (hf : ∀ h, f h < 19) : ∀ hs : List HKind,
    (hs.flatMap fun h => itemsOf h.code (f h)).map Spec.Bod.item = (present f hs).map some
  | [] => rfl
  | h :: hs => by
    rw [List.flatMap_cons, List.map_append, present_items hf hs, items_table h _ (hf h)]
    unfold present
    by_cases e : f h = 0
    · rw [if_pos e, List.filterMap_cons_none (by rw [if_pos e])]
      rfl
    · rw [if_neg e, List.filterMap_cons_some (by rw [if_neg e])]
      rfl

theorem present_mem {f : HKind → Nat} {hs : List HKind} {h : HKind} {n : Nat} : (h, n) ∈ present f hs ↔ h ∈ hs ∧ f h ≠ 0 ∧ n = f h := by
  unfold present
  rw [List.mem_filterMap]
  constructor
  · rintro ⟨h', hm, e⟩
    by_cases e0 : f h' = 0
    · rw [if_pos e0] at e; cases e
    · rw [if_neg e0] at e; cases e
      exact ⟨hm, e0, rfl⟩
  · rintro ⟨hm, e0, rfl⟩
    exact ⟨h, hm, if_neg e0⟩

theorem present_sublist (f : HKind → Nat) : ∀ hs : List HKind, ((present f hs).map (·.1)).Sublist hs
  | [] => .slnil
  | h :: hs => by
    unfold present
    by_cases e : f h = 0
    · rw [List.filterMap_cons_none (by rw [if_pos e])]
      exact (present_sublist f hs).cons h
    · rw [List.filterMap_cons_some (by rw [if_neg e])]
      exact (present_sublist f hs).cons_cons h

/-- **C109**, what `board_to_bod` writes for the pieces in hand is read as these pieces. -/
theorem C109_written (w : Hand) (hw : ∀ i, i < 7 → w.numOf i ≤ 18) : ∃ d, parseHand (bodHand w) = .dict d ∧ HandDict d fun h => w.numOf h.code := by
  have hc : ∀ h : HKind, h.code < 7 := by intro h; cases h <;> decide
  have eitems : bodItems w = [HKind.rook, .bishop, .gold, .silver, .knight, .lance, .pawn].flatMap fun h => itemsOf h.code (w.numOf h.code) := rfl
  have hitems := present_items (f := fun h => w.numOf h.code) (fun h => by have := hw h.code (hc h); omega)
    [HKind.rook, .bishop, .gold, .silver, .knight, .lance, .pawn]
  rw [← eitems] at hitems
  have hall : ∀ i ∈ bodItems w, '　' ∉ i ∧ i.head? ≠ some 'な' ∧ i ≠ [] := by
    intro i hi
    rw [eitems] at hi
    obtain ⟨h, -, hi⟩ := List.mem_flatMap.mp hi
    have := itemsOf_table _ (by have := hw h.code (hc h); omega) h.code (hc h) i hi
    exact ⟨this.1, this.2.2⟩
  have hmem : ∀ h : HKind, h ∈ [HKind.rook, .bishop, .gold, .silver, .knight, .lance, .pawn] := by intro h; cases h <;> decide
  by_cases h0 : bodItems w = []
  · refine ⟨fun _ => none, by unfold bodHand; rw [if_pos h0]; rfl, fun h => ?_, fun _ _ => rfl⟩
    rw [h0] at hitems
    by_cases e : w.numOf h.code = 0
    · rw [if_pos e]
    · have : (h, w.numOf h.code) ∈ present (fun h => w.numOf h.code) [HKind.rook, .bishop, .gold, .silver, .knight, .lance, .pawn] :=
        present_mem.2 ⟨hmem h, e, rfl⟩
      rw [List.map_eq_nil_iff.1 hitems.symm] at this
      cases this
  · have ht : TellsHand (bodHand w) (present (fun h => w.numOf h.code) [HKind.rook, .bishop, .gold, .silver, .knight, .lance, .pawn]) := by
      refine ⟨?_, (present_sublist _ _).nodup (by decide)⟩
      unfold bodHand
      rw [if_neg h0, splitAt_joinSpace h0 fun i hi => (hall i hi).1, List.filter_eq_self.2 fun i hi => by simpa using (hall i hi).2.2]
      exact hitems
    obtain ⟨d, h1, h2, h3⟩ := C109_read _ _ ht
    refine ⟨d, h1, fun h => ?_, h3⟩
    by_cases e : w.numOf h.code = 0
    · rw [if_pos e]
      cases hd : d h.kind.number with
      | none => rfl
      | some n => exact absurd e (present_mem.1 ((h2 h n).1 hd)).2.1
    · rw [if_neg e]
      exact (h2 h _).2 (present_mem.2 ⟨hmem h, e, rfl⟩)

/-- **C109** for the hands of a position. -/
theorem C109_position (p : Position) (hh : ∀ c h, (absPos p).hand c h ≤ h.total) (c : Color) :
    ∃ d, parseHand (bodHand (p.hand c)) = .dict d ∧ HandDict d ((absPos p).hand c) := by
  refine C109_written (p.hand c) fun i hi => ?_
  have : ∀ h : HKind, (p.hand c).numOf h.code ≤ 18 := fun h => le_trans (hh c h) (by cases h <;> decide)
  rcases (show i = 0 ∨ i = 1 ∨ i = 2 ∨ i = 3 ∨ i = 4 ∨ i = 5 ∨ i = 6 by omega) with rfl | rfl | rfl | rfl | rfl | rfl | rfl
  · exact this .pawn
  · exact this .lance
  · exact this .knight
  · exact this .silver
  · exact this .gold
  · exact this .bishop
  · exact this .rook

theorem loop_ok : ∀ (is : List (List Char)) (d : Nat → Option Nat), (∃ d', handLoop is d = .dict d') ↔ is.all handItem = true
  | [], d => ⟨fun _ => rfl, fun _ => ⟨d, rfl⟩⟩
  | [] :: is, d => by
    rw [handLoop, loop_ok is d, List.all_cons]
    simp [handItem]
  | [c] :: is, d => by
    have hp : (pieceIndex c).isSome = true ↔ c ∈ pieceChars := by
      unfold pieceIndex
      rw [Option.isSome_map]
      simp [List.isSome_idxOf?]
    rw [List.all_cons, Bool.and_eq_true, handLoop]
    cases e : pieceIndex c with
    | none =>
      rw [e] at hp
      refine ⟨fun h => ?_, fun h => ?_⟩
      · obtain ⟨d', h⟩ := h; cases h
      · have := hp.2 (by simpa [handItem] using h.1)
        cases this
    | some k =>
      rw [e] at hp
      dsimp only
      rw [loop_ok is]
      simp [handItem, hp.1 rfl]
  | (c :: x :: n) :: is, d => by
    have hp : (pieceIndex c).isSome = true ↔ c ∈ pieceChars := by
      unfold pieceIndex
      rw [Option.isSome_map]
      simp [List.isSome_idxOf?]
    have hk : (kanjiIndex (x :: n)).isSome = true ↔ ((List.range 18).any fun i => decide (kanjiNumber (i + 1) = x :: n)) = true := by
      unfold kanjiIndex
      rw [Option.isSome_map, List.find?_isSome, List.any_eq_true]
    rw [List.all_cons, Bool.and_eq_true, handLoop]
    have hitem : handItem (c :: x :: n) = true ↔ c ∈ pieceChars ∧ (x :: n).length ≤ 2 ∧
        ((List.range 18).any fun i => decide (kanjiNumber (i + 1) = x :: n)) = true := by
      unfold handItem
      simp only [Bool.and_eq_true, decide_eq_true_eq, and_assoc]
    rw [hitem, ← hp, ← hk]
    by_cases hl : 2 < (x :: n).length
    · rw [if_pos hl]
      refine ⟨fun h => ?_, fun h => absurd h.1.2.1 (by omega)⟩
      obtain ⟨d', h⟩ := h; cases h
    · rw [if_neg hl]
      cases e : pieceIndex c with
      | none =>
        refine ⟨fun h => ?_, fun h => ?_⟩
        · obtain ⟨d', h⟩ := h; cases h
        · cases h.1.1
      | some k =>
        dsimp only
        cases e2 : kanjiIndex (x :: n) with
        | none =>
          refine ⟨fun h => ?_, fun h => ?_⟩
          · obtain ⟨d', h⟩ := h; cases h
          · cases h.1.2.2
        | some m =>
          dsimp only
          rw [loop_ok is]
          exact ⟨fun h => ⟨⟨rfl, by omega, rfl⟩, h⟩, fun h => h.2⟩

/-- **C109**, no exception: a dictionary is returned exactly for the lines that `KIF.Parser.parse_str` (C65) accepts as pieces in hand. -/
theorem C109_accepts (v : List Char) : (∃ d, parseHand v = .dict d) ↔ handOK v = true := by
  unfold parseHand handOK
  by_cases h : v = "なし".toList
  · rw [if_pos h, decide_eq_true h]
    exact ⟨fun _ => rfl, fun _ => ⟨_, rfl⟩⟩
  · rw [if_neg h, decide_eq_false h, Bool.false_or]
    exact loop_ok _ _

/-- **C109**: ParserException is raised for an item with more than three characters, when the items before it can be read. -/
theorem C109_long (pre : List (List Char)) (hp : ∀ a ∈ pre, a = [] ∨ ∃ x, Spec.Bod.item a = some x) (i : List Char) (hi : 3 < i.length)
    (rest : List (List Char)) (d : Nat → Option Nat) : handLoop (pre ++ i :: rest) d = .parserError := by
  induction pre generalizing d with
  | nil =>
    match i, hi with
    | c :: x :: n, hi => rw [List.nil_append, handLoop, if_pos (by simp only [List.length_cons] at hi ⊢; omega)]
    | [_], hi => simp at hi
    | [], hi => simp at hi
  | cons a pre ih =>
    rcases hp a List.mem_cons_self with rfl | ⟨⟨h, n⟩, e⟩
    · rw [List.cons_append, handLoop]; exact ih (fun b hb => hp b (List.mem_cons_of_mem _ hb)) d
    · rw [List.cons_append, loop_item e]; exact ih (fun b hb => hp b (List.mem_cons_of_mem _ hb)) _

/-- Such a text: a silver, and gold with a number that is too long. -/
example : parseHand "銀　金十二三".toList = .parserError :=
  C109_long ["銀".toList] (by intro a ha; rw [List.mem_singleton.mp ha]; exact .inr ⟨(.silver, 1), by decide +kernel⟩) "金十二三".toList (by decide) [] fun _ => none

/-! ### Where it does not -/

/-- **C109 fails** for a kind that is told twice: the numbers are not added, the last one counts. -/
theorem C109_fails_twice (h : HKind) (a b : List Char) (n m : Nat) (ha : Spec.Bod.item a = some (h, n)) (hb : Spec.Bod.item b = some (h, m)) :
    ∃ d, handLoop [a, b] (fun _ => none) = .dict d ∧ d h.kind.number = some m := by
  rw [loop_item ha, loop_item hb]
  exact ⟨_, rfl, if_pos rfl⟩

/-- **C109 fails** for other pieces: kings and promoted pieces are taken as pieces in hand. -/
theorem C109_fails_piece (k : Kind) (hk : k.hand = none ∨ 9 ≤ k.number) : ∃ c d, parseHand [c] = .dict d ∧ d k.number = some 1 := by
  cases k <;> first
    | exact absurd hk (by decide)
    | exact ⟨'玉', _, rfl, by decide +kernel⟩
    | exact ⟨'と', _, rfl, by decide +kernel⟩
    | exact ⟨'杏', _, rfl, by decide +kernel⟩
    | exact ⟨'圭', _, rfl, by decide +kernel⟩
    | exact ⟨'全', _, rfl, by decide +kernel⟩
    | exact ⟨'馬', _, rfl, by decide +kernel⟩
    | exact ⟨'龍', _, rfl, by decide +kernel⟩

/-- **C109 fails** for texts that cannot be read: for an unknown name with at most two characters behind it the exception is `ValueError`, not
`ParserException` as documented. -/
theorem C109_fails_error (c : Char) (hc : c ∉ pieceChars) (n : List Char) (hn : n.length ≤ 2) (is : List (List Char)) (d : Nat → Option Nat) :
    handLoop ((c :: n) :: is) d = .valueError := by
  have hp : pieceIndex c = none := by
    unfold pieceIndex
    rw [Option.map_eq_none_iff]
    exact List.idxOf?_eq_none_iff.2 hc
  match n, hn with
  | [], _ => rw [handLoop, hp]
  | x :: n, hn => rw [handLoop, if_neg (by omega), hp]

/-! ### Cases that meet the hypotheses -/

/-- C109_read: with a space behind, as other programs write it, and in another order. -/
example : TellsHand "歩十二　飛　桂二　".toList [(.pawn, 12), (.rook, 1), (.knight, 2)] := by
  unfold TellsHand
  decide +kernel

/-- C109_written: eleven pawns, a lance and two rooks. -/
example : ∃ w : Hand, (∀ i, i < 7 → w.numOf i ≤ 18) ∧ bodHand w = "飛二　香　歩十一".toList := by
  refine ⟨11#32 ||| 0x40#32 ||| 0x4000000#32, by decide +kernel, by decide +kernel⟩

/-- C109_fails_twice. -/
example : Spec.Bod.item "歩二".toList = some (.pawn, 2) ∧ Spec.Bod.item "歩".toList = some (.pawn, 1) := by decide +kernel

/-- C109_fails_error. -/
example : 'x' ∉ pieceChars := by decide

end Verif.Kif
