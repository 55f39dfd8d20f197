import Verif.Model.Bod
import Verif.Spec.Bod
import Verif.Lemmas.Ki2Moves
import Verif.Props.Kif

/-!
# Lemmas on board diagrams
-/

namespace Verif.Bod
open Position Spec

/-! ### Splitting -/

theorem splitAt_ne (x : Char) : ∀ l : List Char, Spec.Bod.splitAt x l ≠ []
  | [] => by simp [Spec.Bod.splitAt]
  | c :: l => by
    rw [Spec.Bod.splitAt]
    split
    · simp
    · split <;> simp

theorem splitAt_plain {x : Char} : ∀ {l : List Char}, x ∉ l → Spec.Bod.splitAt x l = [l]
  | [], _ => rfl
  | c :: l, h => by
    have h1 : c ≠ x := fun e => h (by simp [e])
    have h2 : x ∉ l := fun e => h (List.mem_cons_of_mem _ e)
    rw [Spec.Bod.splitAt, if_neg h1, splitAt_plain h2]

theorem splitAt_sep {x : Char} : ∀ {l : List Char}, x ∉ l → ∀ r, Spec.Bod.splitAt x (l ++ x :: r) = l :: Spec.Bod.splitAt x r
  | [], _, r => by rw [List.nil_append, Spec.Bod.splitAt, if_pos rfl]
  | c :: l, h, r => by
    have h1 : c ≠ x := fun e => h (by simp [e])
    have h2 : x ∉ l := fun e => h (List.mem_cons_of_mem _ e)
    rw [List.cons_append, Spec.Bod.splitAt, if_neg h1, splitAt_sep h2]

theorem splitAt_joinNl : ∀ {ls : List (List Char)}, ls ≠ [] → (∀ l ∈ ls, '\n' ∉ l) → Spec.Bod.splitAt '\n' (joinNl ls) = ls
  | [], h, _ => absurd rfl h
  | [l], _, h => splitAt_plain (h l (by simp))
  | l :: k :: ls, _, h => by
    have e : joinNl (l :: k :: ls) = l ++ ('\n' :: joinNl (k :: ls)) := rfl
    rw [e, splitAt_sep (h l (by simp)), splitAt_joinNl (by simp) fun x hx => h x (List.mem_cons_of_mem _ hx)]

theorem splitAt_joinNl_more : ∀ {ls : List (List Char)}, ls ≠ [] → (∀ l ∈ ls, '\n' ∉ l) → ∀ r,
    Spec.Bod.splitAt '\n' (joinNl ls ++ '\n' :: r) = ls ++ Spec.Bod.splitAt '\n' r
  | [], h, _, _ => absurd rfl h
  | [l], _, h, r => by rw [show joinNl [l] = l from rfl, splitAt_sep (h l (by simp))]; rfl
  | l :: k :: ls, _, h, r => by
    have e : joinNl (l :: k :: ls) = l ++ ('\n' :: joinNl (k :: ls)) := rfl
    rw [e, List.append_assoc, List.cons_append, splitAt_sep (h l (by simp)),
      splitAt_joinNl_more (by simp) (fun x hx => h x (List.mem_cons_of_mem _ hx)) r]
    rfl

theorem splitAt_joinSpace : ∀ {ls : List (List Char)}, ls ≠ [] → (∀ l ∈ ls, '　' ∉ l) → Spec.Bod.splitAt '　' (Kif.joinSpace ls) = ls
  | [], h, _ => absurd rfl h
  | [l], _, h => splitAt_plain (h l (by simp))
  | l :: k :: ls, _, h => by
    have e : Kif.joinSpace (l :: k :: ls) = l ++ ('　' :: Kif.joinSpace (k :: ls)) := rfl
    rw [e, splitAt_sep (h l (by simp)), splitAt_joinSpace (by simp) fun x hx => h x (List.mem_cons_of_mem _ hx)]

/-! ### The board -/

theorem symbol_cell (x : Option (Color × Kind)) : ∃ a b, Kif.bodSymbol (pieceCode x) = [a, b] ∧ Spec.Bod.cell a b = some x := by
  rcases x with _ | ⟨c, k⟩
  · exact ⟨_, _, rfl, by decide⟩
  · cases c <;> cases k <;> exact ⟨_, _, rfl, by decide⟩

theorem cells_flatMap (f : Nat → Option (Color × Kind)) : ∀ l : List Nat,
    Spec.Bod.cells (l.flatMap fun i => Kif.bodSymbol (pieceCode (f i))) = some (l.map f) ∧
    (l.flatMap fun i => Kif.bodSymbol (pieceCode (f i))).length = 2 * l.length
  | [] => ⟨rfl, rfl⟩
  | i :: l => by
    obtain ⟨a, b, e, hc⟩ := symbol_cell (f i)
    obtain ⟨h1, h2⟩ := cells_flatMap f l
    rw [List.flatMap_cons, e]
    constructor
    · rw [List.cons_append, List.cons_append, List.nil_append, Spec.Bod.cells, hc, Option.bind_some, h1]; rfl
    · rw [List.length_append, h2]; simp; omega

theorem rank_read {p : Position} (hp : ∀ s, p.piece s = pieceCode ((absPos p).board s)) {r : Nat} (hr : r < 9) :
    Spec.Bod.rank r (Kif.bodRank p r) = some ([8, 7, 6, 5, 4, 3, 2, 1, 0].map fun f => (absPos p).board (sqN (9 * f + r))) := by
  obtain ⟨h1, h2⟩ := cells_flatMap (fun f => (absPos p).board (sqN (9 * f + r))) [8, 7, 6, 5, 4, 3, 2, 1, 0]
  have e : Kif.bodRank p r = '|' :: (([8, 7, 6, 5, 4, 3, 2, 1, 0].flatMap fun f => Kif.bodSymbol (pieceCode ((absPos p).board (sqN (9 * f + r))))) ++
      ('|' :: (Kif.rankChars[r]?).toList)) := by
    unfold Kif.bodRank; simp only [hp]
  rw [e]
  obtain ⟨C, hC⟩ : ∃ C, C = ([8, 7, 6, 5, 4, 3, 2, 1, 0].flatMap fun f => Kif.bodSymbol (pieceCode ((absPos p).board (sqN (9 * f + r))))) := ⟨_, rfl⟩
  rw [← hC] at h1 h2 ⊢
  have h18 : C.length = 18 := h2
  unfold Spec.Bod.rank
  have e2 : ('|' :: (C ++ '|' :: (Kif.rankChars[r]?).toList)).drop 19 = '|' :: (Kif.rankChars[r]?).toList := by
    rw [List.drop_succ_cons, ← h18, List.drop_left]
  have e3 : (('|' :: (C ++ '|' :: (Kif.rankChars[r]?).toList)).drop 1).take 18 = C := by
    rw [List.drop_succ_cons, List.drop_zero, ← h18, List.take_left]
  rw [e2, e3, if_pos ⟨rfl, rfl⟩, h1]

/-! ### The hands -/

/-- The items for one kind. -/
def itemsOf (hp n : Nat) : List (List Char) :=
  if 1 < n then [(Kif.handChars[hp]?).toList ++ Kif.kanjiNumber n] else if n = 1 then [(Kif.handChars[hp]?).toList] else []

theorem itemsOf_table : ∀ n : Nat, n < 19 → ∀ hp : Nat, hp < 7 → ∀ i ∈ itemsOf hp n, '　' ∉ i ∧ (Spec.Bod.item i).isSome = true ∧ i.head? ≠ some 'な' ∧ i ≠ [] := by
  decide +kernel

theorem itemsOf_found (h : HKind) : ∀ n : Nat, n < 19 → ∀ hp : Nat, hp < 7 →
    ((itemsOf hp n).findSome? fun i => (Spec.Bod.item i).bind fun x => if x.1 = h then some x.2 else none) =
      if h.code = hp ∧ n ≠ 0 then some n else none := by
  cases h <;> decide +kernel

theorem joinSpace_ne {ls : List (List Char)} (h : ls ≠ []) (hh : ∀ i ∈ ls, i.head? ≠ some 'な' ∧ i ≠ []) : Kif.joinSpace ls ≠ "なし".toList := by
  intro e
  rcases ls with _ | ⟨i, ls⟩
  · exact h rfl
  · obtain ⟨h1, h2⟩ := hh i (by simp)
    rcases i with _ | ⟨c, i⟩
    · exact h2 rfl
    · have : (Kif.joinSpace ((c :: i) :: ls)).head? = some c := by
        cases ls <;> rfl
      rw [e] at this
      exact h1 (by rw [List.head?_cons, ← this]; rfl)

theorem hand_read {w : Hand} (hw : ∀ i, i < 7 → w.numOf i ≤ 18) : Spec.Bod.hand (Kif.bodHand w) = some fun h => w.numOf h.code := by
  have eitems : Kif.bodItems w = [6, 5, 4, 3, 2, 1, 0].flatMap fun i => itemsOf i (w.numOf i) := rfl
  have hall : ∀ i ∈ Kif.bodItems w, '　' ∉ i ∧ (Spec.Bod.item i).isSome = true ∧ i.head? ≠ some 'な' ∧ i ≠ [] := by
    intro i hi
    rw [eitems] at hi
    obtain ⟨hp, hhp, hi⟩ := List.mem_flatMap.mp hi
    have h7 : hp < 7 := by
      have : ∀ x ∈ [6, 5, 4, 3, 2, 1, 0], x < 7 := by decide
      exact this hp hhp
    exact itemsOf_table _ (by have := hw hp h7; omega) hp h7 i hi
  have hf : ∀ h : HKind, Spec.Bod.found (Kif.bodItems w) h = w.numOf h.code := by
    intro h
    unfold Spec.Bod.found
    have hk := fun i (hi : i < 7) => itemsOf_found h (w.numOf i) (by have := hw i hi; omega) i hi
    rw [eitems]
    simp only [List.flatMap_cons, List.flatMap_nil, List.findSome?_append, List.append_nil]
    rw [hk 6 (by omega), hk 5 (by omega), hk 4 (by omega), hk 3 (by omega), hk 2 (by omega), hk 1 (by omega), hk 0 (by omega)]
    have hc : h.code < 7 := by cases h <;> decide
    generalize h.code = c at hc ⊢
    by_cases hz : w.numOf c = 0
    · rw [hz]
      have : ∀ i, (if c = i ∧ w.numOf i ≠ 0 then some (w.numOf i) else none) = none := by
        intro i; rw [if_neg]; rintro ⟨rfl, h⟩; exact h hz
      simp only [this]; rfl
    · have h1 : ∀ i, c ≠ i → (if c = i ∧ w.numOf i ≠ 0 then some (w.numOf i) else none) = none := by
        intro i hi; rw [if_neg fun h => hi h.1]
      have h2 : (if c = c ∧ w.numOf c ≠ 0 then some (w.numOf c) else none) = some (w.numOf c) := if_pos ⟨rfl, hz⟩
      rcases (show c = 0 ∨ c = 1 ∨ c = 2 ∨ c = 3 ∨ c = 4 ∨ c = 5 ∨ c = 6 by omega) with rfl | rfl | rfl | rfl | rfl | rfl | rfl <;>
        simp [hz]
  unfold Kif.bodHand
  split
  · next h0 =>
    rw [Spec.Bod.hand, if_pos rfl]
    congr 1
    funext h
    rw [← hf h, h0]; rfl
  · next h0 =>
    rw [Spec.Bod.hand, if_neg (joinSpace_ne h0 fun i hi => (hall i hi).2.2), splitAt_joinSpace h0 fun i hi => (hall i hi).1,
      if_pos (List.all_eq_true.mpr fun i hi => (hall i hi).2.1)]
    congr 1
    funext h
    exact hf h

/-! ### The whole diagram -/

theorem after_append (h l : List Char) : Spec.Bod.after h (h ++ l) = some l := by
  unfold Spec.Bod.after
  rw [List.take_left, if_pos rfl, List.drop_left]

theorem sq_split : ∀ s : Square, sqN (9 * (s.val / 9) + s.val % 9) = s := by decide +kernel

theorem cell_index (f : Nat → Option (Color × Kind)) : ∀ x : Nat, x < 9 → (([8, 7, 6, 5, 4, 3, 2, 1, 0].map f)[8 - x]?).getD none = f x := by
  intro x hx
  rcases (show x = 0 ∨ x = 1 ∨ x = 2 ∨ x = 3 ∨ x = 4 ∨ x = 5 ∨ x = 6 ∨ x = 7 ∨ x = 8 by omega) with rfl | rfl | rfl | rfl | rfl | rfl | rfl | rfl | rfl <;> rfl

/-- Reading the lines of a diagram, with others behind it. -/
theorem read_lines {p : Position} (hp : Consistent p) (hh : ∀ c h, (absPos p).hand c h ≤ h.total) {text : List Char} {more : List (List Char)}
    (hs : Spec.Bod.splitAt '\n' text = Kif.bodLines p ++ more) (hm : more.getD 0 [] ≠ "後手番".toList) :
    Spec.Bod.read text = some (absPos p) := by
  have hn : ∀ c i, i < 7 → (p.hand c).numOf i ≤ 18 := by
    intro c i hi
    obtain ⟨h, rfl⟩ := hcode_surj i hi
    have := hh c h
    have ht : h.total ≤ 18 := by cases h <;> decide
    exact Nat.le_trans this ht
  obtain ⟨ls, hls⟩ : ∃ ls, ls = Kif.bodLines p ++ more := ⟨_, rfl⟩
  have e0 : ls.getD 0 [] = "後手の持駒：".toList ++ Kif.bodHand (p.hand .white) := by rw [hls]; rfl
  have e1 : ls.getD 1 [] = "  ９ ８ ７ ６ ５ ４ ３ ２ １".toList := by rw [hls]; rfl
  have e13 : ls.getD 13 [] = "先手の持駒：".toList ++ Kif.bodHand (p.hand .black) := by rw [hls]; rfl
  have er : ∀ r, r < 9 → ls.getD (r + 3) [] = Kif.bodRank p r := by
    intro r hr
    rw [hls]
    rcases (show r = 0 ∨ r = 1 ∨ r = 2 ∨ r = 3 ∨ r = 4 ∨ r = 5 ∨ r = 6 ∨ r = 7 ∨ r = 8 by omega) with rfl | rfl | rfl | rfl | rfl | rfl | rfl | rfl | rfl <;> rfl
  have e14 : (if ls.getD 14 [] = "後手番".toList then Color.white else Color.black) = p.turn := by
    have : ls = (Kif.bodLines p).take 14 ++ ((if p.turn = .white then ["後手番".toList] else []) ++ more) := by rw [hls]; rfl
    have hl : ls.getD 14 [] = ((if p.turn = .white then ["後手番".toList] else []) ++ more).getD 0 [] := by
      rw [this]; rfl
    rw [hl]
    cases ht : p.turn with
    | white => rfl
    | black =>
      rw [if_neg (show ¬ Color.black = Color.white by decide), List.nil_append, if_neg hm]
  have hcode := hp.code
  have hall : ((List.range 9).all fun r => (Spec.Bod.rank r (ls.getD (r + 3) [])).isSome) = true := List.all_eq_true.mpr fun r hr => by
    have h9 : r < 9 := List.mem_range.mp hr
    rw [er r h9, rank_read hcode h9]; rfl
  unfold Spec.Bod.read
  simp only [hs, ← hls]
  rw [e0, after_append, Option.bind_some, hand_read (hn .white), Option.bind_some, e13, after_append, Option.bind_some, hand_read (hn .black),
    Option.bind_some, if_pos ⟨e1, hall⟩, e14]
  congr 1
  refine pos_ext ?_ ?_ rfl
  · funext s
    show Spec.Bod.board (ls.drop 3) s = _
    unfold Spec.Bod.board
    have hr : s.val % 9 < 9 := Nat.mod_lt _ (by omega)
    have hd : (ls.drop 3).getD (s.val % 9) [] = ls.getD (s.val % 9 + 3) [] := by
      rw [List.getD_eq_getElem?_getD, List.getD_eq_getElem?_getD, List.getElem?_drop, Nat.add_comm]
    rw [hd, er _ hr, rank_read hcode hr, Option.getD_some, cell_index _ _ (by omega), sq_split]
  · funext c h
    cases c <;> rfl

/-! ### The last move -/

/-- "同" is written for this destination. -/
def Same (b : Board) (t : Square) : Prop := Kif.peek b ≠ 0#32 ∧ (Kif.peek b).dst = t.val

instance (b : Board) (t : Square) : Decidable (Same b t) := inferInstanceAs (Decidable (_ ∧ _))

theorem destText_eq (b : Board) {m : Move} {t : Square} (ht : m.dst = t.val) :
    Ki2.destText b m = some (if Same b t then ['同'] else Spec.Bod.square t) := by
  have hs : ∀ t : Square, Kif.squareName t.val = some (Spec.Bod.square t) := by decide +kernel
  unfold Ki2.destText
  rw [ht, hs t, Option.map_some]
  rfl

theorem name_code (k : Kind) : Ki2.pieceName k.code = some (Spec.Bod.name k) := by cases k <;> rfl

theorem hand_name (h : HKind) : ∃ c, Kif.handChars[h.code]? = some c ∧ Spec.Bod.name h.kind = [c] := by cases h <;> exact ⟨_, rfl, rfl⟩

/-- The text of every legal move: destination, piece, and some more characters. -/
theorem ki2_text {Z : Zobrist} {b : Board} (hg : Csa.Good Z b.pos) {mv : Mv} (hm : (absPos b.pos).Legal mv) :
    ∃ k q, Spec.Bod.moved (absPos b.pos) mv = some k ∧ (encode b.pos mv).dst = (Spec.Bod.target mv).val ∧
      Ki2.moveToKi2 b (encode b.pos mv) = some (Spec.Bod.mark b.pos.turn ::
        Ki2.spaced ((if Same b (Spec.Bod.target mv) then ['同'] else Spec.Bod.square (Spec.Bod.target mv)) ++ (Spec.Bod.name k ++ q))) := by
  have hp := hg.inv.views
  have hmark : Ki2.turnChar b.pos.turn = Spec.Bod.mark b.pos.turn := by cases b.pos.turn <;> rfl
  obtain ⟨L, eL, nL, hL, hLm⟩ := genPseudo_spec hp hg.check hg.regular
  obtain ⟨l, el, nl, hl⟩ := genLegal_spec hp hg.check hg.regular
  cases mv with
  | drop h t =>
    have hdst : (encode b.pos (.drop h t)).dst = t.val := (drop_fields h t).2.1
    have hdrop : (encode b.pos (.drop h t)).isDrop = true := (drop_fields h t).2.2.1
    obtain ⟨hh1, hh2⟩ := Ki2.hand_dropped b.pos h t
    obtain ⟨c, c1, c2⟩ := hand_name h
    refine ⟨h.kind, if Ki2.reach l t.val h.kind.code ≠ [] then ['打'] else [], rfl, hdst, ?_⟩
    unfold Ki2.moveToKi2 Ki2.dropText
    rw [if_pos hdrop, el, Option.bind_some, destText_eq b hdst, Option.bind_some, hh1, c1, Option.map_some, Option.map_some, hdst, hh2, c2, hmark]
    rfl
  | move s t pro =>
    obtain ⟨k, hk, hatt, hown, -⟩ := id hm.1.1
    have hsrc : (encode b.pos (.move s t pro)).src = s.val := (src_eq b.pos s t pro).1
    have hdst : (encode b.pos (.move s t pro)).dst = t.val := (src_eq b.pos s t pro).2.1
    have hpro : (encode b.pos (.move s t pro)).isPromotion = pro := (src_eq b.pos s t pro).2.2
    have hdrop : (encode b.pos (.move s t pro)).isDrop = false := encode_isDrop _ _ _ _
    have hfrom : (encode b.pos (.move s t pro)).pieceTypeFrom = k.code := Ki2.from_type b.pos hp hk
    obtain ⟨r, hr⟩ : ∃ r, r = Ki2.reach L t.val k.code := ⟨_, rfl⟩
    have hsr : s.val ∈ r := by
      rw [hr]
      exact (Ki2.reach_mem hp hL t k _).mpr ⟨s, pro, rfl, ((hLm _).mpr ⟨_, rfl, hm⟩).1, hk, hm.1.1⟩
    obtain ⟨q, hq⟩ : ∃ q, q = if 1 < ((Ki2.once r).map (Ki2.seen b.pos.turn)).length then
        Ki2.qualifiers ((Ki2.once r).map (Ki2.seen b.pos.turn)) k.code (Ki2.seen b.pos.turn s.val) (Ki2.seen b.pos.turn t.val) else [] := ⟨_, rfl⟩
    refine ⟨k, q ++ if pro = true then ['成'] else if r.count s.val = 2 then ['不', '成'] else [], by simp [Spec.Bod.moved, hk], hdst, ?_⟩
    unfold Ki2.moveToKi2 Ki2.boardText
    rw [if_neg (by rw [hdrop]; decide), eL, Option.bind_some]
    dsimp only
    rw [destText_eq b hdst, Option.bind_some, hfrom, name_code, Option.bind_some, hdst, hsrc, hpro, ← hr, ← hq, hmark]
    cases pro with
    | true => rw [if_pos rfl, if_pos rfl]; rfl
    | false => rw [if_neg (show ¬ false = true by decide), if_neg (show ¬ false = true by decide), if_pos hsr]; rfl

theorem name_ne (k : Kind) : ∃ c l, Spec.Bod.name k = c :: l ∧ c ≠ '　' := by cases k <;> exact ⟨_, _, rfl, by decide⟩

theorem square_two : ∀ t : Square, ∃ a b, Spec.Bod.square t = [a, b] ∧ a ≠ '同' := by
  have h : ∀ t : Square, (Spec.Bod.square t).length = 2 ∧ (Spec.Bod.square t).head? ≠ some '同' := by decide +kernel
  intro t
  obtain ⟨h1, h2⟩ := h t
  match e : Spec.Bod.square t, h1, h2 with
  | [a, b], _, h2 => exact ⟨a, b, rfl, fun e => h2 (by rw [e]; rfl)⟩

theorem spaced_other (a b c : Char) (l : List Char) : Ki2.spaced (a :: b :: c :: l) = a :: b :: c :: l := rfl

/-- The text of the last move in a diagram: what follows "同" is cut short unless it is one character. -/
theorem bod_text {Z : Zobrist} {b : Board} (hg : Csa.Good Z b.pos) {mv : Mv} (hm : (absPos b.pos).Legal mv) :
    ∃ k q, Spec.Bod.moved (absPos b.pos) mv = some k ∧
      Ki2.moveToKi2 b (encode b.pos mv) = some (Spec.Bod.mark b.pos.turn ::
        Ki2.spaced ((if Same b (Spec.Bod.target mv) then ['同'] else Spec.Bod.square (Spec.Bod.target mv)) ++ (Spec.Bod.name k ++ q))) ∧
      moveToBod b (encode b.pos mv) = some (Spec.Bod.mark b.pos.turn :: (Spec.Bod.square (Spec.Bod.target mv) ++
        (if Same b (Spec.Bod.target mv) then '同' :: (if (Spec.Bod.name k ++ q).length = 1 then Spec.Bod.name k ++ q else (Spec.Bod.name k ++ q).drop 1)
          else Spec.Bod.name k ++ q))) := by
  obtain ⟨k, q, h1, h2, h3⟩ := ki2_text hg hm
  refine ⟨k, q, h1, h3, ?_⟩
  have hs : ∀ t : Square, Kif.squareName t.val = some (Spec.Bod.square t) := by decide +kernel
  obtain ⟨c, l, hn, hc⟩ := name_ne k
  unfold moveToBod
  rw [h3, Option.bind_some, hn, h2, hs, show (c :: l) ++ q = c :: (l ++ q) from rfl]
  by_cases hS : Same b (Spec.Bod.target mv)
  · simp only [if_pos hS]
    rcases hl : l ++ q with _ | ⟨x, r⟩
    · rfl
    · have : Ki2.spaced (['同'] ++ c :: x :: r) = '同' :: c :: x :: r := rfl
      rw [this]
      rfl
  · simp only [if_neg hS]
    obtain ⟨a, b', e, ha⟩ := square_two (Spec.Bod.target mv)
    rw [e]
    have : Ki2.spaced ([a, b'] ++ c :: (l ++ q)) = a :: b' :: c :: (l ++ q) := rfl
    rw [this, if_neg (by simpa using ha)]
    rfl

end Verif.Bod
