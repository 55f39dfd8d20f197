import Verif.Lemmas.Svg
import Verif.Props.Ki2
import Verif.Props.Mate
import Verif.Props.MoveText

/-!
# C89: drawings of a board
-/

namespace Verif.Svg
open Verif.Spec Verif.Position

theorem marks_shape (last : Option Move) : ∀ i ∈ marks last, ∃ x y f, i = .rect x y f := by
  intro i hi
  cases last with
  | none => exact absurd hi List.not_mem_nil
  | some m =>
    unfold marks at hi
    dsimp only at hi
    rcases List.mem_cons.mp hi with rfl | hi
    · exact ⟨_, _, _, rfl⟩
    · split at hi
      · exact absurd hi List.not_mem_nil
      · rw [List.mem_singleton.mp hi]; exact ⟨_, _, _, rfl⟩

theorem coordinates_shape : ∀ i ∈ coordinates, ∃ a x y c, i = .text a x y false [c] ∧ 30 < x ∧ x < 210 := by
  intro i hi
  simp only [coordinates, List.mem_cons, List.not_mem_nil, or_false] at hi
  rcases hi with h | h | h | h | h | h | h | h | h | h | h | h | h | h | h | h | h | h <;>
    exact ⟨_, _, _, _, h, by norm_num, by norm_num⟩

theorem pieceRefs_shape (p : Position) : ∀ i ∈ pieceRefs p, ∃ id x y, i = .ref id x y := by
  intro i hi
  obtain ⟨s, -, hi⟩ := List.mem_flatMap.mp hi
  split at hi
  · rw [List.mem_singleton.mp hi]; exact ⟨_, _, _, rfl⟩
  · exact absurd hi List.not_mem_nil

theorem handTexts_shape (p : Position) (c : Color) : ∀ i ∈ handTexts p c, ∃ a x y l, i = .text a x y (decide (c = .white)) l ∧
    x = if c = .black then 214 else -16 := by
  intro i hi
  obtain ⟨z, -, hz⟩ := List.mem_map.mp hi
  exact ⟨_, _, _, _, hz.symm, rfl⟩

theorem filterMap_nil {β : Type} {f : Item → Option β} {l : List Item} (h : ∀ i ∈ l, f i = none) : l.filterMap f = [] :=
  List.filterMap_eq_nil_iff.mpr h

/-- **C89**. Whatever move is marked, the drawing shows every piece once, on its square, with its name and upside down if it is White's,
and nothing else on the squares. -/
theorem C89_board (p : Position) (hp : Consistent p) (last : Option Move) :
    Spec.Svg.pieces (toSvg p last) = (List.finRange 81).filterMap fun s =>
      ((absPos p).board s).map fun x => some (s.val, Spec.Svg.name x.2, decide (x.1 = .white)) := by
  unfold Spec.Svg.pieces
  obtain ⟨f, hf⟩ : ∃ f, f = Spec.Svg.piece (toSvg p last) := ⟨_, rfl⟩
  rw [← hf]
  unfold toSvg
  have hrect : ∀ x y g, f (.rect x y g) = none := fun _ _ _ => by rw [hf]; rfl
  have htext : ∀ a x y t l, f (.text a x y t l) = none := fun _ _ _ _ _ => by rw [hf]; rfl
  have h1 : (marks last).filterMap f = [] := filterMap_nil fun i hi => by
    obtain ⟨_, _, _, rfl⟩ := marks_shape last i hi; exact hrect _ _ _
  have h2 : coordinates.filterMap f = [] := filterMap_nil fun i hi => by
    obtain ⟨_, _, _, _, rfl, -⟩ := coordinates_shape i hi; exact htext _ _ _ _ _
  have h3 : ∀ c, (handTexts p c).filterMap f = [] := fun c => filterMap_nil fun i hi => by
    obtain ⟨_, _, _, _, rfl, -⟩ := handTexts_shape p c i hi; exact htext _ _ _ _ _
  simp only [List.filterMap_append, h1, h2, h3, List.nil_append, List.append_nil]
  unfold pieceRefs
  have key : ∀ L : List Square, (L.flatMap fun s => if p.piece s ≠ 0 then
      [Item.ref ('#' :: (defIds[p.piece s]?).getD []) (left s.val) (top s.val)] else []).filterMap f = L.filterMap fun s =>
      ((absPos p).board s).map fun x => some (s.val, Spec.Svg.name x.2, decide (x.1 = .white)) := by
    intro L
    induction L with
    | nil => rfl
    | cons s L ih =>
      rw [List.flatMap_cons, List.filterMap_append, ih, List.filterMap_cons, hp.code s]
      cases hb : (absPos p).board s with
      | none => rw [if_neg (show ¬ pieceCode none ≠ 0 from fun h => h rfl)]; rfl
      | some x =>
        obtain ⟨c, k⟩ := x
        obtain ⟨g1, g2⟩ := shows_piece c k
        have e : f (.ref ('#' :: (defIds[pieceCode (some (c, k))]?).getD []) (left s.val) (top s.val)) =
            some (some (s.val, Spec.Svg.name k, decide (c = .white))) := by
          rw [hf, Spec.Svg.piece, place_at, Option.bind_some, g2, Option.map_some]
        rw [if_pos g1, List.filterMap_cons, e]; rfl
  exact key _

theorem marked_eq (p : Position) (last : Option Move) :
    Spec.Svg.marked (toSvg p last) = (marks last).filterMap (Spec.Svg.mark (toSvg p last)) := by
  unfold Spec.Svg.marked
  obtain ⟨f, hf⟩ : ∃ f, f = Spec.Svg.mark (toSvg p last) := ⟨_, rfl⟩
  rw [← hf]
  unfold toSvg
  have href : ∀ id x y, f (.ref id x y) = none := fun _ _ _ => by rw [hf]; rfl
  have htext : ∀ a x y t l, f (.text a x y t l) = none := fun _ _ _ _ _ => by rw [hf]; rfl
  have h1 : (pieceRefs p).filterMap f = [] := filterMap_nil fun i hi => by
    obtain ⟨_, _, _, rfl⟩ := pieceRefs_shape p i hi; exact href _ _ _
  have h2 : coordinates.filterMap f = [] := filterMap_nil fun i hi => by
    obtain ⟨_, _, _, _, rfl, -⟩ := coordinates_shape i hi; exact htext _ _ _ _ _
  have h3 : ∀ c, (handTexts p c).filterMap f = [] := fun c => filterMap_nil fun i hi => by
    obtain ⟨_, _, _, _, rfl, -⟩ := handTexts_shape p c i hi; exact htext _ _ _ _ _
  simp only [List.filterMap_append, h1, h2, h3, List.append_nil]

theorem mark_at (p : Position) (last : Option Move) (s : Square) (g : List Char) :
    Spec.Svg.mark (toSvg p last) (.rect (left s.val) (top s.val) g) = some (some s.val, g) := by
  rw [Spec.Svg.mark, place_at]

/-- **C89**. A drawing made with a move as last move colours its destination, and its origin in a lighter tone if it has one. -/
theorem C89_marks (p q : Position) (mv : Mv) :
    Spec.Svg.marked (toSvg q (some (encode p mv))) = match mv with
      | .move s t _ => [(some t.val, "#f6b94d".toList), (some s.val, "#fdf0e3".toList)]
      | .drop _ t => [(some t.val, "#f6b94d".toList)] := by
  rw [marked_eq]
  cases mv with
  | move s t pro =>
    obtain ⟨h1, h2, -⟩ := src_eq p s t pro
    unfold marks
    dsimp only
    rw [encode_isDrop, if_neg (show ¬ (false = true) by decide), show (encode p (.move s t pro)).dst = t.val from h2,
      show (encode p (.move s t pro)).src = s.val from h1, List.filterMap_cons, mark_at, List.filterMap_cons, mark_at]
    rfl
  | drop h t =>
    obtain ⟨-, h2, h3, -⟩ := drop_fields h t
    unfold marks
    dsimp only
    rw [show (encode p (.drop h t)).isDrop = true from h3, if_pos (show true = true from rfl),
      show (encode p (.drop h t)).dst = t.val from h2, List.filterMap_cons, mark_at]
    rfl

/-- **C89**. Without a last move no square is coloured. -/
theorem C89_unmarked (p : Position) : Spec.Svg.marked (toSvg p none) = [] := by
  rw [marked_eq]; rfl

theorem beside_texts (p : Position) (c : Color) (last : Option Move) :
    (toSvg p last).filter (Spec.Svg.beside (decide (c = .black)) (decide (c = .white))) = handTexts p c := by
  obtain ⟨f, hf⟩ : ∃ f, f = Spec.Svg.beside (decide (c = .black)) (decide (c = .white)) := ⟨_, rfl⟩
  rw [← hf]
  unfold toSvg
  have hnil : ∀ l : List Item, (∀ i ∈ l, f i = false) → l.filter f = [] := fun l h =>
    List.filter_eq_nil_iff.mpr fun i hi => by rw [h i hi]; decide
  have h0 : (marks last).filter f = [] := hnil _ fun i hi => by
    obtain ⟨_, _, _, rfl⟩ := marks_shape last i hi; rw [hf]; rfl
  have h1 : (pieceRefs p).filter f = [] := hnil _ fun i hi => by
    obtain ⟨_, _, _, rfl⟩ := pieceRefs_shape p i hi; rw [hf]; rfl
  have h2 : coordinates.filter f = [] := hnil _ fun i hi => by
    obtain ⟨a, x, y, l, rfl, g1, g2⟩ := coordinates_shape i hi
    rw [hf]
    cases c
    · show (true && decide ((210 : Rat) ≤ x)) = false
      rw [decide_eq_false (not_le.mpr g2)]; rfl
    · rfl
  have h3 : ∀ c', (handTexts p c').filter f = if c' = c then handTexts p c' else [] := by
    intro c'
    by_cases hc : c' = c
    · subst hc
      rw [if_pos rfl, List.filter_eq_self]
      intro i hi
      obtain ⟨a, x, y, l, rfl, hx⟩ := handTexts_shape p c' i hi
      rw [hf, hx]
      cases c'
      · show (true && decide ((210 : Rat) ≤ 214)) = true
        decide +kernel
      · show (true && decide (-(-16 : Rat) ≤ 20)) = true
        decide +kernel
    · rw [if_neg hc]
      refine hnil _ fun i hi => ?_
      obtain ⟨a, x, y, l, rfl, hx⟩ := handTexts_shape p c' i hi
      rw [hf]
      cases c <;> cases c'
      · exact absurd rfl hc
      · rfl
      · rfl
      · exact absurd rfl hc
  simp only [List.filter_append, h0, h1, h2, h3, List.nil_append]
  cases c <;> simp

theorem texts_down (p : Position) (c : Color) : (handTexts p c).reverse.flatMap Spec.Svg.charsOf =
    ((if c = .black then "☗先手" else "☖後手").toList) ++ (cellsUp p c).reverse.flatten := by
  have e : (handTexts p c).map Spec.Svg.charsOf = cellsUp p c ++ titleUp c := by
    rw [← handPieces_chars]
    unfold handTexts
    rw [List.map_map]; rfl
  rw [List.flatMap_def, List.map_reverse, e, List.reverse_append, List.flatten_append]
  cases c <;> rfl

theorem column_read (c : Color) {l : List Char} {r : List (HKind × Nat)} (h : Spec.Svg.counts none l = some r) :
    Spec.Svg.column (((if c = .black then "☗先手" else "☖後手").toList) ++ l) = some (c, r) := by
  cases c
  · show (Spec.Svg.counts none l).map (fun r => (Color.black, r)) = _
    rw [h]; rfl
  · show (Spec.Svg.counts none l).map (fun r => (Color.white, r)) = _
    rw [h]; rfl

/-- Every cell of a column has one character. -/
theorem cell_single (hp n : Nat) (h7 : hp < 7) (h18 : n ≤ 18) : ∀ l ∈ cellsOf hp n, l.length = 1 := by
  have : ∀ hp : Nat, hp < 7 → ∀ n : Nat, n < 19 → ∀ l ∈ cellsOf hp n, l.length = 1 := by decide +kernel
  exact this hp h7 n (by omega)

theorem cells_single (p : Position) (c : Color) (hh : ∀ h, (absPos p).hand c h ≤ 18) : ∀ x ∈ handPieces p c, x.2.length = 1 := by
  intro x hx
  have hm : x.2 ∈ (handPieces p c).map (·.2) := List.mem_map_of_mem hx
  rw [handPieces_chars] at hm
  rcases List.mem_append.mp hm with h | h
  · obtain ⟨y, hy, hl⟩ := List.mem_flatMap.mp h
    have hz : y ∈ [(0, (absPos p).hand c .pawn), (1, (absPos p).hand c .lance), (2, (absPos p).hand c .knight), (3, (absPos p).hand c .silver),
        (4, (absPos p).hand c .gold), (5, (absPos p).hand c .bishop), (6, (absPos p).hand c .rook)] := hy
    simp only [List.mem_cons, List.not_mem_nil, or_false] at hz
    rcases hz with rfl | rfl | rfl | rfl | rfl | rfl | rfl <;> exact cell_single _ _ (by simp) (hh _) _ hl
  · unfold titleUp at h
    cases c <;> simp at h <;> rcases h with h | h | h <;> rw [h] <;> rfl

/-- **C89**. The texts beside the board on a player's side, and facing the player, read from the top say whose they are and what is in
hand. They stand one above the other on the page and off the board. -/
theorem C89_hand (p : Position) (c : Color) (hh : ∀ h, (absPos p).hand c h ≤ 18) (last : Option Move) :
    ∃ (L : List Item) (r : List (HKind × Nat)),
      L.Perm ((toSvg p last).filter (Spec.Svg.beside (decide (c = .black)) (decide (c = .white)))) ∧
      L.Pairwise Spec.Svg.above ∧ (∀ i ∈ L, Spec.Svg.fits i) ∧
      Spec.Svg.column (L.flatMap Spec.Svg.charsOf) = some (c, r) ∧ (r.map (·.1)).Nodup ∧
      ∀ h n, (h, n) ∈ r ↔ n ≠ 0 ∧ (absPos p).hand c h = n := by
  obtain ⟨f, hf⟩ : ∃ f, f = (absPos p).hand c := ⟨_, rfl⟩
  refine ⟨(handTexts p c).reverse, (kindsDown.filter fun h => f h ≠ 0).map fun h => (h, f h), ?_, ?_, ?_, ?_, ?_, ?_⟩
  · rw [beside_texts]; exact List.reverse_perm _
  · rw [List.pairwise_reverse]
    unfold handTexts
    rw [List.pairwise_map]
    refine (handPieces_index p c).imp ?_
    intro a b hab
    have h1 := scale_pos (handPieces p c).length
    have h2 : ((a.1 + 1 : Nat) : Rat) ≤ (b.1 : Rat) := Nat.cast_le.mpr hab
    push_cast at h2
    have h3 : 14 * scaleOf (handPieces p c).length * ((a.1 : Rat) + 1) ≤ 14 * scaleOf (handPieces p c).length * b.1 :=
      mul_le_mul_of_nonneg_left h2 (by linarith)
    show _ - 14 * scaleOf (handPieces p c).length * (b.1 : Rat) ≤ _ - 14 * scaleOf (handPieces p c).length * (a.1 : Rat) -
      14 * scaleOf (handPieces p c).length
    linarith
  · intro i hi
    obtain ⟨x, hx, rfl⟩ := List.mem_map.mp (List.mem_reverse.mp hi)
    have h0 := cells_single p c hh x hx
    have h1 := scale_pos (handPieces p c).length
    have h2 := scale_le (handPieces p c).length
    have h3 := scale_one (handPieces p c).length
    have h4 : (x.1 : Rat) ≤ ((handPieces p c).length : Rat) := Nat.cast_le.mpr (handPieces_bound p c x hx)
    have h5 : scaleOf (handPieces p c).length * (x.1 : Rat) ≤ scaleOf (handPieces p c).length * ((handPieces p c).length : Rat) :=
      mul_le_mul_of_nonneg_left h4 (le_of_lt h1)
    have h6 : 0 ≤ scaleOf (handPieces p c).length * (x.1 : Rat) := mul_nonneg (le_of_lt h1) (Nat.cast_nonneg _)
    have h7 : scaleOf (handPieces p c).length * ((handPieces p c).length + 1) = scaleOf (handPieces p c).length * (handPieces p c).length +
      scaleOf (handPieces p c).length := by rw [mul_add, mul_one]
    have h8 : 14 * scaleOf (handPieces p c).length * (x.1 : Rat) = 14 * (scaleOf (handPieces p c).length * (x.1 : Rat)) := mul_assoc _ _ _
    cases c
    · show x.2.length = 1 ∧ (0 : Rat) < _ ∧ (201 : Rat) ≤ 214 ∧ (214 : Rat) + _ ≤ 230 ∧ (0 : Rat) ≤ 190 - _ - _ ∧ (190 : Rat) - _ ≤ 192
      rw [h8]
      refine ⟨h0, ?_, ?_, ?_, ?_, ?_⟩ <;> linarith
    · show x.2.length = 1 ∧ (0 : Rat) < _ ∧ (0 : Rat) ≤ -(-16 + _) ∧ -(-16 : Rat) ≤ 20 ∧ (0 : Rat) ≤ -(-10 - _) ∧ -((-10 : Rat) - _ - _) ≤ 192
      rw [h8]
      refine ⟨h0, ?_, ?_, ?_, ?_, ?_⟩ <;> linarith
  · rw [texts_down]
    refine column_read c ?_
    rw [cellsUp_down, ← hf, counts_kinds f (by rw [hf]; exact hh)]
    rfl
  · rw [List.map_map]
    have e : (fun h => ((fun x : HKind × Nat => x.1) ∘ fun h => (h, f h)) h) = id := rfl
    have : ((kindsDown.filter fun h => f h ≠ 0).map ((fun x : HKind × Nat => x.1) ∘ fun h => (h, f h))) = kindsDown.filter fun h => f h ≠ 0 := List.map_id _
    rw [this]
    exact List.Nodup.filter _ (by decide)
  · intro h n
    rw [← hf]
    constructor
    · intro hm
      obtain ⟨h', hm', e⟩ := List.mem_map.mp hm
      obtain ⟨e1, e2⟩ := Prod.mk.inj e
      have := (List.mem_filter.mp hm').2
      subst e1
      subst e2
      exact ⟨by simpa using this, rfl⟩
    · rintro ⟨h0, rfl⟩
      refine List.mem_map.mpr ⟨h, List.mem_filter.mpr ⟨?_, by simpa using h0⟩, rfl⟩
      cases h <;> decide

/-- **C89**. After a move the picture that notebooks show (`_repr_svg_`) marks this move. -/
theorem C89_repr (Z : Zobrist) (b b' : Board) (mv : Mv) (hm : (absPos b.pos).Legal mv)
    (h : b.push Z (encode b.pos mv) = some b') : reprSvg b' = toSvg b'.pos (some (encode b.pos mv)) := by
  have hl : b'.lastMove = encode b.pos mv := by
    unfold Board.push at h
    obtain ⟨q, -, e⟩ := Option.map_eq_some_iff.mp h
    rw [← e]; rfl
  unfold reprSvg
  rw [hl, if_neg (encode_ne_zero hm.1.1)]

/-- **C89** fails for the side to move: the drawing does not tell it. -/
theorem C89_fails_turn (p : Position) (c : Color) (last : Option Move) : toSvg { p with turn := c } last = toSvg p last := rfl

/-- **C89** fails for passes: after a pass the square 1b is marked as if a piece had moved from 1b to 1b. -/
theorem C89_fails_pass (b b' : Board) (h : b.pushPass = some b') :
    Spec.Svg.marked (reprSvg b') = [(some 1, "#f6b94d".toList), (some 1, "#fdf0e3".toList)] := by
  obtain ⟨p, bk, e⟩ : ∃ p bk, b' = ⟨p, .pass bk :: b.hist⟩ := by
    unfold Board.pushPass at h
    split at h
    · cases h
    · exact ⟨_, _, (Option.some.inj h).symm⟩
  have e2 : reprSvg b' = toSvg b'.pos (some 129#32) := by
    rw [e]; rfl
  rw [e2, marked_eq]
  show List.filterMap _ [Item.rect (left (1 : Square).val) (top (1 : Square).val) _, Item.rect (left (1 : Square).val) (top (1 : Square).val) _] = _
  rw [List.filterMap_cons, mark_at, List.filterMap_cons, mark_at]
  rfl

/-! ### Concrete cases -/

/-- Black's promoted pawn on 5b and White's silver on 4d. -/
def drawnBoard (s : Square) : Option (Color × Kind) :=
  match s.val with
  | 80 => some (.black, .king) | 0 => some (.white, .king) | 37 => some (.black, .proPawn) | 30 => some (.white, .silver) | _ => none

def drawnHand : Color → Nat → Nat
  | .black, 0 => 16 | .black, 6 => 2 | .white, 4 => 1 | _, _ => 0

def drawnModel : Position := setPieces zeroKeys clear (fun s => pieceCode (drawnBoard s)) drawnHand

theorem drawnModel_ok : Inv zeroKeys drawnModel ∧ absPos drawnModel = ⟨drawnBoard, fun c h => drawnHand c h.code, .black⟩ ∧
    CheckOK drawnModel ∧ (absPos drawnModel).Regular :=
  setup_regular drawnBoard drawnHand 80 0 (by decide +kernel) (by decide +kernel) (fun c h => by cases c <;> cases h <;> decide)
    (by decide +kernel) (fun h => by cases h <;> decide +kernel) (by decide +kernel)

/-- The hypotheses of `C89_board` and `C89_hand` hold, and the column of Black, who holds two rooks and sixteen pawns, is as it should be. -/
example : Consistent drawnModel ∧ (∀ c h, (absPos drawnModel).hand c h ≤ 18) ∧
    (handTexts drawnModel .black).reverse.flatMap Spec.Svg.charsOf = "☗先手飛二歩十六".toList ∧
    Spec.Svg.column "☗先手飛二歩十六".toList = some (.black, [(.rook, 2), (.pawn, 16)]) := by
  refine ⟨drawnModel_ok.1.views, ?_, by decide +kernel, by decide +kernel⟩
  rw [drawnModel_ok.2.1]
  intro c h
  cases c <;> cases h <;> decide

/-- The hypothesis of `C89_fails_pass` holds. -/
example : ∃ b', (⟨drawnModel, []⟩ : Board).pushPass = some b' := by
  unfold Board.pushPass
  rw [if_neg (show ¬ (drawnModel.inCheck = true) by decide +kernel)]
  exact ⟨_, rfl⟩

/-- The hypotheses of `C89_repr` hold for a move of the promoted pawn. -/
example : (absPos drawnModel).Legal (.move 37 36 false) ∧
    ∃ b', (⟨drawnModel, []⟩ : Board).push zeroKeys (encode drawnModel (.move 37 36 false)) = some b' := by
  have hg : Csa.Good zeroKeys drawnModel := ⟨drawnModel_ok.1, drawnModel_ok.2.2.1, drawnModel_ok.2.2.2⟩
  have hm : (absPos drawnModel).Legal (.move 37 36 false) := Ki2.legal_listed hg (by decide +kernel)
  obtain ⟨p', e, -, -⟩ := hg.doMove hm
  exact ⟨hm, _, by simp [Board.push, e]; rfl⟩

end Verif.Svg
