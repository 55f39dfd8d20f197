import Verif.Model.Csa
import Verif.Lemmas.Sfen

/-!
# Lemmas on CSA records
-/

namespace Verif
namespace Csa
open Spec Position

/-! ### Lines -/

theorem lines_cons (l t : List Char) (h : '\n' ∉ l) : lines (l ++ '\n' :: t) = l :: lines t := by
  induction l with
  | nil => rw [List.nil_append, lines, if_pos rfl]
  | cons a l ih =>
    have ha : a ≠ '\n' := fun e => h (e ▸ List.mem_cons_self ..)
    rw [List.cons_append, lines, if_neg ha, ih fun hm => h (List.mem_cons_of_mem _ hm)]

/-- The text of some lines. -/
def joinLines (ls : List (List Char)) : List Char := ls.flatMap fun l => l ++ ['\n']

theorem lines_join (ls : List (List Char)) (t : List Char) (h : ∀ l ∈ ls, '\n' ∉ l) : lines (joinLines ls ++ t) = ls ++ lines t := by
  induction ls with
  | nil => rfl
  | cons a l ih =>
    have e : joinLines (a :: l) ++ t = a ++ '\n' :: (joinLines l ++ t) := by
      simp [joinLines, List.flatMap_cons, List.append_assoc]
    rw [e, lines_cons a _ (h a (by simp)), ih fun x hx => h x (by simp [hx])]
    rfl

/-! ### Cells -/

theorem csaCell_code (v : Option (Color × Kind)) : ∃ a b c, csaCell (pieceCode v) = [a, b, c] ∧ a ≠ '\n' ∧ b ≠ '\n' ∧ c ≠ '\n' ∧
    csaPiece [a, b, c] = some (pieceCode v) := by
  rcases v with _ | ⟨c, k⟩
  · exact ⟨' ', '*', ' ', rfl, by decide, by decide, by decide, by decide⟩
  · cases c <;> cases k <;> exact ⟨_, _, _, rfl, by decide, by decide, by decide, by decide⟩

/-- The board lines leave the cells as on the board. -/
def CellsOf (piece : Square → Piece) (r : Nat) (b : Block) : Prop :=
  ∀ f < 9, b.cells r f = some (piece (sqN (9 * (8 - f) + r)))

theorem drop_cells {α : Type} (cs : List (List α)) (h : ∀ c ∈ cs, c.length = 3) (i : Nat) (hi : i < cs.length) :
    (cs.flatten.drop (3 * i)).take 3 = cs[i] ∧ 3 * i ≤ cs.flatten.length := by
  induction cs generalizing i with
  | nil => simp at hi
  | cons a l ih =>
    have ha := h a (by simp)
    cases i with
    | zero => simp [← ha]
    | succ i =>
      obtain ⟨h1, h2⟩ := ih (fun c hc => h c (by simp [hc])) i (by simpa using hi)
      refine ⟨?_, ?_⟩
      · rw [List.flatten_cons, List.getElem_cons_succ, ← h1, show 3 * (i + 1) = a.length + 3 * i from by omega, List.drop_append,
          List.drop_eq_nil_of_le (by omega), List.nil_append]
        congr 2; omega
      · rw [List.flatten_cons, List.length_append]; omega

theorem rankCells_spec (line : List Char) (r : Nat) (piece : Square → Piece)
    (h : ∀ i < 9, substr line (2 + 3 * i) 3 = .ok (csaCell (piece (sqN (9 * (8 - i) + r)))))
    (hp : ∀ s, csaPiece (csaCell (piece s)) = some (piece s)) :
    ∀ n ≤ 9, ∀ b : Block, (∀ f < 9 - n, b.cells r f = some (piece (sqN (9 * (8 - f) + r)))) →
      ∃ b', rankCells line r n b = .ok b' ∧ CellsOf piece r b' ∧ (∀ r', r' ≠ r → b'.cells r' = b.cells r') ∧
        b'.hand = b.hand ∧ b'.turn = b.turn := by
  intro n
  induction n with
  | zero => intro _ b hb; exact ⟨b, rfl, fun f hf => hb f (by omega), fun _ _ => rfl, rfl, rfl⟩
  | succ n ih =>
    intro hn b hb
    rw [rankCells, h (8 - n) (by omega), Out.bind_ok, hp]
    obtain ⟨b', h1, h2, h3, h4, h5⟩ := ih (by omega) (b.put r (8 - n) (piece (sqN (9 * (8 - (8 - n)) + r)))) (by
      intro f hf
      unfold Block.put
      by_cases e : f = 8 - n
      · subst e; simp
      · simp only [e, and_false, if_false]; exact hb f (by omega))
    refine ⟨b', h1, h2, fun r' hr' => ?_, h4, h5⟩
    rw [h3 r' hr']
    funext f
    simp [Block.put, hr']

theorem rankLine_spec (piece : Square → Piece) (v : Square → Option (Color × Kind)) (hv : ∀ s, piece s = pieceCode (v s))
    {r : Nat} (hr : r < 9) (b : Block) :
    ∃ b', positionLine (csaRankLine piece r) b = .ok b' ∧ CellsOf piece r b' ∧ (∀ r', r' ≠ r → b'.cells r' = b.cells r') ∧
        b'.hand = b.hand ∧ b'.turn = b.turn := by
  have hcell : ∀ s, (csaCell (piece s)).length = 3 ∧ csaPiece (csaCell (piece s)) = some (piece s) := by
    intro s
    obtain ⟨x, y, z, e, -, -, -, e'⟩ := csaCell_code (v s)
    rw [hv s, e]; exact ⟨rfl, e'⟩
  have hline : csaRankLine piece r = 'P' :: digitCh (r + 1) :: ((rankSquares r).map fun s => csaCell (piece s)).flatten := by
    unfold csaRankLine
    rw [natChars, natCharsF]
    by_cases h : r + 1 < 10
    · rw [if_pos h, List.flatMap_def]; rfl
    · omega
  have hsub : ∀ i < 9, substr (csaRankLine piece r) (2 + 3 * i) 3 = .ok (csaCell (piece (sqN (9 * (8 - i) + r)))) := by
    intro i hi
    have hl : ((rankSquares r).map fun s => csaCell (piece s)).length = 9 := rfl
    obtain ⟨h1, h2⟩ := drop_cells ((rankSquares r).map fun s => csaCell (piece s))
      (by intro c hc; obtain ⟨s, -, rfl⟩ := List.mem_map.mp hc; exact (hcell s).1) i (by rw [hl]; exact hi)
    rw [hline]
    unfold substr
    rw [if_pos (by simp only [List.length_cons]; omega), show 2 + 3 * i = 3 * i + 1 + 1 from by omega, List.drop_succ_cons,
      List.drop_succ_cons, h1]
    congr 1
    rw [List.getElem_map]
    congr 2
    interval_cases i <;> rfl
  have hd : ('1' ≤ digitCh (r + 1) ∧ digitCh (r + 1) ≤ '9') ∧ (digitCh (r + 1)).toNat - 49 = r ∧ digitCh (r + 1) ≠ '+' ∧
      digitCh (r + 1) ≠ '-' ∧ digitCh (r + 1) ≠ 'I' := by
    interval_cases r <;> decide
  obtain ⟨b', h⟩ := rankCells_spec (csaRankLine piece r) r piece hsub (fun s => (hcell s).2) 9 le_rfl b (by intro f hf; omega)
  refine ⟨b', ?_, h.2⟩
  rw [← h.1]
  rw [hline]
  unfold positionLine
  split <;> simp_all

/-! ### Hands -/

/-- `n` pieces added to a hand. -/
def Block.addN (b : Block) (pc : Piece) (n : Nat) : Block :=
  { b with hand := fun q => if q = pc then b.hand q + n else b.hand q }

theorem addN_zero (b : Block) (pc : Piece) : b.addN pc 0 = b := by
  unfold Block.addN; simp

theorem addHand_addN (b : Block) (pc : Piece) (n : Nat) : (b.addHand pc).addN pc n = b.addN pc (n + 1) := by
  unfold Block.addHand Block.addN
  congr 1
  funext q
  by_cases h : q = pc <;> simp [h]; omega

theorem placeHand (sign k0 k1 : Char) (pc : Piece) (h : csaPiece [sign, k0, k1] = some pc) (n : Nat) (b : Block) :
    placePieces sign (List.replicate n ['0', '0', k0, k1]).flatten b = .ok (b.addN pc n) := by
  induction n generalizing b with
  | zero => rw [addN_zero]; rfl
  | succ n ih =>
    rw [List.replicate_succ, List.flatten_cons]
    show placePieces sign ('0' :: '0' :: k0 :: k1 :: (List.replicate n ['0', '0', k0, k1]).flatten) b = _
    rw [placePieces, if_neg (by decide)]
    simp only [h]
    rw [if_pos (by decide), ih, addHand_addN]

/-- The line of a kind in hand. -/
def handLine (h : Hand) (c : Color) (hp : Nat) : List Char :=
  'P' :: signChar c :: (List.replicate (h.numOf hp) ('0' :: '0' :: csaHandName hp)).flatten

/-- The lines of a hand. -/
def handLines (h : Hand) (c : Color) : List (List Char) :=
  [0, 1, 2, 3, 4, 5, 6].flatMap fun hp => if h.numOf hp ≠ 0 then [handLine h c hp] else []

theorem printHand_lines (h : Hand) (c : Color) : printHand h c = joinLines (handLines h c) := by
  unfold printHand handLines joinLines
  rw [List.flatMap_assoc]
  congr 1
  funext hp
  unfold printHandPiece
  split
  · simp [handLine]
  · rfl

theorem handName (c : Color) {hp : Nat} (h : hp < 7) : ∃ k0 k1, csaHandName hp = [k0, k1] ∧ k0 ≠ '\n' ∧ k1 ≠ '\n' ∧
    csaPiece [signChar c, k0, k1] = some (mkPiece c (handToPt hp)) := by
  cases c <;> interval_cases hp <;> exact ⟨_, _, rfl, by decide, by decide, by decide⟩

theorem handLine_spec (h : Hand) (c : Color) {hp : Nat} (hh : hp < 7) (b : Block) :
    positionLine (handLine h c hp) b = .ok (b.addN (mkPiece c (handToPt hp)) (h.numOf hp)) := by
  obtain ⟨k0, k1, e, -, -, e'⟩ := handName c hh
  unfold handLine
  rw [e]
  have := placeHand (signChar c) k0 k1 _ e' (h.numOf hp) b
  cases c <;> exact this

theorem positionLines_append (l l' : List (List Char)) (b : Block) :
    positionLines (l ++ l') b = (positionLines l b).bind (positionLines l') := by
  induction l generalizing b with
  | nil => rfl
  | cons a l ih =>
    rw [List.cons_append, positionLines, positionLines]
    cases positionLine a b
    · rw [Out.bind_ok, Out.bind_ok, ih]
    · rfl
    · rfl

/-- All hand pieces of a side added. -/
def addHandOf (h : Hand) (c : Color) (l : List Nat) (b : Block) : Block :=
  l.foldl (fun b hp => b.addN (mkPiece c (handToPt hp)) (h.numOf hp)) b

theorem handLines_fold (h : Hand) (c : Color) (l : List Nat) (hl : ∀ i ∈ l, i < 7) (b : Block) :
    positionLines (l.flatMap fun hp => if h.numOf hp ≠ 0 then [handLine h c hp] else []) b = .ok (addHandOf h c l b) := by
  induction l generalizing b with
  | nil => rfl
  | cons a l ih =>
    rw [List.flatMap_cons, positionLines_append]
    have ih' := fun b => ih (fun i hi => hl i (by simp [hi])) b
    by_cases h0 : h.numOf a = 0
    · rw [if_neg (by simp [h0])]
      show (Out.ok b).bind _ = _
      rw [Out.bind_ok, ih']
      unfold addHandOf
      rw [List.foldl_cons, h0, addN_zero]
    · rw [if_pos h0, positionLines, handLine_spec h c (hl a (by simp)), Out.bind_ok]
      show (Out.ok _).bind _ = _
      rw [Out.bind_ok, ih']
      rfl

/-! ### A block that shows a position -/

/-- The block has the placement, hands and side to move of the position. -/
structure Shows (p : Position) (b : Block) : Prop where
  cells : ∀ r < 9, CellsOf p.piece r b
  hand : ∀ c, ∀ i < 7, b.hand (mkPiece c (handToPt i)) = (p.hand c).numOf i
  other : ∀ c, ∀ k < 7, b.hand (mkPiece c (k + 8)) = 0
  turn : b.turn = some p.turn

theorem rankLines_spec (piece : Square → Piece) (v : Square → Option (Color × Kind)) (hv : ∀ s, piece s = pieceCode (v s)) (n : Nat)
    (hn : n ≤ 9) (b : Block) : ∃ b', positionLines ((List.range n).map (csaRankLine piece)) b = .ok b' ∧
      (∀ r < n, CellsOf piece r b') ∧ b'.hand = b.hand ∧ b'.turn = b.turn := by
  induction n with
  | zero => exact ⟨b, rfl, by omega, rfl, rfl⟩
  | succ n ih =>
    obtain ⟨b1, e1, h1, h2, h3⟩ := ih (by omega)
    obtain ⟨b2, e2, g1, g2, g3, g4⟩ := rankLine_spec piece v hv (r := n) (by omega) b1
    refine ⟨b2, ?_, fun r hr => ?_, g3.trans h2, g4.trans h3⟩
    · rw [List.range_succ, List.map_append, positionLines_append, e1, Out.bind_ok]
      show (positionLine (csaRankLine piece n) b1).bind _ = _
      rw [e2]; rfl
    · by_cases e : r = n
      · rw [e]; exact g1
      · intro f hf
        rw [g2 r e]
        exact h1 r (by omega) f hf

/-- The lines of the dump. -/
def dumpLines (p : Position) : List (List Char) :=
  (List.range 9).map (csaRankLine p.piece) ++ (handLines (p.hand .black) .black ++ (handLines (p.hand .white) .white ++ [[signChar p.turn]]))

theorem joinLines_append (a b : List (List Char)) : joinLines (a ++ b) = joinLines a ++ joinLines b := List.flatMap_append

theorem toCsaPos_lines (p : Position) : toCsaPos p = joinLines (dumpLines p) := by
  unfold dumpLines toCsaPos
  rw [joinLines_append, joinLines_append, joinLines_append, printHand_lines, printHand_lines]
  congr 1

theorem dump_noNewline {p : Position} (hcode : ∀ s, p.piece s = pieceCode ((absPos p).board s)) : ∀ l ∈ dumpLines p, '\n' ∉ l := by
  intro l hl
  unfold dumpLines at hl
  have hh : ∀ c, ∀ l ∈ handLines (p.hand c) c, '\n' ∉ l := by
    intro c l hl
    unfold handLines at hl
    obtain ⟨hp, h7, hl⟩ := List.mem_flatMap.mp hl
    have h7 : hp < 7 := by
      simp only [List.mem_cons, List.not_mem_nil, or_false] at h7; omega
    split at hl
    · rw [List.mem_singleton.mp hl]
      obtain ⟨k0, k1, e, n0, n1, -⟩ := handName c h7
      unfold handLine
      rw [e]
      intro hm
      rcases List.mem_cons.mp hm with e | hm
      · exact absurd e (by decide)
      · rcases List.mem_cons.mp hm with e | hm
        · cases c <;> exact absurd e (by decide)
        · obtain ⟨x, hx, hm⟩ := List.mem_flatten.mp hm
          rw [List.eq_of_mem_replicate hx] at hm
          simp only [List.mem_cons, List.not_mem_nil, or_false] at hm
          rcases hm with e | e | e | e
          · exact absurd e (by decide)
          · exact absurd e (by decide)
          · exact n0 e.symm
          · exact n1 e.symm
    · cases hl
  rcases List.mem_append.mp hl with hl | hl
  · obtain ⟨r, hr, rfl⟩ := List.mem_map.mp hl
    intro hm
    unfold csaRankLine at hm
    rcases List.mem_cons.mp hm with e | hm
    · exact absurd e (by decide)
    · rcases List.mem_append.mp hm with hm | hm
      · exact absurd (natChars_isDigit _ hm) (by decide)
      · obtain ⟨s, -, hm⟩ := List.mem_flatMap.mp hm
        obtain ⟨x, y, z, e, n0, n1, n2, -⟩ := csaCell_code ((absPos p).board s)
        rw [hcode s, e] at hm
        simp only [List.mem_cons, List.not_mem_nil, or_false] at hm
        rcases hm with e | e | e
        · exact n0 e.symm
        · exact n1 e.symm
        · exact n2 e.symm
  · rcases List.mem_append.mp hl with hl | hl
    · exact hh _ l hl
    · rcases List.mem_append.mp hl with hl | hl
      · exact hh _ l hl
      · rw [List.mem_singleton.mp hl]
        intro hm
        have := List.mem_singleton.mp hm
        cases h : p.turn <;> rw [h] at this <;> exact absurd this (by decide)

/-- Reading the dump's lines gives a block that shows the position. -/
theorem dump_shows {p : Position} (hcode : ∀ s, p.piece s = pieceCode ((absPos p).board s)) :
    ∃ b, positionLines (dumpLines p) Block.empty = .ok b ∧ Shows p b := by
  obtain ⟨b1, e1, h1, h2, h3⟩ := rankLines_spec p.piece _ hcode 9 le_rfl Block.empty
  have e2 := handLines_fold (p.hand .black) .black [0, 1, 2, 3, 4, 5, 6] (by decide) b1
  obtain ⟨b2, hb2⟩ : ∃ x, x = addHandOf (p.hand .black) .black [0, 1, 2, 3, 4, 5, 6] b1 := ⟨_, rfl⟩
  have e3 := handLines_fold (p.hand .white) .white [0, 1, 2, 3, 4, 5, 6] (by decide) b2
  obtain ⟨b3, hb3⟩ : ∃ x, x = addHandOf (p.hand .white) .white [0, 1, 2, 3, 4, 5, 6] b2 := ⟨_, rfl⟩
  rw [← hb2] at e2
  rw [← hb3] at e3
  have hc : b3.cells = b1.cells := by rw [hb3, hb2]; rfl
  have hz : ∀ q, b1.hand q = 0 := by intro q; rw [h2]; rfl
  refine ⟨{ b3 with turn := some p.turn }, ?_, ⟨?_, ?_, ?_, rfl⟩⟩
  · unfold dumpLines
    rw [positionLines_append, e1, Out.bind_ok, positionLines_append]
    show (positionLines (handLines _ _) _).bind _ = _
    unfold handLines
    rw [e2, Out.bind_ok, positionLines_append, e3, Out.bind_ok]
    cases p.turn <;> rfl
  · intro r hr f hf
    show b3.cells r f = _
    rw [hc]; exact h1 r hr f hf
  · intro c i hi
    show b3.hand _ = _
    rw [hb3, hb2]
    cases c <;> interval_cases i <;>
      simp [addHandOf, Block.addN, mkPiece, handToPt, Color.idx, hz]
  · intro c k hk
    show b3.hand _ = _
    rw [hb3, hb2]
    cases c <;> interval_cases k <;>
      simp [addHandOf, Block.addN, mkPiece, handToPt, Color.idx, hz]

/-! ### Writing the block as SFEN -/

theorem sfenCells_rank (piece : Square → Piece) (l : List Square) (n : Nat) :
    sfenCells (l.map fun s => some (piece s)) n = .ok (sfenRank piece l n) := by
  induction l generalizing n with
  | nil =>
    simp only [List.map_nil, sfenCells, sfenRank, sfenSpace]
    congr 1
    by_cases h : n = 0
    · subst h; rfl
    · rw [if_pos (by omega), if_pos h]
  | cons s l ih =>
    rw [List.map_cons, sfenCells, sfenRank]
    by_cases h : piece s = 0
    · rw [if_pos h, if_pos h, ih]
    · rw [if_neg h, if_neg h, ih, Out.bind_ok]
      congr 2
      unfold sfenSpace
      by_cases h : n = 0
      · subst h; rfl
      · rw [if_pos (by omega), if_pos h]

theorem rank_cells {piece : Square → Piece} {r : Nat} {b : Block} (h : CellsOf piece r b) :
    (List.range 9).map (b.cells r) = (rankSquares r).map fun s => some (piece s) := by
  have e : rankSquares r = (List.range 9).map fun f => sqN (9 * (8 - f) + r) := rfl
  rw [e, List.map_map]
  apply List.map_congr_left
  intro f hf
  exact h f (List.mem_range.mp hf)

theorem sfenRanks_board {p : Position} {b : Block} (h : ∀ r < 9, CellsOf p.piece r b) (n : Nat) (hn : n ≤ 9) :
    sfenRanks b n = .ok (((List.range n).map (9 - n + ·)).flatMap fun r =>
      sfenRank p.piece (rankSquares r) 0 ++ (if r ≠ 8 then ['/'] else [])) := by
  induction n with
  | zero => rfl
  | succ n ih =>
    rw [sfenRanks, rank_cells (h (8 - n) (by omega)), sfenCells_rank, Out.bind_ok, ih (by omega), Out.bind_ok]
    congr 1
    rw [List.range_succ_eq_map, List.map_cons, List.flatMap_cons, List.append_assoc]
    rw [show 9 - (n + 1) + 0 = 8 - n from by omega]
    congr 3
    rw [List.map_map]
    apply List.map_congr_left
    intro a _
    show 9 - n + a = 9 - (n + 1) + (a + 1)
    omega

theorem blockSfen_spec {p : Position} {b : Block} (h : Shows p b) :
    blockSfen b = .ok (sfenBoard p.piece ++ (' ' :: (if p.turn = .black then 'b' else 'w') :: ' ' :: (sfenHands b.hand ++ [' ', '1']))) := by
  unfold blockSfen
  rw [sfenRanks_board h.cells 9 le_rfl, Out.bind_ok, h.turn]
  simp only
  have e : ((List.range 9).map (9 - 9 + ·)) = List.range 9 := by decide
  rw [e]
  unfold sfenBoard
  cases p.turn <;> rfl

/-- The order of the pieces in hand in the parser's text. -/
def csaOrder : List Nat := [0, 1, 2, 3, 5, 6, 4]

theorem hands_text {p : Position} {b : Block} (h : Shows p b) (rest : List Char) (q : Position) (hq : q.hand = fun _ => Hand.empty)
    (hnum : ∀ c, ∀ i < 7, (p.hand c).numOf i ≤ setSize i) :
    readHands (sfenHands b.hand ++ ' ' :: rest) q 0 = .ok ({ q with hand := fun c => fillHand (p.hand c).numOf csaOrder }, some rest) := by
  have hb : ∀ c, ∀ i < 7, b.hand (mkPiece c (handToPt i)) = (p.hand c).numOf i := h.hand
  have key : ∀ c, (csaOrder.flatMap fun hp =>
        let num := (p.hand c).numOf hp
        if num = 0 then [] else (if num ≠ 1 then natChars num else []) ++ usiChars (mkPiece c (handToPt hp))) =
      (csaOrder.map fun hp => mkPiece c (handToPt hp)).flatMap fun pc =>
        if b.hand pc ≥ 1 then (if b.hand pc > 1 then natChars (b.hand pc) else []) ++ usiChars pc else [] := by
    intro c
    rw [List.flatMap_map]
    have : ∀ hp ∈ csaOrder, hp < 7 := by decide
    rw [List.flatMap_def, List.flatMap_def]
    congr 1
    apply List.map_congr_left
    intro hp hm
    simp only [hb c hp (this hp hm)]
    by_cases h0 : (p.hand c).numOf hp = 0
    · simp [h0]
    · have h2 : (p.hand c).numOf hp ≥ 1 := by omega
      simp only [if_neg h0, if_pos h2]
      congr 1
      by_cases h1 : (p.hand c).numOf hp = 1
      · simp [h1]
      · have h3 : (p.hand c).numOf hp > 1 := by omega
        simp only [ne_eq, h1, not_false_eq_true, if_true, h3]
  have hsplit : handPieces = (csaOrder.map fun hp => mkPiece .black (handToPt hp)) ++ ((List.range 7).map (fun k => mkPiece .black (k + 8)) ++
      ((csaOrder.map fun hp => mkPiece .white (handToPt hp)) ++ (List.range 7).map (fun k => mkPiece .white (k + 8)))) := by decide
  have hnone : ∀ c, (((List.range 7).map (fun k => mkPiece c (k + 8))).flatMap fun pc =>
      if b.hand pc ≥ 1 then (if b.hand pc > 1 then natChars (b.hand pc) else []) ++ usiChars pc else []) = [] := by
    intro c
    rw [List.flatMap_eq_nil_iff]
    intro pc hm
    obtain ⟨k, hk, rfl⟩ := List.mem_map.mp hm
    rw [if_neg (by rw [h.other c k (List.mem_range.mp hk)]; omega)]
  unfold sfenHands
  split
  · next hall =>
    have hz : ∀ c, ∀ i < 7, (p.hand c).numOf i = 0 := by
      intro c i hi
      rw [← hb c i hi]
      have := List.all_eq_true.mp hall (mkPiece c (handToPt i)) (by cases c <;> interval_cases i <;> decide)
      simpa using this
    have hf : (fun c => fillHand (p.hand c).numOf csaOrder) = fun _ => Hand.empty := by
      funext c
      have e : fillHand (p.hand c).numOf csaOrder = fillHand (fun _ => 0) csaOrder := by
        unfold fillHand
        apply List.foldl_ext
        intro a i hi
        have : ∀ hp ∈ csaOrder, hp < 7 := by decide
        rw [hz c i (this i hi)]
      rw [e]; decide
    rw [hf]
    show readHands ('-' :: ' ' :: rest) q 0 = _
    rw [readHands, if_neg (by decide), if_pos rfl, readHands, if_pos rfl]
  · rw [hsplit, List.flatMap_append, List.flatMap_append, List.flatMap_append, hnone, hnone, List.append_nil, List.nil_append,
      ← key, ← key, List.append_assoc]
    exact readHands_items p csaOrder (by decide) hnum rest q hq

/-- Setting up the text the parser writes for a block that shows a position. -/
theorem shows_spec (Z : Zobrist) {p : Position} (hcode : ∀ s, p.piece s = pieceCode ((absPos p).board s))
    (hhand : ∀ c h, (absPos p).hand c h ≤ h.total) {b : Block} (h : Shows p b) :
    ∃ t q, blockSfen b = .ok t ∧ setSfen Z t = .ok (finish Z q) ∧ Raw q (absPos p).board ∧ q.turn = p.turn ∧ q.gamePly = 1 ∧ q.prev = [] ∧
      (∀ c, (q.hand c).WF ∧ ∀ i < 7, (q.hand c).numOf i = (p.hand c).numOf i) ∧
      q.st.pliesFromNull = 0 ∧ q.st.continuousCheck = fun _ => 0 := by
  have hnum : ∀ c, ∀ i < 7, (p.hand c).numOf i ≤ setSize i := by
    intro c i hi
    obtain ⟨h, rfl⟩ := hcode_surj i hi
    rw [← total_eq]; exact hhand c h
  obtain ⟨q, hq⟩ := text_spec Z hcode hnum 1 (by decide) (by decide) csaOrder (by decide) (by decide) (by decide)
    (sfenHands b.hand ++ [' ', '1']) (fun q hq => hands_text h ['1'] q hq hnum)
  exact ⟨_, q, blockSfen_spec h, hq⟩

end Csa
end Verif
