import Verif.Model.Print
import Verif.Spec.Print
import Verif.Props.Csa
import Verif.Props.Parts

/-!
# C111: a printed board shows its position
-/

namespace Verif
open Spec Position Csa

variable (Z : Zobrist) (stof : List Char → Option Rat)

theorem printBoard_lines {p : Position} (hcode : ∀ s, p.piece s = pieceCode ((absPos p).board s)) (rest : List Char) :
    lines (printBoard p ++ rest) = printTop :: (dumpLines p ++ lines rest) := by
  have h : printBoard p ++ rest = joinLines (printTop :: dumpLines p) ++ rest := by
    unfold printBoard
    rw [toCsaPos_lines]
    show _ = (printTop ++ ['\n'] ++ joinLines (dumpLines p)) ++ rest
    simp
  rw [h, lines_join _ _ (by
    intro l hl
    rcases List.mem_cons.mp hl with rfl | hl
    · decide
    · exact dump_noNewline hcode l hl)]
  rfl

/-- **C111**: every square is shown in the line of its rank, by the three characters of what stands on it, below the digit of its file. -/
theorem C111_square {p : Position} (hcode : ∀ s, p.piece s = pieceCode ((absPos p).board s)) (s : Square) :
    ∃ top line : List Char, ∃ f r : Nat, (f : Int) = X s ∧ (r : Int) = Y s ∧ (lines (printBoard p))[0]? = some top ∧ (lines (printBoard p))[r + 1]? = some line ∧
      (∃ c, fileDigit r = some c ∧ line.take 2 = ['P', c]) ∧ top[3 + 3 * (8 - f)]? = fileDigit f ∧ (line.drop (2 + 3 * (8 - f))).take 3 = printed ((absPos p).board s) := by
  have e := printBoard_lines hcode []
  rw [List.append_nil] at e
  have hr : s.val % 9 < 9 := Nat.mod_lt _ (by decide)
  have hn : ∃ c, natChars (s.val % 9 + 1) = [c] ∧ fileDigit (s.val % 9) = some c := by
    generalize s.val % 9 = r at hr
    interval_cases r <;> exact ⟨_, rfl, rfl⟩
  obtain ⟨c, hn, hcr⟩ := hn
  refine ⟨printTop, csaRankLine p.piece (s.val % 9), s.val / 9, s.val % 9, by simp [X], by simp [Y], by rw [e]; rfl, ?_, ?_, ?_, ?_⟩
  · rw [e, List.getElem?_cons_succ, dumpLines, List.append_assoc, List.getElem?_append_left (by simpa using hr), List.getElem?_map,
      List.getElem?_range hr]
    rfl
  · refine ⟨c, hcr, ?_⟩
    unfold csaRankLine
    rw [hn]; rfl
  · clear hn hcr hr e; revert s; decide +kernel
  · have hc : ∀ v : Option (Color × Kind), csaCell (pieceCode v) = printed v := by
      intro v; rcases v with _ | ⟨c, k⟩
      · rfl
      · cases c <;> cases k <;> rfl
    have hlen : ∀ t, (csaCell (p.piece t)).length = 3 := by
      intro t; rw [hcode, hc]
      rcases (absPos p).board t with _ | ⟨c, k⟩
      · rfl
      · cases c <;> cases k <;> rfl
    have hd : ∀ (l : List Square) (n : Nat), ((l.flatMap fun t => csaCell (p.piece t)).drop (3 * n)) = (l.drop n).flatMap fun t => csaCell (p.piece t) := by
      intro l
      induction l with
      | nil => intro n; simp
      | cons a l ih =>
        intro n
        cases n with
        | zero => rfl
        | succ n =>
          rw [List.flatMap_cons, show 3 * (n + 1) = (csaCell (p.piece a)).length + 3 * n by rw [hlen]; omega, List.drop_length_add_append, ih]
          rfl
    have hrow : (Position.rankSquares (s.val % 9)).drop (8 - s.val / 9) = s :: (Position.rankSquares (s.val % 9)).drop (9 - s.val / 9) := by
      clear hn hcr hr e; revert s; decide +kernel
    unfold csaRankLine
    rw [hn, List.singleton_append, show 2 + 3 * (8 - s.val / 9) = 3 * (8 - s.val / 9) + 1 + 1 by omega]
    show List.take 3 (List.drop (3 * (8 - s.val / 9)) _) = _
    rw [hd, hrow, List.flatMap_cons, List.take_append_of_le_length (by rw [hlen]), List.take_of_length_le (by rw [hlen]), hcode, hc]

theorem handLines_printed (p : Position) (c : Color) : handLines (p.hand c) c = printedHand (absPos p) c := by
  have key : ∀ (f : Nat → List (List Char)), [0, 1, 2, 3, 4, 5, 6].flatMap f = handKinds.flatMap fun h => f h.code := fun _ => rfl
  have hm : ∀ (l : List HKind) (P : HKind → Bool) (f : HKind → List Char), (l.filter P).map f = l.flatMap fun h => if P h then [f h] else [] := by
    intro l P f
    induction l with
    | nil => rfl
    | cons a l ih => cases e : P a <;> simp [List.filter_cons, List.flatMap_cons, e, ih]
  unfold handLines printedHand
  rw [key, hm]
  congr 1
  funext h
  show (if (absPos p).hand c h ≠ 0 then _ else _) = _
  by_cases h0 : (absPos p).hand c h = 0
  · simp [h0]
  · rw [if_pos h0, if_pos (by simpa using Nat.pos_of_ne_zero h0)]
    unfold handLine
    cases h <;> rfl

/-- **C111**: below the board are the hands, Black's first, and then the side to move. -/
theorem C111_hands {p : Position} (hcode : ∀ s, p.piece s = pieceCode ((absPos p).board s)) :
    (lines (printBoard p)).drop 10 = printedHand (absPos p) .black ++ (printedHand (absPos p) .white ++ [[if p.turn = .black then '+' else '-'], []]) := by
  have e := printBoard_lines hcode []
  rw [List.append_nil] at e
  rw [e, List.drop_succ_cons, dumpLines, List.append_assoc, List.drop_left' (by simp), handLines_printed, handLines_printed]
  simp [lines, signChar]

/-- **C111**: read as a CSA record a printed board, whose first line is a comment there, sets up the position that it shows, with the first line as the comment
and without moves. -/
theorem C111_read {p : Position} (hcode : ∀ s, p.piece s = pieceCode ((absPos p).board s)) (hhand : ∀ c h, (absPos p).hand c h ≤ h.total) :
    ∃ s q, parse Z stof (printBoard p) = .ok s ∧ setSfen Z s.sfen = .ok q ∧ absPos q = absPos p ∧ q.gamePly = 1 ∧ s.pos = some q ∧ s.moves = [] ∧
      s.comment = "'  9  8  7  6  5  4  3  2  1\n".toList := by
  have e := printBoard_lines hcode []
  rw [List.append_nil] at e
  obtain ⟨b, eb, hb⟩ := dump_shows hcode
  obtain ⟨t, q, e1, hq⟩ := shows_read Z hcode hhand hb
  have h1 : parsePosition (dumpHead p ++ [[signChar p.turn]]) = .ok t := by rw [← dumpLines_head, parsePosition, eb, Out.bind_ok, e1]
  have hc : step Z stof {} printTop = .ok { comment := printTop ++ ['\n'] } := rfl
  have h2 : step Z stof { lines := dumpHead p, comment := printTop ++ ['\n'] } [signChar p.turn] =
      .ok { lines := dumpHead p ++ [[signChar p.turn]], comment := printTop ++ ['\n'], turnSeen := true, sfen := t, pos := some q } := by
    have : dispatch Z stof { lines := dumpHead p, comment := printTop ++ ['\n'] } [signChar p.turn] =
        .ok { lines := dumpHead p ++ [[signChar p.turn]], comment := printTop ++ ['\n'], turnSeen := true } := by
      cases p.turn <;> rfl
    rw [step, this, Out.bind_ok, if_pos ⟨rfl, rfl⟩, h1, Out.bind_ok, hq.text, Out.bind_ok]
  refine ⟨{ lines := dumpHead p ++ [[signChar p.turn]], comment := printTop ++ ['\n'], turnSeen := true, sfen := t, pos := some q }, q, ?_, hq.text, hq.same, hq.ply,
    rfl, rfl, rfl⟩
  unfold parse
  rw [e, dumpLines_head, run, hc, Out.bind_ok, List.append_assoc, run_plines Z stof (dumpHead p) (dumpHead_p p) _ rfl]
  show (step Z stof { lines := dumpHead p, comment := printTop ++ ['\n'] } [signChar p.turn]).bind _ = _
  rw [h2]
  rfl

/-- **C111**: boards that print alike have the same position. -/
theorem C111_injective {p p' : Position} (h : ∀ s, p.piece s = pieceCode ((absPos p).board s)) (hh : ∀ c h, (absPos p).hand c h ≤ h.total)
    (h' : ∀ s, p'.piece s = pieceCode ((absPos p').board s)) (hh' : ∀ c h, (absPos p').hand c h ≤ h.total) (e : printBoard p = printBoard p') :
    absPos p = absPos p' := by
  obtain ⟨s, q, e1, -, e2, -, e3, -⟩ := C111_read zeroKeys (fun _ => none) h hh
  obtain ⟨s', q', e1', -, e2', -, e3', -⟩ := C111_read zeroKeys (fun _ => none) h' hh'
  rw [e, e1'] at e1
  cases e1
  rw [e3'] at e3
  cases e3
  rw [← e2, e2']

/-- **C111**: in any game, two boards print alike exactly if they have the same pieces on the board and in hand and the same side to move. -/
theorem C111_same {Z Z' : Zobrist} {p p' : Position} (h : Inv Z p) (h' : Inv Z' p') : printBoard p = printBoard p' ↔ absPos p = absPos p' := by
  refine ⟨C111_injective h.views.code (fun c k => InSet.hand_le h.inSet c k) h'.views.code (fun c k => InSet.hand_le h'.inSet c k), fun e => ?_⟩
  have hp : p.piece = p'.piece := by funext s; rw [h.views.code, h'.views.code, e]
  have ht : p.turn = p'.turn := congrArg Pos.turn e
  unfold printBoard
  rw [toCsaPos_lines, toCsaPos_lines, dumpLines, dumpLines, handLines_printed, handLines_printed, handLines_printed, handLines_printed, hp, ht, e]

/-- A printed board. -/
example : (∀ s, handsModel.piece s = pieceCode ((absPos handsModel).board s)) ∧ printBoard handsModel =
    ("'  9  8  7  6  5  4  3  2  1\nP1 *  *  *  * -OU *  *  *  * \nP2 *  *  *  *  *  *  *  *  * \nP3 *  *  *  * +FU *  *  *  * \n" ++
    "P4 *  *  *  *  *  *  *  *  * \nP5 *  *  *  *  *  *  *  *  * \nP6 *  *  *  *  *  *  *  *  * \n" ++
    "P7 *  *  *  *  *  *  *  *  * \nP8 *  *  *  *  *  *  *  *  * \nP9 *  *  *  *  *  *  *  *  * \n" ++
    "P+00FU00FU00FU00FU00FU00FU00FU00FU00FU00FU00FU00FU00FU00FU00FU00FU00FU\nP+00HI\nP-00KI00KI00KI\n-\n").toList :=
  ⟨by decide +kernel, by decide +kernel⟩

end Verif
