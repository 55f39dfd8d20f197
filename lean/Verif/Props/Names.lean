import Verif.Model.Names
import Verif.Spec.Names
import Verif.Props.Parts
import Verif.Props.MoveText
import Verif.Props.Views

/-!
# C110: squares, pieces and colours taken apart and named
-/

namespace Verif
open Spec Position Names

/-- **C110**: `make_file` and `make_rank` are the coordinates of the square; outside the board nothing is promised. -/
theorem C110_square :
    (∀ s : Square, ∃ f r : Nat, makeFile (s.val : Int) = .ok f ∧ makeRank (s.val : Int) = .ok r ∧ (f : Int) = X s ∧ (r : Int) = Y s) ∧
      ∀ n : Int, n < 0 ∨ 81 ≤ n → makeFile n = .ub ∧ makeRank n = .ub := by
  refine ⟨fun s => ⟨s.val / 9, s.val % 9, ?_, ?_, ?_, ?_⟩, fun n hn => ?_⟩
  · revert s; decide +kernel
  · revert s; decide +kernel
  · simp [X]
  · simp [Y]
  · unfold makeFile makeRank entry
    by_cases h : n < 0
    · simp [h]
    · have h81 : 81 ≤ n.toNat := by omega
      rw [if_neg h, if_neg h, List.getElem?_eq_none (by simpa [squareToFile] using h81), List.getElem?_eq_none (by simpa [squareToRank] using h81)]
      exact ⟨rfl, rfl⟩

/-- **C110**: a square is known by its file and its rank, and every file and rank have one. -/
theorem C110_coordinates :
    (∀ s t : Square, makeFile (s.val : Int) = makeFile (t.val : Int) → makeRank (s.val : Int) = makeRank (t.val : Int) → s = t) ∧
      ∀ f r : Nat, f < 9 → r < 9 → ∃ s : Square, makeFile (s.val : Int) = .ok f ∧ makeRank (s.val : Int) = .ok r := by
  have key := C110_square.1
  constructor
  · intro s t hf hr
    obtain ⟨f, r, e1, e2, e3, e4⟩ := key s
    obtain ⟨f', r', e1', e2', e3', e4'⟩ := key t
    rw [e1, e1'] at hf; rw [e2, e2'] at hr
    cases hf; cases hr
    apply Fin.ext
    simp only [X, Y] at e3 e4 e3' e4'
    omega
  · intro f r hf hr
    obtain ⟨f', r', e1, e2, e3, e4⟩ := key ⟨9 * f + r, by omega⟩
    refine ⟨⟨9 * f + r, by omega⟩, ?_, ?_⟩
    · rw [e1]; simp only [X] at e3; congr 1; omega
    · rw [e2]; simp only [Y] at e4; congr 1; omega

/-- **C110**: turned by 180 degrees (`80 - sq`) file and rank are counted from the other side. -/
theorem C110_turned (s : Square) : ∃ f r : Nat, makeFile (s.val : Int) = .ok f ∧ makeRank (s.val : Int) = .ok r ∧
    makeFile (80 - s.val : Int) = .ok (8 - f) ∧ makeRank (80 - s.val : Int) = .ok (8 - r) := by
  obtain ⟨f, r, e1, e2, e3, e4⟩ := C110_square.1 s
  have hs : (80 - s.val : Int) = (((⟨80 - s.val, by omega⟩ : Square).val : Nat) : Int) := by simp only; omega
  obtain ⟨f', r', e1', e2', e3', e4'⟩ := C110_square.1 ⟨80 - s.val, by omega⟩
  refine ⟨f, r, e1, e2, ?_, ?_⟩
  · rw [hs, e1']; simp only [X] at e3 e3'; congr 1; omega
  · rw [hs, e2']; simp only [Y] at e4 e4'; congr 1; omega

/-- **C110**: `SQUARE_NAMES` has a name for every square, the digit of its file and the letter of its rank, and these are what `move_to_usi` writes: the
target, and before it the source of a piece that moves. -/
theorem C110_names :
    squareNames.length = 81 ∧
    (∀ s : Square, ∃ (d l : Char) (f r : Nat), squareNames[s.val]? = some [d, l] ∧ makeFile (s.val : Int) = .ok f ∧ makeRank (s.val : Int) = .ok r ∧
      fileDigit f = some d ∧ rankLetter r = some l) ∧
    (∀ (p : Position) (s t : Square) (pro : Bool), (absPos p).Pseudo (.move s t pro) → ∃ a b : List Char, squareNames[s.val]? = some a ∧
      squareNames[t.val]? = some b ∧ (encode p (.move s t pro)).toUSI = some (a ++ b ++ if pro then ['+'] else [])) ∧
    ∀ (p : Position) (k : HKind) (t : Square), (absPos p).Pseudo (.drop k t) → ∃ b : List Char, squareNames[t.val]? = some b ∧
      (encode p (.drop k t)).toUSI = some (k.kind.capitals ++ ['*'] ++ b) := by
  have key : ∀ s : Square, squareNames[s.val]? = some [Char.ofNat (49 + s.val / 9), Char.ofNat (97 + s.val % 9)] := by decide +kernel
  refine ⟨rfl, fun s => ⟨_, _, s.val / 9, s.val % 9, key s, ?_, ?_, ?_, ?_⟩, fun p s t pro h => ⟨_, _, key s, key t, ?_⟩, fun p k t h => ⟨_, key t, ?_⟩⟩
  · revert s; decide +kernel
  · revert s; decide +kernel
  · revert s; decide +kernel
  · revert s; decide +kernel
  · rw [toUSI_encode h]; rfl
  · rw [toUSI_encode h]; cases k <;> rfl

/-- **C110**: `piece_to_piece_type` of what `Board.pieces` shows is the number of the kind that stands there, 0 on an empty square, and the piece itself is told
by it and the colour. -/
theorem C110_piece {p : Position} (h : Consistent p) (s : Square) :
    (∀ c k, (absPos p).board s = some (c, k) → pieceToPieceType (p.pieces s : Int) = k.number ∧
      ∃ t : List Char, pieceSymbols[(pieceToPieceType (p.pieces s : Int)).toNat]? = some t ∧ t.map Char.toUpper = k.capitals) ∧
    ((absPos p).board s = none ↔ pieceToPieceType (p.pieces s : Int) = 0) := by
  rw [(C73_read h).1 s]
  constructor
  · intro c k e
    rw [e]
    have : pieceToPieceType (pieceNumber (some (c, k)) : Int) = k.number := by cases c <;> cases k <;> rfl
    rw [this]
    exact ⟨rfl, by cases k <;> exact ⟨_, rfl, by decide⟩⟩
  · rcases (absPos p).board s with _ | ⟨c, k⟩
    · simp [pieceNumber, pieceToPieceType]
    · simp only [reduceCtorEq, false_iff]
      cases c <;> cases k <;> decide

/-- **C110**: the SFEN of a piece is its `PIECE_SYMBOLS` entry, in capitals if it is Black's. -/
theorem C110_symbols (c : Color) (k : Kind) : ∃ t : List Char, pieceSymbols[(pieceToPieceType (pieceNumber (some (c, k)) : Int)).toNat]? = some t ∧
    usiChars (pieceNumber (some (c, k))) = if c = .black then t.map Char.toUpper else t := by
  cases c <;> cases k <;> exact ⟨_, rfl, by decide⟩

/-- **C110**: entry `hp` of the lists of pieces in hand counts the pieces whose type is `hand_piece_to_piece_type(hp)`; `HAND_PIECE_SYMBOLS` names them and, if
the set of pieces is that of the game, `MAX_PIECES_IN_HAND` bounds their number. -/
theorem C110_hand (p : Position) (c : Color) (hp : Nat) (hlt : hp < 7) :
    ∃ k : HKind, handPieceToPieceType (hp : Int) = .ok k.kind.number ∧ (p.piecesInHand c)[hp]? = some ((absPos p).hand c k) ∧
      handPieceSymbols[hp]? = pieceSymbols[k.kind.number]? ∧ maxPiecesInHand[hp]? = some k.total ∧
      ((absPos p).InSet → ∃ m : Nat, maxPiecesInHand[hp]? = some m ∧ (absPos p).hand c k ≤ m) := by
  suffices hs : ∃ k : HKind, handPieceToPieceType (hp : Int) = .ok k.kind.number ∧ handKinds[hp]? = some k ∧
      handPieceSymbols[hp]? = pieceSymbols[k.kind.number]? ∧ maxPiecesInHand[hp]? = some k.total by
    obtain ⟨k, h1, h2, h3, h4⟩ := hs
    refine ⟨k, h1, ?_, h3, h4, fun hi => ⟨_, h4, InSet.hand_le hi c k⟩⟩
    rw [piecesInHand_eq, List.getElem?_map, h2]; rfl
  interval_cases hp
  · exact ⟨.pawn, rfl, rfl, rfl, rfl⟩
  · exact ⟨.lance, rfl, rfl, rfl, rfl⟩
  · exact ⟨.knight, rfl, rfl, rfl, rfl⟩
  · exact ⟨.silver, rfl, rfl, rfl, rfl⟩
  · exact ⟨.gold, rfl, rfl, rfl, rfl⟩
  · exact ⟨.bishop, rfl, rfl, rfl, rfl⟩
  · exact ⟨.rook, rfl, rfl, rfl, rfl⟩

/-- **C110**: every kind that can be in hand has exactly one entry. -/
theorem C110_hand_all (k : HKind) : ∃ hp : Nat, hp < 7 ∧ handPieceToPieceType (hp : Int) = .ok k.kind.number ∧
    ∀ n : Int, handPieceToPieceType n = .ok k.kind.number → n = hp := by
  have out : ∀ n : Int, n < 0 ∨ 7 ≤ n → handPieceToPieceType n = .ub := by
    intro n hn
    unfold handPieceToPieceType entry
    by_cases h : n < 0
    · simp [h]
    · rw [if_neg h, List.getElem?_eq_none (by simp only [List.length_cons, List.length_nil]; omega)]
  have uniq : ∀ (hp : Nat), handPieceToPieceType (hp : Int) = .ok k.kind.number → hp < 7 →
      (∀ m : Fin 7, handPieceToPieceType (m.val : Int) = .ok k.kind.number → m.val = hp) →
      ∀ n : Int, handPieceToPieceType n = .ok k.kind.number → n = hp := by
    intro hp _ _ hm n hn
    by_cases h : n < 0 ∨ 7 ≤ n
    · rw [out n h] at hn; cases hn
    · have e : n = ((⟨n.toNat, by omega⟩ : Fin 7).val : Int) := by simp only; omega
      rw [e] at hn
      have := hm _ hn
      simp only at this
      omega
  cases k
  · exact ⟨0, by decide, rfl, uniq 0 rfl (by decide) (by decide)⟩
  · exact ⟨1, by decide, rfl, uniq 1 rfl (by decide) (by decide)⟩
  · exact ⟨2, by decide, rfl, uniq 2 rfl (by decide) (by decide)⟩
  · exact ⟨3, by decide, rfl, uniq 3 rfl (by decide) (by decide)⟩
  · exact ⟨4, by decide, rfl, uniq 4 rfl (by decide) (by decide)⟩
  · exact ⟨5, by decide, rfl, uniq 5 rfl (by decide) (by decide)⟩
  · exact ⟨6, by decide, rfl, uniq 6 rfl (by decide) (by decide)⟩

/-- **C110**: `opponent` is the other colour. -/
theorem C110_opponent (c : Color) :
    (∃ d : Color, d ≠ c ∧ opponent (c.idx : Int) = d.idx) ∧ opponent (opponent (c.idx : Int)) = c.idx ∧ opponent (c.idx : Int) ≠ c.idx := by
  cases c
  · exact ⟨⟨.white, by decide, rfl⟩, by decide, by decide⟩
  · exact ⟨⟨.black, by decide, rfl⟩, by decide, by decide⟩

/-- **C110**: after `push` of a move that can be carried out, and after `push_pass`, `Board.turn` is the `opponent` of what it was. -/
theorem C110_turn (Z : Zobrist) (b : Board) (hp : Inv Z b.pos) :
    (∀ mv, (absPos b.pos).Playable mv → ∃ b', b.push Z (encode b.pos mv) = some b' ∧ (b'.pos.turn.idx : Int) = opponent b.pos.turn.idx) ∧
      ∀ b', b.pushPass = some b' → (b'.pos.turn.idx : Int) = opponent b.pos.turn.idx := by
  have key : ∀ c : Color, (c.opp.idx : Int) = opponent c.idx := fun c => by cases c <;> rfl
  constructor
  · intro mv hm
    obtain ⟨p', e, ha, -⟩ := C16_push_playable Z b.pos hp mv hm
    refine ⟨⟨p', .move (encode b.pos mv) :: b.hist⟩, by unfold Board.push; rw [e]; rfl, ?_⟩
    have ht : p'.turn = b.pos.turn.opp := (congrArg Pos.turn ha).trans (play_turn mv)
    show (p'.turn.idx : Int) = _
    rw [ht, key]
  · intro b' hb
    unfold Board.pushPass at hb
    split at hb
    · cases hb
    · cases hb
      exact key _

/-- The hypotheses are met: the start position, its kings and a move. -/
example : Consistent (startModel zeroKeys) ∧ (absPos (startModel zeroKeys)).board 44 = some (.black, .king) ∧
    pieceToPieceType 24 = 8 ∧ (absPos (startModel zeroKeys)).Pseudo (.move 60 59 false) ∧ squareNames[60]? = some ['7', 'g'] ∧ opponent 0 = 1 :=
  ⟨(startModel_ok zeroKeys).1.views, by decide +kernel, rfl, by
    rw [(startModel_inv zeroKeys).2]
    exact ⟨Kind.pawn, rfl, Or.inl ⟨(0, -1), by simp [Kind.steps], by decide⟩,
      (fun k' e => absurd e (by rw [show startPos.board 59 = none from rfl]; simp)), by simp, fun _ => by decide⟩, rfl, rfl⟩

end Verif
