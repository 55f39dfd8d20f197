import Verif.Lemmas.Query
import Verif.Spec.Line
import Verif.Props.Rotate
import Verif.Props.Kif
import Verif.Props.IsLegalAny

/-!
# C75: setting up a board from the text of a USI `position` command
-/

namespace Verif
open Spec Bitboard Position

/-! ### A blank at the end of an SFEN -/

/-- The stream, with a blank put behind the text. -/
def streamBlank : Option (List Char) → Option (List Char)
  | none => some []
  | some r => some (r ++ [' '])

/-- The same for the outcome of a loop. -/
def outBlank {α : Type} (o : Out (α × Option (List Char))) : Out (α × Option (List Char)) := o.bind fun x => .ok (x.1, streamBlank x.2)

theorem readBoard_blank : ∀ (cs : List Char) (p : Position) (sq : Int) (flag : Nat),
    readBoard (cs ++ [' ']) p sq flag = outBlank (readBoard cs p sq flag)
  | [], p, sq, flag => by simp [readBoard, outBlank, streamBlank, Out.bind]
  | ch :: cs, p, sq, flag => by
    rw [List.cons_append, readBoard, readBoard]
    split
    · rfl
    split
    · exact readBoard_blank cs _ _ _
    split
    · exact readBoard_blank cs _ _ _
    split
    · exact readBoard_blank cs _ _ _
    split
    · rfl
    split
    · split
      · rfl
      · exact readBoard_blank cs _ _ _
    · rfl

theorem readTurn_blank : ∀ (cs : List Char) (p : Position), readTurn (cs ++ [' ']) p = outBlank (readTurn cs p)
  | [], p => by simp [readTurn, outBlank, streamBlank, Out.bind]
  | ch :: cs, p => by
    rw [List.cons_append, readTurn, readTurn]
    split
    · rfl
    split
    · exact readTurn_blank cs _
    split
    · exact readTurn_blank cs _
    · rfl

theorem readHands_blank : ∀ (cs : List Char) (p : Position) (d : Nat), readHands (cs ++ [' ']) p d = outBlank (readHands cs p d)
  | [], p, d => by simp [readHands, outBlank, streamBlank, Out.bind]
  | ch :: cs, p, d => by
    rw [List.cons_append, readHands, readHands]
    split
    · rfl
    split
    · exact readHands_blank cs _ _
    split
    · split
      · exact readHands_blank cs _ _
      · rfl
    split
    · rfl
    split
    · rfl
    · exact readHands_blank cs _ _

theorem dropWhile_blank (cs : List Char) : (cs ++ [' ']).dropWhile Position.isSpace =
    if cs.dropWhile Position.isSpace = [] then [] else cs.dropWhile Position.isSpace ++ [' '] := by
  induction cs with
  | nil => decide
  | cons a cs ih =>
    rw [List.cons_append, List.dropWhile_cons, List.dropWhile_cons]
    split
    · exact ih
    · rw [if_neg (List.cons_ne_nil _ _)]; rfl

theorem takeWhile_blank (cs : List Char) : (cs ++ [' ']).takeWhile Char.isDigit = cs.takeWhile Char.isDigit := by
  induction cs with
  | nil => decide
  | cons a cs ih =>
    rw [List.cons_append, List.takeWhile_cons, List.takeWhile_cons, ih]

theorem readSign_blank {cs : List Char} (h : cs ≠ []) : readSign (cs ++ [' ']) = ((readSign cs).1, (readSign cs).2 ++ [' ']) := by
  cases cs with
  | nil => exact absurd rfl h
  | cons a cs =>
    rw [List.cons_append]
    by_cases h1 : a = '-'
    · subst h1; rfl
    · by_cases h2 : a = '+'
      · subst h2; rfl
      · have e : ∀ r : List Char, readSign (a :: r) = (false, a :: r) := by
          intro r
          unfold readSign
          split
          · next h => cases h; exact absurd rfl h1
          · next h => cases h; exact absurd rfl h2
          · rfl
        rw [e, e]; rfl

theorem readInt_blank (cs : List Char) : readInt (cs ++ [' ']) = readInt cs := by
  unfold readInt
  rw [dropWhile_blank]
  by_cases h : cs.dropWhile Position.isSpace = []
  · rw [if_pos h, h]
  · rw [if_neg h, readSign_blank h]
    simp only [readNat, takeWhile_blank]

/-- Streams of which the second may hold one blank more. -/
def Near (x y : Position × Option (List Char)) : Prop := y.1 = x.1 ∧ (y.2 = streamBlank x.2 ∨ x.2 = none ∧ y.2 = none)

/-- The same for outcomes. -/
def NearOut : Out (Position × Option (List Char)) → Out (Position × Option (List Char)) → Prop
  | .ok x, .ok y => Near x y
  | .error, .error => True
  | .ub, .ub => True
  | _, _ => False

theorem nearOut_blank (o : Out (Position × Option (List Char))) : NearOut o (outBlank o) := by
  rcases o with x | _ | _
  · exact ⟨rfl, Or.inl rfl⟩
  · trivial
  · trivial

theorem onStream_near {f : List Char → Position → Out (Position × Option (List Char))} (hf : ∀ cs p, f (cs ++ [' ']) p = outBlank (f cs p))
    (h0 : ∀ p, f [] p = .ok (p, none)) {x y : Position × Option (List Char)} (h : Near x y) : NearOut (onStream f x) (onStream f y) := by
  obtain ⟨p, s⟩ := x
  obtain ⟨q, s'⟩ := y
  obtain ⟨h1, h2⟩ := h
  simp only at h1 h2
  subst h1
  rcases h2 with rfl | ⟨rfl, rfl⟩
  · cases s with
    | none =>
      show NearOut (.ok (q, none)) (f [] q)
      rw [h0]; exact ⟨rfl, Or.inr ⟨rfl, rfl⟩⟩
    | some r =>
      show NearOut (f r q) (f (r ++ [' ']) q)
      rw [hf]; exact nearOut_blank _
  · exact ⟨rfl, Or.inr ⟨rfl, rfl⟩⟩

/-- A text is read without its last blank. -/
theorem setSfen_blank (Z : Zobrist) (cs : List Char) : setSfen Z (cs ++ [' ']) = setSfen Z cs := by
  unfold setSfen
  congr 1
  unfold parseSfen
  have h1 : NearOut (readBoard cs Position.clear 72 0) (readBoard (cs ++ [' ']) Position.clear 72 0) := by
    rw [readBoard_blank]; exact nearOut_blank _
  revert h1
  rcases readBoard cs Position.clear 72 0 with x | _ | _ <;> rcases readBoard (cs ++ [' ']) Position.clear 72 0 with x' | _ | _ <;>
    intro h1 <;> first | exact False.elim h1 | rfl | skip
  have h2 := onStream_near (f := readTurn) readTurn_blank (fun _ => rfl) (x := x) (y := x') h1
  simp only [Out.bind_ok]
  revert h2
  rcases onStream readTurn x with y | _ | _ <;> rcases onStream readTurn x' with y' | _ | _ <;>
    intro h2 <;> first | exact False.elim h2 | rfl | skip
  have h3 := onStream_near (f := fun cs p => readHands cs p 0) (fun cs p => readHands_blank cs p 0) (fun _ => rfl) (x := y) (y := y') h2
  simp only [Out.bind_ok]
  revert h3
  rcases onStream (fun cs p => readHands cs p 0) y with z | _ | _ <;> rcases onStream (fun cs p => readHands cs p 0) y' with z' | _ | _ <;>
    intro h3 <;> first | exact False.elim h3 | rfl | skip
  simp only [Out.bind_ok]
  obtain ⟨e1, e2⟩ := h3
  rw [e1]
  have hP : readPly z'.2 = readPly z.2 := by
    rcases e2 with e2 | ⟨e2, e3⟩
    · rw [e2]
      rcases z.2 with _ | r
      · decide
      · exact readInt_blank r
    · rw [e2, e3]
  rw [hP]

/-! ### Words -/

/-- Words with one blank between them. -/
def oneLine : List (List Char) → List Char
  | [] => []
  | [w] => w
  | w :: ws => w ++ ' ' :: oneLine ws

theorem readWords_blank : ∀ (fuel : Nat) (cs : List Char), Board.readWords fuel (' ' :: cs) = Board.readWords fuel cs
  | 0, _ => rfl
  | fuel + 1, cs => by unfold Board.readWords; rw [nextWord_blank]

theorem dropWhile_all {f : Char → Bool} : ∀ {w : List Char}, (∀ c ∈ w, f c = true) → w.dropWhile f = []
  | [], _ => rfl
  | a :: w, h => by
    rw [List.dropWhile_cons, if_pos (h a (List.mem_cons_self ..))]
    exact dropWhile_all fun c hc => h c (List.mem_cons_of_mem _ hc)

theorem nextWord_end {w : List Char} (h : Solid w) (hne : w ≠ []) : Rotate.nextWord w = (w, []) := by
  refine Prod.ext (nextWord_last h hne) ?_
  unfold Rotate.nextWord
  have h1 := dropSpace_solid h hne []
  rw [List.append_nil] at h1
  simp only [h1]
  exact dropWhile_all fun c hc => by rw [h c hc]; rfl

theorem readWords_nil (fuel : Nat) : Board.readWords fuel [] = [] := by
  cases fuel with
  | zero => rfl
  | succ n => rw [Board.readWords, if_pos (by decide)]

theorem readWords_line : ∀ (ws : List (List Char)), (∀ w ∈ ws, Solid w ∧ w ≠ []) → ∀ fuel, ws.length ≤ fuel →
    Board.readWords fuel (oneLine ws) = ws
  | [], _, fuel, _ => readWords_nil fuel
  | [w], h, fuel, hf => by
    obtain ⟨h1, h2⟩ := h w (List.mem_singleton.mpr rfl)
    obtain ⟨n, rfl⟩ : ∃ n, fuel = n + 1 := ⟨fuel - 1, by simp at hf; omega⟩
    rw [oneLine, Board.readWords, nextWord_end h1 h2, if_neg h2, readWords_nil]
  | w :: v :: ws, h, fuel, hf => by
    obtain ⟨h1, h2⟩ := h w (List.mem_cons_self ..)
    obtain ⟨n, rfl⟩ : ∃ n, fuel = n + 1 := ⟨fuel - 1, by simp at hf; omega⟩
    rw [oneLine, Board.readWords, nextWord_first h1 h2, if_neg h2, readWords_blank,
      readWords_line (v :: ws) (fun x hx => h x (List.mem_cons_of_mem _ hx)) n (by simp at hf ⊢; omega)]
    · simp

theorem oneLine_length : ∀ (ws : List (List Char)), (∀ w ∈ ws, w ≠ []) → ws.length ≤ (oneLine ws).length
  | [], _ => Nat.le_refl _
  | [w], h => by
    have := List.length_pos_iff.mpr (h w (List.mem_singleton.mpr rfl))
    rw [oneLine]; simpa [Nat.succ_le_iff] using this
  | w :: v :: ws, h => by
    have := List.length_pos_iff.mpr (h w (List.mem_cons_self ..))
    have ih := oneLine_length (v :: ws) fun x hx => h x (List.mem_cons_of_mem _ hx)
    rw [oneLine]
    · simp only [List.length_append, List.length_cons] at ih ⊢; omega
    · simp

theorem oneLine_cons {w : List Char} {ws : List (List Char)} (h : ws ≠ []) : oneLine (w :: ws) = w ++ ' ' :: oneLine ws := by
  cases ws with
  | nil => exact absurd rfl h
  | cons v ws => rw [oneLine]; simp

theorem oneLine_append (ws : List (List Char)) : ∀ {vs : List (List Char)}, vs ≠ [] →
    oneLine (vs ++ ws) = oneLine vs ++ ws.flatMap fun w => ' ' :: w
  | [], h => absurd rfl h
  | [v], _ => by
    induction ws generalizing v with
    | nil => simp [oneLine]
    | cons w ws ih =>
      rw [List.singleton_append, oneLine_cons (List.cons_ne_nil _ _)]
      have := ih w (List.cons_ne_nil _ _)
      rw [List.singleton_append] at this
      rw [this]
      simp [oneLine]
  | u :: v :: vs, _ => by
    have := oneLine_append ws (vs := v :: vs) (List.cons_ne_nil _ _)
    rw [List.cons_append, oneLine_cons (by simp), this, oneLine_cons (List.cons_ne_nil _ _)]
    simp

/-! ### Moves -/

theorem usiText_solid (mv : Mv) : Solid (usiText mv) ∧ usiText mv ≠ [] := by
  have h1 : ∀ s : Square, Position.isSpace (Char.ofNat (49 + s.val / 9)) = false ∧ Position.isSpace (Char.ofNat (97 + s.val % 9)) = false := by decide
  cases mv with
  | move f t pro =>
    refine ⟨?_, by simp [usiText]⟩
    intro c hc
    simp only [usiText, List.mem_append, List.mem_cons, List.not_mem_nil, or_false] at hc
    rcases hc with (rfl | rfl | rfl | rfl) | hc
    · exact (h1 f).1
    · exact (h1 f).2
    · exact (h1 t).1
    · exact (h1 t).2
    · cases pro
      · cases hc
      · rw [if_pos rfl, List.mem_singleton] at hc; subst hc; decide
  | drop h t =>
    refine ⟨?_, by simp [usiText]⟩
    intro c hc
    simp only [usiText, List.mem_cons, List.not_mem_nil, or_false] at hc
    rcases hc with rfl | rfl | rfl | rfl
    · cases h <;> decide
    · decide
    · exact (h1 t).1
    · exact (h1 t).2

/-- The text of a move that is not legal gives no move. -/
theorem usi_text_not {p : Position} {mv : Mv} (h : p.isLegal (encode p mv) = some false) : p.usiToMove (usiText mv) = some 0#32 := by
  have hc : p.checked (encode p mv) = some 0#32 := by unfold checked; rw [h]; rfl
  cases mv with
  | move f t pro =>
    cases pro
    · exact (usi_plain p (charToPiece_file f) (squareOf_usi f) (squareOf_usi t)).trans hc
    · exact (usi_promote p (charToPiece_file f) (squareOf_usi f) (squareOf_usi t)).trans hc
  | drop k t =>
    obtain ⟨a, pc, h1, h2, h3⟩ : ∃ a pc, usiText (.drop k t) = a :: '*' :: Char.ofNat (49 + t.val / 9) :: Char.ofNat (97 + t.val % 9) :: [] ∧
        charToPiece a = some pc ∧ pieceType pc = k.kind.code := by
      cases k
      · exact ⟨'P', 1, rfl, rfl, rfl⟩
      · exact ⟨'L', 2, rfl, rfl, rfl⟩
      · exact ⟨'N', 3, rfl, rfl, rfl⟩
      · exact ⟨'S', 4, rfl, rfl, rfl⟩
      · exact ⟨'G', 7, rfl, rfl, rfl⟩
      · exact ⟨'B', 5, rfl, rfl, rfl⟩
      · exact ⟨'R', 6, rfl, rfl, rfl⟩
    rw [h1, usi_drop p h2 (squareOf_usi t), h3]
    exact hc

/-- A line of legal moves, written as USI texts and pushed word by word. -/
theorem pushWords_line {Z : Zobrist} (rest : List (List Char)) : ∀ (mvs : List Mv) {b : Board}, Csa.Good Z b.pos → (absPos b.pos).Line mvs →
    ∃ ms b', ms.mapM Move.toUSI = some (mvs.map usiText) ∧ b.run Z (ms.map .push) = some b' ∧ Csa.Good Z b'.pos ∧
      Board.pushWords Z (mvs.map usiText ++ rest) b = Board.pushWords Z rest b' ∧
      absPos b'.pos = (absPos b.pos).after mvs ∧ b'.history = b.history ++ ms
  | [], b, hg, _ => ⟨[], b, rfl, rfl, hg, rfl, rfl, by simp⟩
  | mv :: mvs, b, hg, hl => by
    obtain ⟨hm, hl⟩ := hl
    obtain ⟨p', e1, g1, a1⟩ := hg.doMove hm
    have hpush : b.push Z (encode b.pos mv) = some ⟨p', .move (encode b.pos mv) :: b.hist⟩ := by
      unfold Board.push; rw [e1]; rfl
    obtain ⟨ms, b', i1, i2, i3, i4, i5, i6⟩ := pushWords_line rest mvs (b := ⟨p', .move (encode b.pos mv) :: b.hist⟩) g1 (by rw [a1]; exact hl)
    have hlegal : b.pos.isLegal (encode b.pos mv) = some true := by
      obtain ⟨l, e, hl⟩ := C27_listed_partial _ hg.inv.views hg.check hg.regular
      obtain ⟨l', e', -, hmem⟩ := genLegal_spec hg.inv.views hg.check hg.regular
      rw [e] at e'; cases e'
      exact hl _ ((hmem _).mpr ⟨mv, rfl, hm⟩)
    refine ⟨encode b.pos mv :: ms, b', ?_, ?_, i3, ?_, ?_, ?_⟩
    · rw [List.mapM_cons, toUSI_encode hm.1.1, i1]; rfl
    · show (b.push Z (encode b.pos mv)).bind _ = _
      rw [hpush]; exact i2
    · rw [List.map_cons, List.cons_append, Board.pushWords, usi_text hlegal]
      simp only
      rw [if_neg (encode_ne_zero hm.1.1), hpush]
      exact i4
    · rw [i5, a1]; rfl
    · rw [i6]; simp [Board.history]

/-! ### The four words of an SFEN -/

/-- The four words (board, side to move, hands, move number). -/
def sfenParts (p : Position) (ply : Int) : List (List Char) :=
  [sfenBoard p.piece, [if p.turn = .black then 'b' else 'w'], handsText (p.hand .black) (p.hand .white), intChars ply]

theorem sfenParts_line (p : Position) (ply : Int) : oneLine (sfenParts p ply) = toSfen p ply := by
  rw [sfen_words]; simp [sfenParts, oneLine]

theorem sfenParts_spaced (p : Position) (ply : Int) : Board.spaced (sfenParts p ply) = toSfen p ply ++ [' '] := by
  rw [sfen_words]; simp [sfenParts, Board.spaced]

theorem sfenBoard_solid {p : Position} (hp : ∀ s, p.piece s = pieceCode ((absPos p).board s)) : Solid (sfenBoard p.piece) := by
  rw [board_join]
  refine join_solid _ fun w hw => ?_
  obtain ⟨r, -, rfl⟩ := List.mem_map.mp hw
  exact fun c hc => (rank_plain (absPos p).board p.piece hp _ _ c hc).1

theorem sfenBoard_slash (piece : Square → Piece) : '/' ∈ sfenBoard piece := by
  rw [board_join]
  have : (List.range 9).map (fun r => sfenRank piece (rankSquares r) 0) = sfenRank piece (rankSquares 0) 0 ::
      sfenRank piece (rankSquares 1) 0 :: ((List.range 9).drop 2).map fun r => sfenRank piece (rankSquares r) 0 := rfl
  rw [this, Rotate.joinRanks]
  · simp
  · simp

theorem item_no_m (h : Hand) (c : Color) (i : Nat) (hi : i < 7) : 'm' ∉ handItem h c i := by
  intro hx
  unfold handItem at hx
  simp only at hx
  split at hx
  · cases hx
  · rcases List.mem_append.mp hx with hx | hx
    · split at hx
      · obtain ⟨d, hd, e⟩ := natChars_mem hx
        exact (by decide : ∀ d < 10, ¬ 'm' = digitCh d) d hd e
      · cases hx
    · revert hx
      cases c
      · exact (by decide : ∀ i < 7, 'm' ∉ usiChars (mkPiece .black (handToPt i))) i hi
      · exact (by decide : ∀ i < 7, 'm' ∉ usiChars (mkPiece .white (handToPt i))) i hi

theorem handsText_no_m (a b : Hand) : 'm' ∉ handsText a b := by
  have key : ∀ (h : Hand) c, 'm' ∉ sfenHand h c := by
    intro h c hx
    rw [sfenHand_items, List.mem_flatMap] at hx
    obtain ⟨i, hi, hx⟩ := hx
    exact item_no_m h c i ((by decide : ∀ i ∈ [6, 5, 4, 3, 2, 1, 0], i < 7) i hi) hx
  unfold handsText
  split
  · decide
  · intro hx
    rcases List.mem_append.mp hx with hx | hx
    · exact key _ _ hx
    · exact key _ _ hx

theorem intChars_no_m (n : Int) : 'm' ∉ intChars n := by
  have key : ∀ m : Nat, 'm' ∉ natChars m := by
    intro m hx
    obtain ⟨d, hd, e⟩ := natChars_mem hx
    exact (by decide : ∀ d < 10, ¬ 'm' = digitCh d) d hd e
  unfold intChars
  split
  · intro hx
    rcases List.mem_cons.mp hx with hx | hx
    · exact absurd hx (by decide)
    · exact key _ hx
  · exact key _

theorem sfenParts_ok {p : Position} (hp : ∀ s, p.piece s = pieceCode ((absPos p).board s)) (hw : ∀ c, (p.hand c).WF) (ply : Int) :
    ∀ w ∈ sfenParts p ply, (Solid w ∧ w ≠ []) ∧ w ≠ "moves".toList := by
  intro w hw'
  simp only [sfenParts, List.mem_cons, List.not_mem_nil, or_false] at hw'
  rcases hw' with rfl | rfl | rfl | rfl
  · have h := sfenBoard_slash p.piece
    refine ⟨⟨sfenBoard_solid hp, fun e => ?_⟩, fun e => ?_⟩
    · rw [e] at h; cases h
    · rw [e] at h; exact absurd h (by decide)
  · cases p.turn <;> exact ⟨⟨by unfold Solid; decide, by decide⟩, by decide⟩
  · refine ⟨handsText_ok (hw _) (hw _), fun e => handsText_no_m (p.hand .black) (p.hand .white) ?_⟩
    rw [e]; decide
  · refine ⟨intChars_ok ply, fun e => intChars_no_m ply ?_⟩
    rw [e]; decide

/-! ### C75 -/

/-- The words are found again in the text. -/
theorem words_of {ws : List (List Char)} (h : ∀ w ∈ ws, Solid w ∧ w ≠ []) : Board.readWords (oneLine ws).length (oneLine ws) = ws :=
  readWords_line ws h _ (oneLine_length ws fun w hw => (h w hw).2)

theorem takeWhile_parts {ws vs : List (List Char)} (h : ∀ w ∈ ws, w ≠ "moves".toList) :
    (ws ++ "moves".toList :: vs).takeWhile (fun x => x ≠ "moves".toList) = ws ∧
      ((ws ++ "moves".toList :: vs).dropWhile fun x => x ≠ "moves".toList) = "moves".toList :: vs := by
  induction ws with
  | nil => exact ⟨by rw [List.nil_append, List.takeWhile_cons, if_neg (by simp)], by rw [List.nil_append, List.dropWhile_cons, if_neg (by simp)]⟩
  | cons w ws ih =>
    have h0 : decide (w ≠ "moves".toList) = true := decide_eq_true (h w (List.mem_cons_self ..))
    obtain ⟨i1, i2⟩ := ih fun x hx => h x (List.mem_cons_of_mem _ hx)
    exact ⟨by rw [List.cons_append, List.takeWhile_cons, if_pos h0, i1], by rw [List.cons_append, List.dropWhile_cons, if_pos h0, i2]⟩

theorem takeWhile_only {ws : List (List Char)} (h : ∀ w ∈ ws, w ≠ "moves".toList) :
    ws.takeWhile (fun x => x ≠ "moves".toList) = ws ∧ (ws.dropWhile fun x => x ≠ "moves".toList) = [] := by
  induction ws with
  | nil => exact ⟨rfl, rfl⟩
  | cons w ws ih =>
    have h0 : decide (w ≠ "moves".toList) = true := decide_eq_true (h w (List.mem_cons_self ..))
    obtain ⟨i1, i2⟩ := ih fun x hx => h x (List.mem_cons_of_mem _ hx)
    exact ⟨by rw [List.takeWhile_cons, if_pos h0, i1], by rw [List.dropWhile_cons, if_pos h0, i2]⟩

/-- The text of a command: where the game starts, and the moves if there are any words for them. -/
def commandText (start : List Char) (words : List (List Char)) : List Char :=
  start ++ (" moves".toList ++ words.flatMap fun w => ' ' :: w)

/-- What is done with the words of a command that begins with `sfen`. -/
theorem command_sfen (Z : Zobrist) {p : Position} (hp : ∀ s, p.piece s = pieceCode ((absPos p).board s)) (hw : ∀ c, (p.hand c).WF) (ply : Int)
    {ws : List (List Char)} (h : ∀ w ∈ ws, Solid w ∧ w ≠ []) :
    Board.setPosition Z (commandText ("sfen ".toList ++ toSfen p ply) ws) = Board.setAndPush Z (toSfen p ply) ws ∧
      Board.setPosition Z ("sfen ".toList ++ toSfen p ply) = Board.setAndPush Z (toSfen p ply) [] := by
  have hok := sfenParts_ok hp hw ply
  have hs : Solid "sfen".toList ∧ "sfen".toList ≠ [] := ⟨by unfold Solid; decide, by decide⟩
  have hm : Solid "moves".toList ∧ "moves".toList ≠ [] := ⟨by unfold Solid; decide, by decide⟩
  have hne : sfenParts p ply ≠ [] := List.cons_ne_nil _ _
  have e1 : commandText ("sfen ".toList ++ toSfen p ply) ws = oneLine (("sfen".toList :: sfenParts p ply) ++ ("moves".toList :: ws)) := by
    rw [oneLine_append _ (List.cons_ne_nil _ _), oneLine_cons hne, sfenParts_line]
    simp [commandText]
  have e2 : "sfen ".toList ++ toSfen p ply = oneLine ("sfen".toList :: sfenParts p ply) := by
    rw [oneLine_cons hne, sfenParts_line]; simp
  have hsp : ∀ vs, Board.setAndPush Z (toSfen p ply ++ [' ']) vs = Board.setAndPush Z (toSfen p ply) vs := by
    intro vs; unfold Board.setAndPush; rw [setSfen_blank]
  constructor
  · rw [e1]
    unfold Board.setPosition
    rw [words_of (by
      intro w hw
      rcases List.mem_append.mp hw with hw | hw
      · rcases List.mem_cons.mp hw with rfl | hw
        · exact hs
        · exact (hok w hw).1
      · rcases List.mem_cons.mp hw with rfl | hw
        · exact hm
        · exact h w hw)]
    rw [List.cons_append]
    dsimp only
    rw [if_neg (by decide), if_pos rfl, (takeWhile_parts fun w hw => (hok w hw).2).1, (takeWhile_parts fun w hw => (hok w hw).2).2,
      sfenParts_spaced, hsp]
    rfl
  · rw [e2]
    unfold Board.setPosition
    rw [words_of (by
      intro w hw
      rcases List.mem_cons.mp hw with rfl | hw
      · exact hs
      · exact (hok w hw).1)]
    dsimp only
    rw [if_neg (by decide), if_pos rfl, (takeWhile_only fun w hw => (hok w hw).2).1, (takeWhile_only fun w hw => (hok w hw).2).2,
      sfenParts_spaced, hsp]
    rfl

/-- What is done with the words of a command that begins with `startpos`: the next word is not looked at. -/
theorem command_start (Z : Zobrist) {x : List Char} (hx : Solid x ∧ x ≠ []) {ws : List (List Char)} (h : ∀ w ∈ ws, Solid w ∧ w ≠ []) :
    Board.setPosition Z (oneLine ("startpos".toList :: x :: ws)) = Board.setAndPush Z Board.startSfen ws := by
  have hs : Solid "startpos".toList ∧ "startpos".toList ≠ [] := ⟨by unfold Solid; decide, by decide⟩
  unfold Board.setPosition
  rw [words_of (by
    intro w hw
    rcases List.mem_cons.mp hw with rfl | hw
    · exact hs
    · rcases List.mem_cons.mp hw with rfl | hw
      · exact hx
      · exact h w hw)]
  dsimp only
  rw [if_pos rfl]
  rfl

/-- The start position is read from its text. -/
theorem start_read (Z : Zobrist) : ∃ q, setSfen Z Board.startSfen = .ok q ∧ absPos q = startPos ∧ q.gamePly = 1 ∧ Csa.Good Z q := by
  have hb : Kif.handicapB ("平手".toList, Board.startSfen) (Kif.offOf "平手".toList) = true := (Kif.handicaps_ok _ (by decide +kernel)).1
  obtain ⟨q, h1, h2, h3, h4⟩ := Kif.handicap_read Z hb
  refine ⟨q, h1, h2.trans ?_, h3, h4⟩
  rw [show Kif.offOf "平手".toList = [] by decide +kernel]
  exact pos_ext (by funext s; simp [handicapPos, startPos]) rfl rfl

theorem mapText_ok (mvs : List Mv) : ∀ w ∈ mvs.map usiText, Solid w ∧ w ≠ [] := by
  intro w hw
  obtain ⟨mv, -, rfl⟩ := List.mem_map.mp hw
  exact usiText_solid mv

/-- **C75**: the text of a position and of legal moves from it, behind `sfen`, sets up the board on which exactly these moves have
been pushed from that position. -/
theorem C75_sfen (Z : Zobrist) (p : Position) (hp : Inv Z p) (hr : (absPos p).Regular) (hl : -2147483648 ≤ p.gamePly) (hu : p.gamePly ≤ 2147483647) :
    ∃ p0, setSfen Z (toSfen p p.gamePly) = .ok p0 ∧ absPos p0 = absPos p ∧ p0.gamePly = p.gamePly ∧ p0.getKey = p.getKey ∧
      Board.setPosition Z ("sfen ".toList ++ toSfen p p.gamePly) = .ok ⟨p0, []⟩ ∧
      ∀ mvs, (absPos p).Line mvs → ∃ ms b, Board.setPosition Z (commandText ("sfen ".toList ++ toSfen p p.gamePly) (mvs.map usiText)) = .ok b ∧
        Board.run Z ⟨p0, []⟩ (ms.map .push) = some b ∧ ms.mapM Move.toUSI = some (mvs.map usiText) ∧ b.history = ms ∧
        absPos b.pos = (absPos p).after mvs := by
  have hhand := InSet.hand_le hp.inSet
  obtain ⟨p0, e, s1, s2, s3, -, s4, s5, -⟩ := C31_round_trip Z hp.views.code hp.keys hhand hl hu
  obtain ⟨p1, e', -, -, -, hc⟩ := C31_views Z hp.views hp.keys hhand hl hu
  rw [e] at e'; cases e'
  have ht : p0.turn = p.turn := congrArg Pos.turn s1
  have hg : Csa.Good Z p0 := by
    refine ⟨⟨hc, s4, by rw [s1]; exact hp.inSet⟩, checkOK_find hc ?_ s5, by rw [s1]; exact hr⟩
    rw [s1, ht]; exact hr.waiting
  refine ⟨p0, e, s1, s2, s3, ?_, fun mvs hm => ?_⟩
  · rw [(command_sfen Z hp.views.code hp.views.hand p.gamePly (ws := []) (by simp)).2]
    unfold Board.setAndPush; rw [e]; rfl
  · obtain ⟨ms, b, h1, h2, -, h4, h5, h6⟩ := pushWords_line [] mvs (b := ⟨p0, []⟩) hg (by rw [s1]; exact hm)
    refine ⟨ms, b, ?_, h2, h1, by rw [h6]; simp [Board.history], by rw [h5, s1]⟩
    rw [(command_sfen Z hp.views.code hp.views.hand p.gamePly (mapText_ok mvs)).1]
    unfold Board.setAndPush; rw [e]
    rw [List.append_nil] at h4
    exact h4

/-- **C75**: the same for `startpos`. -/
theorem C75_startpos (Z : Zobrist) : ∃ p0, setSfen Z Board.startSfen = .ok p0 ∧ absPos p0 = startPos ∧ p0.gamePly = 1 ∧
    Board.setPosition Z "startpos".toList = .ok ⟨p0, []⟩ ∧
    ∀ mvs, startPos.Line mvs → ∃ ms b, Board.setPosition Z (commandText "startpos".toList (mvs.map usiText)) = .ok b ∧
      Board.run Z ⟨p0, []⟩ (ms.map .push) = some b ∧ ms.mapM Move.toUSI = some (mvs.map usiText) ∧ b.history = ms ∧
      absPos b.pos = startPos.after mvs := by
  obtain ⟨q, e, s1, s2, hg⟩ := start_read Z
  refine ⟨q, e, s1, s2, ?_, fun mvs hm => ?_⟩
  · have : Board.setPosition Z "startpos".toList = Board.setAndPush Z Board.startSfen [] := by
      unfold Board.setPosition
      rw [show Board.readWords "startpos".toList.length "startpos".toList = ["startpos".toList] by decide +kernel]
      dsimp only
      rw [if_pos rfl]; rfl
    rw [this]; unfold Board.setAndPush; rw [e]; rfl
  · obtain ⟨ms, b, h1, h2, -, h4, h5, h6⟩ := pushWords_line [] mvs (b := ⟨q, []⟩) hg (by rw [s1]; exact hm)
    refine ⟨ms, b, ?_, h2, h1, by rw [h6]; simp [Board.history], by rw [h5, s1]⟩
    have e1 : commandText "startpos".toList (mvs.map usiText) = oneLine ("startpos".toList :: "moves".toList :: mvs.map usiText) := by
      have := oneLine_append (mvs.map usiText) (vs := ["startpos".toList, "moves".toList]) (by simp)
      rw [show "startpos".toList :: "moves".toList :: mvs.map usiText = ["startpos".toList, "moves".toList] ++ mvs.map usiText from rfl, this]
      simp [commandText, oneLine]
    rw [e1, command_start Z ⟨by unfold Solid; decide, by decide⟩ (mapText_ok mvs)]
    unfold Board.setAndPush; rw [e]
    rw [List.append_nil] at h4
    exact h4

/-- **C75** (partial: the move is not wrong in its promotion alone, nor a drop on a square from which the piece cannot move): a move that the
rules do not allow where it is played makes the command fail, whatever follows it. -/
theorem C75_illegal_partial (Z : Zobrist) (p : Position) (hp : Inv Z p) (hr : (absPos p).Regular) (hl : -2147483648 ≤ p.gamePly)
    (hu : p.gamePly ≤ 2147483647) (mvs : List Mv) (hm : (absPos p).Line mvs) (mv : Mv) (hbad : ¬ ((absPos p).after mvs).Loose mv)
    (rest : List Mv) :
    Board.setPosition Z (commandText ("sfen ".toList ++ toSfen p p.gamePly) ((mvs ++ mv :: rest).map usiText)) = .error := by
  have hhand := InSet.hand_le hp.inSet
  obtain ⟨p0, e, s1, s2, s3, -, s4, s5, -⟩ := C31_round_trip Z hp.views.code hp.keys hhand hl hu
  obtain ⟨p1, e', -, -, -, hc⟩ := C31_views Z hp.views hp.keys hhand hl hu
  rw [e] at e'; cases e'
  have ht : p0.turn = p.turn := congrArg Pos.turn s1
  have hg : Csa.Good Z p0 := by
    refine ⟨⟨hc, s4, by rw [s1]; exact hp.inSet⟩, checkOK_find hc ?_ s5, by rw [s1]; exact hr⟩
    rw [s1, ht]; exact hr.waiting
  obtain ⟨ms, b, h1, h2, h3, h4, h5, h6⟩ := pushWords_line ((mv :: rest).map usiText) mvs (b := ⟨p0, []⟩) hg (by rw [s1]; exact hm)
  rw [(command_sfen Z hp.views.code hp.views.hand p.gamePly (mapText_ok (mvs ++ mv :: rest))).1]
  unfold Board.setAndPush; rw [e]
  show Board.pushWords Z ((mvs ++ mv :: rest).map usiText) ⟨p0, []⟩ = _
  rw [List.map_append, h4, List.map_cons, Board.pushWords]
  have hb : absPos b.pos = (absPos p).after mvs := by rw [h5, s1]
  obtain ⟨x, i1, i2, -⟩ := C27_loose b.pos h3.inv.views h3.check h3.regular mv
  have hx : x = false := by
    rcases hx : x with _ | _
    · rfl
    · exact absurd (by rw [← hb]; exact i2 hx) hbad
  rw [hx] at i1
  rw [usi_text_not i1]
  rfl

/-- **C75 fails** for every other move that is not legal, drops of pawns on the last rank set aside: the command does not raise at it. -/
theorem C75_fails_loose (Z : Zobrist) (p : Position) (hp : Inv Z p) (hr : (absPos p).Regular) (hl : -2147483648 ≤ p.gamePly)
    (hu : p.gamePly ≤ 2147483647) (mvs : List Mv) (hm : (absPos p).Line mvs) (mv : Mv) (hlo : ((absPos p).after mvs).Loose mv)
    (hd : ∀ t, mv = .drop .pawn t → ¬ Dead ((absPos p).after mvs).turn .pawn t) :
    Board.setPosition Z (commandText ("sfen ".toList ++ toSfen p p.gamePly) ((mvs ++ [mv]).map usiText)) ≠ .error := by
  have hhand := InSet.hand_le hp.inSet
  obtain ⟨p0, e, s1, s2, s3, -, s4, s5, -⟩ := C31_round_trip Z hp.views.code hp.keys hhand hl hu
  obtain ⟨p1, e', -, -, -, hc⟩ := C31_views Z hp.views hp.keys hhand hl hu
  rw [e] at e'; cases e'
  have ht : p0.turn = p.turn := congrArg Pos.turn s1
  have hg : Csa.Good Z p0 := by
    refine ⟨⟨hc, s4, by rw [s1]; exact hp.inSet⟩, checkOK_find hc ?_ s5, by rw [s1]; exact hr⟩
    rw [s1, ht]; exact hr.waiting
  obtain ⟨ms, b, h1, h2, h3, h4, h5, h6⟩ := pushWords_line ([mv].map usiText) mvs (b := ⟨p0, []⟩) hg (by rw [s1]; exact hm)
  rw [(command_sfen Z hp.views.code hp.views.hand p.gamePly (mapText_ok (mvs ++ [mv]))).1]
  unfold Board.setAndPush; rw [e]
  show Board.pushWords Z ((mvs ++ [mv]).map usiText) ⟨p0, []⟩ ≠ _
  rw [List.map_append, h4, List.map_cons, Board.pushWords]
  have hb : absPos b.pos = (absPos p).after mvs := by rw [h5, s1]
  obtain ⟨x, i1, -, i2⟩ := C27_loose b.pos h3.inv.views h3.check h3.regular mv
  rw [← hb] at hlo hd
  rw [i2 hlo hd] at i1
  rw [usi_text i1]
  have hne : encode b.pos mv ≠ 0#32 := fun h0 => by rw [h0, Match.isLegal_zero] at i1; cases i1
  dsimp only
  rw [if_neg hne]
  cases b.push Z (encode b.pos mv) with
  | none => intro h; cases h
  | some b' => intro h; cases h

/-- **C75 fails**: the word behind `startpos` is passed over whatever it is, so a command in which `moves` was forgotten
gives the start position instead of an error. -/
theorem C75_fails_word (Z : Zobrist) (x : List Char) (hx : Solid x ∧ x ≠ []) :
    Board.setPosition Z ("startpos ".toList ++ x) = Board.setPosition Z "startpos".toList := by
  have := command_start Z hx (ws := []) (by simp)
  rw [show oneLine ["startpos".toList, x] = "startpos ".toList ++ x by simp [oneLine]] at this
  rw [this]
  unfold Board.setPosition
  rw [show Board.readWords "startpos".toList.length "startpos".toList = ["startpos".toList] by decide +kernel]
  dsimp only
  rw [if_pos rfl]; rfl

/-- **C75 fails**: a promotion outside the zone is taken, although the rules do not know it: `7g7f+` in the start position. -/
theorem C75_fails_promotion : ∃ b, Board.setPosition zeroKeys "startpos moves 7g7f+".toList = .ok b ∧
    (absPos b.pos).board 59 = some (.black, .proPawn) ∧ ¬ startPos.Legal (.move 60 59 true) := by
  have h : (match Board.setPosition zeroKeys "startpos moves 7g7f+".toList with
      | .ok b => decide ((absPos b.pos).board 59 = some (.black, .proPawn))
      | _ => false) = true := by decide +kernel
  obtain ⟨b, e⟩ : ∃ b, Board.setPosition zeroKeys "startpos moves 7g7f+".toList = .ok b := by
    rcases hb : Board.setPosition zeroKeys "startpos moves 7g7f+".toList with b | _ | _
    · exact ⟨b, rfl⟩
    · rw [hb] at h; cases h
    · rw [hb] at h; cases h
  refine ⟨b, e, ?_, ?_⟩
  · rw [e] at h; simpa using h
  · have h1 := C27_fails.2.2.2.2.2
    have : absPos (startModel zeroKeys) = startPos := (startModel_inv zeroKeys).2
    rw [this] at h1; exact h1

/-- A test for legal lines. -/
def lineB (Z : Zobrist) (p : Position) : List Mv → Bool
  | [] => true
  | mv :: mvs => (match genLegal p true with | some l => decide (encode p mv ∈ l) | none => false) &&
    match doMove Z p (encode p mv) with | some p' => lineB Z p' mvs | none => false

theorem lineB_line {Z : Zobrist} : ∀ (mvs : List Mv) {p : Position}, Csa.Good Z p → lineB Z p mvs = true → (absPos p).Line mvs
  | [], _, _, _ => trivial
  | mv :: mvs, p, hg, h => by
    unfold lineB at h
    rw [Bool.and_eq_true] at h
    obtain ⟨l, e, -, hm⟩ := genLegal_spec hg.inv.views hg.check hg.regular
    obtain ⟨h1, h2⟩ := h
    rw [e] at h1
    obtain ⟨mv', e1, hl⟩ := (hm _).mp (of_decide_eq_true h1)
    rw [← encode_inj p e1] at hl
    obtain ⟨p', e2, g, a⟩ := hg.doMove hl
    rw [e2] at h2
    exact ⟨hl, by rw [← a]; exact lineB_line mvs g h2⟩

/-- Five moves from the start: pawns, an exchange of bishops with promotion, a drop. -/
def fiveMoves : List Mv := [.move 60 59 false, .move 20 21 false, .move 70 10 true, .move 18 10 false, .drop .bishop 40]

theorem fiveMoves_line : startPos.Line fiveMoves := by
  obtain ⟨h1, h2, h3⟩ := startModel_ok zeroKeys
  have := lineB_line (Z := zeroKeys) fiveMoves (p := startModel zeroKeys) ⟨h1, h2, h3⟩ (by decide +kernel)
  rw [(startModel_inv zeroKeys).2] at this
  exact this

/-- The hypotheses of `C75_sfen` are met by the start position with these moves; the text of the command. -/
example : Inv zeroKeys (startModel zeroKeys) ∧ (absPos (startModel zeroKeys)).Regular ∧ (absPos (startModel zeroKeys)).Line fiveMoves ∧
    commandText "startpos".toList (fiveMoves.map usiText) = "startpos moves 7g7f 3c3d 8h2b+ 3a2b B*5e".toList := by
  obtain ⟨h1, -, h3⟩ := startModel_ok zeroKeys
  exact ⟨h1, h3, by rw [(startModel_inv zeroKeys).2]; exact fiveMoves_line, by decide⟩

/-- A case for `C75_illegal_partial`: after `7g7f` the side that has moved cannot move again. One for `C75_fails_loose`: the reply `3c3d+`. -/
example : startPos.Line [.move 60 59 false] ∧ ¬ (startPos.after [.move 60 59 false]).Loose (.move 59 58 false) ∧
    (startPos.after [.move 60 59 false]).Loose (.move 20 21 true) := by
  refine ⟨⟨fiveMoves_line.1, trivial⟩, ?_, ⟨false, fiveMoves_line.2.1⟩⟩
  rintro ⟨_, ⟨⟨k, hk, -⟩, -⟩, -⟩
  have : (startPos.after [.move 60 59 false]).board 59 = some (.black, .pawn) := by decide +kernel
  have ht : (startPos.after [.move 60 59 false]).turn = .white := by decide +kernel
  rw [this, ht] at hk
  cases hk

/-- A case for `C75_fails_word`: `moves` is missing. -/
example : Solid "7g7f".toList ∧ "7g7f".toList ≠ [] := ⟨by unfold Solid; decide, by decide⟩

end Verif
