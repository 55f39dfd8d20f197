import Verif.Lemmas.Bod
import Verif.Props.Ki2
import Verif.Props.Views

/-!
# C87: board diagrams
-/

namespace Verif.Bod
open Position Spec

/-- **C87**: whenever `to_bod` returns, a reader of diagrams finds in the text exactly the placement, the hands and the side to move of the
board, whether or not a line with the last move follows. -/
theorem C87_diagram {Z : Zobrist} {b b' : Board} {text : List Char} (h : toBod Z b = .ok (text, b')) (hp : Consistent b'.pos)
    (hh : ∀ c h, (absPos b'.pos).hand c h ≤ h.total) : Spec.Bod.read text = some (absPos b'.pos) := by
  have hne : Kif.bodLines b'.pos ≠ [] := by simp [Kif.bodLines]
  have hnl : ∀ l ∈ Kif.bodLines b'.pos, '\n' ∉ l := fun l hl => (Kif.bodLines_ok hp l hl).1
  unfold toBod at h
  split at h
  · injection h with h
    obtain ⟨rfl, rfl⟩ := Prod.mk.inj h
    exact read_lines hp hh (more := []) (by rw [List.append_nil]; exact splitAt_joinNl hne hnl) (by simp)
  · split at h
    · cases h
    · split at h
      · cases h
      · split at h
        · cases h
        · next x1 b0 x3 x4 t x5 x6 b1 x7 =>
          injection h with h
          obtain ⟨rfl, rfl⟩ := Prod.mk.inj h
          have e : lastLine b0.pos.gamePly t = '\n' :: ("手数＝".toList ++ (intChars b0.pos.gamePly ++ ('　' :: (t ++ "　まで".toList)))) := rfl
          rw [e]
          obtain ⟨r, hr⟩ : ∃ r, r = intChars b0.pos.gamePly ++ ('　' :: (t ++ "　まで".toList)) := ⟨_, rfl⟩
          rw [← hr]
          refine read_lines hp hh (splitAt_joinNl_more hne hnl _) ?_
          have e2 : Spec.Bod.splitAt '\n' ("手数＝".toList ++ r) = match Spec.Bod.splitAt '\n' ("数＝".toList ++ r) with
              | [] => [['手']] | w :: ws => ('手' :: w) :: ws := rfl
          rw [e2]
          split
          · decide
          · intro e
            have : '手' = '後' := (List.cons.inj (show '手' :: _ = '後' :: _ from e)).1
            revert this; decide

/-- **C87**: on a board without history `to_bod` returns the diagram alone and changes nothing. -/
theorem C87_start (Z : Zobrist) (p : Position) : toBod Z ⟨p, []⟩ = .ok (boardToBod p, ⟨p, []⟩) := rfl

/-- The last entry of the history is a move to this square. -/
def Went (b : Board) (t : Square) : Bool :=
  match b.hist with
  | .move m :: _ => m.dst == t.val
  | _ => false

theorem went_same {b : Board} (h : b.hist = [] ∨ ∃ m l, b.hist = .move m :: l ∧ m ≠ 0#32) (t : Square) : Same b t ↔ Went b t = true := by
  unfold Same Went Kif.peek
  rcases h with h | ⟨m, l, h, hm⟩
  · rw [h]; simp
  · rw [h]; simp [hm]

/-- What `to_bod` returns after a legal move, in all cases. -/
theorem toBod_after {Z : Zobrist} {b : Board} (hg : Csa.Good Z b.pos) {mv : Mv} (hm : (absPos b.pos).Legal mv) :
    ∃ b' k q, b.push Z (encode b.pos mv) = some b' ∧ Spec.Bod.moved (absPos b.pos) mv = some k ∧
      Ki2.moveToKi2 b (encode b.pos mv) = some (Spec.Bod.mark b.pos.turn ::
        Ki2.spaced ((if Same b (Spec.Bod.target mv) then ['同'] else Spec.Bod.square (Spec.Bod.target mv)) ++ (Spec.Bod.name k ++ q))) ∧
      toBod Z b' = .ok (boardToBod b'.pos ++ ("\n手数＝".toList ++ (intChars b.pos.gamePly ++ ('　' :: (Spec.Bod.mark b.pos.turn ::
        (Spec.Bod.square (Spec.Bod.target mv) ++ (if Same b (Spec.Bod.target mv) then
          '同' :: (if (Spec.Bod.name k ++ q).length = 1 then Spec.Bod.name k ++ q else (Spec.Bod.name k ++ q).drop 1)
        else Spec.Bod.name k ++ q)) ++ "　まで".toList)))), b') := by
  obtain ⟨k, q, h1, h2, h3⟩ := bod_text hg hm
  obtain ⟨p', e, -, -, -, -, hu⟩ := doMove_inv Z hg.inv (pseudo_playable hm.1.1 hg.regular.waiting)
  obtain ⟨b', hb'⟩ : ∃ b' : Board, b' = ⟨p', .move (encode b.pos mv) :: b.hist⟩ := ⟨_, rfl⟩
  have hpush : b.push Z (encode b.pos mv) = some b' := by simp [Board.push, e, hb']
  have hpop : b'.pop = some b := by simp [Board.pop, hu, hb']
  have hpeek : Kif.peek b' = encode b.pos mv := by rw [hb']; rfl
  refine ⟨b', k, q, hpush, h1, h2, ?_⟩
  have hh : b'.hist = .move (encode b.pos mv) :: b.hist := by rw [hb']
  unfold toBod
  rw [hh, hpop, hpeek]
  dsimp only
  rw [h3]
  dsimp only
  rw [hpush]
  rfl

/-- **C87**, part: after every legal move `to_bod` returns, leaves the board exactly as it was, and ends its text with a line that gives the
number of the move, the player, the square, "同" if the move before went to the same square, and the piece with the words `move_to_ki2`
uses. Missing: a move to the square of the move before whose text has more than one character after "同" (`C87_fails_same`), and a
preceding pass (`C87_fails_pass`, `C87_fails_null`). -/
theorem C87_last_partial (Z : Zobrist) (b : Board) (hg : Csa.Good Z b.pos) (mv : Mv) (hm : (absPos b.pos).Legal mv)
    (hlast : b.hist = [] ∨ ∃ m l, b.hist = .move m :: l ∧ m ≠ 0#32) :
    ∃ b' k q, b.push Z (encode b.pos mv) = some b' ∧ Spec.Bod.moved (absPos b.pos) mv = some k ∧
      Ki2.moveToKi2 b (encode b.pos mv) = some (Spec.Bod.mark b.pos.turn ::
        Ki2.spaced ((if Went b (Spec.Bod.target mv) then ['同'] else Spec.Bod.square (Spec.Bod.target mv)) ++ (Spec.Bod.name k ++ q))) ∧
      ((Went b (Spec.Bod.target mv) = true → (Spec.Bod.name k ++ q).length = 1) →
        toBod Z b' = .ok (boardToBod b'.pos ++ ("\n手数＝".toList ++ (intChars b.pos.gamePly ++ ('　' :: (Spec.Bod.mark b.pos.turn ::
          (Spec.Bod.square (Spec.Bod.target mv) ++ ((if Went b (Spec.Bod.target mv) then ['同'] else []) ++
          (Spec.Bod.name k ++ q))) ++ "　まで".toList)))), b')) := by
  obtain ⟨b', k, q, h1, h2, h3, h4⟩ := toBod_after hg hm
  have hs := went_same hlast (Spec.Bod.target mv)
  refine ⟨b', k, q, h1, h2, ?_, fun hlen => ?_⟩
  · rw [h3]
    by_cases h : Same b (Spec.Bod.target mv)
    · rw [if_pos h, if_pos (hs.mp h)]
    · rw [if_neg h, if_neg fun e => h (hs.mpr e)]
  · rw [h4]
    by_cases h : Same b (Spec.Bod.target mv)
    · rw [if_pos h, if_pos (hs.mp h), if_pos (hlen (hs.mp h))]; rfl
    · rw [if_neg h, if_neg fun e => h (hs.mpr e)]; rfl

/-- **C87** fails for every move to the square of the move before whose text has more than one character after "同", as for every promotion,
every promoted lance, knight or silver and every move that needs a word like 左: the first character of the piece's name is left out. -/
theorem C87_fails_same (Z : Zobrist) (b : Board) (hg : Csa.Good Z b.pos) (mv : Mv) (hm : (absPos b.pos).Legal mv)
    (hlast : ∃ m l, b.hist = .move m :: l ∧ m ≠ 0#32) (hw : Went b (Spec.Bod.target mv) = true) :
    ∃ b' k q, b.push Z (encode b.pos mv) = some b' ∧ Spec.Bod.moved (absPos b.pos) mv = some k ∧
      Ki2.moveToKi2 b (encode b.pos mv) = some (Spec.Bod.mark b.pos.turn :: Ki2.spaced ('同' :: (Spec.Bod.name k ++ q))) ∧
      ((Spec.Bod.name k ++ q).length ≠ 1 →
        toBod Z b' = .ok (boardToBod b'.pos ++ ("\n手数＝".toList ++ (intChars b.pos.gamePly ++ ('　' :: (Spec.Bod.mark b.pos.turn ::
          (Spec.Bod.square (Spec.Bod.target mv) ++ ('同' :: (Spec.Bod.name k ++ q).drop 1)) ++ "　まで".toList)))), b')) := by
  obtain ⟨b', k, q, h1, h2, h3, h4⟩ := toBod_after hg hm
  have h := (went_same (Or.inr hlast) (Spec.Bod.target mv)).mpr hw
  refine ⟨b', k, q, h1, h2, ?_, fun hlen => ?_⟩
  · rw [h3, if_pos h]; rfl
  · rw [h4, if_pos h, if_neg hlen]

/-- **C87** fails after a pass: `to_bod` takes the pass back as a move, which is undefined. -/
theorem C87_fails_pass (Z : Zobrist) (b b' : Board) (h : b.pushPass = some b') : toBod Z b' = .ub := by
  obtain ⟨p, bk, e⟩ : ∃ p bk, b' = ⟨p, .pass bk :: b.hist⟩ := by
    unfold Board.pushPass at h
    split at h
    · cases h
    · exact ⟨_, _, (Option.some.inj h).symm⟩
  rw [e]; rfl

/-- **C87** fails for a move to 1b right after a pass: the integer of the pass has this destination, and the text says "同". -/
theorem C87_fails_null (Z : Zobrist) (b b0 : Board) (hb : b0.pushPass = some b) (hg : Csa.Good Z b.pos) (mv : Mv)
    (hm : (absPos b.pos).Legal mv) (ht : Spec.Bod.target mv = 1) :
    ∃ b' l, b.push Z (encode b.pos mv) = some b' ∧
      Ki2.moveToKi2 b (encode b.pos mv) = some (Spec.Bod.mark b.pos.turn :: '同' :: l) ∧
      ∃ l', toBod Z b' = .ok (boardToBod b'.pos ++ ("\n手数＝".toList ++ (intChars b.pos.gamePly ++
        ('　' :: (Spec.Bod.mark b.pos.turn :: ("１二同".toList ++ l'))))), b') := by
  have hs : Same b (Spec.Bod.target mv) := by
    obtain ⟨p, bk, e⟩ : ∃ p bk, b = ⟨p, .pass bk :: b0.hist⟩ := by
      unfold Board.pushPass at hb
      split at hb
      · cases hb
      · exact ⟨_, _, (Option.some.inj hb).symm⟩
    rw [ht, e]
    exact ⟨show Move.null ≠ 0#32 by decide, show Move.null.dst = 1 by decide⟩
  obtain ⟨b', k, q, h1, h2, h3, h4⟩ := toBod_after hg hm
  rw [if_pos hs] at h3 h4
  obtain ⟨c, r, hn, -⟩ := name_ne k
  have hsp : ∃ l, Ki2.spaced (['同'] ++ (Spec.Bod.name k ++ q)) = '同' :: l := by
    rw [hn, show (c :: r) ++ q = c :: (r ++ q) from rfl]
    rcases r ++ q with _ | ⟨x, y⟩
    · exact ⟨['　', c], rfl⟩
    · exact ⟨c :: x :: y, rfl⟩
  obtain ⟨l, hl⟩ := hsp
  refine ⟨b', l, h1, by rw [h3, hl], (if (Spec.Bod.name k ++ q).length = 1 then Spec.Bod.name k ++ q else (Spec.Bod.name k ++ q).drop 1) ++
    "　まで".toList, ?_⟩
  rw [h4, ht]
  rfl

/-- Black's pawn on 5f, White's silver on 4d and promoted silver on 6d. -/
def recaptureBoard (s : Square) : Option (Color × Kind) :=
  match s.val with
  | 80 => some (.black, .king) | 0 => some (.white, .king) | 41 => some (.black, .pawn) | 30 => some (.white, .silver)
  | 48 => some (.white, .proSilver) | _ => none

def recaptureModel : Position := setPieces zeroKeys clear (fun s => pieceCode (recaptureBoard s)) (fun _ _ => 0)

theorem recaptureModel_ok : Inv zeroKeys recaptureModel ∧ absPos recaptureModel = ⟨recaptureBoard, fun _ _ => 0, .black⟩ ∧
    CheckOK recaptureModel ∧ (absPos recaptureModel).Regular :=
  setup_regular recaptureBoard (fun _ _ => 0) 80 0 (by decide +kernel) (by decide +kernel) (fun c h => Nat.zero_le _)
    (by decide +kernel) (fun h => by cases h <;> decide +kernel) (by decide +kernel)

/-- The board after the pawn has moved to 5e. -/
def recaptured : Board := (Board.push zeroKeys ⟨recaptureModel, []⟩ (encode recaptureModel (.move 41 40 false))).getD ⟨recaptureModel, []⟩

theorem recaptured_ok : Csa.Good zeroKeys recaptured.pos ∧ Board.push zeroKeys ⟨recaptureModel, []⟩ (encode recaptureModel (.move 41 40 false)) = some recaptured := by
  obtain ⟨h1, -, h2, h3⟩ := recaptureModel_ok
  have hg : Csa.Good zeroKeys recaptureModel := ⟨h1, h2, h3⟩
  have hm : (absPos recaptureModel).Legal (.move 41 40 false) := Ki2.legal_listed hg (by decide +kernel)
  obtain ⟨p', e, hg', -⟩ := hg.doMove hm
  have hp : Board.push zeroKeys ⟨recaptureModel, []⟩ (encode recaptureModel (.move 41 40 false)) =
      some ⟨p', [.move (encode recaptureModel (.move 41 40 false))]⟩ := by simp [Board.push, e]
  have hr : recaptured = ⟨p', [.move (encode recaptureModel (.move 41 40 false))]⟩ := by rw [recaptured, hp]; rfl
  exact ⟨by rw [hr]; exact hg', by rw [hp, hr]⟩

/-- **C87** fails so that two different legal moves get the same text: White can take on 5e with the silver or with the promoted silver.
`move_to_ki2` writes "同　銀" and "同成銀", and `to_bod` names a silver for both. -/
theorem C87_fails_ambiguous : (absPos recaptured.pos).Legal (.move 30 40 false) ∧ (absPos recaptured.pos).Legal (.move 48 40 false) ∧
    Ki2.moveToKi2 recaptured (encode recaptured.pos (.move 30 40 false)) = some "△同　銀".toList ∧
    Ki2.moveToKi2 recaptured (encode recaptured.pos (.move 48 40 false)) = some "△同成銀".toList ∧
    moveToBod recaptured (encode recaptured.pos (.move 30 40 false)) = some "△５五同銀".toList ∧
    moveToBod recaptured (encode recaptured.pos (.move 48 40 false)) = some "△５五同銀".toList :=
  ⟨Ki2.legal_listed recaptured_ok.1 (by decide +kernel), Ki2.legal_listed recaptured_ok.1 (by decide +kernel), by decide +kernel,
    by decide +kernel, by decide +kernel, by decide +kernel⟩

/-- The hypotheses of `C87_last_partial` and its additional condition hold for the silver's move, those of `C87_fails_same` for the promoted silver's. -/
example : Csa.Good zeroKeys recaptured.pos ∧ (∃ m l, recaptured.hist = .move m :: l ∧ m ≠ 0#32) ∧ Went recaptured 40 = true ∧
    (Spec.Bod.name .silver).length = 1 ∧ (Spec.Bod.name .proSilver).length ≠ 1 := by
  refine ⟨recaptured_ok.1, ?_, by decide +kernel, by decide, by decide⟩
  have h : (match recaptured.hist with | .move m :: _ => decide (m ≠ 0#32) | _ => false) = true := by decide +kernel
  revert h
  rcases recaptured.hist with _ | ⟨m | b, l⟩
  · intro h; cases h
  · intro h; exact ⟨m, l, rfl, of_decide_eq_true h⟩
  · intro h; cases h

/-- The text after that move. -/
def recapturedText : List Char := ("後手の持駒：なし\n  ９ ８ ７ ６ ５ ４ ３ ２ １\n+---------------------------+\n" ++
  "| ・ ・ ・ ・ ・ ・ ・ ・v玉|一\n| ・ ・ ・ ・ ・ ・ ・ ・ ・|二\n| ・ ・ ・ ・ ・ ・ ・ ・ ・|三\n| ・ ・ ・v全 ・v銀 ・ ・ ・|四\n| ・ ・ ・ ・ 歩 ・ ・ ・ ・|五\n" ++
  "| ・ ・ ・ ・ ・ ・ ・ ・ ・|六\n| ・ ・ ・ ・ ・ ・ ・ ・ ・|七\n| ・ ・ ・ ・ ・ ・ ・ ・ ・|八\n| 玉 ・ ・ ・ ・ ・ ・ ・ ・|九\n" ++
  "+---------------------------+\n先手の持駒：なし\n後手番\n手数＝0　▲５五歩　まで").toList

/-- The hypotheses of `C87_diagram` hold for it. -/
example : ∃ b, toBod zeroKeys recaptured = .ok (recapturedText, b) ∧ Spec.Bod.read recapturedText = some (absPos b.pos) := by
  obtain ⟨h1, -, h2, h3⟩ := recaptureModel_ok
  have hg : Csa.Good zeroKeys recaptureModel := ⟨h1, h2, h3⟩
  have hm : (absPos recaptureModel).Legal (.move 41 40 false) := Ki2.legal_listed hg (by decide +kernel)
  obtain ⟨b', k, q, e1, e2, e3, e4⟩ := C87_last_partial zeroKeys ⟨recaptureModel, []⟩ hg _ hm (Or.inl rfl)
  have hb : b' = recaptured := by
    have := recaptured_ok.2
    rw [e1] at this
    exact Option.some.inj this
  subst hb
  have e5 := e4 (fun h => by cases h)
  have h6 : (match toBod zeroKeys recaptured with | .ok x => decide (x.1 = recapturedText) | _ => false) = true := by decide +kernel
  rw [e5] at h6
  have h7 := of_decide_eq_true h6
  dsimp only at h7
  rw [h7] at e5
  refine ⟨_, e5, C87_diagram e5 recaptured_ok.1.inv.views ?_⟩
  have : ∀ c : Color, recaptured.pos.hand c = 0#32 := by intro c; cases c <;> decide +kernel
  intro c h
  show (recaptured.pos.hand c).numOf h.code ≤ _
  rw [this c]; cases h <;> decide

/-- The starting position after a pass by Black. -/
def passed : Board := (Board.pushPass ⟨startModel zeroKeys, []⟩).getD ⟨startModel zeroKeys, []⟩

/-- The hypotheses of `C87_fails_null` hold: after the pass White plays the lance from 1a to 1b. -/
example : Board.pushPass ⟨startModel zeroKeys, []⟩ = some passed ∧ Csa.Good zeroKeys passed.pos ∧ (absPos passed.pos).Legal (.move 0 1 false) ∧
    Ki2.moveToKi2 passed (encode passed.pos (.move 0 1 false)) = some "△同　香".toList := by
  obtain ⟨h1, h2, h3⟩ := startModel_ok zeroKeys
  have hch := LChain.base (p0 := startModel zeroKeys) (startModel zeroKeys).st.continuousCheck h1 h2 h3.waiting
  rw [withCC_self] at hch
  have hb : playB zeroKeys ⟨startModel zeroKeys, []⟩ [.pushPass] = true := by decide +kernel
  have ha : Always LegalOp zeroKeys ⟨startModel zeroKeys, []⟩ [.pushPass] := (playB_legal h3 hch _ hb).mono fun _ _ h => h.1
  obtain ⟨b, e, hb⟩ := hch.run _ ha
  have e' : Board.pushPass ⟨startModel zeroKeys, []⟩ = some b := by
    rcases h : Board.pushPass ⟨startModel zeroKeys, []⟩ with _ | x
    · simp [Board.run, Board.step, h] at e
    · simp [Board.run, Board.step, h] at e; rw [e]
  have hbp : b = passed := by rw [passed, e']; rfl
  subst hbp
  have hg : Csa.Good zeroKeys passed.pos := ⟨hb.good.1, hb.good.2.1, hb.regular h3⟩
  exact ⟨e', hg, Ki2.legal_listed hg (by decide +kernel), by decide +kernel⟩

end Verif.Bod
