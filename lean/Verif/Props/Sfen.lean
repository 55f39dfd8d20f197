import Verif.Lemmas.SfenBad
import Verif.Props.Hcp

/-!
# SFEN text: C31, C32, C36
-/

namespace Verif
open Spec Bitboard Position

/-! ### C31 -/

/-- **C31**: for any placement (any number of kings, too), hands within a set, either turn and any `int` move number, reading
the text written gives the same placement, hands, turn, move number and hash, with the board views set up from scratch. -/
theorem C31_round_trip (Z : Zobrist) {p : Position} (hcode : ∀ s, p.piece s = pieceCode ((absPos p).board s)) (hkey : KeysOK Z p)
    (hhand : ∀ c h, (absPos p).hand c h ≤ h.total) (hl : -2147483648 ≤ p.gamePly) (hu : p.gamePly ≤ 2147483647) :
    ∃ p', setSfen Z (toSfen p p.gamePly) = .ok p' ∧ absPos p' = absPos p ∧ p'.gamePly = p.gamePly ∧ p'.getKey = p.getKey ∧
      Raw p' (absPos p).board ∧ KeysOK Z p' ∧ p'.st.checkersBB = p'.findCheckers ∧ p'.prev = [] ∧ ∀ c, (p'.hand c).WF := by
  obtain ⟨q, e, hr, ht, hg, hp, hh, -⟩ := sfen_spec Z hcode hhand p.gamePly hl hu
  have hr' : Raw (finish Z q) (absPos p).board := hr.congr rfl rfl rfl
  have habs : absPos (finish Z q) = absPos p := by
    apply pos_ext hr'.abs
    · funext c hk
      show (q.hand c).numOf hk.code = (p.hand c).numOf hk.code
      exact (hh c).2 _ (hcode_lt hk)
    · exact ht
  refine ⟨finish Z q, e, habs, hg, ?_, hr', finish_keys Z q, finish_checkers Z q, hp, fun c => (hh c).1⟩
  rw [getKey_spec Z _ (fun s => by rw [hr'.code, hr'.abs]) (finish_keys Z q), getKey_spec Z p hcode hkey, habs]

/-- **C31** with the board views: for a consistent position (at most one king per side) the board read back is consistent. -/
theorem C31_views (Z : Zobrist) {p : Position} (hp : Consistent p) (hkey : KeysOK Z p)
    (hhand : ∀ c h, (absPos p).hand c h ≤ h.total) (hl : -2147483648 ≤ p.gamePly) (hu : p.gamePly ≤ 2147483647) :
    ∃ p', setSfen Z (toSfen p p.gamePly) = .ok p' ∧ absPos p' = absPos p ∧ p'.gamePly = p.gamePly ∧ p'.getKey = p.getKey ∧ Consistent p' := by
  obtain ⟨q, e, hr, ht, hg, -, hh, -⟩ := sfen_spec Z hp.code hhand p.gamePly hl hu
  obtain ⟨p', e', h1, h2, h3, -⟩ := C31_round_trip Z hp.code hkey hhand hl hu
  rw [e] at e'; cases e'
  refine ⟨_, e, h1, h2, h3, finish_consistent Z hr ?_ fun c => (hh c).1⟩
  intro c s t h1 h2
  have a := (hp.king c s).mpr h1
  have b := (hp.king c t).mpr h2
  rw [a] at b; exact Option.some.inj b

/-- **C31** along a game: after any sequence of legal pushes, pops and passes, the text reproduces placement, hands, turn, move
number, hash and check status. -/
theorem C31_history (Z : Zobrist) (p : Position) (hp : Inv Z p) (hc : CheckOK p) (hw : ¬ (absPos p).InCheck p.turn.opp)
    (ops : List Op) (ho : Always LegalOp Z ⟨p, []⟩ ops) :
    ∃ b, Board.run Z ⟨p, []⟩ ops = some b ∧
      (-2147483648 ≤ b.pos.gamePly → b.pos.gamePly ≤ 2147483647 →
        ∃ p', setSfen Z (toSfen b.pos b.pos.gamePly) = .ok p' ∧ absPos p' = absPos b.pos ∧ p'.gamePly = b.pos.gamePly ∧
          p'.getKey = b.pos.getKey ∧ p'.inCheck = b.pos.inCheck ∧ Consistent p') := by
  obtain ⟨b, e, hb⟩ := (LChain.base (p0 := p) p.st.continuousCheck hp hc hw).run ops ho
  obtain ⟨g1, g2, g3⟩ := hb.good
  refine ⟨b, e, fun hl hu => ?_⟩
  have hhand : ∀ c h, (absPos b.pos).hand c h ≤ h.total := fun c h => InSet.hand_le g1.inSet c h
  obtain ⟨p', e1, h1, h2, h3, h4⟩ := C31_views Z g1.views g1.keys hhand hl hu
  obtain ⟨p'', e2, -, -, -, -, -, h5, -⟩ := C31_round_trip Z g1.views.code g1.keys hhand hl hu
  rw [e1] at e2; cases e2
  refine ⟨p', e1, h1, h2, h3, ?_, h4⟩
  have ht : p'.turn = b.pos.turn := congrArg Pos.turn h1
  rw [Bool.eq_iff_iff, (checkOK_find h4 (by rw [h1, ht]; exact g3) h5).inCheck, g2.inCheck, h1, ht]

/-- Pieces in hand, a two-digit count and White to move: the hypotheses hold and the text is as expected. -/
def handsModel : Position :=
  { setPieces zeroKeys { Position.clear with turn := .white, gamePly := 100 } (fun s => pieceCode (tsumeBoard s))
      (fun c i => if c = .black then (if i = 0 then 17 else if i = 6 then 1 else 0) else if i = 4 then 3 else 0) with
    gamePly := 100 }

example : (∀ s, handsModel.piece s = pieceCode ((absPos handsModel).board s)) ∧ KeysOK zeroKeys handsModel ∧
    (∀ c h, (absPos handsModel).hand c h ≤ h.total) ∧
    toSfen handsModel handsModel.gamePly = "4k4/9/4P4/9/9/9/9/9/9 w R17P3g 100".toList := by
  refine ⟨by decide +kernel, ⟨by decide +kernel, by decide +kernel, by decide +kernel⟩, ?_, by decide +kernel⟩
  intro c h
  cases c <;> cases h <;> decide +kernel

/-! ### C36 -/

/-- **C36** (sfen): positions with the same text are the same position with the same move number. -/
theorem C36_sfen_injective {p q : Position} (hp : ∀ s, p.piece s = pieceCode ((absPos p).board s))
    (hph : ∀ c h, (absPos p).hand c h ≤ h.total) (hpl : -2147483648 ≤ p.gamePly) (hpu : p.gamePly ≤ 2147483647)
    (hq : ∀ s, q.piece s = pieceCode ((absPos q).board s)) (hqh : ∀ c h, (absPos q).hand c h ≤ h.total)
    (hql : -2147483648 ≤ q.gamePly) (hqu : q.gamePly ≤ 2147483647)
    (e : toSfen p p.gamePly = toSfen q q.gamePly) : absPos p = absPos q ∧ p.gamePly = q.gamePly := by
  obtain ⟨a, ea, ra, ta, ga, -, ha, -⟩ := sfen_spec zeroKeys hp hph p.gamePly hpl hpu
  obtain ⟨b, eb, rb, tb, gb, -, hb, -⟩ := sfen_spec zeroKeys hq hqh q.gamePly hql hqu
  rw [e, eb] at ea
  have hf : finish zeroKeys b = finish zeroKeys a := Out.ok.inj ea
  have fp : b.piece = a.piece := (show (finish zeroKeys b).piece = (finish zeroKeys a).piece by rw [hf])
  have fh : b.hand = a.hand := (show (finish zeroKeys b).hand = (finish zeroKeys a).hand by rw [hf])
  have ft : b.turn = a.turn := (show (finish zeroKeys b).turn = (finish zeroKeys a).turn by rw [hf])
  have fg : b.gamePly = a.gamePly := (show (finish zeroKeys b).gamePly = (finish zeroKeys a).gamePly by rw [hf])
  refine ⟨pos_ext ?_ ?_ ?_, by rw [← ga, ← gb, fg]⟩
  · rw [← ra.abs, ← rb.abs]
    show (fun s => decodePiece (a.piece s)) = fun s => decodePiece (b.piece s)
    rw [fp]
  · funext c h
    show (p.hand c).numOf h.code = (q.hand c).numOf h.code
    rw [← (ha c).2 _ (hcode_lt h), ← (hb c).2 _ (hcode_lt h), fh]
  · show p.turn = q.turn
    rw [← ta, ← tb, ft]

/-! ### C32 -/

/-- **C32** fails: a promoted gold or White king on the board writes outside the piece bitboards, a king in hand reads
outside the hand tables, a long count overflows; nine extra slashes put two pieces on one square, so that the piece array
and the bitboards disagree; and `+K` makes a piece that does not exist. -/
theorem C32_fails (Z : Zobrist) :
    setSfen Z "4+G4".toList = .ub ∧ setSfen Z "+k8".toList = .ub ∧ setSfen Z "9 b K".toList = .ub ∧
    setSfen Z "9 b 2147483648P".toList = .ub ∧
    (∃ p, setSfen Z "P999999999/////////L b - 1".toList = .ok p ∧ p.piece 72 = 2 ∧ (p.byType 1).isSet 72 = true ∧
      (p.byType 2).isSet 72 = true) ∧
    ∃ p, setSfen Z "+K".toList = .ok p ∧ p.piece 72 = 16 := by
  have key : ∀ (cs : List Char) (f : Position → Bool), ((parseSfen cs).toOption.map f) = some true →
      ∃ q, parseSfen cs = .ok q ∧ f q = true := by
    intro cs f h
    rcases hp : parseSfen cs with q | _ | _
    · rw [hp] at h; exact ⟨q, rfl, by simpa [Out.toOption] using h⟩
    · rw [hp] at h; cases h
    · rw [hp] at h; cases h
  refine ⟨rfl, rfl, rfl, rfl, ?_, ?_⟩
  · obtain ⟨q, e, hq⟩ := key "P999999999/////////L b - 1".toList
      (fun p => decide (p.piece 72 = 2) && (p.byType 1).isSet 72 && (p.byType 2).isSet 72) (by decide +kernel)
    simp only [Bool.and_eq_true, decide_eq_true_eq] at hq
    refine ⟨finish Z q, by unfold setSfen; rw [e]; rfl, hq.1.1, hq.1.2, hq.2⟩
  · obtain ⟨q, e, hq⟩ := key "+K".toList (fun p => decide (p.piece 72 = 16)) (by decide +kernel)
    refine ⟨finish Z q, by unfold setSfen; rw [e]; rfl, of_decide_eq_true hq⟩

/-- **C32**, the part that holds for memory: any text in which no plus meets a gold or king, no king stands in the hand
field and no count has more than nine digits is accepted or rejected without leaving an array. -/
theorem C32_safe_partial (Z : Zobrist) (cs : List Char) (h1 : PlusOK false (field cs))
    (h2 : 'K' ∉ field (afterField (afterField cs)) ∧ 'k' ∉ field (afterField (afterField cs)))
    (h3 : ShortNumbers 0 (field (afterField (afterField cs)))) : setSfen Z cs ≠ .ub := by
  have key : ∀ (p : Position), (readHands (afterField (afterField cs)) p 0) ≠ .ub := fun p =>
    readHands_safe _ p 0 0 (by omega) (by simp) h3 h2
  unfold setSfen parseSfen
  rcases readBoard_safe cs clear 72 false h1 with e | ⟨p, e, -⟩ | ⟨p, e⟩
  · simp only [Bool.false_eq_true, if_false] at e; rw [e]; intro x; cases x
  · simp only [Bool.false_eq_true, if_false] at e; rw [e]; intro x; cases x
  · simp only [Bool.false_eq_true, if_false] at e
    rw [e]
    simp only [Out.bind_ok, onStream]
    rcases readTurn_safe (afterField cs) p with e | ⟨p', e, -⟩ | ⟨p', e⟩
    · rw [e]; intro x; cases x
    · rw [e]; intro x; cases x
    · rw [e]
      simp only [Out.bind_ok]
      rcases h : readHands (afterField (afterField cs)) p' 0 with a | _ | _
      · simp only [Out.bind_ok]; intro x; cases x
      · intro x; cases x
      · exact absurd h (key p')

/-- **C32**, the part that holds for the views: any accepted text in which no plus meets a gold or king and fewer than nine
slashes occur on the board gives a board whose piece array and bitboards agree, with keys and checkers computed from it; it
is fully consistent when no side has two kings and the counts fit the hands. -/
theorem C32_views_partial (Z : Zobrist) (cs : List Char) (h1 : PlusOK false (field cs)) (h2 : (field cs).count '/' < 9)
    {p : Position} (he : setSfen Z cs = .ok p) :
    Raw p (absPos p).board ∧ KeysOK Z p ∧ p.st.checkersBB = p.findCheckers ∧
      (OneKing (absPos p).board → (∀ c, (p.hand c).WF) → Consistent p) := by
  unfold setSfen parseSfen at he
  rcases e1 : readBoard cs clear 72 0 with x | _ | _
  · rw [e1] at he
    obtain ⟨b, hr⟩ := readBoard_raw cs clear 72 false h1 0 (by omega) Raw.clear (fun s hs => absurd rfl hs) e1
    simp only [Out.bind_ok] at he
    have step : ∀ {f : List Char → Position → Out (Position × Option (List Char))} {x y : Position × Option (List Char)},
        (∀ cs p z, f cs p = .ok z → z.1.piece = p.piece ∧ z.1.byType = p.byType ∧ z.1.byColor = p.byColor) →
        onStream f x = .ok y → Raw x.1 b → Raw y.1 b := by
      intro f x y hf hy hx
      unfold onStream at hy
      split at hy
      · cases hy; exact hx
      · obtain ⟨a1, a2, a3⟩ := hf _ _ _ hy
        exact hx.congr a1 a2 a3
    rcases e2 : onStream readTurn x with y | _ | _
    · rw [e2] at he
      have hr2 := step (fun _ _ _ h => readTurn_raw h) e2 hr
      simp only [Out.bind_ok] at he
      rcases e3 : onStream (fun cs p => readHands cs p 0) y with z | _ | _
      · rw [e3] at he
        have hr3 := step (fun _ _ _ h => readHands_raw h) e3 hr2
        simp only [Out.bind_ok] at he
        obtain ⟨q, hq⟩ : ∃ q, q = ({ z.1 with gamePly := readPly z.2 } : Position) := ⟨_, rfl⟩
        have hr4 : Raw q b := by rw [hq]; exact hr3.congr rfl rfl rfl
        rw [← hq] at he
        cases he
        have hr5 : Raw (finish Z q) b := hr4.congr rfl rfl rfl
        rw [hr5.abs]
        exact ⟨hr5, finish_keys Z q, finish_checkers Z q, fun ho hw => finish_consistent Z hr4 ho hw⟩
      · rw [e3] at he; cases he
      · rw [e3] at he; cases he
    · rw [e2] at he; cases he
    · rw [e2] at he; cases he
  · rw [e1] at he; cases he
  · rw [e1] at he; cases he

/-- A text with promoted pieces, hands and a missing move number meets all hypotheses; so does nonsense such as two turns. -/
example : PlusOK false (field "4k4/9/+P3+B4/9/9/9/9/9/4K4 bw 2G10p".toList) ∧
    (field "4k4/9/+P3+B4/9/9/9/9/9/4K4 bw 2G10p".toList).count '/' < 9 ∧
    ShortNumbers 0 (field (afterField (afterField "4k4/9/+P3+B4/9/9/9/9/9/4K4 bw 2G10p".toList))) ∧
    ('K' ∉ field (afterField (afterField "4k4/9/+P3+B4/9/9/9/9/9/4K4 bw 2G10p".toList))) := by
  refine ⟨?_, by decide, ?_, by decide⟩
  · show PlusOK false "4k4/9/+P3+B4/9/9/9/9/9/4K4".toList
    simp [PlusOK]
  · show ShortNumbers 0 "2G10p".toList
    simp [ShortNumbers]

end Verif
