import Verif.Props.UsiInfo
import Verif.Props.IsLegalAny
import Verif.Lemmas.MatchRun

/-!
# C84: the score and the moves of an `info` line as the match runner records them
-/

namespace Verif.Usi
open Spec Position

/-! ### The texts of moves -/

theorem usiText_chars (mv : Mv) : MoveWord (usiText mv) ∧ 'p' ∉ usiText mv := by
  have hn : usiText mv ≠ [] := (usiText_solid mv).2
  have h1 : ∀ s : Square, (32 < (Char.ofNat (49 + s.val / 9)).toNat ∧ (Char.ofNat (49 + s.val / 9)).toNat < 112) ∧
      (32 < (Char.ofNat (97 + s.val % 9)).toNat ∧ (Char.ofNat (97 + s.val % 9)).toNat < 112) := by decide
  have h2 : ∀ c ∈ usiText mv, 32 < c.toNat ∧ c.toNat < 112 := by
    intro c hc
    cases mv with
    | move f t pro =>
      simp only [usiText, List.mem_append, List.mem_cons, List.not_mem_nil, or_false] at hc
      rcases hc with (rfl | rfl | rfl | rfl) | hc
      · exact (h1 f).1
      · exact (h1 f).2
      · exact (h1 t).1
      · exact (h1 t).2
      · cases pro
        · cases hc
        · rw [if_pos rfl, List.mem_singleton] at hc; subst hc; decide
    | drop h t =>
      simp only [usiText, List.mem_cons, List.not_mem_nil, or_false] at hc
      rcases hc with rfl | rfl | rfl | rfl
      · cases h <;> decide
      · decide
      · exact (h1 t).1
      · exact (h1 t).2
  have h3 : 'p' ∉ usiText mv := fun h => by have := (h2 _ h).2; revert this; decide
  refine ⟨⟨hn, fun c hc => ⟨(h2 c hc).1, by have := (h2 c hc).2; omega⟩, fun e => ?_⟩, h3⟩
  rw [e] at h3
  exact h3 List.mem_cons_self

/-- A line with moves. -/
def movesLine (before : List (List Char × Int)) (s : Score) (after : List (List Char × Int)) (mv : Mv) (mvs : List Mv) : InfoLine :=
  ⟨before, s, after, usiText mv, mvs.map usiText⟩

theorem movesLine_valid {before after : List (List Char × Int)} (hb : ∀ x ∈ before, NumberName x.1) (ha : ∀ x ∈ after, NumberName x.1) (s : Score) (mv : Mv)
    (mvs : List Mv) : (movesLine before s after mv mvs).Valid :=
  ⟨hb, ha, (usiText_chars mv).1, fun w hw => by obtain ⟨m, -, rfl⟩ := List.mem_map.mp hw; exact (usiText_chars m).1⟩

/-! ### The pattern -/

theorem score_none {w : List Char} {vs : List (List Char)} (hw : ' ' ∉ w) (hv : ∀ v ∈ vs, ' ' ∉ v ∧ v ≠ "cp".toList ∧ v ≠ "mate".toList) :
    greedy scoreGroups (w ++ flat vs) = none := by
  refine greedy_words (P := fun v => v ≠ "cp".toList ∧ v ≠ "mate".toList) rfl ?_ ?_ vs hv w hw
  · intro c w vs hc hv
    unfold scoreGroups
    cases e : afterText "score ".toList (c :: (w ++ flat vs)) with
    | none => rfl
    | some r =>
      have := afterText_eq e
      obtain ⟨-, hr⟩ := first_word (v := c :: w) (t := "score".toList) (r := r) (by decide) hc this
      cases vs with
      | nil => cases hr
      | cons v vs =>
        rw [flat_cons] at hr
        obtain ⟨-, hr⟩ := List.cons.inj hr
        have hv1 := hv v List.mem_cons_self
        have a1 : afterText "cp ".toList r = none := by
          cases e : afterText "cp ".toList r with
          | none => rfl
          | some u =>
            have := afterText_eq e
            rw [← hr] at this
            exact absurd (first_word (t := "cp".toList) (r := u) (by decide) hv1.1 this).1 hv1.2.1
        have a2 : afterText "mate ".toList r = none := by
          cases e : afterText "mate ".toList r with
          | none => rfl
          | some u =>
            have := afterText_eq e
            rw [← hr] at this
            exact absurd (first_word (t := "mate".toList) (r := u) (by decide) hv1.1 this).1 hv1.2.2
        rw [Option.bind_some, a1, a2]
        rfl
  · intro v vs _
    rfl

theorem signsDigits_all {β : Type} {k : List Char → Option β} {ds rest : List Char} {b : β} (hn : ds ≠ []) (hd : ∀ c ∈ ds, isSignOrDigit c = true)
    (hr : ∀ c ∈ rest.head?, isSignOrDigit c = false) (hk : k rest = some b) : signsDigits k (ds ++ rest) = some (ds, b) := by
  induction ds with
  | nil => exact absurd rfl hn
  | cons c ds ih =>
    rw [List.cons_append, signsDigits, if_pos (hd c List.mem_cons_self)]
    cases ds with
    | nil =>
      have : signsDigits k rest = none := by
        cases rest with
        | nil => rfl
        | cons d rest => rw [signsDigits, hr d rfl]; rfl
      rw [List.nil_append, this, hk]
      rfl
    | cons d ds => rw [ih (List.cons_ne_nil _ _) (fun x hx => hd x (List.mem_cons_of_mem _ hx))]

theorem pvText_none {s : List Char} (h : 'p' ∉ s) : greedy (afterText "pv ".toList) s = none := by
  induction s with
  | nil => rfl
  | cons c s ih =>
    refine greedy_cons_none ?_ (ih fun hm => h (List.mem_cons_of_mem _ hm))
    cases e : afterText "pv ".toList (c :: s) with
    | none => rfl
    | some r =>
      have : c = 'p' := (List.cons.inj (afterText_eq e)).1
      exact absurd (this ▸ List.mem_cons_self) h

theorem intChars_signs (n : Int) : ∀ c ∈ intChars n, isSignOrDigit c = true := by
  intro c hc
  unfold isSignOrDigit
  unfold intChars at hc
  split at hc
  · rcases List.mem_cons.mp hc with rfl | hc
    · decide
    · rw [natChars_isDigit c hc]; simp
  · rw [natChars_isDigit c hc]; simp

/-- The word for the kind of score, and the word for its value. -/
def kindWord : Score → List Char
  | .cp _ => "cp".toList
  | _ => "mate".toList

def valueWord : Score → List Char
  | .cp n => intChars n
  | .mate n => intChars n
  | .mateSoon lost => if lost then ['-'] else ['+']

theorem scoreWords_eq (s : Score) : scoreWords s = ["score".toList, kindWord s, valueWord s] := by cases s <;> rfl

theorem valueWord_ok (s : Score) : valueWord s ≠ [] ∧ (∀ c ∈ valueWord s, isSignOrDigit c = true) ∧ ' ' ∉ valueWord s ∧
    valueWord s ≠ "cp".toList ∧ valueWord s ≠ "mate".toList := by
  have hi : ∀ n : Int, intChars n ≠ [] ∧ (∀ c ∈ intChars n, isSignOrDigit c = true) ∧ ' ' ∉ intChars n ∧
      intChars n ≠ "cp".toList ∧ intChars n ≠ "mate".toList :=
    fun n => ⟨(plain_int n).1, intChars_signs n, (plain_int n).blank, intChars_word _ (by decide), intChars_word _ (by decide)⟩
  cases s with
  | cp n => exact hi n
  | mate n => exact hi n
  | mateSoon b => cases b <;> exact ⟨by decide, by decide, by decide, by decide, by decide⟩

theorem flat_p {mvs : List Mv} : 'p' ∉ flat (mvs.map usiText) := by
  intro h
  obtain ⟨w, hw, h⟩ := List.mem_flatMap.mp h
  obtain ⟨m, -, rfl⟩ := List.mem_map.mp hw
  rcases List.mem_cons.mp h with h | h
  · revert h; decide
  · exact (usiText_chars m).2 h

theorem usiInfo_text {before after : List (List Char × Int)} (ha : ∀ x ∈ after, NumberName x.1) (s : Score) (mv : Mv) (mvs : List Mv) :
    usiInfo (infoText (movesLine before s after mv mvs)) =
      some (decide (kindWord s = "mate".toList), valueWord s, usiText mv ++ flat (mvs.map usiText)) := by
  obtain ⟨v1, v2, v3, v4, v5⟩ := valueWord_ok s
  have hk : kindWord s = "cp".toList ∨ kindWord s = "mate".toList := by cases s <;> simp [kindWord]
  have hkb : ' ' ∉ kindWord s := by rcases hk with h | h <;> rw [h] <;> decide
  -- what follows the value
  obtain ⟨rest, hrest⟩ : ∃ rest, rest = flat (numberWords after) ++ (" pv ".toList ++ (usiText mv ++ flat (mvs.map usiText))) := ⟨_, rfl⟩
  have hrest' : rest = flat (numberWords after ++ ("pv".toList :: usiText mv :: mvs.map usiText)) := by
    rw [hrest, flat_append]; rfl
  have hhead : ∀ c ∈ rest.head?, isSignOrDigit c = false := by
    rw [hrest]
    cases numberWords after with
    | nil => intro c hc; cases hc; decide
    | cons w ws => intro c hc; cases hc; decide
  have hpv : (greedy (afterText "pv ".toList) rest).map (·.2) = some (usiText mv ++ flat (mvs.map usiText)) := by
    have e : rest = (flat (numberWords after) ++ [' ']) ++ 'p' :: ("v ".toList ++ (usiText mv ++ flat (mvs.map usiText))) := by
      rw [hrest, List.append_assoc]; rfl
    rw [e, greedy_at (b := usiText mv ++ flat (mvs.map usiText))]
    · rfl
    · exact afterText_append "pv ".toList _
    · apply pvText_none
      rw [List.mem_append, List.mem_append]
      rintro (h | h | h)
      · revert h; decide
      · exact (usiText_chars mv).2 h
      · exact flat_p h
  have hsd := signsDigits_all (k := fun r => (greedy (afterText "pv ".toList) r).map (·.2)) v1 v2 hhead hpv
  -- the whole line
  have e1 : infoText (movesLine before s after mv mvs) =
      ("info".toList ++ flat (numberWords before) ++ [' ']) ++ 's' :: ("core ".toList ++ (kindWord s ++ flat (valueWord s :: (numberWords after ++ ("pv".toList :: usiText mv :: mvs.map usiText))))) := by
    rw [flat_cons, ← hrest', hrest]
    unfold infoText headWords movesLine
    dsimp only
    rw [scoreWords_eq, flat_append, flat_append, List.append_assoc, List.append_assoc, List.append_assoc, List.append_assoc]
    show _ ++ (_ ++ (' ' :: ("score".toList ++ ' ' :: (kindWord s ++ ' ' :: (valueWord s ++ []))) ++ _)) = _
    simp
  unfold usiInfo
  rw [e1, greedy_at (b := (decide (kindWord s = "mate".toList), valueWord s, usiText mv ++ flat (mvs.map usiText)))]
  · rfl
  · unfold scoreGroups
    rw [show afterText "score ".toList ('s' :: ("core ".toList ++ (kindWord s ++ flat (valueWord s :: (numberWords after ++ ("pv".toList :: usiText mv :: mvs.map usiText)))))) =
      some (kindWord s ++ ' ' :: (valueWord s ++ rest)) from by rw [hrest', ← flat_cons]; exact afterText_append "score ".toList _]
    dsimp only [Option.bind_some]
    rcases hk with h | h
    · rw [h, show afterText "cp ".toList ("cp".toList ++ ' ' :: (valueWord s ++ rest)) = some (valueWord s ++ rest) from afterText_append "cp ".toList _]
      dsimp only [Option.bind_some]
      rw [hsd]
      rfl
    · rw [h, show afterText "cp ".toList ("mate".toList ++ ' ' :: (valueWord s ++ rest)) = none from rfl,
        show afterText "mate ".toList ("mate".toList ++ ' ' :: (valueWord s ++ rest)) = some (valueWord s ++ rest) from afterText_append "mate ".toList _]
      dsimp only [Option.bind_some, Option.bind_none]
      rw [hsd]
      rfl
  · have hs : ∀ c t, c ≠ 's' → scoreGroups (c :: t) = none := by
      intro c t hc
      unfold scoreGroups
      have : afterText "score ".toList (c :: t) = none := by
        cases e : afterText "score ".toList (c :: t) with
        | none => rfl
        | some r => exact absurd (List.cons.inj (afterText_eq e)).1 hc
      rw [this]; rfl
    show greedy scoreGroups ('c' :: 'o' :: 'r' :: 'e' :: ' ' :: _) = none
    refine greedy_cons_none (hs _ _ (by decide)) (greedy_cons_none (hs _ _ (by decide)) (greedy_cons_none (hs _ _ (by decide))
      (greedy_cons_none (hs _ _ (by decide)) (greedy_cons_none (hs _ _ (by decide)) (score_none hkb ?_)))))
    intro v hv
    rcases List.mem_cons.mp hv with rfl | hv
    · exact ⟨v3, v4, v5⟩
    rcases List.mem_append.mp hv with hv | hv
    · refine ⟨(plain_numbers ha v hv).blank, ?_⟩
      obtain ⟨x, hx, hv⟩ := List.mem_flatMap.mp hv
      simp only [List.mem_cons, List.not_mem_nil, or_false] at hv
      rcases hv with rfl | rfl
      · exact (ha x hx).2.2.2.2.2
      · exact ⟨intChars_word _ (by decide), intChars_word _ (by decide)⟩
    rcases List.mem_cons.mp hv with rfl | hv
    · exact ⟨by decide, by decide, by decide⟩
    · have : ∃ m, v = usiText m := by
        rcases List.mem_cons.mp hv with rfl | hv
        · exact ⟨mv, rfl⟩
        · obtain ⟨m, -, rfl⟩ := List.mem_map.mp hv; exact ⟨m, rfl⟩
      obtain ⟨m, rfl⟩ := this
      refine ⟨(plain_move (usiText_chars m).1).blank, fun e => ?_, fun e => ?_⟩
      · have := (usiText_chars m).2
        rw [e] at this
        exact this (by decide)
      · have : ∀ m : Mv, usiText m ≠ "mate".toList := by
          intro m
          cases m with
          | move f t pro =>
            intro e
            have h0 : ∀ s : Square, Char.ofNat (49 + s.val / 9) ≠ 'm' := by decide
            exact h0 f (List.cons.inj e).1
          | drop k t => intro e; have := (List.cons.inj e).1; revert this; cases k <;> decide
        exact this m e

/-! ### C84 -/

theorem toScore_is (s : Score) (w : List Char) : ∃ v, toScore (decide (kindWord s = "mate".toList), valueWord s, w) = .ok v ∧ s.Is 100000 v := by
  unfold toScore
  dsimp only
  have hh : ∀ n : Int, (intChars n).head? = some '-' ↔ n < 0 := by
    intro n
    unfold intChars
    split
    · rename_i h; simpa using h
    · rename_i h
      obtain ⟨d, t, hd, e⟩ := natChars_head n.natAbs
      rw [e]
      simp only [List.head?_cons, Option.some.injEq]
      have hne : digitCh d ≠ '-' := by interval_cases d <;> decide
      exact ⟨fun h' => absurd h' hne, fun h' => absurd h' h⟩
  cases s with
  | cp n =>
    refine ⟨n, ?_, rfl⟩
    rw [show kindWord (Score.cp n) = "cp".toList from rfl, if_neg (show ¬ decide ("cp".toList = "mate".toList) = true by decide)]
    show (match pyInt (intChars n) with | some n => Out.ok n | none => .error) = _
    rw [pyInt_intChars]
  | mate n =>
    refine ⟨if n < 0 then -100000 else 100000, ?_, ?_, ?_⟩
    · rw [show kindWord (Score.mate n) = "mate".toList from rfl, if_pos (show decide ("mate".toList = "mate".toList) = true by decide)]
      show Out.ok (if (intChars n).head? = some '-' then _ else _) = _
      by_cases hn : n < 0
      · rw [if_pos hn, if_pos ((hh n).mpr hn)]
      · rw [if_neg hn, if_neg (fun h => hn ((hh n).mp h))]
    · intro hf
      unfold Score.forced at hf
      dsimp only at hf
      split at hf
      · rw [if_neg (by omega)]
      · split at hf <;> simp at hf
    · intro hf
      unfold Score.forced at hf
      dsimp only at hf
      split at hf
      · simp at hf
      · split at hf
        · rename_i h; rw [if_pos h]
        · simp at hf
  | mateSoon b =>
    refine ⟨if b then -100000 else 100000, by cases b <;> rfl, ?_, ?_⟩
    · intro hf; cases b
      · rfl
      · cases hf
    · intro hf; cases b
      · cases hf
      · rfl

/-- **C84**: the score that the match runner reads is the score of the line, with 100000 for mate and the sign of the side that mates. -/
theorem C84_score {before after : List (List Char × Int)} (ha : ∀ x ∈ after, NumberName x.1) (s : Score) (mv : Mv) (mvs : List Mv) :
    ∃ v, infoScore (infoText (movesLine before s after mv mvs)) = .ok (some v) ∧ s.Is 100000 v := by
  obtain ⟨v, e, hv⟩ := toScore_is s (usiText mv ++ flat (mvs.map usiText))
  refine ⟨v, ?_, hv⟩
  unfold infoScore
  rw [usiInfo_text ha]
  dsimp only
  rw [e]
  rfl

/-- A mate in 0 is good for the side to move here, and bad for it in `InfoListener`. -/
theorem C84_differs : infoScore "info depth 1 score mate 0 pv 7g7f".toList = .ok (some 100000) ∧
    (Listener.of ["info depth 1 score mate 0 pv 7g7f".toList, "bestmove 7g7f".toList]).score 100000 = .ok (some (-100000)) := by decide +kernel

theorem csaName_code (k : Kind) : pieceTypeChars k.code = some (csaName k) := by cases k <;> rfl

theorem toCSA_encode {p : Position} (hp : Consistent p) {mv : Mv} (h : (absPos p).Pseudo mv) :
    ∃ k, (encode p mv).toCSA = some k ∧ Csa.signChar p.turn :: k = csaMove (absPos p) mv := by
  unfold Move.toCSA
  rw [if_neg (encode_ne_zero h)]
  cases mv with
  | move f t pro =>
    obtain ⟨kd, hf, -, -, hpro, -⟩ := h
    have hpt : pieceType (p.piece f) = kd.code := by rw [hp.code f, hf]; exact pieceType_mkPiece _ _
    obtain ⟨-, -, h2, h1, hd, h4, h5, -⟩ := board_fields p f t pro kd hpt (fun h => (hpro h).1)
    have hto : (boardMove p.piece f t pro).pieceTypeTo = (Pos.arriving kd pro).code := by
      unfold Move.pieceTypeTo; rw [hd, h4]; exact h5
    simp only [encode, hd, h1, h2, squareCSA, f.isLt, t.isLt, if_true, hto, csaName_code, Option.bind_some, Option.map_some]
    refine ⟨_, rfl, ?_⟩
    have hboard : ((absPos p).play (.move f t pro)).board t = some ((absPos p).turn, Pos.arriving kd pro) := by
      rw [play_move_board hf]; unfold Pos.set; rw [if_pos rfl]
    show _ = _ :: (squareDigits f ++ squareDigits t ++ ((((((absPos p).play (.move f t pro)).board t).map fun x => csaName x.2)).getD []))
    rw [hboard]
    rfl
  | drop k t =>
    obtain ⟨-, h1, hd, h2, -⟩ := drop_fields k t
    have hto : (makeDropMove k.kind.code t.val).pieceTypeTo = k.kind.code := by
      unfold Move.pieceTypeTo; rw [hd, if_pos rfl]; exact h2
    simp only [encode, hd, h1, squareCSA, t.isLt, if_true, hto, csaName_code, Option.bind_some, Option.map_some]
    exact ⟨_, rfl, rfl⟩

/-- What may follow the legal moves of a variation: nothing, or a move that breaks a rule other than those about promotion and unmovable
pieces. -/
def Ends (P : Pos) : List Mv → Prop
  | [] => True
  | mv :: _ => ¬ P.Loose mv

theorem pvTexts_line {Z : Zobrist} (bad : List Mv) : ∀ (mvs : List Mv) {p : Position}, Csa.Good Z p → (absPos p).Line mvs → Ends ((absPos p).after mvs) bad →
    pvTexts Z p ((mvs ++ bad).map usiText) = .ok (csaMoves (absPos p) mvs)
  | [], p, hg, _, hb => by
    cases bad with
    | nil => rfl
    | cons mv bad =>
      obtain ⟨x, j1, j2, -⟩ := C27_loose p hg.inv.views hg.check hg.regular mv
      cases x with
      | true => exact absurd (j2 rfl) hb
      | false =>
        show pvTexts Z p (usiText mv :: bad.map usiText) = _
        rw [pvTexts, usi_text_not j1]
        dsimp only
        rw [Match.isLegal_zero]
        rfl
  | mv :: mvs, p, hg, hl, hb => by
    obtain ⟨hm, hl⟩ := hl
    obtain ⟨p', e1, g1, a1⟩ := hg.doMove hm
    have hlegal : p.isLegal (encode p mv) = some true := by
      obtain ⟨l, e, hl⟩ := C27_listed_partial _ hg.inv.views hg.check hg.regular
      obtain ⟨l', e', -, hmem⟩ := genLegal_spec hg.inv.views hg.check hg.regular
      rw [e] at e'; cases e'
      exact hl _ ((hmem _).mpr ⟨mv, rfl, hm⟩)
    obtain ⟨k, k1, k2⟩ := toCSA_encode hg.inv.views hm.1.1
    have ih := pvTexts_line bad mvs g1 (by rw [a1]; exact hl) (by rw [a1]; exact hb)
    show pvTexts Z p (usiText mv :: (mvs ++ bad).map usiText) = _
    rw [pvTexts, usi_text hlegal]
    dsimp only
    rw [hlegal]
    dsimp only
    rw [k1, e1]
    dsimp only
    rw [ih, k2, a1]
    rfl

/-- The score from Black's side. -/
def fromBlack (c : Color) (v : Int) : Int := if c = .black then v else -v

theorem fromBlack_eq (c : Color) (v : Int) : v * (1 - 2 * (c.idx : Int)) = fromBlack c v := by
  cases c
  · show v * (1 - 2 * (0 : Int)) = v; omega
  · show v * (1 - 2 * (1 : Int)) = -v; omega

theorem csaMoves_length (P : Pos) (mvs : List Mv) : (csaMoves P mvs).length = mvs.length := by
  induction mvs generalizing P with
  | nil => rfl
  | cons mv mvs ih => simp [csaMoves, ih]

/-- **C84** (partial: the first move that is not legal is not a wrong promotion): the comment is `** `, the score from Black's side, and the moves
after the one played in the CSA format, up to the first that is not legal. -/
theorem C84_comment_partial (Z : Zobrist) {p : Position} (hg : Csa.Good Z p) {before after : List (List Char × Int)}
    (ha : ∀ x ∈ after, NumberName x.1) (s : Score) (mv : Mv) (mvs bad : List Mv) (hl : (absPos p).Line (mv :: mvs))
    (hb : Ends ((absPos p).after (mv :: mvs)) bad) :
    ∃ v, s.Is 100000 v ∧ infoComment Z p (infoText (movesLine before s after mv (mvs ++ bad))) =
      .ok (some ("** ".toList ++ (intChars (fromBlack p.turn v) ++ flat (csaMoves ((absPos p).play mv) mvs)))) := by
  obtain ⟨v, e, hv⟩ := toScore_is s (usiText mv ++ flat ((mvs ++ bad).map usiText))
  refine ⟨v, hv, ?_⟩
  unfold infoComment
  rw [usiInfo_text ha]
  dsimp only
  rw [e]
  have hsplit : Kif.splitAt ' ' (usiText mv ++ flat ((mvs ++ bad).map usiText)) = ((mv :: mvs) ++ bad).map usiText := by
    rw [splitAt_words]
    · rfl
    · intro w hw
      have : ∃ m, w = usiText m := by
        rcases List.mem_cons.mp hw with rfl | hw
        · exact ⟨mv, rfl⟩
        · obtain ⟨m, -, rfl⟩ := List.mem_map.mp hw; exact ⟨m, rfl⟩
      obtain ⟨m, rfl⟩ := this
      exact (plain_move (usiText_chars m).1).blank
  rw [hsplit, pvTexts_line bad (mv :: mvs) hg hl hb]
  dsimp only [Out.bind]
  rw [fromBlack_eq]
  show Out.ok (some (if (csaMove (absPos p) mv :: csaMoves ((absPos p).play mv) mvs).length > 1 then _ ++ ' ' :: joined (csaMoves ((absPos p).play mv) mvs) else _)) = _
  cases mvs with
  | nil =>
    rw [if_neg (by simp [csaMoves])]
    show _ = Out.ok (some (_ ++ (_ ++ [])))
    rw [List.append_nil]
  | cons m ms =>
    rw [if_pos (by simp [csaMoves])]
    show Out.ok (some (_ ++ ' ' :: joined (csaMove _ m :: csaMoves _ ms))) = _
    rw [joined_words, List.append_assoc]
    rfl

theorem stoi_intChars {n : Int} (h1 : -2147483648 ≤ n) (h2 : n ≤ 2147483647) : Csa.stoi (intChars n) = .val n := by
  by_cases hn : n < 0
  · have e1 : (intChars n).dropWhile isSpace = intChars n := by
      unfold intChars; rw [if_pos hn]; rfl
    have e2 : readSign (intChars n) = (true, natChars n.natAbs) := by
      unfold intChars; rw [if_pos hn]; rfl
    unfold Csa.stoi
    simp only [e1, e2, readNat_natChars]
    rw [takeWhile_all natChars_isDigit, if_neg (natChars_ne_nil _)]
    simp only [if_true]
    rw [if_pos (by omega)]
    congr 1
    omega
  · rw [show intChars n = natChars n.natAbs by unfold intChars; rw [if_neg hn], Csa.stoi_natChars (by omega)]
    congr 1
    omega

/-- **C84** (partial in the same way): read from a CSA record behind the move, that comment gives the move its score from Black's side. -/
theorem C84_record_partial (Z : Zobrist) (stof : List Char → Option Rat) {p : Position} (hg : Csa.Good Z p) {before after : List (List Char × Int)}
    (ha : ∀ x ∈ after, NumberName x.1) (s : Score) (hs : ∀ n, s = .cp n → -2147483647 ≤ n ∧ n ≤ 2147483647) (mv : Mv) (mvs bad : List Mv)
    (hl : (absPos p).Line (mv :: mvs)) (hb : Ends ((absPos p).after (mv :: mvs)) bad) (hne : s ≠ .mate 0) {st : Csa.State} (hst : Csa.Sized st)
    (hm : st.moves ≠ []) (hpos : st.pos.isSome = true) :
    ∃ v c, s.Is 100000 v ∧ infoComment Z p (infoText (movesLine before s after mv (mvs ++ bad))) = .ok (some ("** ".toList ++ c)) ∧
      Csa.step Z stof st ('\'' :: ("** ".toList ++ c)) =
        .ok { st with scores := st.scores.set (st.moves.length - 1) (fromBlack p.turn v), comments := st.comments.set (st.moves.length - 1) c } := by
  obtain ⟨v, hv, e⟩ := C84_comment_partial Z hg (before := before) ha s mv mvs bad hl hb
  refine ⟨v, _, hv, e, ?_⟩
  have hr : -2147483647 ≤ v ∧ v ≤ 2147483647 := by
    cases s with
    | cp n => have : v = n := hv; have := hs n rfl; omega
    | mate n =>
      have h0 : n ≠ 0 := fun h => hne (by rw [h])
      unfold Score.Is Score.forced at hv
      dsimp only at hv
      by_cases hn : n > 0
      · have := hv.1 (if_pos hn); omega
      · have := hv.2 (by rw [if_neg hn, if_pos (by omega)]); omega
    | mateSoon b =>
      cases b
      · have := hv.1 rfl; omega
      · have := hv.2 rfl; omega
  have hf : -2147483648 ≤ fromBlack p.turn v ∧ fromBlack p.turn v ≤ 2147483647 := by
    unfold fromBlack; split <;> omega
  have hw : (intChars (fromBlack p.turn v) ++ flat (csaMoves ((absPos p).play mv) mvs)).takeWhile (· ≠ ' ') = intChars (fromBlack p.turn v) := by
    rw [List.takeWhile_append_of_pos (fun c hc => by
      simp only [ne_eq, decide_not, Bool.not_eq_true', decide_eq_false_iff_not]
      rintro rfl
      exact (plain_int _).blank hc)]
    have : (flat (csaMoves ((absPos p).play mv) mvs)).takeWhile (· ≠ ' ') = [] := by
      cases csaMoves ((absPos p).play mv) mvs <;> rfl
    rw [this, List.append_nil]
  have := Csa.C54_stored_partial Z stof hst hm hpos (intChars (fromBlack p.turn v) ++ flat (csaMoves ((absPos p).play mv) mvs))
    (by rw [hw, stoi_intChars hf.1 hf.2]; simp)
  rw [hw, stoi_intChars hf.1 hf.2] at this
  exact this

/-- After P7g-7f, P3c-3d the match runner writes White's score from Black's side. -/
example : infoComment zeroKeys (startModel zeroKeys) (infoText (someLine (.cp (-35)))) = .ok (some "** -35 -3334FU +8822UM".toList) := by decide +kernel

example : (absPos (startModel zeroKeys)).Line [.move 60 59 false, .move 20 21 false, .move 70 10 true] ∧ Ends ((absPos (startModel zeroKeys)).after []) [.move 60 58 false] := by
  obtain ⟨h1, h2, h3⟩ := startModel_ok zeroKeys
  refine ⟨lineB_line (Z := zeroKeys) _ (p := startModel zeroKeys) ⟨h1, h2, h3⟩ (by decide +kernel), ?_⟩
  intro h
  obtain ⟨x, j1, -, j2⟩ := C27_loose _ h1.views h2 h3 (.move 60 58 false)
  rw [show (startModel zeroKeys).isLegal (encode (startModel zeroKeys) (.move 60 58 false)) = some false by decide +kernel] at j1
  cases j1
  exact absurd (j2 h (fun t e => by cases e)) (by decide)

/-- **C84 fails** where a variation goes on with a promotion outside the zone: `is_legal` accepts it and it is written into the record, with
the name of the promoted piece. -/
theorem C84_fails_promotion : ¬ (startPos.after [.move 15 14 false]).Legal (.move 20 21 true) ∧
    infoComment zeroKeys (startModel zeroKeys) "info score cp 1 pv 2g2f 3c3d+ 7g7f".toList = .ok (some "** 1 -3334TO +7776FU".toList) := by
  refine ⟨?_, by decide +kernel⟩
  rintro ⟨⟨⟨k, -, -, -, hp, -⟩, -⟩, -⟩
  exact absurd (hp rfl).2 (by decide +kernel)

end Verif.Usi
