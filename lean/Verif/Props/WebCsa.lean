import Verif.Lemmas.WebCsa
import Verif.Spec.WebCsa
import Verif.Props.MatchCsa

/-!
# C105: a game on the web page and its record

Who opens the CSA file of a game that was played on the web page sees the game as it was shown.
-/

namespace Verif.Web
open Spec Bitboard Position Usi
open Match (Rows Clean turnOf toldText answerText termsOf upTo Flag noClock startGame Usual At endsBy_unique)

variable (Z : Zobrist)

/-- **C105**: keeping the file changes nothing on the page. -/
theorem C105_same (p : Position) (hp : Inv Z p) (hc : CheckOK p) (hr : (absPos p).Regular) (hply : p.gamePly = 1) (hblack : p.turn = .black)
    (R : Rules) (byoyomi inc : Option Int) (draw : Int) (names : List Char × List Char) (xs : List (Spoken × Bool))
    (hclean : Clean R (absPos p) (xs.map Prod.fst)) (hx : ∀ x ∈ xs, x.2 = true → x.1.last = none) {over : Bool} {shown : List Entry}
    (hpage : page Z draw none p (xs.map fun x => (webTurn x).reply (webCommand byoyomi none inc)) = .ok (over, shown)) :
    ∃ o, savedGame Z byoyomi inc draw none names p (xs.map webTurn) = .ok o ∧ o.map Prod.fst = if over then some shown else none := by
  unfold page at hpage
  cases hl : loop Z draw ⟨Match.start p fun _ => none, []⟩ (xs.map fun x => (webTurn x).reply (webCommand byoyomi none inc)) with
  | error => rw [hl] at hpage; cases hpage
  | ub => rw [hl] at hpage; cases hpage
  | ok y =>
    obtain ⟨f, st'⟩ := y
    rw [hl, Out.bind_ok] at hpage
    obtain ⟨made, rest, ks, rows, es, s1, s2⟩ := save_loop (web_go_absent byoyomi none inc) xs (st := ⟨Match.start p fun _ => none, []⟩) (last := none) (n := 1)
      ⟨hp, hc, hr⟩ rfl hply hblack hclean hx hl
    unfold savedGame
    rw [s1, Out.bind_ok]
    cases f with
    | none => cases hpage; exact ⟨none, rfl, rfl⟩
    | some f =>
      have hend : ∃ e, endLine draw f st' = .ok e := by
        unfold conclude resultText at hpage
        dsimp only at hpage
        unfold endLine
        cases ho : st'.game.board.pos.isGameOver with
        | none => rw [ho] at hpage; cases hpage
        | some v =>
          dsimp only
          split
          · exact ⟨_, rfl⟩
          · cases f <;> exact ⟨_, rfl⟩
      obtain ⟨e, he⟩ := hend
      have hover : over = true := by
        unfold conclude at hpage
        dsimp only at hpage
        cases ht : resultText draw f st' with
        | error => rw [ht] at hpage; cases hpage
        | ub => rw [ht] at hpage; cases hpage
        | ok t => rw [ht] at hpage; cases hpage; rfl
      subst hover
      refine ⟨some (shown, ⟨{ version := "V2".toList, names := some names }, .board p, rows.map Csa.noted, e.toList, none⟩), ?_, rfl⟩
      unfold saveEnd
      dsimp only
      rw [hpage, Out.bind_ok, he, Out.bind_ok]

/-- The two entries for a move that was answered by `s` in `P`: number, text, move and score are the same; the page counted the seconds begun, the record
has the whole seconds; the page showed the variation from the move on, the record has what follows, and never `同`. -/
structure Again (P : Pos) (last : Option Square) (mv : Mv) (s : Spoken) (live again : Entry) : Prop where
  number : again.number = live.number
  text : again.text = live.text
  told : live.text = Spec.Web.sign P.turn :: Spec.Web.kifMove P last mv
  move : Codes live.move mv ∧ Codes again.move mv
  eval : again.eval = live.eval ∧ live.eval = s.last.map fun t => forBlack P.turn t.score.number
  secs : again.secs * 1000000 ≤ s.micros ∧ (s.micros : Int) < (again.secs + 1) * 1000000
  liveSecs : (live.secs - 1) * 1000000 < s.micros ∧ (s.micros : Int) ≤ live.secs * 1000000
  pv : match s.last with
    | none => live.pv = [] ∧ again.pv = []
    | some t => live.pv = [' '].intercalate (Spec.Web.kifLine P last (mv :: t.rest)) ∧ again.pv = [' '].intercalate (Spec.Web.plainLine (P.play mv) t.rest)

/-- The same for all moves of a game. -/
def Reopened (P : Pos) (last : Option Square) : List Spoken → List Entry → List Entry → Prop
  | [], es, es' => es = [] ∧ es' = []
  | s :: ss, es, es' => ∃ mv e r e' r', s.answer = .move mv ∧ P.Legal mv ∧ es = e :: r ∧ es' = e' :: r' ∧ Again P last mv s e e' ∧
    Reopened (P.play mv) (some (Spec.Web.dest mv)) ss r r'

theorem again_of {P : Pos} {last : Option Square} {n : Nat} {mv : Mv} {s : Spoken} {e e' : Entry}
    (hf : ∀ t, s.last = some t → t.Fine P mv) (h : Right P last n mv (pageTold s).info (pageTold s).secs e)
    (h' : Recorded id P last n mv (some (s.micros / 1000000)) (s.note P) e') : Again P last mv s e e' := by
  have hs : e.secs = (((s.micros + 999999) / 1000000 : Nat) : Int) := h.secs
  have hs' : e'.secs = ((s.micros / 1000000 : Nat) : Int) := h'.secs
  have hev' := h'.eval
  have hpv' := h'.pv
  have key : (e.eval = s.last.map fun t => forBlack P.turn t.score.number) ∧ (e'.eval = s.last.map fun t => forBlack P.turn t.score.number) ∧ match s.last with
    | none => e.pv = [] ∧ e'.pv = []
    | some t => e.pv = [' '].intercalate (Spec.Web.kifLine P last (mv :: t.rest)) ∧ e'.pv = [' '].intercalate (Spec.Web.plainLine (P.play mv) t.rest) := by
    unfold Spoken.note at hev' hpv'
    cases hl : s.last with
    | none =>
      have h1 : Right P last n mv none (pageTold s).secs e := by
        have := h
        unfold pageTold at this
        rw [hl] at this
        exact this
      rw [hl] at hev' hpv'
      exact ⟨h1.eval, hev', h1.pv, hpv'⟩
    | some t =>
      have h1 : Right P last n mv (some (infoOf t)) (pageTold s).secs e := by
        have := h
        unfold pageTold at this
        rw [hl] at this
        exact this
      rw [hl] at hev' hpv'
      have hft := hf t hl
      obtain ⟨v, hv, hv'⟩ := h1.eval
      rw [Match.number_of_is hft.nonzero hv] at hv'
      refine ⟨hv', hev', ?_, hpv' t.rest ?_ ?_⟩
      · rw [← hft.first]; exact h1.pv
      · rw [← hft.first]; exact hft.line.2
      · rw [← hft.first]
  exact ⟨by rw [h.number, h'.number], by rw [h.text, h'.text]; rfl, h.text, ⟨h.move, h'.move⟩, ⟨by rw [key.1, key.2.1], key.1⟩, by rw [hs']; omega,
    by rw [hs]; omega, key.2.2⟩

theorem reopened_of {Q : Pos} : ∀ {made : List Spoken} {P : Pos} {last : Option Square} {n : Nat} {rows : List (Move × Option Nat × Note)} {es es' : List Entry},
    Shows P last n (made.map pageTold) es → Wrote P made rows → Shown id P last n rows es' Q → Reopened P last made es es'
  | [], P, last, n, [], es, es', h, _, h' => by
    cases h'
    exact ⟨h, rfl⟩
  | [], _, _, _, _ :: _, _, _, _, h, _ => h.elim
  | _ :: _, _, _, _, [], _, _, _, h, _ => h.elim
  | s :: made, P, last, n, x :: rows, es, es', h, hw, h' => by
    obtain ⟨mv, e, r, h1, h2, rfl, h3, h4⟩ := h
    obtain ⟨mv1, w1, w2, w3, w4, w5, w6⟩ := hw
    have e1 : mv1 = mv := by
      have : s.answer = .move mv := h1
      rw [w1] at this; cases this; rfl
    subst e1
    cases h' with
    | @cons _ _ _ _ m mv2 time note xs e' r' c1 c2 c3 c4 =>
      have e2 : mv2 = mv1 := codes_unique c1 w3
      subst e2
      replace w4 : (time, note) = (some (s.micros / 1000000), s.note P) := w4
      cases w4
      exact ⟨_, e, r, e', r', h1, h2, rfl, rfl, again_of w5 h3 c3, reopened_of h4 w6 c4⟩

theorem endLine_verdict {draw : Int} {f : Flag} {st : State} {e : String} (h : endLine draw f st = .ok e) :
    ∃ w, Match.verdict (termsOf (upTo draw)) f st.game = .ok (w, e) := by
  unfold endLine at h
  unfold Match.verdict
  rw [show (termsOf (upTo draw)).draw = draw from rfl]
  cases ho : st.game.board.pos.isGameOver with
  | none => rw [ho] at h; cases h
  | some over =>
    rw [ho] at h
    dsimp only at h ⊢
    split
    · rename_i hx; rw [if_pos hx] at h; cases h; exact ⟨_, rfl⟩
    · rename_i hx
      rw [if_neg hx] at h
      cases f <;> cases h <;> exact ⟨_, rfl⟩

/-- Both last lines tell the same result. -/
theorem results_agree {draw : Int} {f : Flag} {st : State} {e : String} {t : List Char} (h : endLine draw f st = .ok e) (ht : resultText draw f st = .ok t)
    (hk : e ∈ knownEnds) : ∃ r, Spec.Web.readResult t = some r ∧ Spec.Web.endResult (st.game.board.pos.turn, e) = some r := by
  unfold endLine at h
  unfold resultText at ht
  cases ho : st.game.board.pos.isGameOver with
  | none => rw [ho] at h; cases h
  | some over =>
    rw [ho] at h ht
    dsimp only at h ht
    obtain ⟨c, hc⟩ : ∃ c, c = st.game.board.pos.turn := ⟨_, rfl⟩
    rw [← hc] at h ht ⊢
    by_cases hx : (!over && decide (st.game.board.pos.gamePly > draw)) = true
    · rw [if_pos hx] at h ht
      cases h; cases ht
      exact ⟨.draw, by decide, rfl⟩
    · rw [if_neg hx] at h ht
      cases f <;> cases h <;> cases ht <;> cases c <;> first
        | exact absurd hk (by decide)
        | exact ⟨_, rfl, rfl⟩

/-- The game of a page as one whose file can be read. -/
theorem saved_noted {p : Position} (hp : Inv Z p) (hc : CheckOK p) (hr : (absPos p).Regular) (hply : p.gamePly = 1) (hblack : p.turn = .black)
    {R : Rules} {byoyomi inc : Option Int} {draw : Int} {names : List Char × List Char} (hn : '\n' ∉ names.1 ∧ '\n' ∉ names.2)
    {xs : List (Spoken × Bool)} (hclean : Clean R (absPos p) (xs.map Prod.fst)) (hx : ∀ x ∈ xs, x.2 = true → x.1.last = none) {shown : List Entry} {g : Csa.Game}
    (hpage : page Z draw none p (xs.map fun x => (webTurn x).reply (webCommand byoyomi none inc)) = .ok (true, shown))
    (hsave : savedGame Z byoyomi inc draw none names p (xs.map webTurn) = .ok (some (shown, g))) :
    ∃ (f : Flag) (st' : State) (n : Csa.NotedGame) (made rest : List Spoken) (es : List Entry) (t : List Char), g = n.game ∧ n.first Z = p ∧
      n.start = .board p ∧ (n.ending ≠ "ILLEGAL_MOVE" → n.Fine Z) ∧
      endLine draw f st' = .ok n.ending ∧ resultText draw f st' = .ok t ∧ xs.map Prod.fst = made ++ rest ∧ Wrote (absPos p) made n.moves ∧
      Shows (absPos p) none 1 (made.map pageTold) es ∧ shown = es ++ [⟨((made.length + 1 : Nat) : Int), t, 0, 0#32, none, []⟩] ∧
      st'.game.board.pos.turn = (if made.length % 2 = 0 then .black else .white) ∧
      loop Z draw ⟨Match.start p fun _ => none, []⟩ (xs.map fun x => (webTurn x).reply (webCommand byoyomi none inc)) = .ok (some f, st') := by
  unfold page at hpage
  cases hl : loop Z draw ⟨Match.start p fun _ => none, []⟩ (xs.map fun x => (webTurn x).reply (webCommand byoyomi none inc)) with
  | error => rw [hl] at hpage; cases hpage
  | ub => rw [hl] at hpage; cases hpage
  | ok y =>
    obtain ⟨f, st'⟩ := y
    rw [hl, Out.bind_ok] at hpage
    obtain ⟨made, rest, ks, rows, es, s1, s2⟩ := save_loop (web_go_absent byoyomi none inc) xs (st := ⟨Match.start p fun _ => none, []⟩) (last := none) (n := 1)
      ⟨hp, hc, hr⟩ rfl hply hblack hclean hx hl
    unfold savedGame at hsave
    rw [s1, Out.bind_ok] at hsave
    cases f with
    | none => cases hpage
    | some f =>
      unfold saveEnd at hsave
      dsimp only at hsave
      rw [hpage, Out.bind_ok] at hsave
      cases he : endLine draw f st' with
      | error => rw [he] at hsave; cases hsave
      | ub => rw [he] at hsave; cases hsave
      | ok e =>
        rw [he, Out.bind_ok] at hsave
        have hg : (⟨{ version := "V2".toList, names := some names }, .board p, rows.map Csa.noted, e.toList, none⟩ : Csa.Game) = g :=
          congrArg Prod.snd (Option.some.inj (Out.ok.inj hsave))
        unfold conclude at hpage
        dsimp only at hpage
        cases ht : resultText draw f st' with
        | error => rw [ht] at hpage; cases hpage
        | ub => rw [ht] at hpage; cases hpage
        | ok t =>
          rw [ht, Out.bind_ok] at hpage
          have hsh : st'.shown ++ [⟨st'.game.board.pos.gamePly, t, 0, 0#32, none, []⟩] = shown := congrArg Prod.snd (Out.ok.inj hpage)
          obtain ⟨n, hnn⟩ : ∃ n : Csa.NotedGame, n = ⟨{ version := "V2".toList, names := some names }, [], .board p, rows, e, none⟩ := ⟨_, rfl⟩
          have hfirst : n.first Z = p := by rw [hnn]; rfl
          have hfine := Match.kept_fine hclean s2.kept
          have hx2 : ∀ x ∈ rows, ∃ k ∈ ks, x.2 = (some k.2.1, k.2.2) := by
            intro x hx
            have : x.2 ∈ ks.map fun k => (some k.2.1, k.2.2) := by rw [← s2.rows.notes]; exact List.mem_map_of_mem hx
            obtain ⟨k, k1, k2⟩ := List.mem_map.mp this
            exact ⟨k, k1, k2.symm⟩
          refine ⟨f, st', n, made, rest, es, t, by rw [← hg, hnn]; rfl, hfirst, by rw [hnn], fun hke => ?_, by rw [he, hnn], ht, s2.split, by rw [hnn]; exact s2.told,
            s2.shows, ?_, ?_, rfl⟩
          · obtain ⟨w, hw⟩ := endLine_verdict he
            obtain ⟨-, v2, v3, v4⟩ := Match.verdict_text hw (by rw [hnn] at hke; exact hke)
            refine ⟨?_, ?_, by rw [hfirst]; exact hp, by rw [hfirst]; exact hc, by rw [hfirst]; exact hr, ?_, ?_, ?_, ?_, ?_, ?_⟩
            · rw [hnn]
              refine ⟨.inr ⟨_, rfl⟩, by show '\n' ∉ "V2".toList; decide, ?_, .empty, (by intro l hl; cases hl), (by intro i hi; cases hi), by simp⟩
              intro m hm
              have : m = names := by simpa using hm.symm
              rw [this]; exact hn
            · rw [hnn]; intro s hs; cases hs
            · rw [hfirst, hnn]; exact s2.rows.legal
            · rw [hnn]
              intro x hx m hm
              obtain ⟨k, k1, k2⟩ := hx2 x hx
              rw [k2] at hm
              cases hm
              exact (hfine k k1).1
            · rw [hnn]
              intro x hx
              obtain ⟨k, k1, k2⟩ := hx2 x hx
              rw [k2]
              exact (hfine k k1).2
            · rw [hnn]; exact v2
            · rw [hnn]; exact ⟨v3, v4⟩
            · rw [hnn]; intro m hm; cases hm
          · rw [← hsh, s2.ply, show st'.shown = es from s2.shown, Nat.add_comm]
          · rw [s2.turn]
            by_cases hpar : made.length % 2 = 0
            · rw [if_pos hpar, if_pos (by omega)]
            · rw [if_neg hpar, if_neg (by omega)]

/-- **C105**: if the game had a move and did not end with a declaration or a perpetual check, the page with the file shows every move as it was shown,
except for the seconds and the variation (see `Again`), and its last line tells the same result. -/
theorem C105_again_partial (stof : List Char → Option Rat) (p : Position) (hp : Inv Z p) (hc : CheckOK p) (hr : (absPos p).Regular) (hply : p.gamePly = 1)
    (hblack : p.turn = .black) (R : Rules) (byoyomi inc : Option Int) (draw : Int) (names : List Char × List Char) (hn : '\n' ∉ names.1 ∧ '\n' ∉ names.2)
    (xs : List (Spoken × Bool)) (hclean : Clean R (absPos p) (xs.map Prod.fst)) (hx : ∀ x ∈ xs, x.2 = true → x.1.last = none) {shown : List Entry}
    {g : Csa.Game} (hpage : page Z draw none p (xs.map fun x => (webTurn x).reply (webCommand byoyomi none inc)) = .ok (true, shown))
    (hsave : savedGame Z byoyomi inc draw none names p (xs.map webTurn) = .ok (some (shown, g))) (hne : g.moves ≠ []) {ending : String}
    (hg : g.ending = ending.toList) (he : ending ∈ knownEnds) (hk : ending ≠ "%KACHI") :
    ∃ text made rest es es' e e' r, Csa.writeFile Z [] [g] = .ok text ∧ replayFile Z stof text = .ok (es' ++ [e']) ∧ shown = es ++ [e] ∧
      xs.map Prod.fst = made ++ rest ∧ Reopened (absPos p) none made es es' ∧ e'.number = e.number ∧ e'.move = e.move ∧ e'.eval = e.eval ∧ e'.secs = e.secs ∧
      e'.pv = e.pv ∧ Spec.Web.readResult e.text = some r ∧ (Spec.Web.readEnd e'.text).bind Spec.Web.endResult = some r := by
  obtain ⟨f, st', n, made, rest, es, t, rfl, n1, n2, n3, n4, n5, n6, n7, n8, n9, n10, n11⟩ := saved_noted Z hp hc hr hply hblack hn hclean hx hpage hsave
  have hend : n.ending = ending := String.toList_inj.mp hg
  rw [← hend] at he hk
  have hfine : n.Fine Z := n3 fun h => by rw [h] at he; exact absurd he (by decide)
  have hm : n.moves ≠ [] := fun h => hne (by show n.moves.map Csa.noted = []; rw [h]; rfl)
  obtain ⟨text, es', e', Q, r1, r2, r3, r4, r5, r6, r7, r8, r9⟩ := C95_replay_partial Z stof (g := n) (gs := []) (by simpa using hfine) (by rw [n1]; exact hblack) hm
    (by rw [n1]; exact n7.informs) he hk
  rw [n1] at r3
  obtain ⟨r, a1, a2⟩ := results_agree n4 n5 he
  have hre := reopened_of n8 n7 r3
  have hQ : Q.turn = st'.game.board.pos.turn := by
    have : ∀ {xs : List (Move × Option Nat × Note)} {P Q : Pos} {last : Option Square} {k : Nat} {es : List Entry}, Shown id P last k xs es Q →
        Q.turn = if xs.length % 2 = 0 then P.turn else P.turn.opp := by
      intro xs P Q last k es h
      induction h with
      | nil => rfl
      | @cons _ _ _ _ _ _ _ _ xs' _ _ _ _ _ _ ih =>
        rw [ih, play_turn, List.length_cons]
        by_cases hpar : xs'.length % 2 = 0
        · rw [if_pos hpar, if_neg (by omega)]
        · rw [if_neg hpar, if_pos (by omega), opp_opp]
    rw [this r3, n10, n7.length, show (absPos p).turn = .black from hblack]; rfl
  refine ⟨text, made, rest, es, es', _, e', r, r1, r2, n9, n6, hre, ?_, ?_, r7, r6, r8, a1, ?_⟩
  · rw [r4, n7.length]
  · rw [r9]
  · rw [r5, hQ]; exact a2

/-- The replies with what was heard, and those that `C94_page_partial` is about. -/
theorem loop_told {cmd : List Char} (hcmd : usiInfo cmd = none) (draw : Int) : ∀ (xs : List (Spoken × Bool)) (st : State),
    (∀ x ∈ xs, x.2 = true → x.1.last = none) →
    loop Z draw st (xs.map fun x => (webTurn x).reply cmd) = loop Z draw st (xs.map fun x => replyOf (pageTold x.1))
  | [], _, _ => rfl
  | x :: xs, st, hx => by
    rw [List.map_cons, List.map_cons, loop, loop]
    have hround : ∀ st, round Z st ((webTurn x).reply cmd) = round Z st (replyOf (pageTold x.1)) := by
      intro st
      have he : ∀ b m, entry Z b m ((webTurn x).reply cmd) = entry Z b m (replyOf (pageTold x.1)) := by
        intro b m
        obtain ⟨h1, h2⟩ := heard_is cmd hcmd x (hx x List.mem_cons_self)
        refine entry_info Z b m ?_ rfl
        show usiInfo ((webTurn x).heard cmd) = usiInfo (infoChars (x.1.last.map infoOf))
        cases hlast : x.1.last with
        | none => rw [h1 hlast]; decide +kernel
        | some t => rw [h2 t hlast]; rfl
      unfold round tryMove
      simp only [he]
      rfl
    rw [hround]
    congr 3
    funext st
    exact loop_told hcmd draw xs st fun y hy => hx y (List.mem_cons_of_mem _ hy)

theorem clean_informed {R : Rules} : ∀ {ss : List Spoken} {P : Pos}, Clean R P ss → Informed P (ss.map pageTold)
  | [], _, _ => trivial
  | s :: ss, P, h => by
    obtain ⟨-, -, -, hmove⟩ := h
    intro mv ha hm
    obtain ⟨h1, h2⟩ := (hmove mv ha).2 hm
    refine ⟨fun i hi => ?_, clean_informed h2⟩
    obtain ⟨t, t1, rfl⟩ := Option.map_eq_some_iff.mp hi
    exact info_ok (h1 t t1)

/-- **C105** and the rules: a game that is over by the move limit, resignation, mate, an illegal move or a draw by repetition, with at least one move shown.
The file is written, and the reopened page tells the result that the game has. -/
theorem C105_rules_partial (stof : List Char → Option Rat) (p : Position) (hp : Inv Z p) (hc : CheckOK p) (hr : (absPos p).Regular) (hf : Fresh p)
    (hply : p.gamePly = 1) (hblack : p.turn = .black) (hlive : ∃ mv, (absPos p).Legal mv) (byoyomi inc : Option Int) (draw : Int)
    (names : List Char × List Char) (hn : '\n' ∉ names.1 ∧ '\n' ∉ names.2) (xs : List (Spoken × Bool)) (hlen : xs.length < 2147483647)
    (hclean : Clean (upTo draw) (absPos p) (xs.map Prod.fst)) (hx : ∀ x ∈ xs, x.2 = true → x.1.last = none)
    (hu : Usual Z (upTo draw) (absPos p) noClock (absPos p) [] (xs.map fun x => said (pageTold x.1))) {shown : List Entry}
    (hpage : page Z draw none p (xs.map fun x => (webTurn x).reply (webCommand byoyomi none inc)) = .ok (true, shown)) (h2 : 2 ≤ shown.length) {reason : Reason}
    (he : EndsBy (upTo draw) noClock (absPos p) [] (xs.map fun x => said (pageTold x.1)) reason) (h3 : reason ≠ .declare)
    (h4 : ∀ c, reason ≠ .repeated (.wins c)) :
    ∃ g text es es' e e' r made rest, savedGame Z byoyomi inc draw none names p (xs.map webTurn) = .ok (some (shown, g)) ∧ Csa.writeFile Z [] [g] = .ok text ∧
      replayFile Z stof text = .ok (es' ++ [e']) ∧ shown = es ++ [e] ∧ xs.map Prod.fst = made ++ rest ∧ Reopened (absPos p) none made es es' ∧
      Ends (upTo draw) noClock (absPos p) [] (xs.map fun x => said (pageTold x.1)) r ∧ Spec.Web.readResult e.text = some r ∧
      (Spec.Web.readEnd e'.text).bind Spec.Web.endResult = some r := by
  obtain ⟨o, o1, o2⟩ := C105_same Z p hp hc hr hply hblack (upTo draw) byoyomi inc draw names xs hclean hx hpage
  cases o with
  | none => cases o2
  | some z =>
    obtain ⟨z1, g⟩ := z
    have hz : z1 = shown := Option.some.inj o2
    subst hz
    obtain ⟨f, st', n, made, rest, es, t, hgn, n1, n2, n3, n4, n5, n6, n7, n8, n9, n10, n11⟩ := saved_noted Z hp hc hr hply hblack hn hclean hx hpage o1
    have hat : At Z p (absPos p) noClock (absPos p) [] (Match.start p fun _ => none) := by
      refine ⟨⟨⟨hp, hc, hr⟩, rfl, [], GameLine.fresh True hp hc hr.waiting hf⟩, rfl, ?_, ⟨[], rfl, ?_⟩, fun r => ?_, hlive⟩
      · rw [show (Match.start p fun _ => none).board.pos = p from rfl, hply]; rfl
      · funext k; rfl
      · rw [Match.occurrences_cons]
        have : occurrences r [] = 0 := rfl
        split <;> omega
    have hss : (xs.map fun x => said (pageTold x.1)) = ((xs.map fun x => pageTold x.1).map said) := by rw [List.map_map]; rfl
    rw [hss] at hu he
    obtain ⟨⟨x, g1, g2, g3⟩, -⟩ := Match.C77_result_partial Z p hp hc hr hf hply hlive (upTo draw) noClock (fun _ => .inl rfl)
      ((xs.map fun x => pageTold x.1).map said) (by simpa using hlen) hu
    obtain ⟨f', st1, made', rest', es', k1, k2, -⟩ := sim (draw := draw) (xs.map fun x => pageTold x.1) (st := ⟨Match.start p fun _ => none, []⟩) (last := none) hat rfl
      (by show p.turn = _; rw [hblack]; rfl) hu (by have := clean_informed hclean; rw [List.map_map] at this; exact this)
    have hloop := loop_told Z (web_go_absent byoyomi none inc) draw xs ⟨Match.start p fun _ => none, []⟩ hx
    rw [n11] at hloop
    rw [List.map_map] at k1
    have k1' : loop Z draw ⟨Match.start p fun _ => none, []⟩ (xs.map fun x => replyOf (pageTold x.1)) = .ok (f', st1) := k1
    rw [← hloop] at k1'
    cases k1'
    replace k2 : Match.loop Z (termsOf (upTo draw)) (Match.start p noClock) (((xs.map fun x => pageTold x.1).map said).map Match.replyOf) = .ok (some (f, st'.game)) := by
      rw [List.map_map]; exact k2
    unfold Match.game at g1
    rw [k2] at g1
    obtain ⟨w, hw⟩ := endLine_verdict n4
    replace g1 : (Match.verdict (termsOf (upTo draw)) f st'.game).bind (fun v => Out.ok (some (v, st'.game.board))) = .ok x := g1
    rw [hw] at g1
    cases g1
    obtain ⟨r1, reason', r2, r3⟩ := g3 _ _ rfl
    have hre := endsBy_unique he r2
    subst hre
    have hknown : n.ending ∈ knownEnds ∧ n.ending ≠ "%KACHI" := by
      rcases line_reasons r3 with ⟨e, r⟩ | ⟨e, r⟩ | ⟨e, r⟩ | ⟨e, r⟩ | ⟨e, r⟩ | ⟨e, r⟩ | ⟨e, r0, r⟩ | ⟨e, r0, r⟩ | ⟨e, r⟩
      · rw [show n.ending = _ from e]; decide
      · rw [show n.ending = _ from e]; decide
      · rw [show n.ending = _ from e]; decide
      · exact absurd r h3
      · rw [show n.ending = _ from e]; decide
      · rw [show n.ending = _ from e]; decide
      · exact absurd r (h4 _)
      · exact absurd r (h4 _)
      · exact absurd r (h4 _)
    have hmoves : g.moves ≠ [] := by
      intro h0
      rw [hgn] at h0
      have h0 : n.moves = [] := List.map_eq_nil_iff.mp h0
      have hl := n7.length
      rw [h0] at hl
      obtain ⟨-, -, -, hl2, -⟩ := shows_line n8
      rw [n9, List.length_append, hl2, List.length_map, ← hl] at h2
      simp at h2
    obtain ⟨text, made2, rest2, es2, es3, e, e', r, q1, q2, q3, q4, q5, -, -, -, -, -, q6, q7⟩ := C105_again_partial Z stof p hp hc hr hply hblack (upTo draw) byoyomi inc
      draw names hn xs hclean hx hpage o1 hmoves (ending := n.ending) (by rw [hgn]; rfl) hknown.1 hknown.2
    have hres : r = Match.resultOfWin w := by
      obtain ⟨t', t1, t2, -⟩ := result_text hw r3
      have e1 : t' = t := by rw [n5] at t1; exact (Out.ok.inj t1).symm
      have e2 : e.text = t := by
        have := congrArg List.getLast? (n9.symm.trans q3)
        simp only [List.getLast?_append, List.getLast?_singleton] at this
        exact (congrArg Entry.text (Option.some.inj this)).symm
      rw [e2, ← e1, t2] at q6
      exact (Option.some.inj q6).symm
    refine ⟨g, text, es2, es3, e, e', r, made2, rest2, o1, q1, q2, q3, q4, q5, ?_, q6, q7⟩
    rw [hss, hres]; exact r1

/-- The reopened page shows one second less unless the time was whole. -/
theorem C105_fails_seconds {P : Pos} {last : Option Square} {mv : Mv} {s : Spoken} {live again : Entry} (h : Again P last mv s live again) :
    live.secs = again.secs + (if s.micros % 1000000 = 0 then 0 else 1) := by
  have h1 := h.secs
  have h2 := h.liveSecs
  split <;> omega

theorem kifMove_length (P : Pos) (last last' : Option Square) (mv : Mv) : (Spec.Web.kifMove P last mv).length = (Spec.Web.kifMove P last' mv).length := by
  have h : ∀ (l : Option Square) (t : Square), (Spec.Web.place l t).length = 2 := by
    intro l t; unfold Spec.Web.place; split <;> rfl
  cases mv with
  | move s t pro => unfold Spec.Web.kifMove; simp only [List.length_append, h]
  | drop k t => unfold Spec.Web.kifMove; simp only [List.length_append, h]

theorem kifLine_length : ∀ (mvs : List Mv) (P : Pos) (last : Option Square),
    ([' '].intercalate (Spec.Web.kifLine P last mvs)).length = ([' '].intercalate (Spec.Web.plainLine P mvs)).length
  | [], _, _ => rfl
  | [mv], P, last => by
    simp only [Spec.Web.kifLine, Spec.Web.plainLine, List.intercalate_singleton, List.length_cons]
    rw [kifMove_length]
  | mv :: mv' :: mvs, P, last => by
    have ih := kifLine_length (mv' :: mvs) (P.play mv) (some (Spec.Web.dest mv))
    simp only [Spec.Web.kifLine, Spec.Web.plainLine] at ih ⊢
    rw [Match.intercalate_two, Match.intercalate_two, List.length_append, List.length_append, List.length_cons, List.length_cons, List.length_cons, List.length_cons,
      ih, kifMove_length P last none mv]

/-- **C105** fails for the variation: whenever the engine gave one, the reopened page shows another. -/
theorem C105_fails_variation {P : Pos} {last : Option Square} {mv : Mv} {s : Spoken} {live again : Entry} (h : Again P last mv s live again) (ht : s.last.isSome) :
    live.pv ≠ again.pv := by
  obtain ⟨t, ht⟩ := Option.isSome_iff_exists.mp ht
  have hpv := h.pv
  rw [ht] at hpv
  obtain ⟨h1, h2⟩ := hpv
  intro heq
  have hlen := congrArg List.length heq
  rw [h1, h2, Spec.Web.kifLine] at hlen
  cases hr : t.rest with
  | nil =>
    rw [hr] at hlen
    simp only [Spec.Web.kifLine, Spec.Web.plainLine, List.intercalate_singleton, List.length_cons] at hlen
    cases hlen
  | cons m l =>
    rw [hr] at hlen
    have hk := kifLine_length (m :: l) (P.play mv) (some (Spec.Web.dest mv))
    rw [← hk] at hlen
    simp only [Spec.Web.kifLine] at hlen
    rw [Match.intercalate_two, List.length_append, List.length_cons, List.length_cons] at hlen
    omega

/-- **C105** fails for a declaration: the page said who has won, the last line of the reopened page is not one of the known texts. -/
theorem C105_fails_declare (stof : List Char → Option Rat) (p : Position) (hp : Inv Z p) (hc : CheckOK p) (hr : (absPos p).Regular) (hply : p.gamePly = 1)
    (hblack : p.turn = .black) (R : Rules) (byoyomi inc : Option Int) (draw : Int) (names : List Char × List Char) (hn : '\n' ∉ names.1 ∧ '\n' ∉ names.2)
    (xs : List (Spoken × Bool)) (hclean : Clean R (absPos p) (xs.map Prod.fst)) (hx : ∀ x ∈ xs, x.2 = true → x.1.last = none) {shown : List Entry}
    {g : Csa.Game} (hpage : page Z draw none p (xs.map fun x => (webTurn x).reply (webCommand byoyomi none inc)) = .ok (true, shown))
    (hsave : savedGame Z byoyomi inc draw none names p (xs.map webTurn) = .ok (some (shown, g))) (hne : g.moves ≠ []) (hg : g.ending = "%KACHI".toList) :
    ∃ text es es' e e' r, Csa.writeFile Z [] [g] = .ok text ∧ replayFile Z stof text = .ok (es' ++ [e']) ∧ shown = es ++ [e] ∧
      Spec.Web.readResult e.text = some r ∧ Spec.Web.readEnd e'.text = none := by
  obtain ⟨f, st', n, made, rest, es, t, rfl, n1, n2, n3, n4, n5, n6, n7, n8, n9, n10, n11⟩ := saved_noted Z hp hc hr hply hblack hn hclean hx hpage hsave
  have hend : n.ending = "%KACHI" := String.toList_inj.mp hg
  have hfine : n.Fine Z := n3 fun h => by rw [h] at hend; exact absurd hend (by decide)
  have hm : n.moves ≠ [] := fun h => hne (by show n.moves.map Csa.noted = []; rw [h]; rfl)
  obtain ⟨text, es', e', Q, r1, r2, -, -, r3⟩ := C95_fails_kachi Z stof (g := n) (gs := []) (by simpa using hfine) (by rw [n1]; exact hblack) hm
    (by rw [n1]; exact n7.informs) hend
  obtain ⟨r, a1, -⟩ := results_agree n4 n5 (by rw [hend]; decide)
  exact ⟨text, es, es', _, e', r, r1, r2, n9, a1, r3⟩

/-- **C105** fails for a game without a move, and for the two kinds of perpetual checks: the file cannot be shown. -/
theorem C105_fails_opening (stof : List Char → Option Rat) (p : Position) (hp : Inv Z p) (hc : CheckOK p) (hr : (absPos p).Regular) (hply : p.gamePly = 1)
    (hblack : p.turn = .black) (R : Rules) (byoyomi inc : Option Int) (draw : Int) (names : List Char × List Char) (hn : '\n' ∉ names.1 ∧ '\n' ∉ names.2)
    (xs : List (Spoken × Bool)) (hclean : Clean R (absPos p) (xs.map Prod.fst)) (hx : ∀ x ∈ xs, x.2 = true → x.1.last = none) {shown : List Entry}
    {g : Csa.Game} (hpage : page Z draw none p (xs.map fun x => (webTurn x).reply (webCommand byoyomi none inc)) = .ok (true, shown))
    (hsave : savedGame Z byoyomi inc draw none names p (xs.map webTurn) = .ok (some (shown, g)))
    (hbad : g.moves = [] ∨ ∀ e ∈ knownEnds, g.ending ≠ e.toList) {text : List Char} (hw : Csa.writeFile Z [] [g] = .ok text) (es : List Entry) :
    replayFile Z stof text ≠ .ok es := by
  obtain ⟨f, st', n, made, rest, es0, t, rfl, n1, n2, n3, n4, n5, n6, n7, n8, n9, n10, n11⟩ := saved_noted Z hp hc hr hply hblack hn hclean hx hpage hsave
  by_cases hi : n.ending = "ILLEGAL_MOVE"
  · have := Match.C104_fails_ending Z stof [n.game] n.game (by simp) p n2 (by show n.ending.toList = _; rw [hi]) text hw
    unfold replayFile
    cases hs : Csa.parseStr Z stof text with
    | error => intro h; cases h
    | ub => intro h; cases h
    | ok ss => exact absurd hs (this ss)
  · have hfine : n.Fine Z := n3 hi
    have key : ∃ text, Csa.writeFile Z [] ([n].map Csa.NotedGame.game) = .ok text ∧ replayFile Z stof text = .error := by
      rcases hbad with h | h
      · exact C95_fails_empty Z stof (g := n) (gs := []) (by simpa using hfine) (List.map_eq_nil_iff.mp h)
      · exact C95_fails_end Z stof (g := n) (gs := []) (by simpa using hfine) (by rw [n1]; exact n7.informs) fun hk => h _ hk rfl
    obtain ⟨text', k1, k2⟩ := key
    have : text' = text := by
      have k1 : Csa.writeFile Z [] [n.game] = .ok text' := k1
      rw [hw] at k1
      exact (Out.ok.inj k1).symm
    rw [← this, k2]
    intro h; cases h

/-! ### The theorems can be applied -/

/-- A person plays 7g7f after 3.5 s, the engine 3c3d after 2.5 s, expecting 2g2f, and the person resigns. -/
def webGame : List (Spoken × Bool) :=
  [(⟨none, .move (.move 60 59 false), none, 3500000⟩, true),
    (⟨some ⟨[], [("depth".toList, 3)], .cp 50, [], .move 20 21 false, [.move 15 14 false], []⟩, .move (.move 20 21 false), none, 2500000⟩, false),
    (⟨none, .resign, none, 1000000⟩, true)]

theorem webGame_clean : Clean (upTo 256) startPos (webGame.map Prod.fst) := by
  have hline : startPos.Line [.move 60 59 false, .move 20 21 false, .move 15 14 false] := Match.start_line (by decide +kernel)
  refine ⟨(by intro t ht; cases ht), by decide, fun h => absurd h.1 (by decide), ?_⟩
  intro mv hmv
  cases hmv
  refine ⟨Legal.promotionOK hline.1, fun _ => ⟨(by intro t ht; cases ht), ?_, by decide, fun h => absurd h.1 (by decide), ?_⟩⟩
  · intro t ht
    cases ht
    exact ⟨fun x hx => absurd hx List.not_mem_nil, by rintro ⟨⟩⟩
  · intro mv hmv
    cases hmv
    refine ⟨Legal.promotionOK hline.2.1, fun _ => ⟨?_, (by intro t ht; cases ht), by decide, fun h => absurd h.1 (by decide), ?_⟩⟩
    · intro t ht
      cases ht
      exact ⟨fun x hx => absurd hx List.not_mem_nil, by intro n hn; cases hn; decide, by rintro ⟨⟩, rfl, hline.2, by intro m l h; cases h⟩
    · intro mv hmv; cases hmv

/-- What the page shows. -/
def webShown : Out (Bool × List Entry) :=
  page mixKeys 256 none startGame (webGame.map fun x => (webTurn x).reply (webCommand none none none))

/-- The page, without the codes of the moves. -/
example : webShown.bind (fun x => .ok (x.1, x.2.map fun e => { e with move := 0#32 })) = .ok (true,
    [⟨1, "▲７六歩(77)".toList, 4, 0#32, none, []⟩, ⟨2, "△３四歩(33)".toList, 3, 0#32, some (-50), "△３四歩(33) ▲２六歩(27)".toList⟩,
     ⟨3, "▲投了".toList, 0, 0#32, none, []⟩]) := by
  decide +kernel

/-- The file. -/
example : (savedGame mixKeys none none 256 none ("A".toList, "B".toList) startGame (webGame.map webTurn)).bind (fun x => .ok (x.map fun y => (y.2.moves.map (·.2), y.2.ending))) =
    .ok (some ([(some 3, []), (some 2, "** -50 +2726FU".toList)], "%TORYO".toList)) := by
  decide +kernel

theorem web_saved : ∃ shown g, webShown = .ok (true, shown) ∧
    savedGame mixKeys none none 256 none ("A".toList, "B".toList) startGame (webGame.map webTurn) = .ok (some (shown, g)) ∧
    g.moves ≠ [] ∧ g.ending = "%TORYO".toList := by
  have h1 : webShown.bind (fun x => .ok x.1) = .ok true := by decide +kernel
  have h2 : (savedGame mixKeys none none 256 none ("A".toList, "B".toList) startGame (webGame.map webTurn)).bind
      (fun x => .ok (x.map fun y => (y.2.moves.length, y.2.ending))) = .ok (some (2, "%TORYO".toList)) := by decide +kernel
  cases hs : webShown with
  | error => rw [hs] at h1; cases h1
  | ub => rw [hs] at h1; cases h1
  | ok y =>
    obtain ⟨over, shown⟩ := y
    rw [hs] at h1
    have : over = true := Out.ok.inj h1
    subst this
    obtain ⟨o, o1, o2⟩ := C105_same mixKeys startGame Match.startGame_good.inv Match.startGame_good.check Match.startGame_good.regular Match.startGame_fresh.2
      (by decide +kernel) (upTo 256) none none 256 ("A".toList, "B".toList) webGame (by rw [Match.startGame_spec.2]; exact webGame_clean)
      (by unfold webGame; simp) hs
    cases o with
    | none => cases o2
    | some z =>
      obtain ⟨z1, g⟩ := z
      have hz : z1 = shown := Option.some.inj o2
      subst hz
      rw [o1] at h2
      have h3 := Option.some.inj (Out.ok.inj h2)
      refine ⟨z1, g, rfl, o1, fun h0 => ?_, congrArg Prod.snd h3⟩
      have := congrArg Prod.fst h3
      dsimp only at this
      rw [h0] at this
      cases this

/-- C105_again_partial is about this game. -/
example : ∃ shown text again es es', webShown = .ok (true, shown) ∧ replayFile mixKeys (fun _ => none) text = .ok again ∧ shown.length = again.length ∧
    shown = es ++ shown.drop 2 ∧ again = es' ++ again.drop 2 ∧ Reopened startPos none ((webGame.map Prod.fst).take 2) es es' := by
  obtain ⟨shown, g, h1, h2, h3, h4⟩ := web_saved
  obtain ⟨text, made, rest, es, es', e, e', r, r1, r2, r3, r4, r5, -⟩ := C105_again_partial mixKeys (fun _ => none) startGame Match.startGame_good.inv
    Match.startGame_good.check Match.startGame_good.regular Match.startGame_fresh.2 (by decide +kernel) (upTo 256) none none 256 ("A".toList, "B".toList)
    (by decide) webGame (by rw [Match.startGame_spec.2]; exact webGame_clean) (by unfold webGame; simp) h1 h2 h3 (ending := "%TORYO") h4 (by decide) (by decide)
  have hlen : ∀ {ss : List Spoken} {P : Pos} {last : Option Square} {a b : List Entry}, Reopened P last ss a b → a.length = ss.length ∧ b.length = ss.length := by
    intro ss
    induction ss with
    | nil => rintro P last a b ⟨rfl, rfl⟩; exact ⟨rfl, rfl⟩
    | cons s ss ih =>
      rintro P last a b ⟨mv, e, r, e', r', -, -, rfl, rfl, -, h⟩
      have := ih h
      exact ⟨by simp [this.1], by simp [this.2]⟩
  obtain ⟨l1, l2⟩ := hlen r5
  have hsl : webShown.bind (fun x => .ok x.2.length) = .ok 3 := by decide +kernel
  rw [h1] at hsl
  have hsl : shown.length = 3 := Out.ok.inj hsl
  have hm : made.length = 2 := by rw [r3, List.length_append, l1] at hsl; simpa using hsl
  have hmade : made = (webGame.map Prod.fst).take 2 := by rw [r4, ← hm]; simp
  refine ⟨shown, text, _, es, es', h1, r2, by rw [r3]; simp [l1, l2], ?_, ?_, ?_⟩
  · rw [r3, ← hm, ← l1]; simp
  · rw [← hm, ← l2]; simp
  · rw [Match.startGame_spec.2] at r5
    rw [← hmade]; exact r5

/-- The hypotheses of `C105_rules_partial` about the rules are met by it. -/
example : Usual mixKeys (upTo 256) (absPos startGame) noClock (absPos startGame) [] (webGame.map fun x => said (pageTold x.1)) ∧
    EndsBy (upTo 256) noClock (absPos startGame) [] (webGame.map fun x => said (pageTold x.1)) .resign := by
  have hl : startPos.Line [.move 60 59 false, .move 20 21 false, .move 15 14 false] := Match.start_line (by decide +kernel)
  have hocc : ∀ (Q : Pos) (l : List Pos), l.length < 4 → occurrences Q l ≠ 4 := by
    intro Q l h4 h
    rw [occurrences_sameB] at h
    have := List.countP_le_length (p := fun r => sameB r Q) (l := l)
    omega
  rw [Match.startGame_spec.2]
  constructor
  · refine Match.usual_line [.move 60 59 false, .move 20 21 false] (by decide +kernel) (by decide +kernel) fun t => ?_
    exact fun _ _ _ => ⟨fun h => (nomatch h.2), fun _ h => (nomatch h), fun mv e => (nomatch e)⟩
  · refine .next _ _ _ _ _ _ _ _ (by decide) (Match.overrun_noClock _ _ _) ?_ rfl hl.1 (fun h => nomatch h.2) (hocc _ _ (by decide)) hl.2.1 ?_
    · rintro (h | ⟨n, x, h, -⟩) <;> cases h
    rw [Match.charge_noClock]
    refine .next _ _ _ _ _ _ _ _ (by decide) (Match.overrun_noClock _ _ _) ?_ rfl hl.2.1 (fun h => nomatch h.2) (hocc _ _ (by decide)) hl.2.2.1 ?_
    · rintro (h | ⟨n, x, h, -⟩) <;> cases h
    rw [Match.charge_noClock]
    exact .resign _ _ _ _ _ (by decide) (Match.overrun_noClock _ _ _) (.inl rfl)

end Verif.Web
