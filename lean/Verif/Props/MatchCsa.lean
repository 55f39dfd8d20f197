import Verif.Lemmas.MatchCsaRecord

/-!
# C104: the CSA records of a match

Who reads the CSA file of a match gets the games as they were played: players, moves, times, scores and variations of the engines, results.
-/

namespace Verif.Match
open Spec Bitboard Position Usi

/-- One game of a match: players, clocks, opening, what the players said, and how it ended. -/
structure Sitting where
  names : List Char × List Char
  rules : Rules
  clock : Color → Option Int
  byoyomi : Color → Option Int
  opening : List Mv
  turns : List Spoken
  heard : Heard
  win : Option Color
  ending : String
  board : Board

/-- The game was held, from `p` and with at most `limit` moves of the opening: names on one line, a legal opening, turns in order, and an end other than
a perpetual check in which the wrong side is to move. -/
structure Sitting.Held (Z : Zobrist) (p : Position) (limit : Int) (g : Sitting) : Prop where
  names : '\n' ∉ g.names.1 ∧ '\n' ∉ g.names.2
  line : (absPos p).Line g.opening
  clean : Clean g.rules ((absPos p).after (cut limit g.opening)) g.turns
  ended : gameFrom Z (termsOf g.rules) p g.clock limit (g.opening.map usiText) (g.turns.map fun s => replyOf s.said) =
    .ok (some ((g.win, g.ending), g.board))
  known : g.ending ≠ "ILLEGAL_MOVE"

/-- What the match runner does in this game. -/
def Sitting.record (Z : Zobrist) (p : Position) (limit : Int) (g : Sitting) : Out (Option (((Option Color × String) × Board) × Csa.Game)) :=
  recordGame Z (termsOf g.rules) g.byoyomi p g.names g.clock limit (g.opening.map usiText) g.heard (g.turns.map turnOf)

/-- What the reader of the record finds. -/
structure Sitting.Tells (Z : Zobrist) (p : Position) (limit : Int) (g : Sitting) (s : Csa.State) : Prop where
  names : s.names .black = g.names.1 ∧ s.names .white = g.names.2
  first : ∃ q, setSfen Z s.sfen = .ok q ∧ absPos q = absPos p
  moves : s.moves = g.board.history
  course : ∃ ks, Kept ((absPos p).after (cut limit g.opening)) g.turns ks ∧ Pgn.Codes Z p (cut limit g.opening ++ ks.map (·.1)) s.moves ∧
    s.times = List.replicate (cut limit g.opening).length 0 ++ ks.map (fun k => (k.2.1 : Int)) ∧
    s.scores = List.replicate (cut limit g.opening).length 0 ++ ks.map (fun k => k.2.2.value) ∧
    s.comments = List.replicate (cut limit g.opening).length [] ++ ks.map (fun k => k.2.2.stored)
  ending : s.endgame = g.ending.toList
  win : s.win = Csa.winOf (resultOfWin g.win)

/-- **C104**: keeping the record changes nothing in the game, whatever the players tell. -/
theorem C104_same (Z : Zobrist) (p : Position) (hp : Inv Z p) (hc : CheckOK p) (hr : (absPos p).Regular) (hf : Fresh p) (hply : p.gamePly = 1)
    (limit : Int) (hlim : 1 ≤ limit) (mvs : List Mv) (hm : (absPos p).Line mvs) (R : Rules) (clock byoyomi : Color → Option Int) (ss : List Spoken)
    (hclean : Clean R ((absPos p).after (cut limit mvs)) ss) (names : List Char × List Char) (heard : Heard) {w : Option Color} {text : String} {b : Board}
    (hend : gameFrom Z (termsOf R) p clock limit (mvs.map usiText) (ss.map fun s => replyOf s.said) = .ok (some ((w, text), b))) :
    ∃ g, recordGame Z (termsOf R) byoyomi p names clock limit (mvs.map usiText) heard (ss.map turnOf) = .ok (some (((w, text), b), g)) := by
  have hgood : Csa.Good Z p := ⟨hp, hc, hr⟩
  obtain ⟨st, ms, h', o1, o2, o3, o4, o5⟩ := opening_begun (limit := limit) mvs (begun_start hp hc hr hf hply clock) hm (by simpa using hlim)
  simp only [List.length_nil, Int.ofNat_zero, Int.sub_zero] at o1 o2 o3
  obtain ⟨k, r1, r2, r3, r4, r5, r6, r7⟩ := opening_rows mvs (st := start p clock) hgood hm o1
  have hk : mvs.take k = cut limit mvs := by
    unfold cut at r7 ⊢
    exact take_same (by have := congrArg List.length r7; simpa using this.symm)
  rw [hk] at r5
  replace r5 : absPos st.board.pos = (absPos p).after (cut limit mvs) := r5
  unfold gameFrom at hend
  rw [o1, Out.bind_ok] at hend
  dsimp only at hend
  cases hl : loop Z (termsOf R) st (ss.map fun s => replyOf s.said) with
  | error => rw [hl] at hend; cases hend
  | ub => rw [hl] at hend; cases hend
  | ok x =>
    rw [hl, Out.bind_ok] at hend
    cases x with
    | none => cases hend
    | some y =>
      obtain ⟨f, st'⟩ := y
      unfold conclude at hend
      dsimp only at hend
      rw [← r5] at hclean
      obtain ⟨ks, xs, l1, -, -⟩ := loop_recorded (byoyomi := byoyomi) ss (h := heard) r4 hclean hl
      cases hv : verdict (termsOf R) f st' with
      | error => rw [hv] at hend; cases hend
      | ub => rw [hv] at hend; cases hend
      | ok v =>
        rw [hv, Out.bind_ok] at hend
        have := Option.some.inj (Out.ok.inj hend)
        unfold recordGame
        rw [o1, Out.bind_ok]
        dsimp only
        rw [l1, Out.bind_ok]
        unfold recordEnd
        dsimp only
        rw [hv, Out.bind_ok, this]
        exact ⟨_, rfl⟩

theorem sitting_noted {Z : Zobrist} {p : Position} (hp : Inv Z p) (hc : CheckOK p) (hr : (absPos p).Regular) (hf : Fresh p)
    (hply : p.gamePly = 1) {limit : Int} (hlim : 1 ≤ limit) {g : Sitting} (hg : g.Held Z p limit) :
    ∃ n : Csa.NotedGame, n.Fine Z ∧ g.record Z p limit = .ok (some (((g.win, g.ending), g.board), n.game)) ∧
      ∀ s, n.Read Z s → g.Tells Z p limit s := by
  have hgood : Csa.Good Z p := ⟨hp, hc, hr⟩
  obtain ⟨st, ms, h', o1, o2, o3, o4, o5⟩ := opening_begun (limit := limit) g.opening (begun_start hp hc hr hf hply g.clock) hg.line (by simpa using hlim)
  simp only [List.length_nil, Int.ofNat_zero, Int.sub_zero] at o1 o2 o3
  obtain ⟨k, r1, r2, r3, r4, r5, r6, r7⟩ := opening_rows g.opening (st := start p g.clock) hgood hg.line o1
  have hk : g.opening.take k = cut limit g.opening := by
    unfold cut at r7 ⊢
    exact take_same (by have := congrArg List.length r7; simpa using this.symm)
  rw [hk] at r3 r5
  replace r5 : absPos st.board.pos = (absPos p).after (cut limit g.opening) := r5
  have hend := hg.ended
  unfold gameFrom at hend
  rw [o1, Out.bind_ok] at hend
  dsimp only at hend
  cases hl : loop Z (termsOf g.rules) st (g.turns.map fun s => replyOf s.said) with
  | error => rw [hl] at hend; cases hend
  | ub => rw [hl] at hend; cases hend
  | ok x =>
    rw [hl, Out.bind_ok] at hend
    cases x with
    | none => cases hend
    | some y =>
      obtain ⟨f, st'⟩ := y
      unfold conclude at hend
      dsimp only at hend
      cases hv : verdict (termsOf g.rules) f st' with
      | error => rw [hv] at hend; cases hend
      | ub => rw [hv] at hend; cases hend
      | ok v =>
        rw [hv, Out.bind_ok] at hend
        have hve : v = (g.win, g.ending) ∧ st'.board = g.board := by
          have := Option.some.inj (Out.ok.inj hend)
          exact ⟨congrArg Prod.fst this, congrArg Prod.snd this⟩
        obtain ⟨rfl, hbd⟩ := hve
        have hcl := hg.clean
        rw [← r5] at hcl
        obtain ⟨ks, xs, l1, l2, l3⟩ := loop_recorded (byoyomi := g.byoyomi) g.turns (h := g.heard) r4 hcl hl
        obtain ⟨v1, v2, v3, v4⟩ := verdict_text hv hg.known
        have hfine := kept_fine hcl l2
        obtain ⟨n, hn⟩ : ∃ n : Csa.NotedGame, n = ⟨{ version := "V2".toList, names := some g.names }, [], .board p,
          ms.map (fun m => (m, none, .silent)) ++ xs, g.ending, none⟩ := ⟨_, rfl⟩
        have hops : n.ops = ms.map .push ++ xs.map fun x => .push x.1 := by
          rw [hn]; unfold Csa.NotedGame.ops; simp
        have hfirst : n.first Z = p := by rw [hn]; rfl
        have hrun : Board.run Z ⟨p, []⟩ n.ops = some st'.board := by
          rw [hops, Board.run_append, show Board.run Z ⟨p, []⟩ (ms.map .push) = some st.board from r2]
          exact l3.ran
        have hx2 : ∀ x ∈ xs, ∃ k ∈ ks, x.2 = (some k.2.1, k.2.2) := by
          intro x hx
          have : x.2 ∈ ks.map fun k => (some k.2.1, k.2.2) := by rw [← l3.notes]; exact List.mem_map_of_mem hx
          obtain ⟨k, k1, k2⟩ := List.mem_map.mp this
          exact ⟨k, k1, k2.symm⟩
        refine ⟨n, ?_, ?_, ?_⟩
        · refine ⟨?_, ?_, by rw [hfirst]; exact hp, by rw [hfirst]; exact hc, by rw [hfirst]; exact hr, ?_, ?_, ?_, ?_, ?_, ?_⟩
          · rw [hn]
            refine ⟨.inr ⟨_, rfl⟩, by show '\n' ∉ "V2".toList; decide, ?_, .empty, (by intro l hl; cases hl), (by intro i hi; cases hi), by simp⟩
            intro m hm
            have : m = g.names := by simpa using hm.symm
            rw [this]; exact hg.names
          · rw [hn]; intro s hs; cases hs
          · rw [hfirst, hops]; exact always_append r1 r2 l3.legal
          · rw [hn]
            intro x hx m hm
            rcases List.mem_append.mp hx with hx | hx
            · obtain ⟨_, -, rfl⟩ := List.mem_map.mp hx; cases hm
            · obtain ⟨k, k1, k2⟩ := hx2 x hx
              rw [k2] at hm
              cases hm
              exact (hfine k k1).1
          · rw [hn]
            intro x hx
            rcases List.mem_append.mp hx with hx | hx
            · obtain ⟨_, -, rfl⟩ := List.mem_map.mp hx; trivial
            · obtain ⟨k, k1, k2⟩ := hx2 x hx
              rw [k2]
              exact (hfine k k1).2
          · rw [hn]; exact v2
          · rw [hn]; exact ⟨v3, v4⟩
          · rw [hn]; intro m hm; cases hm
        · unfold Sitting.record recordGame
          rw [o1, Out.bind_ok]
          dsimp only
          rw [l1, Out.bind_ok]
          unfold recordEnd
          dsimp only
          rw [hv, Out.bind_ok, hbd, hn]
          unfold Csa.NotedGame.game
          simp only [List.map_append, List.map_map]
          rfl
        · intro s hs
          obtain ⟨q, q1, q2, -, -⟩ := hs.first
          have hmoves : n.moves.map (·.1) = ms ++ xs.map (·.1) := by
            rw [hn, List.map_append, List.map_map, show ((fun x : Move × Option Nat × Note => x.1) ∘ fun m : Move => (m, (none : Option Nat), Note.silent)) = id from rfl,
              List.map_id]
          have hlen : ms.length = (cut limit g.opening).length := by
            have : ∀ {p : Position} {as : List Mv} {bs : List Move}, Pgn.Codes Z p as bs → bs.length = as.length := by
              intro p as bs h
              induction h with
              | nil => rfl
              | cons _ _ ih => simp [ih]
            exact this r3
          have hopen : ∀ {β : Type} (d : β) (F : Option Nat × Note → β), F (none, .silent) = d →
              n.moves.map (fun x => F x.2) = List.replicate (cut limit g.opening).length d ++ ks.map fun k => F (some k.2.1, k.2.2) := by
            intro β d F hd
            rw [hn]
            dsimp only
            rw [List.map_append, List.map_map, show xs.map (fun x => F x.2) = (xs.map (·.2)).map F by rw [List.map_map]; rfl, l3.notes, List.map_map]
            congr 1
            rw [← hlen, ← hd, List.eq_replicate_iff]
            simp
          refine ⟨?_, ⟨q, q1, by rw [q2, hfirst]⟩, ?_, ⟨ks, ?_, ?_, ?_, ?_, ?_⟩, ?_, ?_⟩
          · exact hs.names g.names (by rw [hn]; simp)
          · rw [hs.moves, hmoves, ← hbd, l3.history, o4]
            show _ = [] ++ ms ++ _
            rw [List.nil_append]
          · rw [← r5]; exact l2
          · rw [hs.moves, hmoves]
            exact codes_append (b := ⟨p, []⟩) r3 r2 l3.codes
          · rw [hs.times, show n.lastTime = none by rw [hn]]
            rw [hopen (0 : Int) (fun y => ((y.1.getD 0 : Nat) : Int)) rfl]; simp
          · rw [hs.scores, hopen (0 : Int) (fun y => y.2.value) rfl]
          · rw [hs.comments, hopen ([] : List Char) (fun y => y.2.stored) rfl]
          · rw [hs.ending, hn]
          · obtain ⟨b, b1, b2⟩ := hs.win
            rw [hfirst, hrun] at b1
            cases b1
            rw [b2, show n.ending = g.ending by rw [hn], v1]

theorem sittings_noted {Z : Zobrist} {p : Position} (hp : Inv Z p) (hc : CheckOK p) (hr : (absPos p).Regular) (hf : Fresh p)
    (hply : p.gamePly = 1) {limit : Int} (hlim : 1 ≤ limit) : ∀ {gs : List Sitting}, (∀ g ∈ gs, g.Held Z p limit) →
    ∃ ns : List Csa.NotedGame, (∀ n ∈ ns, n.Fine Z) ∧ ns.length = gs.length ∧
      List.Forall₂ (fun g n => g.record Z p limit = .ok (some (((g.win, g.ending), g.board), n))) gs (ns.map Csa.NotedGame.game) ∧
      ∀ ss, List.Forall₂ (Csa.NotedGame.Read Z) ns ss → List.Forall₂ (Sitting.Tells Z p limit) gs ss
  | [], _ => ⟨[], by simp, rfl, .nil, fun ss h => by cases h; exact .nil⟩
  | g :: gs, h => by
    obtain ⟨n, n1, n2, n3⟩ := sitting_noted hp hc hr hf hply hlim (h g (by simp))
    obtain ⟨ns, m1, m2, m3, m4⟩ := sittings_noted hp hc hr hf hply hlim (gs := gs) fun g' hg' => h g' (by simp [hg'])
    refine ⟨n :: ns, ?_, by simp [m2], .cons n2 m3, fun ss hs => ?_⟩
    · intro x hx
      rcases List.mem_cons.mp hx with rfl | hx
      · exact n1
      · exact m1 x hx
    · cases hs with
      | cons a b => exact .cons (n3 _ a) (m4 _ b)

/-- **C104** (partial): the games of a match without pondering, written one after the other to a new file, can be read back; each record tells the
players, the start, the moves that were played on the board, opening included, and for each move of a player the whole seconds, the score from Black's side
and the variation; the end and the winner are those of the match.

Missing: perpetual checks recorded as `ILLEGAL_MOVE`, players who ponder, variations that do not begin with the move played; see the theorems below. -/
theorem C104_file_partial (Z : Zobrist) (stof : List Char → Option Rat) (p : Position) (hp : Inv Z p) (hc : CheckOK p) (hr : (absPos p).Regular)
    (hf : Fresh p) (hply : p.gamePly = 1) (limit : Int) (hlim : 1 ≤ limit) (gs : List Sitting) (hne : gs ≠ []) (hg : ∀ g ∈ gs, g.Held Z p limit) :
    ∃ records file ss, List.Forall₂ (fun g n => g.record Z p limit = .ok (some (((g.win, g.ending), g.board), n))) gs records ∧
      Csa.writeFile Z [] records = .ok file ∧ Csa.parseStr Z stof file = .ok ss ∧ List.Forall₂ (Sitting.Tells Z p limit) gs ss := by
  obtain ⟨ns, n1, n2, n3, n4⟩ := sittings_noted hp hc hr hf hply hlim hg
  obtain ⟨text, ss, e1, e2, e3⟩ := Csa.C86_file_partial Z stof (gs := ns) (by rintro rfl; exact hne (List.eq_nil_of_length_eq_zero n2.symm)) n1
  exact ⟨_, text, ss, n3, e1, e2, n4 ss e3⟩

/-- **C104** (partial as above): if the game ends by the rules, and not by a perpetual check, the record can be read and names the winner. -/
theorem C104_rules_partial (Z : Zobrist) (stof : List Char → Option Rat) (p : Position) (hp : Inv Z p) (hc : CheckOK p) (hr : (absPos p).Regular)
    (hf : Fresh p) (hply : p.gamePly = 1) (limit : Int) (hlim : 1 ≤ limit) (names : List Char × List Char) (hnames : '\n' ∉ names.1 ∧ '\n' ∉ names.2)
    (mvs : List Mv) (hm : (absPos p).Line mvs) (P : Pos) (h : List Pos) (hrec : (absPos p).record [] (cut limit mvs) = P :: h)
    (hfew : ∀ r, occurrences r (P :: h) ≤ 3) (hlive : ∃ mv, P.Legal mv) (R : Rules) (clock byoyomi : Color → Option Int)
    (hb : ∀ c, clock c = none ∨ R.byoyomi c = 0) (ss : List Spoken) (hn : h.length + ss.length < 2147483647)
    (hu : Usual Z R (absPos p) clock P h (ss.map Spoken.said)) (hclean : Clean R P ss) {r : Result} (hends : Ends R clock P h (ss.map Spoken.said) r)
    (hperp : ∀ c, ¬ EndsBy R clock P h (ss.map Spoken.said) (.repeated (.wins c))) (heard : Heard) :
    ∃ w b g file s, recordGame Z (termsOf R) byoyomi p names clock limit (mvs.map usiText) heard (ss.map turnOf) = .ok (some ((w, b), g)) ∧
      resultOfWin w.1 = r ∧ Csa.writeFile Z [] [g] = .ok file ∧ Csa.parseStr Z stof file = .ok [s] ∧ s.win = Csa.winOf r ∧ s.moves = b.history ∧
      s.names .black = names.1 ∧ s.names .white = names.2 := by
  obtain ⟨⟨x, x1, x2, x3⟩, hun⟩ := C100_result_partial Z p hp hc hr hf hply limit hlim mvs hm P h hrec hfew hlive R clock hb (ss.map Spoken.said)
    (by simpa using hn) hu
  have hP : (absPos p).after (cut limit mvs) = P := by
    obtain ⟨st, ms, h', -, i2, -, -⟩ := opening_begun (limit := limit) mvs (begun_start hp hc hr hf hply clock) hm (by simpa using hlim)
    simp only [List.length_nil, Nat.cast_zero, Int.sub_zero] at i2
    rw [hrec] at i2
    exact (List.cons.inj i2).1.symm
  cases x with
  | none => exact absurd hends (x2 rfl r)
  | some wb =>
    obtain ⟨⟨w, text⟩, b⟩ := wb
    obtain ⟨y1, reason, y2, y3⟩ := x3 _ _ rfl
    have hw := hun _ _ y1 hends
    rw [List.map_map] at x1
    have hheld : Sitting.Held Z p limit ⟨names, R, clock, byoyomi, mvs, ss, heard, w, text, b⟩ := by
      refine ⟨hnames, hm, by rw [hP]; exact hclean, x1, ?_⟩
      dsimp only
      intro ht
      subst ht
      cases reason with
      | repeated q =>
        cases q with
        | draw =>
          rcases y3 with y3 | ⟨-, y3⟩
          · exact absurd (show "ILLEGAL_MOVE" = "%SENNICHITE" from y3) (by decide)
          · exact absurd (show "ILLEGAL_MOVE" = "%JISHOGI" from y3) (by decide)
        | wins c => exact hperp c y2
      | limit => exact absurd (show "ILLEGAL_MOVE" = _ from y3) (by decide)
      | time => exact absurd (show "ILLEGAL_MOVE" = _ from y3) (by decide)
      | resign => exact absurd (show "ILLEGAL_MOVE" = _ from y3) (by decide)
      | declare => exact absurd (show "ILLEGAL_MOVE" = _ from y3) (by decide)
      | illegal => exact absurd (show "ILLEGAL_MOVE" = _ from y3) (by decide)
      | announced => exact absurd (show "ILLEGAL_MOVE" = _ from y3) (by decide)
      | mate => exact absurd (show "ILLEGAL_MOVE" = _ from y3) (by decide)
    obtain ⟨records, file, sts, r1, r2, r3, r4⟩ := C104_file_partial Z stof p hp hc hr hf hply limit hlim [_] (by simp)
      (by intro g hg; rw [List.mem_singleton] at hg; subst hg; exact hheld)
    cases r1 with
    | cons a1 a2 =>
      cases a2
      cases r4 with
      | cons b1 b2 =>
        cases b2
        exact ⟨(w, text), b, _, file, _, a1, hw, r2, r3, by rw [b1.win]; exact congrArg Csa.winOf hw, b1.moves, b1.names⟩

/-! ### The files -/

/-- **C104**: games that begin in different seconds have different files, if the times have the usual length. -/
theorem C104_names (names names' : List Char × List Char) (stamp stamp' : List Char) (h : stamp.length = stamp'.length)
    (he : recordName names stamp = recordName names' stamp') : stamp = stamp' := by
  unfold recordName at he
  have h1 := congrArg List.reverse he
  simp only [List.reverse_append, List.reverse_cons, List.append_assoc] at h1
  have h2 := (List.append_inj h1 rfl).2
  exact List.reverse_injective (List.append_inj h2 (by simpa using h)).1

/-- **C104**: a file under a new name leaves the others as they are. -/
theorem C104_kept (dir : List (List Char × List Char)) (name text : List Char) (x : List Char × List Char) (hx : x.1 ≠ name) :
    x ∈ putFile dir name text ↔ x ∈ dir := by
  unfold putFile
  rw [List.mem_cons, List.mem_filter]
  constructor
  · rintro (rfl | h)
    · exact absurd rfl hx
    · exact h.1
  · exact fun h => .inr ⟨h, by simpa using hx⟩

/-- **C104** fails for two games of the same players that begin in the same second: only the last one is left. -/
theorem C104_fails_name (names : List Char × List Char) (stamp : List Char) (dir : List (List Char × List Char)) (first second : List Char) :
    ∀ x ∈ putFile (putFile dir (recordName names stamp) first) (recordName names stamp) second, x.1 = recordName names stamp → x.2 = second := by
  intro x hx he
  rw [putFile, List.mem_cons, List.mem_filter] at hx
  rcases hx with rfl | ⟨-, h⟩
  · rfl
  · rw [decide_eq_true_eq] at h; exact absurd he h

/-! ### Pondering -/

/-- **C104** fails for players who ponder, whatever they told about their move: when the runner reads the score, the listener has already heard the next
`position`. Then there is no score and no comment, and neither `resign` nor `mate_win` takes effect; the same holds once `go` has been heard. If the
other thread is faster, the score and the variation are those of the search in the opponent's time, which is about another position. -/
theorem C104_fails_ponder (Z : Zobrist) (p : Position) (h : Heard) (cmd : List Char) (s : Spoken) (mv guess : Mv) (ha : s.answer = .move mv)
    (hg : s.ponder = some guess) (played : List Mv) (position : List Char)
    (hpos : position = positionLine (some ((played ++ [mv, guess]).map usiText)) "startpos".toList) :
    (∀ search, search.length ≤ 1 → infoScore (ponderHeard (h.after cmd (turnOf s)) position search).info = .ok none ∧
      infoComment Z p (ponderHeard (h.after cmd (turnOf s)) position search).info = .ok none) ∧
    ∀ search a b, (ponderHeard (h.after cmd (turnOf s)) position (search ++ [a, b])).info = a := by
  constructor
  · intro search hs
    have hno : usiInfo (ponderHeard (h.after cmd (turnOf s)) position search).info = none := by
      unfold usiInfo
      rw [noSc_absent]
      · rfl
      match search, hs with
      | [], _ =>
        have hl : (h.after cmd (turnOf s)).last = (turnOf s).final := by
          unfold Heard.after
          rw [← List.cons_append, List.foldl_append]; rfl
        show noSc (h.after cmd (turnOf s)).last = true
        rw [hl]
        unfold Turn.final turnOf
        rw [ha, hg]
        show noSc ("bestmove ".toList ++ (usiText mv ++ (" ponder ".toList ++ usiText guess))) = true
        refine noSc_append (by decide) (by decide) (noSc_no_s ?_)
        simp only [List.mem_append, not_or]
        exact ⟨usiText_no_s mv, by decide, usiText_no_s guess⟩
      | [go], _ =>
        show noSc position = true
        rw [hpos]
        obtain ⟨w, ws, hw⟩ : ∃ w ws, (played ++ [mv, guess]).map usiText = w :: ws := by
          cases played <;> exact ⟨_, _, rfl⟩
        unfold positionLine
        rw [hw]
        show noSc ("position ".toList ++ ("startpos".toList ++ (" moves ".toList ++ joined (w :: ws)))) = true
        rw [← List.append_assoc "startpos".toList]
        refine noSc_append (by decide) (by decide) (noSc_append (by decide) (by decide) (noSc_no_s ?_))
        rw [← hw]; exact joined_no_s _
      | _ :: _ :: _, hs => simp at hs
    unfold infoScore infoComment
    rw [hno]
    exact ⟨rfl, rfl⟩
  · intro search a b
    unfold ponderHeard
    rw [show position :: (search ++ [a, b]) = (position :: search) ++ [a, b] from rfl, heard_two]

/-! ### Variations and ends -/

/-- **C104** fails if the variation does not begin with the move: Black tells a variation with 7g7f and plays 2g2f. The rest of the variation is put
behind 2g2f, where it is no line of legal moves. -/
theorem C104_fails_variation :
    (recordTurn mixKeys (termsOf (upTo 256)) (start startGame noClock) "info score cp 30 pv 7g7f 3c3d 2g2f".toList
      ⟨[], "2g2f".toList, none, 5000000⟩).bind (fun x => .ok x.1) = .ok [(encode startGame (.move 15 14 false), some 5, "** 30 -3334FU +2726FU".toList)] ∧
    ¬ startPos.Line [.move 15 14 false, .move 20 21 false, .move 15 14 false] := by
  refine ⟨by decide +kernel, fun h => ?_⟩
  obtain ⟨⟨⟨k, hk, -⟩, -⟩, -⟩ := h.2.2.1
  have hb : ((startPos.play (.move 15 14 false)).play (.move 20 21 false)).board 15 = none := by decide
  rw [hb] at hk
  cases hk

/-- Just a move. -/
def quietly (mv : Mv) : Spoken := ⟨none, .move mv, none, 0⟩

theorem gameFrom_quietly {Z : Zobrist} {T : Terms} {p : Position} {clock : Color → Option Int} {limit : Int} (mvs : List Mv) :
    gameFrom Z T p clock limit (([] : List Mv).map usiText) ((mvs.map quietly).map fun s => replyOf s.said) = game Z T p clock ((mvs.map plain).map replyOf) := by
  have h : ((fun s => replyOf s.said) ∘ quietly) = (replyOf ∘ plain) := by
    funext mv
    show replyOf ⟨.move mv, none, (((0 + 999) / 1000 : Nat) : Int)⟩ = replyOf ⟨.move mv, none, 0⟩
    rw [show (((0 + 999) / 1000 : Nat) : Int) = 0 by decide]
  rw [List.map_map, List.map_map, h]
  unfold gameFrom game
  rw [List.map_nil, playOpening, Out.bind_ok]

theorem quietly_clean {R : Rules} (hR : R.mateWin = false) : ∀ (mvs : List Mv) {P : Pos}, P.Line mvs → Clean R P (mvs.map quietly)
  | [], _, _ => trivial
  | mv :: mvs, P, h => by
    refine ⟨(by intro t ht; cases ht), (by show 0 / 1000000 ≤ 2147483647; decide), (fun ha => by rw [ha.1] at hR; cases hR), ?_⟩
    intro m hm
    cases hm
    exact ⟨Legal.promotionOK h.1, fun _ => ⟨(by intro t ht; cases ht), quietly_clean hR mvs h.2⟩⟩

/-- **C104** fails if one of the games ends with `ILLEGAL_MOVE` without `%`: the file cannot be read, not even the other games. -/
theorem C104_fails_ending (Z : Zobrist) (stof : List Char → Option Rat) (records : List Csa.Game) (g : Csa.Game) (hg : g ∈ records) (p : Position)
    (hs : g.start = .board p) (he : g.ending = "ILLEGAL_MOVE".toList) (file : List Char) (hw : Csa.writeFile Z [] records = .ok file)
    (ss : List Csa.State) : Csa.parseStr Z stof file ≠ .ok ss := by
  obtain ⟨-, h⟩ := file_holds (g := g) hw
  obtain ⟨a, text, b, h1, rfl⟩ := h hg
  refine str_stops (bad := "ILLEGAL_MOVE".toList) (fun s => rfl) (by decide) ?_ ss
  rw [Csa.writeGame, hs, Csa.writeStart, Out.bind_ok] at h1
  cases hm : Csa.writeMoves '\n' p.turn g.moves with
  | none => rw [hm] at h1; cases h1
  | some y =>
    rw [hm] at h1
    have h1 := (Out.ok.inj h1).symm
    obtain ⟨z, hz⟩ : ∃ z, Csa.exportInfo p ++ y = z ++ ['\n'] := by
      obtain ⟨z, hz⟩ := exportInfo_newline p
      rcases writeMoves_newline hm with rfl | ⟨z', rfl⟩
      · exact ⟨z, by simpa using hz⟩
      · exact ⟨_, by rw [List.append_assoc]⟩
    have : ∃ a' b', a ++ (text ++ b) = a' ++ '\n' :: ("ILLEGAL_MOVE".toList ++ '\n' :: b') := by
      refine ⟨a ++ Csa.writeHeader g.header ++ z, Csa.timeText g.lastTime ++ b, ?_⟩
      rw [h1, ← List.append_assoc (Csa.exportInfo p), hz, he, Csa.exportEnd]
      simp only [List.append_assoc, List.cons_append, List.nil_append]
    obtain ⟨a', b', h⟩ := this
    rw [h, lines_newline, lines_newline, List.mem_append, List.mem_append]
    exact .inr (.inl (by decide))

theorem record_end {Z : Zobrist} {T : Terms} {byoyomi : Color → Option Int} {p : Position} {names : List Char × List Char} {clock : Color → Option Int}
    {limit : Int} {opening : List (List Char)} {h : Heard} {ts : List Turn} {v : Option Color × String} {b : Board} {g : Csa.Game}
    (hr : recordGame Z T byoyomi p names clock limit opening h ts = .ok (some ((v, b), g))) : g.start = .board p ∧ g.ending = v.2.toList := by
  unfold recordGame at hr
  cases e : playOpening Z limit (start p clock) opening with
  | error => rw [e] at hr; cases hr
  | ub => rw [e] at hr; cases hr
  | ok x =>
    rw [e, Out.bind_ok] at hr
    cases e' : recordLoop Z T byoyomi h x.1 ts with
    | error => rw [e'] at hr; cases hr
    | ub => rw [e'] at hr; cases hr
    | ok y =>
      rw [e', Out.bind_ok] at hr
      cases y with
      | none => cases hr
      | some z =>
        obtain ⟨rows, f, st⟩ := z
        unfold recordEnd at hr
        dsimp only at hr
        cases hv : verdict T f st with
        | error => rw [hv] at hr; cases hr
        | ub => rw [hv] at hr; cases hr
        | ok u => rw [hv, Out.bind_ok] at hr; cases hr; exact ⟨rfl, rfl⟩

/-- C104_fails_ending happens: Black, who has checked with every move, comes to the position for the fourth time with the move. White is given the win,
and the record cannot be read. -/
theorem C104_fails_perpetual : ∃ b g, recordGame mixKeys (termsOf (upTo 256)) noClock startGame ("A".toList, "B".toList) noClock 256 [] ⟨[], []⟩
    ((perpetualLate.map quietly).map turnOf) = .ok (some (((some .white, "ILLEGAL_MOVE"), b), g)) ∧
    ∀ file stof ss, Csa.writeFile mixKeys [] [g] = .ok file → Csa.parseStr mixKeys stof file ≠ .ok ss := by
  obtain ⟨hl, ho, -⟩ := C79_fails
  unfold outcome at ho
  cases e : game mixKeys (termsOf (upTo 256)) startGame noClock ((perpetualLate.map plain).map replyOf) with
  | error => rw [e] at ho; cases ho
  | ub => rw [e] at ho; cases ho
  | ok x =>
    rw [e] at ho
    cases x with
    | none => cases ho
    | some y =>
      obtain ⟨w, b⟩ := y
      have hw : w = (some .white, "ILLEGAL_MOVE") := Option.some.inj (Out.ok.inj ho)
      subst hw
      have hgame : gameFrom mixKeys (termsOf (upTo 256)) startGame noClock 256 (([] : List Mv).map usiText)
          ((perpetualLate.map quietly).map fun s => replyOf s.said) = .ok (some ((some .white, "ILLEGAL_MOVE"), b)) := by
        rw [gameFrom_quietly]; exact e
      obtain ⟨g, hg⟩ := C104_same mixKeys startGame startGame_good.inv startGame_good.check startGame_good.regular startGame_fresh.1 startGame_fresh.2
        256 (by decide) [] trivial (upTo 256) noClock noClock (perpetualLate.map quietly)
        (by rw [startGame_spec.2]; exact quietly_clean rfl perpetualLate hl) ("A".toList, "B".toList) ⟨[], []⟩ hgame
      obtain ⟨h1, h2⟩ := record_end hg
      exact ⟨b, g, hg, fun file stof ss hf => C104_fails_ending mixKeys stof [g] g (by simp) startGame h1 h2 file hf ss⟩

/-! ### The theorems can be applied -/

/-- A game: 7g7f and 3c3d are the opening, Black plays 2g2f, expecting 8c8d, and White resigns. -/
def shortTurns : List Spoken :=
  [⟨some ⟨[], [("depth".toList, 3)], .cp 50, [("nodes".toList, 1000)], .move 15 14 false, [.move 65 66 false], []⟩, .move (.move 15 14 false), none, 2500000⟩,
    ⟨none, .resign, none, 1000000⟩]

theorem short_clean : Clean (upTo 256) (startPos.after [.move 60 59 false, .move 20 21 false]) shortTurns := by
  have hline : startPos.Line [.move 60 59 false, .move 20 21 false, .move 15 14 false, .move 65 66 false] := start_line (by decide +kernel)
  have hname : NumberName "nodes".toList := ⟨by decide, by decide, by decide, by decide, by decide, by decide, by decide⟩
  refine ⟨?_, by decide, fun h => absurd h.1 (by decide), ?_⟩
  · intro t ht
    cases ht
    exact ⟨by simpa using hname, by rintro ⟨⟩⟩
  · intro mv hmv
    cases hmv
    refine ⟨promotionB_ok (by decide), fun hl => ⟨?_, ?_⟩⟩
    · intro t ht
      cases ht
      exact ⟨by simpa using hname, by intro n hn; cases hn; decide, by rintro ⟨⟩, rfl, hline.2.2, by intro m l h; cases h⟩
    · refine ⟨(by intro t ht; cases ht), by decide, fun h => absurd h.1 (by decide), ?_⟩
      intro mv hmv; cases hmv

theorem short_held : ∃ b, Sitting.Held mixKeys startGame 256 ⟨("A".toList, "B".toList), upTo 256, noClock, noClock, [.move 60 59 false, .move 20 21 false],
    shortTurns, ⟨[], []⟩, some .black, "%TORYO", b⟩ := by
  have h : (gameFrom mixKeys (termsOf (upTo 256)) startGame noClock 256 ([Mv.move 60 59 false, .move 20 21 false].map usiText)
      (shortTurns.map fun s => replyOf s.said)).bind (fun x => .ok (x.map (·.1))) = .ok (some (some .black, "%TORYO")) := by decide +kernel
  cases e : gameFrom mixKeys (termsOf (upTo 256)) startGame noClock 256 ([Mv.move 60 59 false, .move 20 21 false].map usiText)
      (shortTurns.map fun s => replyOf s.said) with
  | error => rw [e] at h; cases h
  | ub => rw [e] at h; cases h
  | ok x =>
    rw [e] at h
    cases x with
    | none => cases h
    | some y =>
      obtain ⟨w, b⟩ := y
      have : w = (some .black, "%TORYO") := Option.some.inj (Out.ok.inj h)
      subst this
      refine ⟨b, (by show '\n' ∉ "A".toList ∧ '\n' ∉ "B".toList; decide), ?_, ?_, e, by show "%TORYO" ≠ "ILLEGAL_MOVE"; decide⟩
      · rw [startGame_spec.2]; exact start_line (mvs := [.move 60 59 false, .move 20 21 false]) (by decide +kernel)
      · rw [startGame_spec.2]; exact short_clean

/-- C104_file_partial: two games in one file. -/
example : ∃ b records file ss, records.length = 2 ∧ Csa.writeFile mixKeys [] records = .ok file ∧ Csa.parseStr mixKeys (fun _ => none) file = .ok ss ∧
    ∀ s ∈ ss, s.moves = Board.history b ∧ s.win = .black := by
  obtain ⟨b, hb⟩ := short_held
  obtain ⟨records, file, ss, h1, h2, h3, h4⟩ := C104_file_partial mixKeys (fun _ => none) startGame startGame_good.inv startGame_good.check
    startGame_good.regular startGame_fresh.1 startGame_fresh.2 256 (by decide) [_, _] (by simp) (by
      intro g hg
      rcases List.mem_cons.mp hg with rfl | hg
      · exact hb
      · rw [List.mem_singleton] at hg; subst hg; exact hb)
  refine ⟨b, records, file, ss, h1.length_eq.symm, h2, h3, ?_⟩
  cases h4 with
  | cons a1 a2 =>
    cases a2 with
    | cons a2 a3 =>
      cases a3
      intro s hs
      simp only [List.mem_cons, List.not_mem_nil, or_false] at hs
      rcases hs with rfl | rfl
      · exact ⟨a1.moves, a1.win⟩
      · exact ⟨a2.moves, a2.win⟩

/-- The record of this game. -/
example : (recordGame mixKeys (termsOf (upTo 256)) noClock startGame ("A".toList, "B".toList) noClock 256 ["7g7f".toList, "3c3d".toList] ⟨[], []⟩
    (shortTurns.map turnOf)).bind (fun x => .ok (x.map fun y => y.2.moves.map (·.2))) =
      .ok (some [(none, []), (none, []), (some 2, "** 50 -8384FU".toList)]) := by decide +kernel

/-- C104_rules_partial: Black resigns at once. -/
example : ∃ w b g file s, recordGame mixKeys (termsOf (upTo 256)) noClock startGame ("A".toList, "B".toList) noClock 256 (([] : List Mv).map usiText) ⟨[], []⟩
      (([⟨none, .resign, none, 0⟩] : List Spoken).map turnOf) = .ok (some ((w, b), g)) ∧ resultOfWin w.1 = .wins .white ∧
    Csa.writeFile mixKeys [] [g] = .ok file ∧ Csa.parseStr mixKeys (fun _ => none) file = .ok [s] ∧ s.win = .white := by
  have hs := startGame_spec.2
  have hg := startGame_good
  have hline : startPos.Line [.move 60 59 false] := start_line (by decide +kernel)
  have he : EndsBy (upTo 256) noClock (absPos startGame) [] (([⟨none, .resign, none, 0⟩] : List Spoken).map Spoken.said) .resign :=
    .resign _ _ _ _ _ (by decide) (overrun_noClock _ _ _) (.inl rfl)
  obtain ⟨w, b, g, file, s, h1, h2, h3, h4, h5, -⟩ := C104_rules_partial mixKeys (fun _ => none) startGame hg.inv hg.check hg.regular startGame_fresh.1
    startGame_fresh.2 256 (by decide) ("A".toList, "B".toList) (by decide) [] trivial (absPos startGame) [] rfl
    (fun r => by rw [occurrences_sameB]; exact le_trans List.countP_le_length (by simp)) ⟨_, by rw [hs]; exact hline.1⟩ (upTo 256) noClock noClock
    (fun _ => .inl rfl) [⟨none, .resign, none, 0⟩] (by decide)
    (by
      intro _ _ _
      exact ⟨fun ha => absurd ha.1 (by decide), fun _ hd => (by cases hd), fun mv hm => (by cases hm)⟩)
    ⟨(by intro t ht; cases ht), by decide, fun h => absurd h.1 (by decide), (by intro mv hmv; cases hmv)⟩
    (r := .wins .white) (by
      have : Ends (upTo 256) noClock (absPos startGame) [] (([⟨none, .resign, none, 0⟩] : List Spoken).map Spoken.said) (.wins (absPos startGame).turn.opp) :=
        .resign _ _ _ _ _ (by decide) (overrun_noClock _ _ _) (.inl rfl)
      rw [hs] at this ⊢
      exact this)
    (fun c hc => by have := endsBy_unique he hc; cases this) ⟨[], []⟩
  exact ⟨w, b, g, file, s, h1, h2, h3, h4, h5⟩

/-- C104_names: the names of two files. -/
example : recordName ("A".toList, "B".toList) "20240101120000".toList = "A+B+20240101120000.csa".toList ∧
    recordName ("B".toList, "A".toList) "20240101120000".toList = "B+A+20240101120000.csa".toList := by decide

/-- C104_fails_ponder: a player who is about to lose by mate, where the limit for resigning is -3000. -/
example : ∃ s : Spoken, s.answer = .move (.move 15 14 false) ∧ s.ponder = some (.move 65 66 false) ∧ s.said.score = some (-100000) :=
  ⟨⟨some ⟨[], [], .mateSoon true, [], .move 15 14 false, [], []⟩, .move (.move 15 14 false), some (.move 65 66 false), 0⟩, rfl, rfl, rfl⟩

end Verif.Match
