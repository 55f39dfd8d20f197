import Verif.Model.Opening
import Verif.Spec.Opening
import Verif.Props.Match
import Verif.Props.MatchCases
import Verif.Props.Push
import Verif.Props.UsiCommands
import Verif.Props.UsiComment
import Verif.Props.UsiSession

/-!
# C100: the games of a match begin with the openings of the file
-/

namespace Verif.Match
open Spec Position

/-! ### The file -/

theorem strip_trail {t e : List Char} (h1 : ∀ c, t.head? = some c → Kif.isSpace c = false) (h2 : ∀ c, t.getLast? = some c → Kif.isSpace c = false)
    (he : ∀ c ∈ e, Kif.isSpace c = true) : Usi.strip (t ++ e) = t := by
  have key : ∀ {l r : List Char}, (∀ c ∈ l, Kif.isSpace c = true) → (∀ c, r.head? = some c → Kif.isSpace c = false) →
      (l ++ r).dropWhile Kif.isSpace = r := by
    intro l r hl hr
    induction l with
    | nil =>
      cases r with
      | nil => rfl
      | cons c r => rw [List.nil_append, List.dropWhile_cons, hr c rfl]; rfl
    | cons a l ih =>
      rw [List.cons_append, List.dropWhile_cons, hl a List.mem_cons_self, if_pos rfl]
      exact ih fun c hc => hl c (List.mem_cons_of_mem _ hc)
  unfold Usi.strip
  cases t with
  | nil =>
    have : ([] ++ e : List Char).dropWhile Kif.isSpace = [] := by
      have := key (l := e) (r := []) he (by simp)
      rwa [List.append_nil] at this
    rw [this]; rfl
  | cons a t =>
    have e1 : ((a :: t) ++ e).dropWhile Kif.isSpace = (a :: t) ++ e := key (l := []) (by simp) (fun c hc => h1 c (by simpa using hc))
    rw [e1, List.reverse_append, key]
    · rw [List.reverse_reverse]
    · intro c hc; exact he c (List.mem_reverse.mp hc)
    · intro c hc
      rw [List.head?_reverse] at hc
      exact h2 c hc

/-- **C100**, the file: a line is read as the moves that stand in it, whatever white space is at its end. -/
theorem C100_file (mvs : List Mv) (e : List Char) (he : ∀ c ∈ e, Kif.isSpace c = true) :
    openingLine (openingText (mvs.map usiText) ++ e) = mvs.map usiText ∧ openingLine ("startpos".toList ++ e) = [] := by
  have hs : openingLine ("startpos".toList ++ e) = [] := by
    unfold openingLine
    rw [strip_trail (by decide) (by decide) he]
    rfl
  refine ⟨?_, hs⟩
  cases mvs with
  | nil =>
    unfold openingLine
    rw [show openingText (List.map usiText []) = "startpos moves".toList from rfl, strip_trail (by decide) (by decide) he]
    rfl
  | cons mv mvs =>
    obtain ⟨w, hw⟩ : ∃ w, w = usiText mv := ⟨_, rfl⟩
    obtain ⟨ws, hws⟩ : ∃ ws, ws = mvs.map usiText := ⟨_, rfl⟩
    have hp : ∀ v ∈ w :: ws, Usi.Plain v := by
      intro v hv
      have : v ∈ (mv :: mvs).map usiText := by rw [List.map_cons, ← hw, ← hws]; exact hv
      obtain ⟨x, -, rfl⟩ := List.mem_map.mp this
      exact Usi.plain_move (Usi.usiText_chars x).1
    rw [List.map_cons, ← hw, ← hws]
    have e1 : openingText (w :: ws) = "startpos moves ".toList ++ (w ++ Usi.flat ws) := by
      show "startpos moves".toList ++ (' ' :: (w ++ Usi.flat ws)) = _
      rw [show "startpos moves ".toList = "startpos moves".toList ++ [' '] from rfl, List.append_assoc]
      rfl
    obtain ⟨t, c, e2, hc⟩ := Usi.ends_plain hp
    unfold openingLine
    rw [e1, strip_trail ?_ ?_ he]
    · have e3 : ("startpos moves ".toList ++ (w ++ Usi.flat ws)).drop 15 = w ++ Usi.flat ws := List.drop_left' (by decide)
      dsimp only
      rw [e3, if_neg (by rw [e2]; simp), Usi.splitAt_words fun v hv => (hp v hv).blank]
    · intro d hd
      have : d = 's' := by
        have : some 's' = some d := hd
        exact (Option.some.inj this).symm
      subst this; decide
    · intro d hd
      rw [e2, ← List.append_assoc, List.getLast?_append] at hd
      simp only [List.getLast?_singleton, Option.some_or, Option.some.injEq] at hd
      subst hd; exact hc

/-- **C100**, the list: without an index the games are played with all openings of the file, in some order; with an index with that one. -/
theorem C100_list (shuffle : List (List (List Char)) → List (List (List Char))) (hs : ∀ l, (shuffle l).Perm l) (games : List (List Mv × List Char))
    (he : ∀ g ∈ games, ∀ c ∈ g.2, Kif.isSpace c = true) :
    (∃ l, openings shuffle (games.map fun g => openingText (g.1.map usiText) ++ g.2) none = some l ∧ l.Perm (games.map fun g => g.1.map usiText)) ∧
    (∀ i g, games[i]? = some g → openings shuffle (games.map fun g => openingText (g.1.map usiText) ++ g.2) (some i) = some [g.1.map usiText]) ∧
    ∀ i, games.length ≤ i → openings shuffle (games.map fun g => openingText (g.1.map usiText) ++ g.2) (some i) = none := by
  have e : (games.map fun g => openingText (g.1.map usiText) ++ g.2).map openingLine = games.map fun g => g.1.map usiText := by
    rw [List.map_map]
    exact List.map_congr_left fun g hg => (C100_file g.1 g.2 (he g hg)).1
  refine ⟨⟨_, rfl, by rw [e]; exact hs _⟩, fun i g hg => ?_, fun i hi => ?_⟩
  · unfold openings; dsimp only; rw [e, List.getElem?_map, hg]; rfl
  · unfold openings; dsimp only; rw [e, List.getElem?_map, List.getElem?_eq_none hi]; rfl

/-! ### Which opening -/

theorem openingFor_block (l : List (List (List Char))) (c n : Nat) : openingFor l (2 * l.length * c + n) = openingFor l n := by
  unfold openingFor
  rw [show 2 * l.length * c + n = n + 2 * (l.length * c) by rw [Nat.mul_assoc]; omega, Nat.add_mul_div_left _ _ (by decide : 0 < 2), Nat.add_mul_mod_self_left]

theorem block_count (x : List (List Char)) (b : Bool) : ∀ l m : List (List (List Char)),
    (List.range (2 * l.length)).countP (fun n => decide ((l ++ m)[n / 2]? = some x) && (firstIsBlack false n == b)) = l.count x := by
  intro l
  induction l using List.reverseRecOn with
  | nil => intro m; rfl
  | append_singleton l y ih =>
    intro m
    rw [List.length_append, List.length_singleton, show 2 * (l.length + 1) = 2 * l.length + 1 + 1 by omega, List.range_succ, List.range_succ,
      List.append_assoc, List.countP_append, List.countP_append, ih, List.count_append, Nat.add_assoc]
    congr 1
    have h1 : (l ++ ([y] ++ m))[2 * l.length / 2]? = some y := by
      rw [Nat.mul_div_cancel_left _ (by decide : 0 < 2), List.getElem?_append_right (Nat.le_refl _), Nat.sub_self]; rfl
    have h2 : (l ++ ([y] ++ m))[(2 * l.length + 1) / 2]? = some y := by
      rw [show (2 * l.length + 1) / 2 = l.length by omega, List.getElem?_append_right (Nat.le_refl _), Nat.sub_self]; rfl
    have f1 : firstIsBlack false (2 * l.length) = true := by unfold firstIsBlack; simp
    have f2 : firstIsBlack false (2 * l.length + 1) = false := by unfold firstIsBlack; simp
    rw [List.countP_singleton, List.countP_singleton, h1, h2, f1, f2]
    by_cases hxy : y = x
    · subst hxy; cases b <;> simp
    · cases b <;> simp [hxy]

/-- **C100**, fairness: however the openings are shuffled, in `2 * k * c` games with `k` openings every opening is played `c` times with engine 1
having Black and `c` times with engine 1 having White (as often as it stands in the file), if the engines are exchanged. Both games of a pair
have the same opening. -/
theorem C100_even (l l' : List (List (List Char))) (hp : l'.Perm l) (c : Nat) (x : List (List Char)) (b : Bool) :
    (List.range (2 * l.length * c)).countP (fun n => decide (openingFor l' n = some x) && (firstIsBlack false n == b)) = c * l.count x ∧
    ∀ k, openingFor l' (2 * k) = openingFor l' (2 * k + 1) ∧ firstIsBlack false (2 * k) = true ∧ firstIsBlack false (2 * k + 1) = false := by
  refine ⟨?_, fun k => ⟨?_, ?_, ?_⟩⟩
  · rw [← hp.length_eq, ← hp.count_eq]
    induction c with
    | zero => simp
    | succ c ih =>
      rw [show 2 * l'.length * (c + 1) = 2 * l'.length * c + 2 * l'.length from Nat.mul_succ _ _, List.range_add, List.countP_append, ih,
        List.countP_map, Nat.succ_mul c (l'.count x)]
      refine congrArg (c * l'.count x + ·) ?_
      refine Eq.trans ?_ (block_count x b l' [])
      refine List.countP_congr fun n hn => ?_
      have hn : n < 2 * l'.length := List.mem_range.mp hn
      have e1 : openingFor l' (2 * l'.length * c + n) = l'[n / 2]? := by
        rw [openingFor_block]
        unfold openingFor
        rw [Nat.mod_eq_of_lt (by omega)]
      have e2 : firstIsBlack false (2 * l'.length * c + n) = firstIsBlack false n := by
        unfold firstIsBlack
        rw [show 2 * l'.length * c + n = n + 2 * (l'.length * c) by rw [Nat.mul_assoc]; omega, Nat.add_mul_mod_self_left]
      show (decide (openingFor l' (2 * l'.length * c + n) = some x) && (firstIsBlack false (2 * l'.length * c + n) == b)) = true ↔ _
      rw [e1, e2, List.append_nil]
  · unfold openingFor
    rw [show (2 * k + 1) / 2 = 2 * k / 2 by omega]
  · unfold firstIsBlack; simp
  · unfold firstIsBlack; simp

/-! ### Playing it -/

/-- The state after a line of legal moves from the position `P0`, as in `At`, without asking whether the game goes on. -/
structure Begun (Z : Zobrist) (p0 : Position) (P0 : Pos) (clock : Color → Option Int) (P : Pos) (h : List Pos) (st : State) : Prop where
  played : Played Z p0 P h st.board
  remain : st.remain = clock
  ply : st.board.pos.gamePly = h.length + 1
  counts : ∃ l, P :: h = l ++ [P0] ∧ st.counts = keyCount Z l

theorem opening_begun {Z : Zobrist} {p0 : Position} {P0 : Pos} {clock : Color → Option Int} {limit : Int} : ∀ (mvs : List Mv) {P : Pos} {h : List Pos}
    {st : State}, Begun Z p0 P0 clock P h st → P.Line mvs → (h.length : Int) + 1 ≤ limit →
    ∃ st' ms h', playOpening Z limit st (mvs.map usiText) = .ok (st', ms, (cut (limit - h.length) mvs).map usiText) ∧
      P.record h (cut (limit - h.length) mvs) = P.after (cut (limit - h.length) mvs) :: h' ∧
      Begun Z p0 P0 clock (P.after (cut (limit - h.length) mvs)) h' st' ∧ st'.board.history = st.board.history ++ ms ∧
      Board.run Z st.board (ms.map .push) = some st'.board
  | [], P, h, st, hb, _, _ => by
    refine ⟨st, [], h, ?_, ?_, ?_, by simp, rfl⟩
    · unfold cut; rw [List.take_nil]; rfl
    · unfold cut; rw [List.take_nil]; rfl
    · unfold cut; rw [List.take_nil]; exact hb
  | mv :: mvs, P, h, st, hb, hl, hlim => by
    obtain ⟨b', c1, -, c3, c4, c5, c6⟩ := hb.played.push hl.1
    obtain ⟨b'', d1, -, d3, -⟩ := C97_push Z st.board hb.played.good mv (by rw [hb.played.now]; exact hl.1)
    have hpu : st.board.pushUsi Z (usiText mv) = some (b'', encode st.board.pos mv) := d1 .usi
    have hbb : b'' = b' := by
      have := d1 .int
      unfold Board.hand at this
      rw [c1] at this
      simpa using this.symm
    subst hbb
    obtain ⟨l, l1, l2⟩ := hb.counts
    obtain ⟨st1, hst1⟩ : ∃ s : State, s = { st with board := b'', counts := Env.count st.counts b''.pos.getKey } := ⟨_, rfl⟩
    have hb1 : Begun Z p0 P0 clock (P.play mv) (P :: h) st1 := by
      rw [hst1]
      refine ⟨c3, hb.remain, ?_, ⟨P.play mv :: l, ?_, ?_⟩⟩
      · show b''.pos.gamePly = _
        rw [c6, hb.ply]; simp
      · rw [List.cons_append, ← l1]
      · show Env.count st.counts b''.pos.getKey = _
        rw [keyCount_cons, c3.key, l2]
    have hply : b''.pos.gamePly = h.length + 2 := by rw [c6, hb.ply]; omega
    rw [List.map_cons, playOpening, hpu]
    dsimp only
    rw [← hst1]
    by_cases hx : b''.pos.gamePly > limit
    · rw [if_pos hx]
      have hk : cut (limit - h.length) (mv :: mvs) = [mv] := by
        unfold cut
        rw [show (limit - h.length).toNat = 1 by omega]; rfl
      rw [hk]
      refine ⟨st1, [encode st.board.pos mv], P :: h, rfl, rfl, hb1, ?_, ?_⟩
      · rw [hst1]; exact d3
      · show (st.board.push Z _).bind _ = _
        rw [c1, hst1]; rfl
    · rw [if_neg hx]
      have hk : cut (limit - h.length) (mv :: mvs) = mv :: cut (limit - (P :: h).length) mvs := by
        unfold cut
        rw [List.length_cons, show (limit - h.length).toNat = (limit - ((h.length + 1 : Nat) : Int)).toNat + 1 by omega]; rfl
      obtain ⟨st', ms, h', i1, i2, i3, i4, i5⟩ := opening_begun (limit := limit) mvs hb1 hl.2 (by rw [List.length_cons]; omega)
      rw [hk, i1]
      refine ⟨st', encode st.board.pos mv :: ms, h', rfl, i2, i3, ?_, ?_⟩
      · rw [i4, show st1.board = b'' by rw [hst1], d3]; simp
      · show (st.board.push Z _).bind _ = _
        rw [c1]
        rw [show st1.board = b'' by rw [hst1]] at i5
        exact i5

theorem line_take : ∀ (mvs : List Mv) (k : Nat) {P : Pos}, P.Line mvs → P.Line (mvs.take k)
  | [], _, _, _ => by rw [List.take_nil]; trivial
  | _ :: _, 0, _, _ => trivial
  | _ :: mvs, k + 1, _, h => ⟨h.1, line_take mvs k h.2⟩

theorem record_size : ∀ (mvs : List Mv) (P : Pos) (h : List Pos), (P.record h mvs).length = h.length + mvs.length + 1
  | [], _, _ => rfl
  | _ :: mvs, P, h => by rw [Pos.record, record_size mvs, List.length_cons, List.length_cons]; omega

theorem begun_start {Z : Zobrist} {p : Position} (hp : Inv Z p) (hc : CheckOK p) (hr : (absPos p).Regular) (hf : Fresh p)
    (hply : p.gamePly = 1) (clock : Color → Option Int) : Begun Z p (absPos p) clock (absPos p) [] (start p clock) := by
  refine ⟨⟨⟨hp, hc, hr⟩, rfl, [], GameLine.fresh True hp hc hr.waiting hf⟩, rfl, ?_, ⟨[], rfl, ?_⟩⟩
  · rw [show (start p clock).board.pos = p from rfl, hply]; rfl
  · funext k; rfl

/-- **C100**, the opening: the first `opening_moves` moves of a legal opening are played, no more and no less, the board is the one after these
moves, they are what is handed to the record, and what the engines are told is the same game. -/
theorem C100_opening (Z : Zobrist) (p : Position) (hp : Inv Z p) (hc : CheckOK p) (hs : absPos p = startPos) (hf : Fresh p)
    (hply : p.gamePly = 1) (clock : Color → Option Int) (limit : Int) (hl : 1 ≤ limit) (mvs : List Mv) (hm : startPos.Line mvs) :
    ∃ st ms texts, playOpening Z limit (start p clock) (mvs.map usiText) = .ok (st, ms, texts) ∧ texts = (cut limit mvs).map usiText ∧
      absPos st.board.pos = startPos.after (cut limit mvs) ∧ st.board.history = ms ∧ st.board.pos.gamePly = (cut limit mvs).length + 1 ∧
      Board.run Z ⟨p, []⟩ (ms.map .push) = some st.board ∧
      ∃ rest b, Usi.positionLine (some texts) "startpos".toList = "position ".toList ++ rest ∧ Board.setPosition Z rest = .ok b ∧
        absPos b.pos = absPos st.board.pos := by
  have hr : (absPos p).Regular := by rw [hs]; exact startPos_regular
  obtain ⟨st, ms, h', i1, i2, i3, i4, i5⟩ := opening_begun (limit := limit) mvs (begun_start hp hc hr hf hply clock) (by rw [hs]; exact hm) (by simpa using hl)
  simp only [List.length_nil, Nat.cast_zero, Int.sub_zero] at i1 i2 i3
  rw [hs] at i2 i3
  have hcut : startPos.Line (cut limit mvs) := line_take _ _ hm
  have hlen : h'.length = (cut limit mvs).length := by
    have := congrArg List.length i2
    rw [record_size] at this
    simp only [List.length_nil, List.length_cons] at this
    omega
  refine ⟨st, ms, _, i1, rfl, i3.played.now, i4, ?_, i5, ?_⟩
  · rw [i3.ply, hlen]
  · obtain ⟨p0, h1, h2, h3, h4, h5⟩ := Usi.C81_startpos Z
    obtain ⟨rest, ms', b, g1, g2, -, -, -, g6⟩ := h5 _ hcut
    exact ⟨rest, b, g1, g2, by rw [g6, i3.played.now]⟩

/-- **C100**, the result (partial, as C77): a game with an opening ends as the rules say for the whole game, opening and all. The opening is legal,
no position has come up four times in it and it does not end the game; what the engines do afterwards is `Usual`. -/
theorem C100_result_partial (Z : Zobrist) (p : Position) (hp : Inv Z p) (hc : CheckOK p) (hr : (absPos p).Regular) (hf : Fresh p)
    (hply : p.gamePly = 1) (limit : Int) (hl : 1 ≤ limit) (mvs : List Mv) (hm : (absPos p).Line mvs)
    (P : Pos) (h : List Pos) (hrec : (absPos p).record [] (cut limit mvs) = P :: h) (hfew : ∀ r, occurrences r (P :: h) ≤ 3)
    (hlive : ∃ mv, P.Legal mv) (R : Rules) (clock : Color → Option Int)
    (hb : ∀ c, clock c = none ∨ R.byoyomi c = 0) (ss : List Said) (hn : h.length + ss.length < 2147483647)
    (hu : Usual Z R (absPos p) clock P h ss) :
    (∃ x, gameFrom Z (termsOf R) p clock limit (mvs.map usiText) (ss.map replyOf) = .ok x ∧ (x = none → ∀ r, ¬ Ends R clock P h ss r) ∧
      ∀ w b, x = some (w, b) → Ends R clock P h ss (resultOfWin w.1) ∧
        ∃ reason, EndsBy R clock P h ss reason ∧ reason.Line b.pos.turn (R.limit < b.pos.gamePly) w.2) ∧
    ∀ r r', Ends R clock P h ss r → Ends R clock P h ss r' → r = r' := by
  obtain ⟨st, ms, h', i1, i2, i3, -⟩ := opening_begun (limit := limit) mvs (begun_start hp hc hr hf hply clock) hm (by simpa using hl)
  simp only [List.length_nil, Nat.cast_zero, Int.sub_zero] at i1 i2 i3
  rw [hrec] at i2
  obtain ⟨e1, e2⟩ := List.cons.inj i2
  rw [← e1, ← e2] at i3
  refine ⟨?_, fun r r' => ends_unique⟩
  unfold gameFrom
  rw [i1]
  exact run_right ss (p0 := p) (P0 := absPos p) ⟨i3.played, i3.remain, i3.ply, i3.counts, hfew, hlive⟩ hb hn hu

/-! ### Where the games do not begin with the openings -/

/-- **C100 fails** for `opening_moves=0`, and below: the first move of the opening is played all the same. -/
theorem C100_fails_zero (Z : Zobrist) (p : Position) (hp : Inv Z p) (hc : CheckOK p) (hr : (absPos p).Regular) (hf : Fresh p)
    (hply : p.gamePly = 1) (clock : Color → Option Int) (limit : Int) (hl : limit ≤ 0) (mv : Mv) (mvs : List Mv) (hm : (absPos p).Legal mv) :
    ∃ st m, playOpening Z limit (start p clock) ((mv :: mvs).map usiText) = .ok (st, [m], [usiText mv]) ∧
      absPos st.board.pos = (absPos p).play mv ∧ cut limit (mv :: mvs) = [] := by
  have hb := begun_start hp hc hr hf hply clock
  obtain ⟨b', d1, d2, -, -⟩ := C97_push Z (start p clock).board hb.played.good mv hm
  obtain ⟨b'', c1, -, -, -, -, c6⟩ := hb.played.push hm
  have hbb : b' = b'' := by
    have := d1 .int
    unfold Board.hand at this
    rw [c1] at this
    simpa using this.symm
  have hpu : (start p clock).board.pushUsi Z (usiText mv) = some (b', encode p mv) := d1 .usi
  rw [List.map_cons, playOpening, hpu]
  dsimp only
  rw [if_pos (by rw [hbb, c6, hb.ply]; simp; omega)]
  refine ⟨_, _, rfl, d2, ?_⟩
  unfold cut
  rw [show limit.toNat = 0 by omega]
  rfl

/-- **C100 fails** for openings with a move that breaks a rule other than those on promotion and unmovable pieces: the move is passed over
without a word, is counted among the moves (as 0), and the engines are told of it, so that they cannot set up the position. -/
theorem C100_fails_illegal (Z : Zobrist) (p : Position) (hp : Inv Z p) (hc : CheckOK p) (hs : absPos p = startPos)
    (hply : p.gamePly = 1) (clock : Color → Option Int) (limit : Int) (hl : 1 ≤ limit) (mv : Mv) (hm : ¬ startPos.Loose mv) :
    ∃ st, playOpening Z limit (start p clock) [usiText mv] = .ok (st, [0#32], [usiText mv]) ∧ st.board = ⟨p, []⟩ ∧
      ∃ rest, Usi.positionLine (some [usiText mv]) "startpos".toList = "position ".toList ++ rest ∧ Board.setPosition Z rest = .error := by
  have hr : (absPos p).Regular := by rw [hs]; exact startPos_regular
  have hpu := C97_illegal_partial Z (start p clock).board ⟨hp, hc, hr⟩ mv (by rw [show (start p clock).board.pos = p from rfl, hs]; exact hm)
  rw [playOpening, hpu]
  dsimp only
  rw [if_neg (by show ¬ p.gamePly > limit; omega)]
  refine ⟨_, rfl, rfl, _, Usi.position_moves _ _ (by simp), ?_⟩
  obtain ⟨q, e, s1, s2, hg⟩ := start_read Z
  have e1 : commandText "startpos".toList [usiText mv] = oneLine ("startpos".toList :: "moves".toList :: [mv].map usiText) := by
    simp [commandText, oneLine]
  rw [e1, command_start Z ⟨by unfold Solid; decide, by decide⟩ (mapText_ok [mv])]
  unfold Board.setAndPush; rw [e]
  show Board.pushWords Z [usiText mv] ⟨q, []⟩ = _
  rw [Board.pushWords]
  obtain ⟨x, i1, i2, -⟩ := C27_loose q hg.inv.views hg.check hg.regular mv
  have hx : x = false := by
    rcases hx : x with _ | _
    · rfl
    · exact absurd (by rw [← s1]; exact i2 hx) hm
  rw [hx] at i1
  rw [usi_text_not i1]
  rfl

/-- **C100 fails** for files whose lines do not begin with `startpos moves`: the first fifteen characters are dropped whatever they are. Moves
without these words in front are not played. Of a line of the protocol, which begins with `position`, words are left that are no moves: they are
passed over, and the engines are told of them. -/
theorem C100_fails_words (Z : Zobrist) (limit : Int) (st : State) :
    openingLine "7g7f 3c3d 2g2f\n".toList = [] ∧
    openingLine "position startpos moves 7g7f\n".toList = ["os".toList, "moves".toList, "7g7f".toList] ∧
    (∃ st', playOpening Z limit st ["os".toList] = .ok (st', [0#32], ["os".toList]) ∧ st'.board = st.board) ∧
    Board.setPosition Z "startpos moves os moves 7g7f".toList = .error := by
  have hos : ∀ p : Position, p.usiToMove "os".toList = some 0#32 := by
    intro p
    unfold usiToMove
    rw [show charAt "os".toList 0 = some 'o' by decide +kernel, Option.bind_some, show charToPiece 'o' = none by decide +kernel]
    dsimp only
    unfold usiBoard
    rw [show squareAt 97 "os".toList 0 = some none by decide +kernel]
    rfl
  have hpu : ∀ b : Board, b.pushUsi Z "os".toList = some (b, 0#32) := fun b => by
    unfold Board.pushUsi; rw [hos]; rfl
  refine ⟨by decide +kernel, by decide +kernel, ?_, ?_⟩
  · rw [playOpening, hpu]
    dsimp only
    split
    · exact ⟨_, rfl, rfl⟩
    · exact ⟨_, rfl, rfl⟩
  · obtain ⟨q, e, -, -, -⟩ := start_read Z
    unfold Board.setPosition
    rw [show Board.readWords "startpos moves os moves 7g7f".toList.length "startpos moves os moves 7g7f".toList =
      ["startpos".toList, "moves".toList, "os".toList, "moves".toList, "7g7f".toList] by decide +kernel]
    dsimp only
    rw [if_pos rfl]
    show Board.setAndPush Z Board.startSfen ["os".toList, "moves".toList, "7g7f".toList] = _
    unfold Board.setAndPush; rw [e]
    show Board.pushWords Z _ _ = _
    rw [Board.pushWords, hos]
    rfl

/-- **C100 fails** for an empty file: the match ends with an exception at its first game. -/
theorem C100_fails_empty (shuffle : List (List (List Char)) → List (List (List Char))) (hs : ∀ l, (shuffle l).Perm l) (n : Nat) :
    ∃ l, openings shuffle [] none = some l ∧ openingFor l n = none := by
  refine ⟨_, rfl, ?_⟩
  have : shuffle (List.map openingLine []) = [] := (hs _).eq_nil
  unfold openingFor
  rw [this]
  rfl

/-! ### Cases -/

/-- Pawns are pushed and the bishops are exchanged. -/
def exchange : List Mv := [.move 60 59 false, .move 20 21 false, .move 70 10 true, .move 18 10 false]

/-- The line of the file for this opening. -/
example : openingText (exchange.map usiText) = "startpos moves 7g7f 3c3d 8h2b+ 3a2b".toList := by decide +kernel

/-- C100_file, C100_even: two openings, five games, and a match of four. -/
example : openings id ["startpos moves 7g7f 3c3d\n".toList, "startpos moves 2g2f\n".toList] none =
      some [["7g7f".toList, "3c3d".toList], ["2g2f".toList]] ∧
    (List.range 5).map (openingFor [["7g7f".toList, "3c3d".toList], ["2g2f".toList]]) =
      [some ["7g7f".toList, "3c3d".toList], some ["7g7f".toList, "3c3d".toList], some ["2g2f".toList], some ["2g2f".toList],
        some ["7g7f".toList, "3c3d".toList]] := by decide +kernel

theorem exchange_line : startPos.Line exchange := start_line (by decide +kernel)

/-- C100_opening: three moves of the opening are played. -/
example : ∃ st ms texts, playOpening mixKeys 3 (start startGame noClock) (exchange.map usiText) = .ok (st, ms, texts) ∧
    texts = ["7g7f".toList, "3c3d".toList, "8h2b+".toList] ∧ absPos st.board.pos = startPos.after (exchange.take 3) := by
  obtain ⟨st, ms, texts, h1, h2, h3, -⟩ := C100_opening mixKeys startGame startGame_good.inv startGame_good.check startGame_spec.2 startGame_fresh.1
    startGame_fresh.2 noClock 3 (by omega) exchange exchange_line
  exact ⟨st, ms, texts, h1, by rw [h2]; decide +kernel, h3⟩

/-- C100_fails_illegal: a pawn goes two squares. -/
example : ¬ startPos.Loose (.move 60 58 false) := by
  intro hl
  have hg := startGame_good
  obtain ⟨x, i1, -, i2⟩ := C27_loose startGame hg.inv.views hg.check hg.regular (.move 60 58 false)
  rw [startGame_spec.2] at i2
  rw [i2 hl (fun t ht => by cases ht)] at i1
  exact absurd i1 (by decide +kernel)

/-- C100_result_partial: Black, to move after the whole opening, resigns. -/
example : ∃ w b, gameFrom mixKeys (termsOf (upTo 256)) startGame noClock 256 (exchange.map usiText) ([⟨.resign, none, 0⟩].map replyOf) = .ok (some (w, b)) ∧
    resultOfWin w.1 = .wins .white := by
  have hs := startGame_spec.2
  have hg := startGame_good
  rcases hrec : (absPos startGame).record [] (cut 256 exchange) with _ | ⟨P, h⟩
  · have := congrArg List.length hrec
    rw [record_size] at this
    simp at this
  have hcut : cut 256 exchange = exchange := by decide
  have hP : P = startPos.after exchange := by
    rw [hcut, hs] at hrec
    have : (startPos.record [] exchange).head? = some (startPos.after exchange) := rfl
    rw [hrec] at this
    exact Option.some.inj this
  have hlen : h.length = 4 := by
    have := congrArg List.length hrec
    rw [record_size, hcut] at this
    simp [exchange] at this
    omega
  have hlive : startPos.Line (exchange ++ [.move 16 25 false]) := start_line (by decide +kernel)
  have hu : Usual mixKeys (upTo 256) (absPos startGame) noClock P h [⟨.resign, none, 0⟩] := by
    intro _ _ _
    refine ⟨fun ha => ?_, fun _ hd => (by cases hd), fun mv hm => (by cases hm)⟩
    exact absurd ha.1 (by decide)
  have hfew : ∀ r, occurrences r (P :: h) ≤ 3 := by
    intro r
    rw [hcut, hs] at hrec
    rw [← hrec, occurrences_sameB]
    have hall : ∀ x ∈ startPos.record [] exchange, ((startPos.record [] exchange).countP fun y => sameB y x) ≤ 3 := by decide +kernel
    rcases Nat.eq_zero_or_pos ((startPos.record [] exchange).countP fun y => sameB y r) with h0 | h0
    · omega
    · obtain ⟨x, hx, hxr⟩ := List.countP_pos_iff.mp h0
      rw [← sameB_iff.mp hxr]
      exact hall x hx
  obtain ⟨⟨x, h1, h2, h3⟩, hun⟩ := C100_result_partial mixKeys startGame hg.inv hg.check hg.regular startGame_fresh.1 startGame_fresh.2 256 (by omega)
    exchange (by rw [hs]; exact exchange_line) P h hrec hfew ⟨_, by rw [hP]; exact (line_append.mp hlive).2.1⟩ (upTo 256) noClock (fun _ => .inl rfl)
    [⟨.resign, none, 0⟩] (by rw [hlen]; decide) hu
  have he : Ends (upTo 256) noClock P h [⟨.resign, none, 0⟩] (.wins P.turn.opp) :=
    .resign _ _ _ _ _ (by rw [hlen]; decide) (overrun_noClock _ _ _) (.inl rfl)
  cases x with
  | none => exact absurd he (h2 rfl _)
  | some w =>
    refine ⟨w.1, w.2, h1, ?_⟩
    rw [hun _ _ (h3 w.1 w.2 rfl).1 he, hP]
    rfl

end Verif.Match
