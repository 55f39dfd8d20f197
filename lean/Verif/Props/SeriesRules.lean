import Verif.Props.Series
import Verif.Props.Tally

/-!
# C108, the results of a match

The results of the games of a match against the rules: Props/Series with C100.
-/

namespace Verif.Match
open Spec Bitboard Position Usi

variable {τ : Type}

/-- The results up to the first game that is not over. -/
def untilOpen {α : Type} : List (Option α) → List (Option α)
  | [] => []
  | none :: _ => [none]
  | some r :: xs => some r :: untilOpen xs

theorem gather_oks {α : Type} : ∀ xs : List (Option α), gather (xs.map Out.ok) = .ok (untilOpen xs)
  | [] => rfl
  | none :: _ => rfl
  | some r :: xs => by
    rw [List.map_cons, gather, gather_oks xs, untilOpen]
    rfl

theorem untilOpen_get {α : Type} : ∀ (xs : List (Option α)) (n : Nat) (x : Option α), (untilOpen xs)[n]? = some x → xs[n]? = some x
  | [], _, _, h => by cases h
  | none :: _, 0, _, h => h
  | none :: _, n + 1, _, h => by cases h
  | some _ :: _, 0, _, h => h
  | some _ :: xs, n + 1, x, h => untilOpen_get xs n x h

theorem untilOpen_last {α : Type} : ∀ (xs : List (Option α)) (n : Nat), (untilOpen xs)[n]? = some none → n + 1 = (untilOpen xs).length
  | [], _, h => by cases h
  | none :: _, 0, _ => rfl
  | none :: _, n + 1, h => by cases h
  | some _ :: _, 0, h => by cases h
  | some _ :: xs, n + 1, h => congrArg (· + 1) (untilOpen_last xs n h)

theorem untilOpen_all {α : Type} : ∀ xs : List (Option α), (untilOpen xs).length ≤ xs.length ∧
    ((untilOpen xs).length < xs.length → ∃ n : Nat, (untilOpen xs)[n]? = some none)
  | [] => ⟨Nat.le_refl _, fun h => absurd h (Nat.lt_irrefl _)⟩
  | none :: xs => ⟨Nat.succ_le_succ (Nat.zero_le _), fun _ => ⟨0, rfl⟩⟩
  | some r :: xs => by
    obtain ⟨h1, h2⟩ := untilOpen_all xs
    refine ⟨Nat.succ_le_succ h1, fun h => ?_⟩
    obtain ⟨n, hn⟩ := h2 (Nat.lt_of_succ_lt_succ h)
    exact ⟨n + 1, hn⟩

theorem all_oks {α : Type} : ∀ l : List (Out α), (∀ y ∈ l, ∃ x, y = .ok x) → ∃ xs : List α, l = xs.map Out.ok
  | [], _ => ⟨[], rfl⟩
  | y :: l, h => by
    obtain ⟨x, rfl⟩ := h y (by simp)
    obtain ⟨xs, rfl⟩ := all_oks l fun z hz => h z (List.mem_cons_of_mem _ hz)
    exact ⟨x :: xs, rfl⟩

/-- Game `n` of the match, played at a board, ends so by the rules, opening and all. -/
def EndsSo (R : Rules) (ex : Bool) (K : Kit × Kit) (A : Thinker τ × Thinker τ) (limit : Int) (mvs : Nat → List Mv) (M : τ × τ) (n : Nat) (ds : List Nat)
    (r : Result) : Prop :=
  ∀ P h, startPos.record [] (cut limit (mvs n)) = P :: h →
    Ends (R.inGame ex n K) (fun c => (whoHas ex n K c).time) P h ((boardGame R ex K A limit mvs M n ds).map Spoken.said) r

/-- What C77 and C100 ask of a game: no position four times in the opening and the game open after it, and the answers as in C77. -/
def Proper (Z : Zobrist) (R : Rules) (ex : Bool) (K : Kit × Kit) (A : Thinker τ × Thinker τ) (limit : Int) (mvs : Nat → List Mv) (M : τ × τ) (n : Nat)
    (ds : List Nat) : Prop :=
  Orderly (startPos.after (cut limit (mvs n))) (boardGame R ex K A limit mvs M n ds) ∧
  ∃ P h, startPos.record [] (cut limit (mvs n)) = P :: h ∧ (∀ r, occurrences r (P :: h) ≤ 3) ∧ (∃ mv, P.Legal mv) ∧ h.length + ds.length < 2147483647 ∧
    Usual Z (R.inGame ex n K) startPos (fun c => (whoHas ex n K c).time) P h ((boardGame R ex K A limit mvs M n ds).map Spoken.said)

/-- One game of the match against the rules. -/
theorem gameNo_right (Z : Zobrist) (p : Position) (hp : Inv Z p) (hc : CheckOK p) (hs : absPos p = startPos) (hf : Fresh p) (hply : p.gamePly = 1)
    (limit : Int) (hl : 1 ≤ limit) (mvs : Nat → List Mv) (hm : ∀ n, startPos.Line (mvs n)) (R : Rules) (ex : Bool) (K : Kit × Kit) (hK : Playable K)
    (A : Thinker τ × Thinker τ) (M : τ × τ) (n : Nat) (ds : List Nat) (h : Proper Z R ex K A limit mvs M n ds) :
    ∃ x, gameNo Z R ex K p limit (fun n => (mvs n).map usiText) n ((boardGame R ex K A limit mvs M n ds).map fun s => replyOf s.said) = .ok x ∧
      (x = none → ∀ r, ¬ EndsSo R ex K A limit mvs M n ds r) ∧
      ∀ w b, x = some (w, b) → ∀ r, EndsSo R ex K A limit mvs M n ds r ↔ r = resultOfWin w.1 := by
  obtain ⟨-, P, h, hrec, hfew, hlive, hlen, hu⟩ := h
  have hlen' : (boardGame R ex K A limit mvs M n ds).length = ds.length := by
    have := congrArg List.length (overBoard_micros (R := R.inGame ex n K) (byoyomi := fun c => (whoHas ex n K c).byoyomi) (A := whoHas ex n A) ds
      (m := whoHas ex n M) (clock := fun c => (whoHas ex n K c).time) (P := startPos.after (cut limit (mvs n))))
    rwa [List.length_map] at this
  obtain ⟨⟨x, h2, h3, h4⟩, h5⟩ := C100_result_partial Z p hp hc (by rw [hs]; exact startPos_regular) hf hply limit hl (mvs n) (by rw [hs]; exact hm n) P h
    (by rw [hs]; exact hrec) hfew hlive (R.inGame ex n K) (fun c => (whoHas ex n K c).time)
    (who_all (Q := fun k : Kit => k.time = none ∨ k.byoyomi.getD 0 = 0) _ n hK.clock.1 hK.clock.2)
    ((boardGame R ex K A limit mvs M n ds).map Spoken.said) (by rw [List.length_map, hlen']; exact hlen) (by rw [hs]; exact hu)
  rw [List.map_map] at h2
  have hE : ∀ r, EndsSo R ex K A limit mvs M n ds r ↔
      Ends (R.inGame ex n K) (fun c => (whoHas ex n K c).time) P h ((boardGame R ex K A limit mvs M n ds).map Spoken.said) r := by
    refine fun r => ⟨fun h => h _ _ hrec, fun h P' h' hrec' => ?_⟩
    rw [hrec] at hrec'
    obtain ⟨rfl, rfl⟩ := List.cons.inj hrec'
    exact h
  refine ⟨x, h2, fun hx r hr => h3 hx r ((hE r).1 hr), fun w b hx r => ?_⟩
  have h6 := (h4 w b hx).1
  exact ⟨fun hr => h5 _ _ ((hE r).1 hr) h6, fun hr => by rw [hr]; exact (hE _).2 h6⟩

/-- The list of results of games of which each is right. -/
theorem gather_right (Z : Zobrist) (p : Position) (hp : Inv Z p) (hc : CheckOK p) (hs : absPos p = startPos) (hf : Fresh p) (hply : p.gamePly = 1)
    (limit : Int) (hl : 1 ≤ limit) (mvs : Nat → List Mv) (hm : ∀ n, startPos.Line (mvs n)) (R : Rules) (ex : Bool) (K : Kit × Kit) (hK : Playable K)
    (A : Thinker τ × Thinker τ) (M : Nat → τ × τ) (games : List (List Nat))
    (h : ∀ n ds, games[n]? = some ds → Proper Z R ex K A limit mvs (M n) n ds) :
    ∃ l, gather (games.mapIdx fun n ds => gameNo Z R ex K p limit (fun n => (mvs n).map usiText) n
        ((boardGame R ex K A limit mvs (M n) n ds).map fun s => replyOf s.said)) = .ok l ∧
      l.length ≤ games.length ∧
      (∀ (n : Nat) w b, l[n]? = some (some (w, b)) → ∃ ds, games[n]? = some ds ∧
        gameNo Z R ex K p limit (fun n => (mvs n).map usiText) n ((boardGame R ex K A limit mvs (M n) n ds).map fun s => replyOf s.said) = .ok (some (w, b)) ∧
        ∀ r, EndsSo R ex K A limit mvs (M n) n ds r ↔ r = resultOfWin w.1) ∧
      (∀ n : Nat, l[n]? = some none → n + 1 = l.length ∧ ∃ ds, games[n]? = some ds ∧ ∀ r, ¬ EndsSo R ex K A limit mvs (M n) n ds r) ∧
      (l.length < games.length → ∃ n : Nat, l[n]? = some none) := by
  obtain ⟨f, hfe⟩ : ∃ f, f = fun n ds => gameNo Z R ex K p limit (fun n => (mvs n).map usiText) n
    ((boardGame R ex K A limit mvs (M n) n ds).map fun s => replyOf s.said) := ⟨_, rfl⟩
  rw [← hfe]
  have hr : ∀ n ds, games[n]? = some ds → ∃ x, f n ds = .ok x ∧ (x = none → ∀ r, ¬ EndsSo R ex K A limit mvs (M n) n ds r) ∧
      ∀ w b, x = some (w, b) → ∀ r, EndsSo R ex K A limit mvs (M n) n ds r ↔ r = resultOfWin w.1 := by
    intro n ds hd
    rw [hfe]
    exact gameNo_right Z p hp hc hs hf hply limit hl mvs hm R ex K hK A (M n) n ds (h n ds hd)
  have hall : ∀ y ∈ games.mapIdx f, ∃ x, y = .ok x := by
    intro y hy
    obtain ⟨n, hn⟩ := List.mem_iff_getElem?.1 hy
    rw [List.getElem?_mapIdx] at hn
    obtain ⟨ds, hd, hy⟩ := Option.map_eq_some_iff.1 hn
    obtain ⟨x, hx, -⟩ := hr n ds hd
    exact ⟨x, by rw [← hy, hx]⟩
  obtain ⟨xs, hxs⟩ := all_oks _ hall
  have hlen : xs.length = games.length := by
    have := congrArg List.length hxs
    rw [List.length_mapIdx, List.length_map] at this
    exact this.symm
  have hget : ∀ n x, xs[n]? = some x → ∃ ds, games[n]? = some ds ∧ f n ds = .ok x := by
    intro n x hx
    have h1 : (games.mapIdx f)[n]? = some (.ok x) := by rw [hxs, List.getElem?_map, hx]; rfl
    rw [List.getElem?_mapIdx] at h1
    exact Option.map_eq_some_iff.1 h1
  refine ⟨untilOpen xs, by rw [hxs, gather_oks], by rw [← hlen]; exact (untilOpen_all xs).1, fun n w b hn => ?_, fun n hn => ⟨untilOpen_last xs n hn, ?_⟩,
    by rw [← hlen]; exact (untilOpen_all xs).2⟩
  · obtain ⟨ds, hd, he⟩ := hget n _ (untilOpen_get xs n _ hn)
    obtain ⟨x, hx, -, h2⟩ := hr n ds hd
    rw [he] at hx
    cases hx
    refine ⟨ds, hd, ?_, h2 w b rfl⟩
    rw [hfe] at he
    exact he
  · obtain ⟨ds, hd, he⟩ := hget n _ (untilOpen_get xs n _ hn)
    obtain ⟨x, hx, h1, -⟩ := hr n ds hd
    rw [he] at hx
    cases hx
    exact ⟨ds, hd, h1 rfl⟩

/-- **C108** (partial, as C77 and C100): the results of a match of engines made with cshogi, started anew for each game, are those that the rules give to the
games that their minds play at a board: game by game, with the opening of the game, and each entrant with their own time, byoyomi and increment whatever their
colour. A game that is not over is the last one. -/
theorem C108_rules_partial (Z : Zobrist) (p : Position) (hp : Inv Z p) (hc : CheckOK p) (hs : absPos p = startPos) (hf : Fresh p) (hply : p.gamePly = 1)
    (limit : Int) (hl : 1 ≤ limit) (mvs : Nat → List Mv) (hm : ∀ n, startPos.Line (mvs n)) (R : Rules) (noSwap : Bool) (K : Kit × Kit) (hK : Playable K)
    (A : Thinker τ × Thinker τ) (hA : Thinker.Discreet A.1 ∧ Thinker.Discreet A.2) (names : List Char × List Char)
    (hn : (∀ x ∈ names.1, x.toNat < 128) ∧ ∀ x ∈ names.2, x.toNat < 128) (m0 : τ × τ) (heard : Nat → Heard)
    (e : Client (Option Pos × τ) × Client (Option Pos × τ)) (he : e.1.proc = none ∧ e.2.proc = none) (games : List (List Nat))
    (h : ∀ n ds, games[n]? = some ds → Proper Z R (!noSwap) K A limit mvs m0 n ds) :
    ∃ l, series Z (termsOf R) noSwap false (program (engineOf Z A.1 names.1 m0.1), program (engineOf Z A.2 names.2 m0.2)) (settingOfKit K.1, settingOfKit K.2) p
        limit (fun n => (mvs n).map usiText) heard 0 e games = .returns (.ok l) ∧
      l.length ≤ games.length ∧
      (∀ (n : Nat) w b, l[n]? = some (some (w, b)) → ∃ ds, games[n]? = some ds ∧ ∀ r, EndsSo R (!noSwap) K A limit mvs m0 n ds r ↔ r = resultOfWin w.1) ∧
      (∀ n : Nat, l[n]? = some none → n + 1 = l.length ∧ ∃ ds, games[n]? = some ds ∧ ∀ r, ¬ EndsSo R (!noSwap) K A limit mvs m0 n ds r) ∧
      (l.length < games.length → ∃ n : Nat, l[n]? = some none) := by
  have h1 := C108_minds_partial Z p hp hc hs hf hply limit hl mvs hm R noSwap K hK A hA names hn m0 heard e he games fun n ds hd => (h n ds hd).1
  obtain ⟨l, h2, h3, h4, h5⟩ := gather_right Z p hp hc hs hf hply limit hl mvs hm R (!noSwap) K hK A (fun _ => m0) games h
  refine ⟨l, by rw [h1]; exact congrArg _ h2, h3, fun n w b hn' => ?_, h5⟩
  obtain ⟨ds, hd, -, hr⟩ := h4 n w b hn'
  exact ⟨ds, hd, hr⟩

/-- **C108** (partial, as C77 and C100) with `keep_process`: the same, each game with the minds that the two had at the end of the game before. -/
theorem C108_kept_rules_partial (Z : Zobrist) (p : Position) (hp : Inv Z p) (hc : CheckOK p) (hs : absPos p = startPos) (hf : Fresh p) (hply : p.gamePly = 1)
    (limit : Int) (hl : 1 ≤ limit) (mvs : Nat → List Mv) (hm : ∀ n, startPos.Line (mvs n)) (R : Rules) (noSwap : Bool) (K : Kit × Kit) (hK : Playable K)
    (A : Thinker τ × Thinker τ) (hA : Thinker.Discreet A.1 ∧ Thinker.Discreet A.2) (names : List Char × List Char)
    (hn : (∀ x ∈ names.1, x.toNat < 128) ∧ ∀ x ∈ names.2, x.toNat < 128) (m0 : τ × τ) (heard : Nat → Heard)
    (e : Client (Option Pos × τ) × Client (Option Pos × τ)) (he : e.1.proc = none ∧ e.2.proc = none) (games : List (List Nat)) (hne : games ≠ [])
    (h : ∀ n ds, games[n]? = some ds → ∀ M, Proper Z R (!noSwap) K A limit mvs M n ds) :
    ∃ M : Nat → τ × τ, M 0 = m0 ∧ ∃ l, series Z (termsOf R) noSwap true (program (engineOf Z A.1 names.1 m0.1), program (engineOf Z A.2 names.2 m0.2))
        (settingOfKit K.1, settingOfKit K.2) p limit (fun n => (mvs n).map usiText) heard 0 e games = .returns (.ok l) ∧
      l.length ≤ games.length ∧
      (∀ (n : Nat) w b, l[n]? = some (some (w, b)) →
        ∃ ds k, games[n]? = some ds ∧ (∀ r, EndsSo R (!noSwap) K A limit mvs (M n) n ds r ↔ r = resultOfWin w.1) ∧
          GameTakes Z R (!noSwap) K p limit mvs A (M n) n ds k (M (n + 1))) ∧
      (∀ n : Nat, l[n]? = some none → n + 1 = l.length ∧ ∃ ds, games[n]? = some ds ∧ ∀ r, ¬ EndsSo R (!noSwap) K A limit mvs (M n) n ds r) ∧
      (l.length < games.length → ∃ n : Nat, l[n]? = some none) := by
  obtain ⟨M, h0, hM, h1⟩ := C108_kept_partial Z p hp hc hs hf hply limit hl mvs hm R noSwap K hK A hA names hn m0 heard e he games hne
    fun n ds hd M => (h n ds hd M).1
  obtain ⟨l, h2, h3, h4, h5, h6⟩ := gather_right Z p hp hc hs hf hply limit hl mvs hm R (!noSwap) K hK A M games fun n ds hd => h n ds hd (M n)
  refine ⟨M, h0, l, by rw [h1]; exact congrArg _ h2, h3, fun n w b hn' => ?_, h5, h6⟩
  obtain ⟨ds, hd, -, hr⟩ := h4 n w b hn'
  obtain ⟨ds', k, hd', hk⟩ := hM n fun j hj => by
    have hlt : j < l.length := by
      have := (List.getElem?_eq_some_iff.1 hn').1
      omega
    obtain ⟨x, hx⟩ : ∃ x, l[j]? = some x := ⟨_, List.getElem?_eq_getElem hlt⟩
    cases x with
    | none =>
      obtain ⟨hj', -⟩ := h5 j hx
      have := (List.getElem?_eq_some_iff.1 hn').1
      have : j = n := by omega
      subst this
      rw [hx] at hn'
      cases hn'
    | some y =>
      obtain ⟨ds, hd, hg, -⟩ := h4 j y.1 y.2 hx
      exact ⟨ds, hd, _, hg⟩
  rw [hd] at hd'
  cases hd'
  exact ⟨ds, k, hd, hr, hk⟩

/-- **C108** (partial, as C77 and C100), with the table of the match (C78): if every game is over by the rules, then the program gets through the match, and
the table counts for each entrant the games that they have won by the rules, whichever colour they had. -/
theorem C108_table_partial (Z : Zobrist) (p : Position) (hp : Inv Z p) (hc : CheckOK p) (hs : absPos p = startPos) (hf : Fresh p) (hply : p.gamePly = 1)
    (limit : Int) (hl : 1 ≤ limit) (mvs : Nat → List Mv) (hm : ∀ n, startPos.Line (mvs n)) (R : Rules) (noSwap : Bool) (K : Kit × Kit) (hK : Playable K)
    (A : Thinker τ × Thinker τ) (hA : Thinker.Discreet A.1 ∧ Thinker.Discreet A.2) (names : List Char × List Char)
    (hn : (∀ x ∈ names.1, x.toNat < 128) ∧ ∀ x ∈ names.2, x.toNat < 128) (m0 : τ × τ) (heard : Nat → Heard)
    (e : Client (Option Pos × τ) × Client (Option Pos × τ)) (he : e.1.proc = none ∧ e.2.proc = none) (games : List (List Nat)) (ws : List (Option Color))
    (hw : ws.length = games.length)
    (h : ∀ n ds, games[n]? = some ds → Proper Z R (!noSwap) K A limit mvs m0 n ds)
    (hends : ∀ n ds w, games[n]? = some ds → ws[n]? = some w → EndsSo R (!noSwap) K A limit mvs m0 n ds (resultOfWin w)) :
    ∃ l : List ((Option Color × String) × Board), series Z (termsOf R) noSwap false (program (engineOf Z A.1 names.1 m0.1), program (engineOf Z A.2 names.2 m0.2)) (settingOfKit K.1, settingOfKit K.2) p
        limit (fun n => (mvs n).map usiText) heard 0 e games = .returns (.ok (l.map some)) ∧
      l.map (·.1.1) = ws ∧
      (Tally.zero.games noSwap 0 (l.map (·.1.1))).report =
        ⟨gamesWith noSwap (fun b r => decide (r = some .black) && had 1 .black b || decide (r = some .white) && had 1 .white b) 0 ws,
          gamesWith noSwap (fun b r => decide (r = some .black) && had 2 .black b || decide (r = some .white) && had 2 .white b) 0 ws,
          ws.count (some .black), ws.count (some .white), ws.count none, ws.length⟩ := by
  obtain ⟨l, h1, h2, h3, h4, h5⟩ := C108_rules_partial Z p hp hc hs hf hply limit hl mvs hm R noSwap K hK A hA names hn m0 heard e he games h
  have hws : ∀ (n : Nat) ds, games[n]? = some ds → ∃ w, ws[n]? = some w := by
    intro n ds hd
    have : n < ws.length := by
      rw [hw]
      exact (List.getElem?_eq_some_iff.1 hd).1
    exact ⟨ws[n], List.getElem?_eq_getElem this⟩
  have hno : ∀ n : Nat, l[n]? ≠ some none := by
    intro n hn'
    obtain ⟨-, ds, hd, hr⟩ := h4 n hn'
    obtain ⟨w, hwn⟩ := hws n ds hd
    exact hr _ (hends n ds w hd hwn)
  have hlen : l.length = games.length := by
    rcases Nat.lt_or_ge l.length games.length with h | h
    · obtain ⟨n, hn'⟩ := h5 h
      exact absurd hn' (hno n)
    · omega
  obtain ⟨l', rfl⟩ : ∃ l' : List ((Option Color × String) × Board), l = l'.map some := by
    clear h1 h2 h3 h4 h5 hlen
    induction l with
    | nil => exact ⟨[], rfl⟩
    | cons x l ih =>
      obtain ⟨l', rfl⟩ := ih fun n => hno (n + 1)
      cases x with
      | none => exact absurd rfl (hno 0)
      | some y => exact ⟨y :: l', rfl⟩
  have hwins : l'.map (·.1.1) = ws := by
    refine List.ext_getElem? fun n => ?_
    rw [List.getElem?_map]
    rcases hx : l'[n]? with _ | ⟨w, b⟩
    · have : ws.length ≤ n := by
        rw [hw, ← hlen, List.length_map]
        exact List.getElem?_eq_none_iff.1 hx
      rw [List.getElem?_eq_none this]
      rfl
    · obtain ⟨ds, hd, hr⟩ := h3 n w b (by rw [List.getElem?_map, hx]; rfl)
      obtain ⟨v, hv⟩ := hws n ds hd
      have := (hr _).1 (hends n ds v hd hv)
      rw [hv]
      refine congrArg some ?_
      show w.1 = v
      revert this
      rcases w.1 with _ | (_ | _) <;> rcases v with _ | (_ | _) <;> intro this <;> first | rfl | cases this
  exact ⟨l', h1, hwins, by rw [hwins]; exact (C78_counts noSwap ws).1⟩

/-! ### Cases that meet the hypotheses -/

theorem quitters_say (M : Nat × Nat) (n d : Nat) : (boardGame (upTo 256) true (tenKit, tenKit) (quitter, quitter) 256 (fun _ => []) M n [d]).map Spoken.said =
    [⟨.resign, none, (((d + 999) / 1000 : Nat) : Int)⟩] := by
  have hq : ∀ c, whoHas true n (quitter, quitter) c = quitter := who_all (Q := fun x => x = quitter) _ _ rfl rfl
  unfold boardGame
  rw [funext hq]
  rfl

theorem quitters_game {n : Nat} {ds : List Nat} (h : [[5], [6], [7]][n]? = some ds) : ∃ d, ds = [d] ∧ d < 8 := by
  match n, h with
  | 0, h => cases h; exact ⟨_, rfl, by decide⟩
  | 1, h => cases h; exact ⟨_, rfl, by decide⟩
  | 2, h => cases h; exact ⟨_, rfl, by decide⟩
  | n + 3, h => cases h

theorem quitters_proper (M : Nat × Nat) (n : Nat) (ds : List Nat) (hds : [[5], [6], [7]][n]? = some ds) :
    Proper mixKeys (upTo 256) true (tenKit, tenKit) (quitter, quitter) 256 (fun _ => []) M n ds := by
  have hline : startPos.Line [.move 60 59 false] := start_line (by decide +kernel)
  obtain ⟨d, rfl, hd⟩ := quitters_game hds
  refine ⟨?_, startPos, [], rfl, fun r => by rw [occurrences_sameB]; exact le_trans List.countP_le_length (by simp), ⟨_, hline.1⟩,
    (show 0 + 1 < 2147483647 by decide), ?_⟩
  · have hq : ∀ c, whoHas true n (quitter, quitter) c = quitter := who_all (Q := fun x => x = quitter) _ _ rfl rfl
    show Orderly startPos (boardGame (upTo 256) true (tenKit, tenKit) (quitter, quitter) 256 (fun _ => []) M n [d])
    unfold boardGame
    rw [funext hq]
    exact ⟨(by intro t ht; cases ht), (by intro mv hmv; cases hmv)⟩
  · show Usual _ _ _ _ _ _ ((boardGame (upTo 256) true (tenKit, tenKit) (quitter, quitter) 256 (fun _ => []) M n [d]).map Spoken.said)
    rw [quitters_say]
    intro _ _ _
    exact ⟨fun ha => (by cases ha.2), fun _ hd => (by cases hd), fun mv hm => (by cases hm)⟩

/-- C108_rules_partial and C108_table_partial: three games with exchange of the colours between two who resign at once. White has won all of them, thus
engine 2 two and engine 1 one. -/
example : ∃ l : List ((Option Color × String) × Board), series mixKeys (termsOf (upTo 256)) false false (program (engineOf mixKeys quitter "A".toList 0),
    program (engineOf mixKeys quitter "B".toList 0)) (settingOfKit tenKit, settingOfKit tenKit) startGame 256 (fun _ => ([] : List Mv).map usiText)
    (fun _ => ⟨[], []⟩) 0 (⟨none, none⟩, ⟨none, none⟩) [[5], [6], [7]] = .returns (.ok (l.map some)) ∧
    (Tally.zero.games false 0 (l.map (·.1.1))).report = ⟨1, 2, 0, 3, 0, 3⟩ := by
  obtain ⟨l, h1, -, h2⟩ := C108_table_partial mixKeys startGame startGame_good.inv startGame_good.check startGame_spec.2 startGame_fresh.1 startGame_fresh.2 256
    (by decide) (fun _ => []) (fun _ => trivial) (upTo 256) false (tenKit, tenKit) tenKit_playable (quitter, quitter)
    ⟨(by intro m P l t ht; cases ht), (by intro m P l t ht; cases ht)⟩ ("A".toList, "B".toList) ⟨by decide, by decide⟩ (0, 0) (fun _ => ⟨[], []⟩)
    (⟨none, none⟩, ⟨none, none⟩) ⟨rfl, rfl⟩ [[5], [6], [7]] [some .white, some .white, some .white] rfl (by
      exact fun n ds hds => quitters_proper (0, 0) n ds hds) (by
      intro n ds w hds hw P h hrec
      obtain ⟨d, rfl, hd⟩ := quitters_game hds
      have hwhite : w = some .white := by
        match n, hw with
        | 0, h => cases h; rfl
        | 1, h => cases h; rfl
        | 2, h => cases h; rfl
        | n + 3, h => cases h
      subst hwhite
      obtain ⟨rfl, rfl⟩ := List.cons.inj hrec
      show Ends _ _ _ _ ((boardGame (upTo 256) true (tenKit, tenKit) (quitter, quitter) 256 (fun _ => []) (0, 0) n [d]).map Spoken.said) _
      rw [quitters_say]
      refine .resign _ _ _ _ _ (show (0 + 1 : Int) ≤ 256 by decide) ?_ (.inl rfl)
      rintro ⟨t, ht, hle⟩
      have hk : whoHas true n (tenKit, tenKit) startPos.turn = tenKit := who_all (Q := fun x => x = tenKit) _ _ rfl rfl _
      have ht : t = 10000 := by
        dsimp only at ht
        rw [show (!false) = true from rfl, hk] at ht
        exact (Option.some.inj ht).symm
      subst ht
      revert hle
      show ¬ ((10000 + ((whoHas true n (tenKit, tenKit) startPos.turn).inc).getD 0 + ((whoHas true n (tenKit, tenKit) startPos.turn).byoyomi).getD 0 + 1000 : Int) ≤ _)
      rw [hk]
      show ¬ ((10000 + 0 + 0 + 1000 : Int) ≤ _)
      dsimp only
      omega)
  exact ⟨l, h1, h2⟩

/-- C108_kept_rules_partial: the same with the processes kept. -/
example : ∃ l : List (Option ((Option Color × String) × Board)), series mixKeys (termsOf (upTo 256)) false true (program (engineOf mixKeys quitter "A".toList 0),
    program (engineOf mixKeys quitter "B".toList 0)) (settingOfKit tenKit, settingOfKit tenKit) startGame 256 (fun _ => ([] : List Mv).map usiText)
    (fun _ => ⟨[], []⟩) 0 (⟨none, none⟩, ⟨none, none⟩) [[5], [6], [7]] = .returns (.ok l) := by
  obtain ⟨-, -, l, h, -⟩ := C108_kept_rules_partial mixKeys startGame startGame_good.inv startGame_good.check startGame_spec.2 startGame_fresh.1 startGame_fresh.2
    256 (by decide) (fun _ => []) (fun _ => trivial) (upTo 256) false (tenKit, tenKit) tenKit_playable (quitter, quitter)
    ⟨(by intro m P l t ht; cases ht), (by intro m P l t ht; cases ht)⟩ ("A".toList, "B".toList) ⟨by decide, by decide⟩ (0, 0) (fun _ => ⟨[], []⟩)
    (⟨none, none⟩, ⟨none, none⟩) ⟨rfl, rfl⟩ [[5], [6], [7]] (by intro h; cases h) fun n ds hds M => quitters_proper M n ds hds
  exact ⟨l, h⟩

end Verif.Match
