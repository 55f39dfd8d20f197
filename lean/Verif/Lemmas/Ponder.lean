import Verif.Model.Ponder
import Verif.Spec.Ponder
import Verif.Lemmas.Duel

/-!
# Two engines that ponder: lemmas
-/

namespace Verif.Match
open Spec Bitboard Position Usi

variable {σ : Type}

/-- A pondering engine as a program. -/
def ponderProgram (Q : Ponderer σ) : Program σ := ⟨Q.start, Q.hears⟩

theorem ponderProgram_hear (Q : Ponderer σ) (s : σ) {c : Call} (h : c.Plain) :
    (ponderProgram Q).hear s c.line = (Q.next s c.command, Q.answers s c.command) := by
  show Q.hears s c.line = _
  unfold Ponderer.hears
  rw [C98_heard c h]

/-- The process is in state `s`, and no answer is among what it has written. -/
def Waiting (c : Client σ) (s : σ) : Prop := ∃ U, c.proc = some ⟨s, U⟩ ∧ ∀ l ∈ U, bestOf l = none

/-- `position`: nothing is written. -/
theorem call_position {Q : Ponderer σ} {c : Client σ} {s : σ} (hw : Waiting c s) {ws : List (List Char)} (h : ∀ w ∈ ws, IsWord w) :
    ∃ c', c.call (ponderProgram Q) (.position (some ws) "startpos".toList) = .returns (c', .none) ∧
      Waiting c' (Q.next s (.position "startpos".toList ws)) := by
  obtain ⟨U, hU, hq⟩ := hw
  have hplain : (Call.position (some ws) "startpos".toList).Plain := by
    refine ⟨by decide, by decide, ?_⟩
    intro ws' e w hw
    cases e
    exact (h w hw).2
  have e := ponderProgram_hear Q s hplain
  unfold Client.call
  dsimp only
  rw [hU]
  dsimp only [talk]
  rw [e]
  refine ⟨_, rfl, U, ?_, hq⟩
  show some (Proc.mk _ (U ++ [])) = _
  rw [List.append_nil]; rfl

/-- `ponderhit` and `stop`: the answer is written. -/
theorem call_wake {Q : Ponderer σ} (hQ : Q.Polite) {c : Client σ} {s : σ} (hw : Waiting c s) {call : Call} (h : call = .ponderhit ∨ call = .stop) :
    ∃ c' U, c.call (ponderProgram Q) call = .returns (c', .none) ∧ c'.proc = some ⟨Q.next s call.command, U⟩ ∧
      ∃ before, readTo bestOf U = some (before, Q.found s call.command, []) := by
  obtain ⟨U, hU, hq⟩ := hw
  have key : ∀ cmd, (ponderProgram Q).hear s call.line = (Q.next s cmd, Q.chat s cmd ++ [Session.bestLine (Q.found s cmd)]) →
      readTo bestOf (U ++ ((ponderProgram Q).hear s call.line).2) = some (U ++ Q.chat s cmd, Q.found s cmd, []) := by
    intro cmd e
    rw [e, ← List.append_assoc]
    refine readTo_at [] (bestOf_line (hQ.found _ _).1.2.1 fun y hy => ((hQ.found _ _).2 y hy).2.1) ?_
    intro x hx
    rcases List.mem_append.mp hx with hx | hx
    · exact hq x hx
    · exact bestOf_other (hQ.search _ _ x hx)
  rcases h with rfl | rfl
  · have e : (ponderProgram Q).hear s Call.ponderhit.line = (Q.next s .ponderhit, Q.chat s .ponderhit ++ [Session.bestLine (Q.found s .ponderhit)]) :=
      ponderProgram_hear Q s trivial
    unfold Client.call
    dsimp only
    rw [hU]
    dsimp only [talk]
    refine ⟨_, _, rfl, ?_, _, key .ponderhit e⟩
    rw [e]; rfl
  · have e : (ponderProgram Q).hear s Call.stop.line = (Q.next s .stop, Q.chat s .stop ++ [Session.bestLine (Q.found s .stop)]) :=
      ponderProgram_hear Q s trivial
    unfold Client.call
    dsimp only
    rw [hU]
    dsimp only [talk]
    refine ⟨_, _, rfl, ?_, _, key .stop e⟩
    rw [e]; rfl

/-- `go` in the engine's own time. -/
theorem call_go {Q : Ponderer σ} (hQ : Q.Polite) {c : Client σ} {s : σ} (hw : Waiting c s) {a : GoArgs} (h : (Call.go a).Plain) (hp : a.ponder = false) :
    ∃ c', c.call (ponderProgram Q) (.go a) = .returns (c', .best (Q.best s a.limits).1 (Q.best s a.limits).2) ∧ Waiting c' (Q.next s (.go a.limits)) := by
  obtain ⟨U, hU, hq⟩ := hw
  have e : (ponderProgram Q).hear s (goLine a) = (Q.next s (.go a.limits), Q.chat s (.go a.limits) ++ [Session.bestLine (Q.best s a.limits)]) := by
    have := ponderProgram_hear Q s h
    rw [show (Call.go a).line = goLine a from rfl] at this
    rw [this]
    show (_, Q.chat s (.go a.limits) ++ (if a.ponder then [] else _)) = _
    rw [hp]; rfl
  have hr : readTo bestOf (U ++ ((ponderProgram Q).hear s (goLine a)).2) = some (U ++ Q.chat s (.go a.limits), Q.best s a.limits, []) := by
    rw [e, ← List.append_assoc]
    refine readTo_at [] (bestOf_line (hQ.best _ _).1.2.1 fun y hy => ((hQ.best _ _).2 y hy).2.1) ?_
    intro x hx
    rcases List.mem_append.mp hx with hx | hx
    · exact hq x hx
    · exact bestOf_other (hQ.search _ _ x hx)
  unfold Client.call
  dsimp only
  rw [hU]
  dsimp only [talk]
  rw [show (Call.go a).line = goLine a from rfl, hr, e]
  exact ⟨_, rfl, [], rfl, fun l hl => by cases hl⟩

/-- `go ponder`: no answer is written. -/
theorem hear_ponder {Q : Ponderer σ} (hQ : Q.Polite) (s : σ) {a : GoArgs} (h : (Call.go a).Plain) (hp : a.ponder = true) :
    ((ponderProgram Q).hear s (goLine a)).1 = Q.next s (.go a.limits) ∧ ∀ l ∈ ((ponderProgram Q).hear s (goLine a)).2, bestOf l = none := by
  have e := ponderProgram_hear Q s h
  rw [show (Call.go a).line = goLine a from rfl] at e
  have e' : (ponderProgram Q).hear s (goLine a) = (Q.next s (.go a.limits), Q.chat s (.go a.limits)) := by
    rw [e]
    show (_, Q.chat s (.go a.limits) ++ (if a.ponder then [] else _)) = _
    rw [hp, if_pos rfl, List.append_nil]; rfl
  rw [e']
  exact ⟨rfl, fun l hl => bestOf_other (hQ.search _ _ l hl)⟩

/-! ### The state of the loop -/

/-- The threads that wait, and the variables, when the turn of `t` begins: `S` are the states of the engines, `guess` the moves they ponder on, `last` is the
last move. -/
structure Tended (tb : PonderTable σ) (t : Color) (S : Color → σ) (guess : Color → Option (List Char)) (last : Option (List Char)) : Prop where
  engines : ∀ c, Waiting (tb.engines c) (S c)
  best : tb.best = last
  own : tb.prePonder = guess t
  other : tb.ponder = guess t.opp
  ownThread : guess t ≠ none → ∃ i, tb.preFeature = some i ∧ tb.threads[i]? = some (t, none)
  otherThread : guess t.opp ≠ none → ∃ i, tb.feature = some i ∧ tb.threads[i]? = some (t.opp, none)
  single : ∀ (i j : Nat) (c : Color), tb.threads[i]? = some (c, none) → tb.threads[j]? = some (c, none) → i = j
  idle : ∀ (i : Nat) (c : Color), tb.threads[i]? = some (c, none) → guess c ≠ none
  words : ∀ c w, guess c = some w → IsWord w

theorem truthy_word {w : Option (List Char)} (h : ∀ x, w = some x → IsWord x) : truthy w = decide (w ≠ none) := by
  cases w with
  | none => rfl
  | some x =>
    cases x with
    | nil => exact absurd rfl (h [] rfl).1
    | cons a b => rfl

/-- At the beginning. -/
theorem tended_start (st : State) (usi : List (List Char)) (engines : Color → Client σ) (S : Color → σ) (he : ∀ c, Waiting (engines c) (S c)) (t : Color) :
    Tended ⟨st, usi, engines, none, none, none, none, none, []⟩ t S (fun _ => none) none where
  engines := he
  best := rfl
  own := rfl
  other := rfl
  ownThread h := absurd rfl h
  otherThread h := absurd rfl h
  single i j c h _ := by cases h
  idle i c h := by cases h
  words c w h := by cases h

/-- When the turn of `t` has begun: its thread is done. -/
structure Woken (tb : PonderTable σ) (t : Color) (S : Color → σ) (s : σ) (guess : Color → Option (List Char)) : Prop where
  self : Waiting (tb.engines t) s
  others : Waiting (tb.engines t.opp) (S t.opp)
  own : tb.prePonder = guess t.opp
  ownThread : guess t.opp ≠ none → ∃ i, tb.preFeature = some i ∧ tb.threads[i]? = some (t.opp, none)
  single : ∀ (i j : Nat) (c : Color), tb.threads[i]? = some (c, none) → tb.threads[j]? = some (c, none) → i = j
  idle : ∀ (i : Nat) (c : Color), tb.threads[i]? = some (c, none) → c = t.opp ∧ guess c ≠ none

theorem opp_ne (t : Color) : t.opp ≠ t := by cases t <;> decide

theorem set_waits {l : List (Color × Option Words)} {i j : Nat} {t c : Color} {x : Words} (hi : l[i]? = some (t, none))
    (h : (l.set i (t, some x))[j]? = some (c, none)) : l[j]? = some (c, none) ∧ j ≠ i := by
  by_cases e : i = j
  · subst e
    rw [List.getElem?_set_self (by obtain ⟨h, -⟩ := List.getElem?_eq_some_iff.mp hi; exact h)] at h
    cases h
  · rw [List.getElem?_set_ne e] at h
    exact ⟨h, fun e' => e e'.symm⟩

/-- A thread that waits reads the answer. -/
theorem result_read {tb : PonderTable σ} {f : Option Nat} {i : Nat} (hf : f = some i) {t : Color} (hi : tb.threads[i]? = some (t, none)) {s : σ}
    {U before : List (List Char)} (hp : (tb.engines t).proc = some ⟨s, U⟩) {x : Words} (hr : readTo bestOf U = some (before, x, [])) :
    tb.result f = .returns ({ tb.setEngine t { tb.engines t with proc := some ⟨s, []⟩ } with threads := tb.threads.set i (t, some x) }, x) := by
  subst hf
  unfold PonderTable.result
  dsimp only
  rw [hi]
  dsimp only
  unfold PonderTable.collect
  rw [hp]
  dsimp only
  rw [hr]

/-- The turn begins. -/
theorem settle_wakes {G : Color → Ponderer σ} (hG : ∀ c, (G c).Polite) {tb : PonderTable σ} {t : Color} (ht : engineIndex tb.game = t) {S : Color → σ}
    {guess : Color → Option (List Char)} {last : Option (List Char)} (h : Tended tb t S guess last) :
    ∃ tb', settle (fun c => ponderProgram (G c)) tb = .returns (tb', ((G t).wakes (S t) (guess t) last).2) ∧ tb'.game = tb.game ∧ tb'.usi = tb.usi ∧
      Woken tb' t S ((G t).wakes (S t) (guess t) last).1 guess := by
  have hne := opp_ne t
  have hcol : ∀ c, c ≠ t → c = t.opp := by intro c hc; cases c <;> cases t <;> first | rfl | exact absurd rfl hc
  unfold settle Ponderer.wakes
  rw [ht, truthy_word (by rw [h.own]; exact h.words t), h.own]
  by_cases hg : guess t = none
  · rw [if_pos hg, hg]
    refine ⟨_, rfl, rfl, rfl, h.engines t, h.engines _, h.other, h.otherThread, h.single, ?_⟩
    intro i c hi
    have hc := h.idle i c hi
    exact ⟨hcol c fun e => hc (by rw [e]; exact hg), hc⟩
  · rw [if_neg hg, if_pos (by simpa using hg)]
    obtain ⟨i, hi1, hi2⟩ := h.ownThread hg
    have key : ∀ call, call = Call.ponderhit ∨ call = Call.stop → ∃ tb1 tb2 : PonderTable σ,
        ({ tb with prePonder := tb.ponder } : PonderTable σ).send (fun c => ponderProgram (G c)) t call = .returns tb1 ∧
        tb1.result tb1.preFeature = .returns (tb2, (G t).found (S t) call.command) ∧ tb2.game = tb.game ∧ tb2.usi = tb.usi ∧
        Woken { tb2 with preFeature := tb2.feature } t S ((G t).next (S t) call.command) guess := by
      intro call hcall
      obtain ⟨c', U, w1, w2, before, w3⟩ := call_wake (hG t) (h.engines t) hcall
      refine ⟨({ tb with prePonder := tb.ponder } : PonderTable σ).setEngine t c', ?_⟩
      have hself : (({ tb with prePonder := tb.ponder } : PonderTable σ).setEngine t c').engines t = c' := if_pos rfl
      have hres := result_read (tb := ({ tb with prePonder := tb.ponder } : PonderTable σ).setEngine t c') (f := tb.preFeature) hi1 hi2 (by rw [hself]; exact w2) w3
      rw [hself] at hres
      refine ⟨_, ?_, hres, rfl, rfl, ?_⟩
      · unfold PonderTable.send
        rw [show ({ tb with prePonder := tb.ponder } : PonderTable σ).engines t = tb.engines t from rfl, w1]
        rfl
      · refine ⟨?_, ?_, h.other, ?_, ?_, ?_⟩
        · refine ⟨[], ?_, fun l hl => by cases hl⟩
          show (if t = t then ({ c' with proc := some ⟨(G t).next (S t) call.command, []⟩ } : Client σ) else _).proc = _
          rw [if_pos rfl]
        · show Waiting (if t.opp = t then _ else if t.opp = t then _ else tb.engines t.opp) _
          rw [if_neg hne, if_neg hne]
          exact h.engines _
        · intro hgo
          obtain ⟨j, hj1, hj2⟩ := h.otherThread hgo
          refine ⟨j, hj1, ?_⟩
          show (tb.threads.set i _)[j]? = _
          rw [List.getElem?_set_ne]
          · exact hj2
          · rintro rfl
            rw [hi2] at hj2
            injection hj2 with hj2
            injection hj2 with hj2
            exact hne hj2.symm
        · intro a b c ha hb
          exact h.single a b c (set_waits hi2 ha).1 (set_waits hi2 hb).1
        · intro a c ha
          obtain ⟨ha1, ha2⟩ := set_waits hi2 ha
          refine ⟨hcol c ?_, h.idle a c ha1⟩
          rintro rfl
          exact ha2 (h.single a i c ha1 hi2)
    by_cases hl : last = guess t
    · rw [if_pos (h.best.trans hl), if_pos hl]
      obtain ⟨tb1, tb2, k1, k2, k3, k4, k5⟩ := key .ponderhit (.inl rfl)
      rw [k1]
      dsimp only [andThen]
      rw [k2]
      exact ⟨_, rfl, k3, k4, k5⟩
    · rw [if_neg (by rw [h.best]; exact hl), if_neg hl]
      obtain ⟨tb1, tb2, k1, k2, k3, k4, k5⟩ := key .stop (.inr rfl)
      rw [k1]
      dsimp only [andThen]
      rw [k2]
      exact ⟨_, rfl, k3, k4, k5⟩

theorem not_busy {tb : PonderTable σ} {t : Color} (h : ∀ i : Nat, tb.threads[i]? ≠ some (t, none)) : tb.busy t = false := by
  unfold PonderTable.busy
  rw [List.any_eq_false]
  rintro ⟨c, o⟩ hx
  obtain ⟨i, hi⟩ := List.mem_iff_getElem?.mp hx
  intro e
  simp only [Bool.and_eq_true, decide_eq_true_eq, Option.isNone_iff_eq_none] at e
  exact h i (by rw [hi, e.1, e.2])

theorem Woken.send {G : Color → Ponderer σ} {tb : PonderTable σ} {t : Color} {S : Color → σ} {s : σ} {guess : Color → Option (List Char)}
    (h : Woken tb t S s guess) {ws : List (List Char)} (hw : ∀ w ∈ ws, IsWord w) :
    ∃ c', tb.send (fun c => ponderProgram (G c)) t (.position (some ws) "startpos".toList) = .returns (tb.setEngine t c') ∧
      Woken (tb.setEngine t c') t S ((G t).next s (.position "startpos".toList ws)) guess := by
  obtain ⟨c', h1, h2⟩ := call_position (Q := G t) h.self hw
  refine ⟨c', ?_, ?_, ?_, h.own, h.ownThread, h.single, h.idle⟩
  · unfold PonderTable.send
    rw [h1]; rfl
  · show Waiting (if t = t then c' else _) _
    rw [if_pos rfl]; exact h2
  · show Waiting (if t.opp = t then c' else _) _
    rw [if_neg (opp_ne t)]; exact h.others

/-- The move. -/
theorem reply_turn {R : Rules} {byoyomi clock : Color → Option Int} {G : Color → Ponderer σ} (hG : ∀ c, (G c).Polite) {tb : PonderTable σ} {t : Color}
    (hplain : byoyomi t = none ∨ (R.inc .black = none ∧ R.inc .white = none))
    (ht : InTurn tb.game) (htt : tb.game.board.pos.turn = t) (hc : tb.game.remain = clock) (hu : ∀ w ∈ tb.usi, IsWord w) {S : Color → σ}
    {guess : Color → Option (List Char)} {x : σ × Option Words} (h : Woken tb t S x.1 guess) :
    ∃ tb', reply (termsOf R) byoyomi (fun c => ponderProgram (G c)) tb x.2 = .returns tb' ∧ tb'.game = tb.game ∧ tb'.usi = tb.usi ∧
      Woken tb' t S ((G t).thinks tb.usi (limitsOf R byoyomi clock t) x).1 guess ∧
      tb'.best = some ((G t).thinks tb.usi (limitsOf R byoyomi clock t) x).2.1 ∧ tb'.ponder = ((G t).thinks tb.usi (limitsOf R byoyomi clock t) x).2.2 := by
  obtain ⟨s, o⟩ := x
  have hidx : engineIndex tb.game = t := (engineIndex_turn ht).trans htt
  cases o with
  | some y => exact ⟨_, rfl, rfl, rfl, ⟨h.self, h.others, h.own, h.ownThread, h.single, h.idle⟩, rfl, rfl⟩
  | none =>
    obtain ⟨c', h1, h2⟩ := h.send (G := G) hu
    unfold reply
    dsimp only
    rw [hidx, h1]
    dsimp only [andThen]
    rw [show (tb.setEngine t c').game = tb.game from rfl, hidx]
    unfold PonderTable.go
    rw [not_busy (fun i hi => opp_ne t (h2.idle i t hi).1.symm)]
    have ha : (Call.go (goArgs (termsOf R) byoyomi tb.game)).Plain := by
      show (goArgs (termsOf R) byoyomi tb.game).byoyomi = none ∨ _
      rw [show (goArgs (termsOf R) byoyomi tb.game).byoyomi = byoyomi t from congrArg byoyomi hidx]
      exact hplain
    obtain ⟨c2, g1, g2⟩ := call_go (hG t) h2.self ha rfl
    rw [goArgs_limits ht hc, htt] at g1 g2
    rw [if_neg (by decide), g1]
    refine ⟨_, rfl, rfl, rfl, ⟨?_, ?_, h.own, h.ownThread, h.single, h.idle⟩, rfl, rfl⟩
    · show Waiting (if t = t then c2 else _) _
      rw [if_pos rfl]; exact g2
    · show Waiting (if t.opp = t then c2 else (tb.setEngine t c').engines t.opp) _
      rw [if_neg (opp_ne t)]; exact h2.others

/-- The others' move comes next. -/
def handOver (t : Color) {α : Type} (a : α) (f : Color → α) : Color → α := fun c => if c = t then a else f c

theorem filter_single {l : List (Color × Option Words)} (h : ∀ i j : Nat, ∀ c d, l[i]? = some (c, none) → l[j]? = some (d, none) → i = j) :
    (l.filter fun t => t.2.isNone).length ≤ 1 := by
  induction l with
  | nil => simp
  | cons a l ih =>
    rw [List.filter_cons]
    split
    · rename_i ha
      have hz : l.filter (fun t => t.2.isNone) = [] := by
        rw [List.filter_eq_nil_iff]
        rintro ⟨c, o⟩ hx ho
        obtain ⟨i, hi⟩ := List.mem_iff_getElem?.mp hx
        obtain ⟨d, o'⟩ := a
        have e1 : o' = none := by simpa using ha
        have e2 : o = none := by simpa using ho
        subst e1 e2
        have := h 0 (i + 1) d c (by rw [List.getElem?_cons_zero]) (by rw [List.getElem?_cons_succ]; exact hi)
        omega
      rw [hz]; simp
    · refine ih fun i j c d hi hj => ?_
      have := h (i + 1) (j + 1) c d (by rw [List.getElem?_cons_succ]; exact hi) (by rw [List.getElem?_cons_succ]; exact hj)
      omega

/-- The turn is over. -/
theorem guess_hands {R : Rules} {byoyomi clock : Color → Option Int} {G : Color → Ponderer σ} (hG : ∀ c, (G c).Polite) {tb : PonderTable σ} {t : Color}
    (hplain : byoyomi t = none ∨ (R.inc .black = none ∧ R.inc .white = none))
    (ht : InTurn tb.game) (htt : tb.game.board.pos.turn = t) {st : State} (hc : st.remain = clock) (hu : ∀ w ∈ tb.usi, IsWord w) {S : Color → σ} {s : σ}
    {guess : Color → Option (List Char)} (h : Woken tb t S s guess) (hg : ∀ c w, guess c = some w → IsWord w) {m : List Char} (hb : tb.best = some m) (hm : IsWord m)
    (hw : ∀ w, tb.ponder = some w → IsWord w) :
    ∃ tb', guessOn (termsOf R) byoyomi (fun c => ponderProgram (G c)) tb st = .returns tb' ∧ tb'.game = tb.game ∧ tb'.usi = tb.usi ∧ tb'.best = some m ∧
      Tended tb' t.opp (handOver t ((G t).muses s (tb.usi ++ [m]) (limitsOf R byoyomi clock t) tb.ponder) S) (handOver t tb.ponder guess) (some m) := by
  have hopp : t.opp.opp = t := by cases t <;> rfl
  have hne := opp_ne t
  have hcol : ∀ c, c ≠ t → c = t.opp := by intro c hc; cases c <;> cases t <;> first | rfl | exact absurd rfl hc
  have hidx : engineIndex tb.game = t := (engineIndex_turn ht).trans htt
  have hwords : ∀ c w, handOver t tb.ponder guess c = some w → IsWord w := by
    intro c w e
    unfold handOver at e
    split at e
    · exact hw w e
    · exact hg c w e
  unfold guessOn
  rw [truthy_word hw]
  cases hp : tb.ponder with
  | none =>
    rw [if_neg (by decide)]
    refine ⟨tb, rfl, rfl, rfl, hb, ?_, hb, ?_, ?_, ?_, ?_, h.single, ?_, ?_⟩
    · intro c
      unfold handOver
      by_cases e : c = t
      · rw [if_pos e, e]; exact h.self
      · rw [if_neg e, hcol c e]; exact h.others
    · unfold handOver; rw [if_neg hne]; exact h.own
    · unfold handOver; rw [hopp, if_pos rfl]; exact hp
    · unfold handOver; rw [if_neg hne]; exact h.ownThread
    · unfold handOver; rw [hopp, if_pos rfl]; intro e; exact absurd rfl e
    · intro i c hi
      obtain ⟨e1, e2⟩ := h.idle i c hi
      unfold handOver
      rw [if_neg (by rw [e1]; exact hne)]; exact e2
    · rw [hp] at hwords; exact hwords
  | some w =>
    have hws : ∀ x ∈ tb.usi ++ [m] ++ [w], IsWord x := by
      intro x hx
      rcases List.mem_append.mp hx with hx | hx
      · rcases List.mem_append.mp hx with hx | hx
        · exact hu x hx
        · rw [List.mem_singleton.mp hx]; exact hm
      · rw [List.mem_singleton.mp hx]; exact hw w hp
    obtain ⟨c', h1, h2⟩ := h.send (G := G) hws
    rw [if_pos (by simp), hidx, hb, show tb.usi ++ [(some m).getD [], (some w).getD []] = tb.usi ++ [m] ++ [w] by simp, h1]
    dsimp only [andThen]
    rw [show (tb.setEngine t c').game = tb.game from rfl, hidx]
    obtain ⟨a, ha⟩ : ∃ a : GoArgs, a = { goArgs (termsOf R) byoyomi tb.game with ponder := true, btime := st.remain .black, wtime := st.remain .white } := ⟨_, rfl⟩
    have hplain' : (Call.go a).Plain := by
      show a.byoyomi = none ∨ (a.binc = none ∧ a.winc = none)
      rw [ha, show (goArgs (termsOf R) byoyomi tb.game).byoyomi = byoyomi t from congrArg byoyomi hidx]
      exact hplain
    have hlim : a.limits = { limitsOf R byoyomi clock t with ponder := true } := by
      rw [ha]
      unfold GoArgs.limits limitsOf goArgs
      rw [hidx, hc]; rfl
    have hap : a.ponder = true := by rw [ha]
    rw [← ha]
    obtain ⟨U, u1, u2⟩ := h2.self
    obtain ⟨k1, k2⟩ := hear_ponder (hG t) ((G t).next s (.position "startpos".toList (tb.usi ++ [m] ++ [w]))) hplain' hap
    unfold PonderTable.submit
    have hfew := filter_single (l := tb.threads) fun i j c d hi hj => h.single i j c hi (by
      rw [(h.idle i c hi).1, ← (h.idle j d hj).1]; exact hj)
    rw [if_neg (by show ¬ 2 ≤ (tb.threads.filter _).length; omega), u1]
    dsimp only
    refine ⟨_, rfl, rfl, rfl, hb, ?_, hb, ?_, ?_, ?_, ?_, ?_, ?_, ?_⟩
    · intro c
      by_cases e : c = t
      · subst e
        unfold handOver
        rw [if_pos rfl]
        refine ⟨U ++ ((ponderProgram (G c)).hear ((G c).next s (.position "startpos".toList (tb.usi ++ [m] ++ [w]))) (goLine a)).2, ?_, ?_⟩
        · show (if c = c then _ else _ : Client σ).proc = _
          rw [if_pos rfl]
          dsimp only
          rw [k1, hlim]; rfl
        · intro l hl
          rcases List.mem_append.mp hl with hl | hl
          · exact u2 l hl
          · exact k2 l hl
      · show Waiting (if c = t then _ else (tb.setEngine t c').engines c) _
        rw [if_neg e]
        unfold handOver
        rw [if_neg e, hcol c e]; exact h2.others
    · unfold handOver; rw [if_neg hne]; exact h.own
    · unfold handOver; rw [hopp, if_pos rfl]; exact hp
    · unfold handOver; rw [if_neg hne]
      intro e
      obtain ⟨i, i1, i2⟩ := h.ownThread e
      refine ⟨i, i1, ?_⟩
      show (tb.threads ++ [(t, none)])[i]? = _
      rw [List.getElem?_append_left (by obtain ⟨h, -⟩ := List.getElem?_eq_some_iff.mp i2; exact h)]
      exact i2
    · intro _
      refine ⟨tb.threads.length, rfl, ?_⟩
      show (tb.threads ++ [(t, none)])[tb.threads.length]? = _
      rw [hopp, List.getElem?_append_right (Nat.le_refl _), Nat.sub_self]; rfl
    · intro i j c hi hj
      have key : ∀ k, (tb.threads ++ [(t, none)])[k]? = some (c, none) → (tb.threads[k]? = some (c, none) ∧ c = t.opp) ∨ (k = tb.threads.length ∧ c = t) := by
        intro k hk
        by_cases hlt : k < tb.threads.length
        · rw [List.getElem?_append_left hlt] at hk
          exact .inl ⟨hk, (h.idle k c hk).1⟩
        · rw [List.getElem?_append_right (by omega)] at hk
          right
          obtain ⟨hlen, hv⟩ := List.getElem?_eq_some_iff.mp hk
          have hz : k - tb.threads.length = 0 := by simpa using hlen
          have hk' : [(t, (none : Option Words))][k - tb.threads.length]? = some (c, none) := hk
          rw [hz] at hk'
          refine ⟨by omega, ?_⟩
          injection hk' with e
          injection e with e1 e2
          exact e1.symm
      rcases key i hi with ⟨a1, a2⟩ | ⟨a1, a2⟩ <;> rcases key j hj with ⟨b1, b2⟩ | ⟨b1, b2⟩
      · exact h.single i j c a1 b1
      · exact absurd (a2.symm.trans b2) hne
      · exact absurd (b2.symm.trans a2) hne
      · rw [a1, b1]
    · intro i c hi
      have hi' : (tb.threads ++ [(t, none)])[i]? = some (c, none) := hi
      by_cases e : c = t
      · unfold handOver; rw [if_pos e]; exact fun h => by cases h
      · unfold handOver; rw [if_neg e]
        by_cases hlt : i < tb.threads.length
        · rw [List.getElem?_append_left hlt] at hi'
          exact (h.idle i c hi').2
        · rw [List.getElem?_append_right (by omega)] at hi'
          obtain ⟨hlen, -⟩ := List.getElem?_eq_some_iff.mp hi'
          have hz : i - tb.threads.length = 0 := by simpa using hlen
          rw [hz] at hi'
          injection hi' with e0
          injection e0 with e1 e2
          exact absurd e1.symm e
    · rw [hp] at hwords; exact hwords

/-! ### The loop -/

/-- The engines, each in its state and perhaps with a guess, answer `ss` one after the other, with the next guess each time. -/
def PonderPlays (R : Rules) (byoyomi : Color → Option Int) (G : Color → Ponderer σ) :
    (Color → σ) → (Color → Option (List Char)) → (Color → Option Int) → Pos → List Mv → Option (List Char) → List (Said × Option (List Char)) → Prop
  | _, _, _, _, _, _, [] => True
  | S, guess, clock, P, past, last, (s, w) :: ss =>
    ((G P.turn).turn (S P.turn) (guess P.turn) last (past.map usiText) (limitsOf R byoyomi clock P.turn)).2 = (answerText s.answer, w) ∧
    ∀ mv, s.answer = .move mv → P.Legal mv →
      PonderPlays R byoyomi G
        (handOver P.turn ((G P.turn).muses ((G P.turn).turn (S P.turn) (guess P.turn) last (past.map usiText) (limitsOf R byoyomi clock P.turn)).1
          (past.map usiText ++ [usiText mv]) (limitsOf R byoyomi (R.charge clock P.turn s) P.turn) w) S)
        (handOver P.turn w guess) (R.charge clock P.turn s) (P.play mv) (past ++ [mv]) (some (usiText mv)) ss

/-- No move promotes where it cannot. -/
def PonderOrderly {α : Type} : Pos → List (Said × α) → Prop
  | _, [] => True
  | P, (s, _) :: ss => ∀ mv, s.answer = .move mv → PromotionOK P mv ∧ (P.Legal mv → PonderOrderly (P.play mv) ss)

theorem usiText_word (mv : Mv) : IsWord (usiText mv) := by
  have hs := (usiText_solid mv).1
  refine ⟨?_, fun h => absurd (hs _ h) (by decide), fun h => absurd (hs _ h) (by decide)⟩
  cases mv <;> exact fun h => by cases h

theorem turn_words {Q : Ponderer σ} (hQ : Q.Polite) (s : σ) (guess last : Option (List Char)) (past : List (List Char)) (l : Session.Limits) :
    IsWord (Q.turn s guess last past l).2.1 ∧ ∀ y ∈ (Q.turn s guess last past l).2.2, IsWord y := by
  unfold Ponderer.turn
  obtain ⟨x, hx⟩ : ∃ x, x = Q.wakes s guess last := ⟨_, rfl⟩
  rw [← hx]
  obtain ⟨s', o⟩ := x
  cases o with
  | none => exact hQ.best _ _
  | some y =>
    unfold Ponderer.wakes at hx
    split at hx
    · cases hx
    · split at hx
      · cases hx
        exact hQ.found _ _
      · cases hx

theorem Tended.on {tb : PonderTable σ} {t : Color} {S : Color → σ} {guess : Color → Option (List Char)} {last : Option (List Char)}
    (h : Tended tb t S guess last) (st : State) (usi : List (List Char)) : Tended { tb with game := st, usi := usi } t S guess last :=
  ⟨h.engines, h.best, h.own, h.other, h.ownThread, h.otherThread, h.single, h.idle, h.words⟩

/-- A round in which the time does not run out. -/
theorem ponderRound_on {Z : Zobrist} {R : Rules} {byoyomi : Color → Option Int} (hplain : ∀ c, byoyomi c = none ∨ (R.inc .black = none ∧ R.inc .white = none))
    {G : Color → Ponderer σ} (hG : ∀ c, (G c).Polite) {S : Color → σ} {guess : Color → Option (List Char)} {clock : Color → Option Int} {tb : PonderTable σ}
    {last : Option (List Char)} (ht : InTurn tb.game) (hc : tb.game.remain = clock) (hb : ∀ c, clock c = none ∨ R.byoyomi c = 0)
    (hu : ∀ w ∈ tb.usi, IsWord w) (htd : Tended tb tb.game.board.pos.turn S guess last) {x : σ × Words}
    (hx : x = (G tb.game.board.pos.turn).turn (S tb.game.board.pos.turn) (guess tb.game.board.pos.turn) last tb.usi (limitsOf R byoyomi clock tb.game.board.pos.turn))
    (s : Said) (ha : answerText s.answer = x.2.1) :
    ∃ tb', ponderRound Z (termsOf R) byoyomi (fun c => ponderProgram (G c)) tb (s.millis, s.score) = .returns (tb', round Z (termsOf R) tb.game (replyOf s)) ∧
      tb'.game = tb.game ∧ tb'.usi = tb.usi ∧ tb'.best = some x.2.1 ∧
      (¬ R.Overrun clock tb.game.board.pos.turn s →
        Tended tb' tb.game.board.pos.turn.opp (handOver tb.game.board.pos.turn ((G tb.game.board.pos.turn).muses x.1 (tb.usi ++ [x.2.1])
          (limitsOf R byoyomi (R.charge clock tb.game.board.pos.turn s) tb.game.board.pos.turn) x.2.2) S) (handOver tb.game.board.pos.turn x.2.2 guess) (some x.2.1)) := by
  obtain ⟨t, htt⟩ : ∃ t, tb.game.board.pos.turn = t := ⟨_, rfl⟩
  rw [htt] at htd hx ⊢
  have hidx : engineIndex tb.game = t := (engineIndex_turn ht).trans htt
  have hword := turn_words (hG t) (S t) (guess t) last tb.usi (limitsOf R byoyomi clock t)
  rw [← hx] at hword
  obtain ⟨tb1, a1, a2, a3, a4⟩ := settle_wakes hG hidx htd
  obtain ⟨tb2, b1, b2, b3, b4, b5, b6⟩ := reply_turn (R := R) (byoyomi := byoyomi) (clock := clock) hG (hplain t) (by rw [a2]; exact ht) (by rw [a2]; exact htt)
    (by rw [a2]; exact hc) (by rw [a3]; exact hu) (x := (G t).wakes (S t) (guess t) last) a4
  rw [a3, show (G t).thinks tb.usi (limitsOf R byoyomi clock t) ((G t).wakes (S t) (guess t) last) = x from hx.symm] at b4 b5 b6
  rw [a2] at b2
  rw [a3] at b3
  obtain ⟨up, st0, e1, e0, -, -, e3⟩ := charge_spec (R := R) hc htt (hb _) s
  unfold ponderRound
  rw [a1]
  dsimp only [andThen]
  rw [b1]
  dsimp only [andThen]
  rw [b2, e1]
  dsimp only
  cases up with
  | true =>
    rw [if_pos rfl]
    dsimp only
    rw [b5, b2]
    refine ⟨tb2, ?_, b2, b3, b5, fun hno => absurd (e0.mp rfl) hno⟩
    show Outcome.returns (tb2, round Z (termsOf R) tb.game ⟨x.2.1, s.score, s.millis⟩) = _
    rw [← ha]; rfl
  | false =>
    rw [if_neg (by decide)]
    obtain ⟨tb3, g1, g2, g3, g4, g5⟩ := guess_hands (R := R) (byoyomi := byoyomi) hG (hplain t) (by rw [b2]; exact ht) (by rw [b2]; exact htt) (e3 rfl)
      (by rw [b3]; exact hu) b4 htd.words b5 hword.1 (by rw [b6]; exact hword.2)
    rw [g1]
    dsimp only
    rw [g4, g2, b2]
    refine ⟨tb3, ?_, g2.trans b2, g3.trans b3, g4, fun _ => ?_⟩
    · show Outcome.returns (tb3, round Z (termsOf R) tb.game ⟨x.2.1, s.score, s.millis⟩) = _
      rw [← ha]; rfl
    · rw [b6, b3] at g5; exact g5

/-- The time has not run out if the game goes on. -/
theorem round_time {Z : Zobrist} {R : Rules} {st st' : State} {clock : Color → Option Int} (hc : st.remain = clock) (hb : ∀ c, clock c = none ∨ R.byoyomi c = 0)
    {s : Said} {f : Option Flag} (hr : round Z (termsOf R) st (replyOf s) = .ok (f, st')) (hf : f ≠ some .timeup) : ¬ R.Overrun clock st.board.pos.turn s := by
  obtain ⟨up, st0, e1, e0, -⟩ := charge_spec (R := R) hc rfl (hb _) s
  intro ho
  have := e0.mpr ho
  subst this
  unfold round at hr
  rw [show (replyOf s).millis = s.millis from rfl, e1] at hr
  dsimp only at hr
  rw [if_pos rfl] at hr
  cases hr
  exact hf rfl

/-- The loop with the engines is the loop with what they say. -/
theorem ponder_loop {Z : Zobrist} {R : Rules} {byoyomi : Color → Option Int} (hplain : ∀ c, byoyomi c = none ∨ (R.inc .black = none ∧ R.inc .white = none))
    {G : Color → Ponderer σ} (hG : ∀ c, (G c).Polite) : ∀ (ss : List (Said × Option (List Char))) {S : Color → σ} {guess : Color → Option (List Char)}
    {clock : Color → Option Int} {tb : PonderTable σ} {past : List Mv} {last : Option (List Char)}, Csa.Good Z tb.game.board.pos → InTurn tb.game →
    tb.game.remain = clock → (∀ c, clock c = none ∨ R.byoyomi c = 0) → tb.usi = past.map usiText → Tended tb tb.game.board.pos.turn S guess last →
    PonderOrderly (absPos tb.game.board.pos) ss → PonderPlays R byoyomi G S guess clock (absPos tb.game.board.pos) past last ss →
    ∃ tb', ponderDuel Z (termsOf R) byoyomi (fun c => ponderProgram (G c)) tb (ss.map fun x => (x.1.millis, x.1.score)) =
      .returns (tb', loop Z (termsOf R) tb.game (ss.map fun x => replyOf x.1))
  | [], S, guess, clock, tb, past, last, _, _, _, _, _, _, _, _ => ⟨tb, rfl⟩
  | (s, w) :: ss, S, guess, clock, tb, past, last, hg, ht, hc, hb, hu, htd, ho, hpl => by
    obtain ⟨hp1, hp2⟩ := hpl
    rw [List.map_cons, List.map_cons, ponderDuel, loop]
    by_cases hd : tb.game.board.pos.gamePly > (termsOf R).draw
    · rw [if_pos hd, if_pos hd]; exact ⟨_, rfl⟩
    rw [if_neg hd, if_neg hd]
    have hturn : (absPos tb.game.board.pos).turn = tb.game.board.pos.turn := rfl
    rw [hturn, ← hu] at hp1 hp2
    have hwords : ∀ v ∈ tb.usi, IsWord v := by
      rw [hu]
      intro v hv
      obtain ⟨mv, -, rfl⟩ := List.mem_map.mp hv
      exact usiText_word mv
    obtain ⟨x, hx⟩ : ∃ x, x = (G tb.game.board.pos.turn).turn (S tb.game.board.pos.turn) (guess tb.game.board.pos.turn) last tb.usi
      (limitsOf R byoyomi clock tb.game.board.pos.turn) := ⟨_, rfl⟩
    rw [← hx] at hp1 hp2
    obtain ⟨tb', r1, r2, r3, r4, r5⟩ := ponderRound_on (Z := Z) hplain hG ht hc hb hwords htd hx s (by rw [hp1])
    rw [r1]
    dsimp only [andThen]
    cases hr : round Z (termsOf R) tb.game (replyOf s) with
    | error => exact ⟨_, rfl⟩
    | ub => exact ⟨_, rfl⟩
    | ok y =>
      obtain ⟨f, st'⟩ := y
      cases f with
      | some f => exact ⟨_, rfl⟩
      | none =>
        rw [Out.bind_ok]
        show ∃ tb'', ponderDuel Z _ _ _ { tb' with game := st', usi := tb'.usi ++ [tb'.best.getD []] } _ = .returns (tb'', loop Z _ _ _)
        obtain ⟨mv, p', m1, m2, m3, m4, m5, m6, m7⟩ := round_on hg hc hb (s := s) (fun mv h => (ho mv h).1) hr
        have hword : x.2.1 = usiText mv := by rw [hp1]; show answerText s.answer = _; rw [m1]; rfl
        have htd' := r5 (round_time hc hb hr (by intro h; cases h))
        rw [hword, show x.2.2 = w by rw [hp1]] at htd'
        have hturn' : p'.turn = tb.game.board.pos.turn.opp := (congrArg Pos.turn m5).trans (play_turn _)
        have hplays := hp2 mv m1 m2
        obtain ⟨tb'', hend⟩ := ponder_loop hplain hG ss (tb := { tb' with game := st', usi := tb'.usi ++ [tb'.best.getD []] })
          (S := handOver tb.game.board.pos.turn ((G tb.game.board.pos.turn).muses x.1 (tb.usi ++ [usiText mv])
            (limitsOf R byoyomi (R.charge clock tb.game.board.pos.turn s) tb.game.board.pos.turn) w) S)
          (guess := handOver tb.game.board.pos.turn w guess) (clock := R.charge clock tb.game.board.pos.turn s) (past := past ++ [mv])
          (last := some (usiText mv)) (by show Csa.Good Z st'.board.pos; rw [m6]; exact m4)
          (by
            show InTurn st'
            unfold InTurn at ht ⊢
            rw [m6, Web.doMove_number m3, hturn', ht]
            split <;> split <;> first | rfl | omega)
          m7
          (by
            intro c
            rcases hb c with h | h
            · left
              unfold Rules.charge
              split
              · rename_i e; rw [← e, h]; rfl
              · exact h
            · exact .inr h)
          (by
            show tb'.usi ++ [tb'.best.getD []] = _
            rw [r3, r4, hword, hu, List.map_append]; rfl)
          (by
            show Tended _ st'.board.pos.turn _ _ _
            rw [m6, hturn']
            exact htd'.on _ _)
          (by
            show PonderOrderly (absPos st'.board.pos) ss
            rw [m6, m5]; exact (ho mv m1).2 m2)
          (by
            show PonderPlays R byoyomi G _ _ _ (absPos st'.board.pos) _ _ ss
            rw [m6, m5]; exact hplays)
        exact ⟨tb'', hend⟩

end Verif.Match
