import Verif.Model.VecEnv
import Verif.Props.Env
import Verif.Props.Ki2

/-!
# C90: several learning environments at once
-/

namespace Verif.VecEnv
open Verif.Env Verif.Spec Verif.Position

/-- One environment played alone and set back whenever a game is over. -/
def alone (Z : Zobrist) (p : Position) : Env → List Move → Out (List Reply × Env)
  | e, [] => .ok ([], e)
  | e, m :: ms => (Env.step Z e m).bind fun x => (alone Z p (if x.1.done then Env.reset p else x.2) ms).bind fun y => .ok (x.1 :: y.1, y.2)

/-- A successful step, game by game. -/
theorem step_ok {Z : Zobrist} {p : Position} : ∀ {es : List Env} {ms : List Move} {rs : List Reply} {es' : List Env},
    step Z p es ms = (.ok rs, es') → ms.length ≤ es.length ∧ es'.length = es.length ∧ rs.length = ms.length ∧
      (∀ i, i < ms.length → ∃ e m r e', es[i]? = some e ∧ ms[i]? = some m ∧ Env.step Z e m = .ok (r, e') ∧ rs[i]? = some r ∧
        es'[i]? = some (if r.done then Env.reset p else e')) ∧ ∀ i, ms.length ≤ i → es'[i]? = es[i]?
  | es, [], rs, es', h => by
    rw [step] at h
    obtain ⟨h1, h2⟩ := Prod.mk.inj h
    injection h1 with h1
    subst h1; subst h2
    exact ⟨Nat.zero_le _, rfl, rfl, fun i hi => absurd hi (Nat.not_lt_zero _), fun _ _ => rfl⟩
  | [], m :: ms, rs, es', h => by
    rw [step] at h
    cases (Prod.mk.inj h).1
  | e :: es, m :: ms, rs, es', h => by
    rw [step] at h
    split at h
    · next r e' hs =>
      obtain ⟨h1, h2⟩ := Prod.mk.inj h
      cases hr : (step Z p es ms).1 with
      | ok rs1 =>
        rw [hr] at h1
        have h1 : r :: rs1 = rs := by injection h1
        obtain ⟨g1, g2, g3, g4, g5⟩ := step_ok (es := es) (ms := ms) (rs := rs1) (es' := (step Z p es ms).2) (by rw [← hr])
        subst h1; subst h2
        refine ⟨by simpa using g1, by simpa using g2, by simpa using g3, ?_, ?_⟩
        · intro i hi
          rcases i with _ | i
          · exact ⟨e, m, r, e', rfl, rfl, hs, rfl, rfl⟩
          · exact g4 i (by simpa using hi)
        · intro i hi
          rcases i with _ | i
          · simp at hi
          · exact g5 i (by simpa using hi)
      | error => rw [hr] at h1; cases h1
      | ub => rw [hr] at h1; cases h1
    · cases (Prod.mk.inj h).1
    · cases (Prod.mk.inj h).1

/-- **C90**. As long as no call raises, every game runs as if it were played alone with its own moves, and is set back whenever it is over:
the same replies, the same environment at the end. -/
theorem C90_alone_partial (Z : Zobrist) (p : Position) : ∀ (rounds : List (List Move)) (es : List Env) (table : List (List Reply)) (es' : List Env),
    (∀ ms ∈ rounds, ms.length = es.length) → play Z p es rounds = .ok (table, es') →
    es'.length = es.length ∧ table.length = rounds.length ∧ ∀ (i : Nat) e, es[i]? = some e →
      ∃ e' R, alone Z p e (rounds.map fun ms => ms.getD i 0#32) = .ok (R, e') ∧ es'[i]? = some e' ∧ ∀ k : Nat, R[k]? = (table[k]?).bind (·[i]?)
  | [], es, table, es', _, h => by
    rw [play] at h
    injection h with h
    obtain ⟨h1, h2⟩ := Prod.mk.inj h
    subst h1; subst h2
    exact ⟨rfl, rfl, fun i e he => ⟨e, [], rfl, he, fun k => by simp⟩⟩
  | ms :: rounds, es, table, es', hn, h => by
    rw [play] at h
    cases hs : (step Z p es ms).1 with
    | error => rw [hs] at h; cases h
    | ub => rw [hs] at h; cases h
    | ok rs =>
      rw [hs] at h
      cases hp : play Z p (step Z p es ms).2 rounds with
      | error => exact absurd h (by show (play Z p (step Z p es ms).2 rounds).bind _ ≠ _; rw [hp]; exact fun h => nomatch h)
      | ub => exact absurd h (by show (play Z p (step Z p es ms).2 rounds).bind _ ≠ _; rw [hp]; exact fun h => nomatch h)
      | ok x =>
        have h : (play Z p (step Z p es ms).2 rounds).bind (fun x => .ok (rs :: x.1, x.2)) = Out.ok (table, es') := h
        rw [hp] at h
        have h : (rs :: x.1, x.2) = (table, es') := by injection h
        obtain ⟨h1, h2⟩ := Prod.mk.inj h
        subst h1; subst h2
        obtain ⟨-, g2, -, g4, -⟩ := step_ok (es := es) (ms := ms) (rs := rs) (es' := (step Z p es ms).2) (by rw [← hs])
        have hlen := hn ms List.mem_cons_self
        obtain ⟨i1, i2, i3⟩ := C90_alone_partial Z p rounds (step Z p es ms).2 x.1 x.2
          (fun m hm => by rw [hn m (List.mem_cons_of_mem _ hm), g2]) hp
        refine ⟨by rw [i1, g2], by simp [i2], fun i e he => ?_⟩
        have hi : i < es.length := (List.getElem?_eq_some_iff.mp he).1
        obtain ⟨e0, m, r, e1, a1, a2, a3, a4, a5⟩ := g4 i (by omega)
        rw [he] at a1
        injection a1 with a1
        subst a1
        obtain ⟨e', R, b1, b2, b3⟩ := i3 i _ a5
        refine ⟨e', r :: R, ?_, b2, ?_⟩
        · have hm : ms.getD i 0#32 = m := by rw [List.getD_eq_getElem?_getD, a2]; rfl
          rw [List.map_cons, alone, hm, a3]
          show (alone Z p (if r.done = true then Env.reset p else e1) _).bind _ = _
          rw [b1]; rfl
        · intro k
          rcases k with _ | k
          · exact a4.symm
          · exact b3 k

/-- **C90**. A call raises nothing if there is an environment for every move and every game takes its move. -/
theorem C90_returns (Z : Zobrist) (p : Position) : ∀ (es : List Env) (ms : List Move), ms.length ≤ es.length →
    (∀ (i : Nat) e m, es[i]? = some e → ms[i]? = some m → ∃ x, Env.step Z e m = .ok x) → ∃ rs es', step Z p es ms = (.ok rs, es')
  | es, [], _, _ => ⟨[], es, by rw [step]⟩
  | [], m :: ms, h, _ => by simp at h
  | e :: es, m :: ms, h, hs => by
    obtain ⟨⟨r, e'⟩, hx⟩ := hs 0 e m rfl rfl
    obtain ⟨rs, es', hr⟩ := C90_returns Z p es ms (by simpa using h) fun i e m h1 h2 => hs (i + 1) e m h1 h2
    rw [step, hx]
    dsimp only
    rw [hr]
    exact ⟨_, _, rfl⟩

/-- An environment that has been played from `p` by legal moves since it was last set back. -/
def Running (Z : Zobrist) (p : Position) (e : Env) : Prop := ∃ P h, EnvAt Z p P h e

/-- **C90**. Games started by `reset` go on for ever: if every move is legal in its game, or 0 (resignation), the call returns, a game that is
over stands at the start again, and every other game at the position after its move. -/
theorem C90_legal (Z : Zobrist) (p : Position) (hp : Inv Z p) (hc : CheckOK p) (hr : (absPos p).Regular) (hf : Fresh p)
    (es : List Env) (hes : ∀ e ∈ es, Running Z p e) (ms : List Move) (hl : ms.length = es.length)
    (hm : ∀ (i : Nat) e m, es[i]? = some e → ms[i]? = some m → m = 0#32 ∨ ∃ mv, (absPos e.board.pos).Legal mv ∧ m = encode e.board.pos mv) :
    ∃ rs es', step Z p es ms = (.ok rs, es') ∧ (∀ e ∈ es', Running Z p e) ∧ rs.length = es.length ∧ es'.length = es.length ∧
      ∀ (i : Nat) e m r e', es[i]? = some e → ms[i]? = some m → rs[i]? = some r → es'[i]? = some e' →
        (m = 0#32 → r.reward = -1 ∧ r.done = true) ∧
        (r.done = true → absPos e'.board.pos = absPos p ∧ e'.board.hist = []) ∧
        (r.done = false → ∃ mv, (absPos e.board.pos).Legal mv ∧ m = encode e.board.pos mv ∧ absPos e'.board.pos = (absPos e.board.pos).play mv) := by
  have hg : Csa.Good Z p := ⟨hp, hc, hr⟩
  have hstep : ∀ (i : Nat) e m, es[i]? = some e → ms[i]? = some m → ∃ r e', Env.step Z e m = .ok (r, e') ∧ Running Z p e' ∧
      (m = 0#32 → r.reward = -1 ∧ r.done = true) ∧
      (r.done = false → ∃ mv, (absPos e.board.pos).Legal mv ∧ m = encode e.board.pos mv ∧ absPos e'.board.pos = (absPos e.board.pos).play mv) := by
    intro i e m he h
    obtain ⟨P, hist, hat⟩ := hes e (List.mem_of_getElem? he)
    have hP : absPos e.board.pos = P := hat.played.now
    rcases hm i e m he h with rfl | ⟨mv, hmv, rfl⟩
    · exact ⟨⟨-1, true, none⟩, e, by rw [Env.step, if_pos rfl], ⟨P, hist, hat⟩, fun _ => ⟨rfl, rfl⟩, fun h => by cases h⟩
    · obtain ⟨r, e', s1, s2, -⟩ := hat.step (by rw [← hP]; exact hmv)
      refine ⟨r, e', s1, ⟨_, _, s2⟩, fun h0 => absurd h0 (encode_ne_zero hmv.1.1), fun _ => ⟨mv, hmv, rfl, ?_⟩⟩
      rw [s2.played.now, hP]
  obtain ⟨rs, es', h⟩ := C90_returns Z p es ms (by omega) fun i e m h1 h2 => by
    obtain ⟨r, e', s, -⟩ := hstep i e m h1 h2
    exact ⟨_, s⟩
  obtain ⟨-, g2, g3, g4, -⟩ := step_ok h
  refine ⟨rs, es', h, ?_, by omega, g2, ?_⟩
  · intro e' he'
    obtain ⟨i, hi⟩ := List.mem_iff_getElem?.mp he'
    have hlt : i < es'.length := (List.getElem?_eq_some_iff.mp hi).1
    obtain ⟨e, m, r, e1, a1, a2, a3, a4, a5⟩ := g4 i (by omega)
    rw [hi] at a5
    injection a5 with a5
    obtain ⟨r', e2, s1, s2, -⟩ := hstep i e m a1 a2
    rw [a3] at s1
    injection s1 with s1
    obtain ⟨rfl, rfl⟩ := Prod.mk.inj s1
    rw [a5]
    split
    · exact ⟨_, _, env_reset hg hf⟩
    · exact s2
  · intro i e m r e' he hmm hrr hee
    have hlt : i < ms.length := (List.getElem?_eq_some_iff.mp hmm).1
    obtain ⟨e0, m0, r0, e1, a1, a2, a3, a4, a5⟩ := g4 i hlt
    rw [he] at a1; rw [hmm] at a2; rw [hrr] at a4; rw [hee] at a5
    injection a1 with a1; injection a2 with a2; injection a4 with a4; injection a5 with a5
    subst a1; subst a2; subst a4
    obtain ⟨r', e2, s1, s2, s3, s4⟩ := hstep i e m he hmm
    rw [a3] at s1
    injection s1 with s1
    obtain ⟨rfl, rfl⟩ := Prod.mk.inj s1
    refine ⟨s3, fun hd => ?_, fun hd => ?_⟩
    · rw [a5, if_pos hd]; exact ⟨rfl, rfl⟩
    · rw [a5, hd, if_neg (by decide)]
      exact s4 hd

/-- **C90** fails when a move is refused: the call raises, and the games before it have been played on although no reply was given. -/
theorem C90_fails_refused (Z : Zobrist) (p : Position) (before : List Env) (e : Env) (after : List Env) (ms : List Move) (m : Move) (more : List Move)
    (hl : ms.length = before.length) (hs : ∀ (i : Nat) e m, before[i]? = some e → ms[i]? = some m → ∃ x, Env.step Z e m = .ok x)
    (he : Env.step Z e m = .error) :
    ∃ before', step Z p (before ++ e :: after) (ms ++ m :: more) = (.error, before' ++ e :: after) ∧ before'.length = before.length ∧
      ∀ (i : Nat) e m r e', before[i]? = some e → ms[i]? = some m → Env.step Z e m = .ok (r, e') →
        before'[i]? = some (if r.done then Env.reset p else e') := by
  induction before generalizing ms with
  | nil =>
    rw [List.length_eq_zero_iff.mp hl]
    refine ⟨[], ?_, rfl, fun i e m r e' h => by simp at h⟩
    rw [List.nil_append, List.nil_append, step, he]
  | cons e0 before ih =>
    rcases ms with _ | ⟨m0, ms⟩
    · simp at hl
    · obtain ⟨⟨r0, e1⟩, h0⟩ := hs 0 e0 m0 rfl rfl
      obtain ⟨before', i1, i2, i3⟩ := ih ms (by simpa using hl) fun i e m h1 h2 => hs (i + 1) e m h1 h2
      refine ⟨(if r0.done then Env.reset p else e1) :: before', ?_, by simpa using i2, ?_⟩
      · rw [List.cons_append, List.cons_append, step, h0]
        dsimp only
        rw [i1]; rfl
      · intro i e m r e' h1 h2 h3
        rcases i with _ | i
        · have h1 : e0 = e := by simpa using h1
          have h2 : m0 = m := by simpa using h2
          subst h1; subst h2
          rw [h0] at h3
          injection h3 with h3
          obtain ⟨rfl, rfl⟩ := Prod.mk.inj h3
          rfl
        · exact i3 i e m r e' h1 h2 h3

/-- **C90** fails with more moves than environments: the call raises after all games have been played on. -/
theorem C90_fails_long (Z : Zobrist) (p : Position) : ∀ (es : List Env) (ms : List Move) (m : Move) (more : List Move), ms.length = es.length →
    ∀ rs es', step Z p es ms = (.ok rs, es') → step Z p es (ms ++ m :: more) = (.error, es')
  | [], [], m, more, _, rs, es', h => by
    rw [step] at h
    rw [← (Prod.mk.inj h).2]
    rw [List.nil_append, step]
  | [], _ :: _, _, _, hl, _, _, _ => by simp at hl
  | _ :: _, [], _, _, hl, _, _, _ => by simp at hl
  | e :: es, m0 :: ms, m, more, hl, rs, es', h => by
    rw [step] at h
    rw [List.cons_append, step]
    split at h
    · next r e' hs =>
      obtain ⟨h1, h2⟩ := Prod.mk.inj h
      cases hr : (step Z p es ms).1 with
      | ok rs1 =>
        have := C90_fails_long Z p es ms m more (by simpa using hl) rs1 (step Z p es ms).2 (by rw [← hr])
        rw [this, ← h2]; rfl
      | error => rw [hr] at h1; cases h1
      | ub => rw [hr] at h1; cases h1
    · cases (Prod.mk.inj h).1
    · cases (Prod.mk.inj h).1

/-- **C90** fails with fewer moves than environments: the games without a move are passed over in silence. -/
theorem C90_fails_short (Z : Zobrist) (p : Position) (es : List Env) (ms : List Move) (rs : List Reply) (es' : List Env)
    (h : step Z p es ms = (.ok rs, es')) : rs.length = ms.length ∧ ∀ i, ms.length ≤ i → es'[i]? = es[i]? := by
  obtain ⟨-, -, h3, -, h5⟩ := step_ok h
  exact ⟨h3, h5⟩

/-! ### Concrete cases -/

/-- The hypotheses of `C90_legal` hold for two games after `reset` (kings on 5a and 5i, a rook on 2h): the first player moves the rook in one game
and resigns in the other. -/
example : Inv mixKeys rookMix ∧ CheckOK rookMix ∧ (absPos rookMix).Regular ∧ Fresh rookMix ∧ (∀ e ∈ make rookMix 2, Running mixKeys rookMix e) ∧
    ∀ (i : Nat) e m, (make rookMix 2)[i]? = some e → ([encode rookMix (.move 16 25 false), 0#32] : List Move)[i]? = some m →
      m = 0#32 ∨ ∃ mv, (absPos e.board.pos).Legal mv ∧ m = encode e.board.pos mv := by
  obtain ⟨h1, h2, h3, h4⟩ := rookMix_ok
  have hg : Csa.Good mixKeys rookMix := ⟨h1, h3, h4⟩
  refine ⟨h1, h3, h4, rookMix_fresh, ?_, ?_⟩
  · intro e he
    rw [(List.mem_replicate.mp he).2]
    exact ⟨_, _, env_reset hg rookMix_fresh⟩
  · intro i e m he hm
    have hlt : i < 2 := by simpa using (List.getElem?_eq_some_iff.mp hm).1
    rcases (show i = 0 ∨ i = 1 by omega) with rfl | rfl
    · have e1 : Env.reset rookMix = e := by injection he
      have e2 : encode rookMix (.move 16 25 false) = m := by injection hm
      subst e1; subst e2
      exact Or.inr ⟨_, Ki2.legal_listed hg (by decide +kernel), rfl⟩
    · have e2 : 0#32 = m := by injection hm
      exact Or.inl e2.symm

/-- The hypotheses of `C90_fails_refused` hold: a rook move in the first game, then a move of the second game's rook onto its own king. -/
example : (∃ x, Env.step mixKeys (Env.reset rookMix) (encode rookMix (.move 16 25 false)) = .ok x) ∧
    Env.step mixKeys (Env.reset rookMix) (encode rookMix (.move 16 44 false)) = .error := by
  obtain ⟨h1, h2, h3, h4⟩ := rookMix_ok
  have hg : Csa.Good mixKeys rookMix := ⟨h1, h3, h4⟩
  have hm : (absPos rookMix).Legal (.move 16 25 false) := Ki2.legal_listed hg (by decide +kernel)
  constructor
  · obtain ⟨r, e', s, -⟩ := (env_reset hg rookMix_fresh).step hm
    exact ⟨_, s⟩
  · unfold Env.step
    rw [if_neg (show ¬ encode rookMix (.move 16 44 false) = 0#32 by decide +kernel)]
    rw [show (Env.reset rookMix).board.pos.isLegal (encode rookMix (.move 16 44 false)) = some false by decide +kernel]

end Verif.VecEnv
