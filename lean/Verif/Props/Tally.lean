import Verif.Model.Match

/-!
# C78: counting the games of a match
-/

namespace Verif.Match

/-- The engine that had Black in game `n`, counted from 0: the first, and in every other game the second unless they do not swap. -/
def blackEngine (noSwap : Bool) (n : Nat) : Nat := if noSwap = true ∨ n % 2 = 0 then 1 else 2

/-- The number of games from number `n` on with some property of the engine that had Black and the result. -/
def gamesWith (noSwap : Bool) (f : Nat → Option Color → Bool) : Nat → List (Option Color) → Nat
  | _, [] => 0
  | n, w :: ws => (if f (blackEngine noSwap n) w then 1 else 0) + gamesWith noSwap f (n + 1) ws

/-- Engine `e` had colour `c`. -/
def had (e : Nat) (c : Color) (black : Nat) : Bool := match c with | .black => black == e | .white => black != e

theorem tally_games (noSwap : Bool) : ∀ (ws : List (Option Color)) (t : Tally) (n : Nat) (a0 a1 a2 a3 a4 a5 b0 b1 b2 b3 b4 b5 : Nat),
    t.won1 = [a0, a1, a2, a3, a4, a5] → t.won2 = [b0, b1, b2, b3, b4, b5] →
    let c (e : Nat) (side : Color) (w : Option Color) := gamesWith noSwap (fun b r => had e side b && decide (r = w)) n ws
    (t.games noSwap n ws).won1 = [a0 + c 1 .black (some .black), a1 + c 1 .white (some .white), a2 + c 1 .black (some .white),
      a3 + c 1 .white (some .black), a4 + c 1 .black none, a5 + c 1 .white none] ∧
    (t.games noSwap n ws).won2 = [b0 + c 2 .black (some .black), b1 + c 2 .white (some .white), b2 + c 2 .black (some .white),
      b3 + c 2 .white (some .black), b4 + c 2 .black none, b5 + c 2 .white none] ∧
    (t.games noSwap n ws).draws = t.draws + gamesWith noSwap (fun _ r => decide (r = none)) n ws := by
  intro ws
  induction ws with
  | nil => intro t n a0 a1 a2 a3 a4 a5 b0 b1 b2 b3 b4 b5 h1 h2; exact ⟨h1, h2, rfl⟩
  | cons w ws ih =>
    intro t n a0 a1 a2 a3 a4 a5 b0 b1 b2 b3 b4 b5 h1 h2
    dsimp only
    unfold Tally.games
    have hbe : blackEngine noSwap n = if firstIsBlack noSwap n then 1 else 2 := by
      unfold blackEngine firstIsBlack
      cases noSwap <;> simp
    obtain ⟨won1, won2, draws⟩ := t
    dsimp only at h1 h2
    subst h1 h2
    simp only [gamesWith, hbe]
    cases firstIsBlack noSwap n <;> rcases w with _ | (_ | _)
    · obtain ⟨i1, i2, i3⟩ := ih (Tally.add ⟨[a0, a1, a2, a3, a4, a5], [b0, b1, b2, b3, b4, b5], draws⟩ false none) (n + 1)
        a0 a1 a2 a3 a4 (a5 + 1) b0 b1 b2 b3 (b4 + 1) b5 rfl rfl
      refine ⟨i1.trans ?_, i2.trans ?_, i3.trans ?_⟩ <;> simp [had, Tally.add] <;> omega
    · obtain ⟨i1, i2, i3⟩ := ih (Tally.add ⟨[a0, a1, a2, a3, a4, a5], [b0, b1, b2, b3, b4, b5], draws⟩ false (some .black)) (n + 1)
        a0 a1 a2 (a3 + 1) a4 a5 (b0 + 1) b1 b2 b3 b4 b5 rfl rfl
      refine ⟨i1.trans ?_, i2.trans ?_, i3.trans ?_⟩ <;> simp [had, Tally.add] <;> omega
    · obtain ⟨i1, i2, i3⟩ := ih (Tally.add ⟨[a0, a1, a2, a3, a4, a5], [b0, b1, b2, b3, b4, b5], draws⟩ false (some .white)) (n + 1)
        a0 (a1 + 1) a2 a3 a4 a5 b0 b1 (b2 + 1) b3 b4 b5 rfl rfl
      refine ⟨i1.trans ?_, i2.trans ?_, i3.trans ?_⟩ <;> simp [had, Tally.add] <;> omega
    · obtain ⟨i1, i2, i3⟩ := ih (Tally.add ⟨[a0, a1, a2, a3, a4, a5], [b0, b1, b2, b3, b4, b5], draws⟩ true none) (n + 1)
        a0 a1 a2 a3 (a4 + 1) a5 b0 b1 b2 b3 b4 (b5 + 1) rfl rfl
      refine ⟨i1.trans ?_, i2.trans ?_, i3.trans ?_⟩ <;> simp [had, Tally.add] <;> omega
    · obtain ⟨i1, i2, i3⟩ := ih (Tally.add ⟨[a0, a1, a2, a3, a4, a5], [b0, b1, b2, b3, b4, b5], draws⟩ true (some .black)) (n + 1)
        (a0 + 1) a1 a2 a3 a4 a5 b0 b1 b2 (b3 + 1) b4 b5 rfl rfl
      refine ⟨i1.trans ?_, i2.trans ?_, i3.trans ?_⟩ <;> simp [had, Tally.add] <;> omega
    · obtain ⟨i1, i2, i3⟩ := ih (Tally.add ⟨[a0, a1, a2, a3, a4, a5], [b0, b1, b2, b3, b4, b5], draws⟩ true (some .white)) (n + 1)
        a0 a1 (a2 + 1) a3 a4 a5 b0 (b1 + 1) b2 b3 b4 b5 rfl rfl
      refine ⟨i1.trans ?_, i2.trans ?_, i3.trans ?_⟩ <;> simp [had, Tally.add] <;> omega

theorem blackEngine_or (noSwap : Bool) (n : Nat) : blackEngine noSwap n = 1 ∨ blackEngine noSwap n = 2 := by
  unfold blackEngine
  split
  · exact Or.inl rfl
  · exact Or.inr rfl

/-- Numbers of games add up when the properties exclude each other. -/
theorem gamesWith_add (noSwap : Bool) (f g h : Nat → Option Color → Bool)
    (he : ∀ r, ((if f 1 r then 1 else 0) = (if g 1 r then 1 else 0) + (if h 1 r then 1 else 0)) ∧
      ((if f 2 r then 1 else 0) = (if g 2 r then 1 else 0) + (if h 2 r then 1 else 0))) :
    ∀ (ws : List (Option Color)) (n : Nat), gamesWith noSwap f n ws = gamesWith noSwap g n ws + gamesWith noSwap h n ws := by
  intro ws
  induction ws with
  | nil => intro n; rfl
  | cons w ws ih =>
    intro n
    have e := he w
    simp only [gamesWith, ih (n + 1)]
    rcases blackEngine_or noSwap n with hb | hb <;> rw [hb] <;> omega

theorem gamesWith_count (noSwap : Bool) (w : Option Color) : ∀ (ws : List (Option Color)) (n : Nat),
    gamesWith noSwap (fun _ r => decide (r = w)) n ws = ws.count w := by
  intro ws
  induction ws with
  | nil => intro n; rfl
  | cons v ws ih =>
    intro n
    simp only [gamesWith, ih (n + 1), List.count_cons, beq_iff_eq, decide_eq_true_eq]
    omega

theorem gamesWith_all (noSwap : Bool) : ∀ (ws : List (Option Color)) (n : Nat), gamesWith noSwap (fun _ _ => true) n ws = ws.length := by
  intro ws
  induction ws with
  | nil => intro n; rfl
  | cons v ws ih => intro n; simp only [gamesWith, ih (n + 1), List.length_cons, if_true]; omega

theorem count_length : ∀ ws : List (Option Color), ws.count (some .black) + ws.count (some .white) + ws.count none = ws.length := by
  intro ws
  induction ws with
  | nil => rfl
  | cons w ws ih =>
    simp only [List.count_cons, List.length_cons]
    rcases w with _ | (_ | _) <;> simp <;> omega

/-- The games in which engine `e` had colour `c` are those it won, those it lost and the draws. -/
theorem gamesWith_had (noSwap : Bool) (e : Nat) (c : Color) (ws : List (Option Color)) (n : Nat) :
    gamesWith noSwap (fun b _ => had e c b) n ws = gamesWith noSwap (fun b r => had e c b && decide (r = some .black)) n ws +
      gamesWith noSwap (fun b r => had e c b && decide (r = some .white)) n ws + gamesWith noSwap (fun b r => had e c b && decide (r = none)) n ws := by
  rw [gamesWith_add noSwap (fun b _ => had e c b) (fun b r => had e c b && (decide (r = some .black) || decide (r = some .white)))
      (fun b r => had e c b && decide (r = none)),
    gamesWith_add noSwap (fun b r => had e c b && (decide (r = some .black) || decide (r = some .white)))
      (fun b r => had e c b && decide (r = some .black)) (fun b r => had e c b && decide (r = some .white))]
  all_goals
    intro r
    rcases r with _ | (_ | _) <;> simp

/-- **C78**: after every game of a match, whoever won, the numbers that are reported are right: the wins of the two engines, the wins of
Black and White, the draws, and the total, which is the number of games; the lines "playing Black" and "playing White" are the wins,
losses and draws of that engine with that colour; and the percentages are not divisions by zero. -/
theorem C78_counts (noSwap : Bool) (ws : List (Option Color)) :
    let t := Tally.zero.games noSwap 0 ws
    let c (e : Nat) (side : Color) (w : Option Color) := gamesWith noSwap (fun b r => had e side b && decide (r = w)) 0 ws
    t.report = ⟨gamesWith noSwap (fun b r => decide (r = some .black) && had 1 .black b || decide (r = some .white) && had 1 .white b) 0 ws,
      gamesWith noSwap (fun b r => decide (r = some .black) && had 2 .black b || decide (r = some .white) && had 2 .white b) 0 ws,
      ws.count (some .black), ws.count (some .white), ws.count none, ws.length⟩ ∧
    t.playing = [(c 1 .black (some .black), c 1 .black (some .white), c 1 .black none), (c 1 .white (some .white), c 1 .white (some .black), c 1 .white none),
      (c 2 .black (some .black), c 2 .black (some .white), c 2 .black none), (c 2 .white (some .white), c 2 .white (some .black), c 2 .white none)] ∧
    (ws ≠ [] → ∀ d ∈ t.divisors noSwap (ws.length - 1), 0 < d) := by
  have T := tally_games noSwap ws Tally.zero 0 0 0 0 0 0 0 0 0 0 0 0 0 rfl rfl
  dsimp only at T
  obtain ⟨t1, t2, t3⟩ := T
  have d := gamesWith_count noSwap none ws 0
  have e1 := gamesWith_add noSwap (fun b r => decide (r = some .black) && had 1 .black b || decide (r = some .white) && had 1 .white b)
    (fun b r => had 1 .black b && decide (r = some .black)) (fun b r => had 1 .white b && decide (r = some .white))
    (by intro r; rcases r with _ | (_ | _) <;> simp [had]) ws 0
  have e2 := gamesWith_add noSwap (fun b r => decide (r = some .black) && had 2 .black b || decide (r = some .white) && had 2 .white b)
    (fun b r => had 2 .black b && decide (r = some .black)) (fun b r => had 2 .white b && decide (r = some .white))
    (by intro r; rcases r with _ | (_ | _) <;> simp [had]) ws 0
  have eb := gamesWith_add noSwap (fun _ r => decide (r = some .black))
    (fun b r => had 1 .black b && decide (r = some .black)) (fun b r => had 2 .black b && decide (r = some .black))
    (by intro r; rcases r with _ | (_ | _) <;> simp [had]) ws 0
  have ew := gamesWith_add noSwap (fun _ r => decide (r = some .white))
    (fun b r => had 1 .white b && decide (r = some .white)) (fun b r => had 2 .white b && decide (r = some .white))
    (by intro r; rcases r with _ | (_ | _) <;> simp [had]) ws 0
  rw [gamesWith_count] at eb ew
  have hl := count_length ws
  have h3 : (Tally.zero.games noSwap 0 ws).draws = ws.count none := by rw [t3, d]; exact Nat.zero_add _
  refine ⟨?_, ?_, ?_⟩
  · simp only [Tally.report, t1, t2, h3, List.getD_cons_zero, List.getD_cons_succ, Report.mk.injEq]
    refine ⟨?_, ?_, ?_, ?_, trivial, ?_⟩ <;> omega
  · simp only [Tally.playing, t1, t2, List.getD_cons_zero, List.getD_cons_succ, Nat.zero_add]
  · intro hne
    obtain ⟨w, ws', rfl⟩ : ∃ w ws', ws = w :: ws' := List.exists_cons_of_ne_nil hne
    have g1 := gamesWith_had noSwap 1 .black (w :: ws') 0
    have g2 := gamesWith_had noSwap 2 .white (w :: ws') 0
    have g3 := gamesWith_had noSwap 1 .white (w :: ws') 0
    have g4 := gamesWith_had noSwap 2 .black (w :: ws') 0
    have h0 : blackEngine noSwap 0 = 1 := by unfold blackEngine; rw [if_pos (Or.inr rfl)]
    have p1 : 0 < gamesWith noSwap (fun b _ => had 1 .black b) 0 (w :: ws') := by
      show 0 < (if had 1 .black (blackEngine noSwap 0) = true then 1 else 0) + _
      rw [h0, if_pos (show had 1 .black 1 = true from rfl)]; omega
    have p2 : 0 < gamesWith noSwap (fun b _ => had 2 .white b) 0 (w :: ws') := by
      show 0 < (if had 2 .white (blackEngine noSwap 0) = true then 1 else 0) + _
      rw [h0, if_pos (show had 2 .white 1 = true from rfl)]; omega
    have p3 : noSwap = false → 1 < (w :: ws').length → 0 < gamesWith noSwap (fun b _ => had 1 .white b) 0 (w :: ws') ∧
        0 < gamesWith noSwap (fun b _ => had 2 .black b) 0 (w :: ws') := by
      intro hs hlen
      subst hs
      rcases ws' with _ | ⟨v, ws''⟩
      · exact absurd hlen (Nat.lt_irrefl _)
      · have hb1 : blackEngine false 1 = 2 := rfl
        constructor
        · show 0 < _ + ((if had 1 .white (blackEngine false 1) = true then 1 else 0) + _)
          rw [hb1, if_pos (show had 1 .white 2 = true from rfl)]; omega
        · show 0 < _ + ((if had 2 .black (blackEngine false 1) = true then 1 else 0) + _)
          rw [hb1, if_pos (show had 2 .black 2 = true from rfl)]; omega
    intro x hx
    unfold Tally.divisors at hx
    simp only [Tally.report, t1, t2, h3, List.getD_cons_zero, List.getD_cons_succ, List.cons_append, List.nil_append, List.mem_cons, List.mem_append, List.not_mem_nil, or_false] at hx
    have hlen : 0 < (w :: ws').length := Nat.zero_lt_succ _
    rcases hx with rfl | rfl | rfl | hx | hx
    · omega
    · omega
    · show 0 < 0 + _ + (0 + _) + (0 + _); omega
    · split at hx
      · next hc =>
        rw [Bool.and_eq_true, Bool.not_eq_true', decide_eq_true_eq] at hc
        obtain ⟨q1, q2⟩ := p3 hc.1 (by omega)
        simp only [List.mem_cons, List.not_mem_nil, or_false] at hx
        rcases hx with rfl | rfl
        · show 0 < 0 + _ + (0 + _) + (0 + _); omega
        · show 0 < 0 + _ + (0 + _) + (0 + _); omega
      · cases hx
    · subst hx
      show 0 < 0 + _ + (0 + _) + (0 + _); omega

/-- Five games with swapping: engine 1 has Black in games 1, 3 and 5. It wins the first and the second, engine 2 wins the third as White,
the fourth is a draw and the fifth won by Black. -/
example : let t := Tally.zero.games false 0 [some .black, some .white, some .white, none, some .black]
    t.report = ⟨3, 1, 2, 2, 1, 5⟩ ∧ t.playing = [(2, 1, 0), (1, 0, 1), (0, 1, 1), (1, 2, 0)] ∧ t.divisors false 4 = [5, 5, 3, 2, 2, 3] := by
  decide

end Verif.Match
