import Mathlib.Algebra.BigOperators.Fin
import Mathlib.Algebra.Order.BigOperators.Group.Finset
import Verif.Spec.Material
import Verif.Lemmas.Pseudo

/-!
How many pseudo-legal moves a position can have.

Every occupied square costs drops and earns moves. With `a h` saying whether the player holds a piece of kind `h`, a
square on the player's `r`-th rank (counted from the far side) admits at most `wt a r` drops when it is empty, and a
piece of kind `k` there has at most `mx k r` moves. Adding up over the board and over the pieces of one set gives at
most 593 for each of the 128 possible `a`.
-/

namespace Verif
open Spec

/-- Rank from the far side as a number. -/
def fr (c : Color) (s : Square) : Nat := match c with | .black => s.val % 9 | .white => 8 - s.val % 9

theorem fr_eq (c : Color) (s : Square) : (fr c s : Int) = farRank c s := by
  cases c <;> simp only [fr, farRank, Y] <;> omega

theorem fr_lt (c : Color) (s : Square) : fr c s < 9 := by
  cases c <;> simp only [fr] <;> omega

/-- May a piece of this kind be dropped on the `r`-th rank? -/
def dropOK (h : HKind) (r : Nat) : Bool :=
  match h with
  | .pawn => 1 ≤ r | .lance => 1 ≤ r | .knight => 2 ≤ r | _ => true

theorem dropOK_of {c : Color} {h : HKind} {s : Square} (hd : ¬ Dead c h.kind s) : dropOK h (fr c s) = true := by
  have := fr_eq c s
  cases h <;> simp only [dropOK, HKind.kind, Dead] at hd ⊢ <;> first | rfl | (simp only [decide_eq_true_eq]; omega)

def b2n (b : Bool) : Nat := cond b 1 0

/-- Drops on an empty square of the `r`-th rank. -/
def wt (a : HKind → Bool) (r : Nat) : Nat :=
  b2n (a .pawn && dropOK .pawn r) + b2n (a .lance && dropOK .lance r) + b2n (a .knight && dropOK .knight r) +
  b2n (a .silver && dropOK .silver r) + b2n (a .gold && dropOK .gold r) + b2n (a .bishop && dropOK .bishop r) +
  b2n (a .rook && dropOK .rook r)

/-- Moves of a piece on the `r`-th rank, at most. -/
def mx (k : Kind) (r : Nat) : Nat :=
  (match k with
  | .pawn => [0, 1, 2, 2, 1, 1, 1, 1, 1]
  | .lance => [0, 1, 3, 5, 6, 7, 8, 9, 10]
  | .knight => [0, 0, 2, 2, 4, 2, 2, 2, 2]
  | .silver => [4, 10, 10, 8, 5, 5, 5, 5, 3]
  | .bishop => [16, 20, 24, 20, 22, 18, 15, 13, 11]
  | .rook => [32, 32, 32, 19, 19, 19, 19, 19, 19]
  | .horse => [11, 14, 16, 18, 20, 18, 16, 14, 11]
  | .dragon => [18, 20, 20, 20, 20, 20, 20, 20, 18]
  | .king => [5, 8, 8, 8, 8, 8, 8, 8, 5]
  | _ => [3, 6, 6, 6, 6, 6, 6, 6, 5]).getD r 0

/-! ### Moves of one piece on an empty board -/

/-- The squares a piece reaches on an empty board, as coordinates. -/
def reach (c : Color) (k : Kind) (s : Square) : List (Int × Int) :=
  ((k.steps.map fun d => (X s + (orient c d).1, Y s + (orient c d).2)) ++
    k.slides.flatMap fun d => [1, 2, 3, 4, 5, 6, 7, 8].map fun (j : Int) => (X s + j * (orient c d).1, Y s + j * (orient c d).2)).filter
    fun xy => decide (0 ≤ xy.1) && decide (xy.1 ≤ 8) && decide (0 ≤ xy.2) && decide (xy.2 ≤ 8)

def far (c : Color) (y : Int) : Int := match c with | .black => y | .white => 8 - y

def deadB (k : Kind) (r : Int) : Bool :=
  match k with
  | .pawn => decide (r = 0) | .lance => decide (r = 0) | .knight => decide (r ≤ 1) | _ => false

/-- The moves of a piece on an empty board. -/
def freeMoves (c : Color) (k : Kind) (s : Square) : List ((Int × Int) × Bool) :=
  (reach c k s).flatMap fun xy =>
    (if k.promoted.isSome && (decide (far c (Y s) ≤ 2) || decide (far c xy.2 ≤ 2)) then [(xy, true)] else []) ++
    (if deadB k (far c xy.2) then [] else [(xy, false)])

theorem farRank_eq_far (c : Color) (s : Square) : farRank c s = far c (Y s) := by cases c <;> rfl

theorem XY_range (s : Square) : 0 ≤ X s ∧ X s ≤ 8 ∧ 0 ≤ Y s ∧ Y s ≤ 8 := by
  unfold X Y; omega

theorem orient_unit (c : Color) {d : Dir} (hd : d ∈ orth ++ diag) :
    (orient c d).1 = 1 ∨ (orient c d).1 = -1 ∨ (orient c d).2 = 1 ∨ (orient c d).2 = -1 := by
  cases c <;> revert d <;> decide

theorem slides_unit (k : Kind) {d : Dir} (hd : d ∈ k.slides) : d ∈ orth ++ diag := by
  cases k <;> revert d <;> decide

theorem mem_reach {c : Color} {k : Kind} {occ : Square → Bool} {s t : Square} (h : Attacks c k occ s t) : (X t, Y t) ∈ reach c k s := by
  unfold reach
  have ht := XY_range t
  have hs := XY_range s
  simp only [List.mem_filter, Bool.and_eq_true, decide_eq_true_eq]
  refine ⟨?_, ⟨⟨ht.1, ht.2.1⟩, ht.2.2.1⟩, ht.2.2.2⟩
  rw [List.mem_append]
  rcases h with ⟨d, hd, e1, e2⟩ | ⟨d, hd, j, hj, ⟨e1, e2⟩, -⟩
  · left
    refine List.mem_map.mpr ⟨d, hd, ?_⟩
    rw [e1, e2]; simp
  · right
    have hj8 : j ≤ 8 := by
      rcases orient_unit c (slides_unit k hd) with h | h | h | h <;> first | (rw [h] at e1; omega) | (rw [h] at e2; omega)
    refine List.mem_flatMap.mpr ⟨d, hd, List.mem_map.mpr ⟨(j : Int), ?_, ?_⟩⟩
    · have : j = 1 ∨ j = 2 ∨ j = 3 ∨ j = 4 ∨ j = 5 ∨ j = 6 ∨ j = 7 ∨ j = 8 := by omega
      rcases this with e | e | e | e | e | e | e | e <;> subst e <;> decide
    · rw [e1, e2]

theorem mem_freeMoves {q : Pos} {s t : Square} {b : Bool} {k : Kind} (hs : q.board s = some (q.turn, k)) (h : q.Pseudo (.move s t b)) :
    ((X t, Y t), b) ∈ freeMoves q.turn k s := by
  obtain ⟨k', hk, ha, -, hp, hn⟩ := h
  rw [hs] at hk
  obtain rfl : k = k' := by simpa using hk
  unfold freeMoves
  refine List.mem_flatMap.mpr ⟨(X t, Y t), mem_reach ha, List.mem_append.mpr ?_⟩
  cases b with
  | true =>
    left
    obtain ⟨h1, h2⟩ := hp rfl
    rw [if_pos]
    · simp
    · simp only [zone, farRank_eq_far] at h2
      simp [h1, h2]
  | false =>
    right
    have := hn rfl
    rw [if_neg]
    · simp
    · intro hd
      apply this
      cases k <;> simp only [deadB, Dead, farRank_eq_far, decide_eq_true_eq] at hd ⊢ <;> first | exact hd | cases hd

theorem freeMoves_le (c : Color) (k : Kind) : ∀ s : Square, (freeMoves c k s).length ≤ mx k (fr c s) := by
  cases c <;> cases k <;> decide +kernel

theorem rook_le (c : Color) : ∀ s t : Square, fr c s = 0 → fr c t = 0 → s ≠ t →
    ((freeMoves c .rook s).filter fun m => !decide (m.1 = (X t, Y t))).length ≤ 30 := by
  cases c <;> decide +kernel

/-! ### Adding up -/

/-- The kinds that become `h` when captured. -/
def kindsOf : HKind → List Kind
  | .pawn => [.pawn, .proPawn] | .lance => [.lance, .proLance] | .knight => [.knight, .proKnight]
  | .silver => [.silver, .proSilver] | .gold => [.gold] | .bishop => [.bishop, .horse] | .rook => [.rook, .dragon]

theorem mem_kindsOf {k : Kind} {h : HKind} (e : k.hand = some h) : k ∈ kindsOf h := by
  cases k <;> cases h <;> first | decide | cases e

/-- Moves of a piece when the opposing king stands on the far rank (`z`). -/
def mz (z : Bool) (k : Kind) (r : Nat) : Nat := if z && decide (k = .rook) && r == 0 then 30 else mx k r

def maxL : List Nat → Nat
  | [] => 0
  | n :: l => max n (maxL l)

theorem le_maxL {n : Nat} {l : List Nat} (h : n ∈ l) : n ≤ maxL l := by
  induction l with
  | nil => cases h
  | cons m l ih =>
    unfold maxL
    rcases List.mem_cons.mp h with rfl | h
    · omega
    · have := ih h; omega

/-- The most a piece of kind `h` on the board can add. -/
def gain (a : HKind → Bool) (z : Bool) (h : HKind) : Nat :=
  maxL ((kindsOf h).flatMap fun k => (List.range 9).map fun r => mz z k r - wt a r)

/-- The most the own king can add. -/
def gainK (a : HKind → Bool) : Nat := maxL ((List.range 9).map fun r => mx .king r - wt a r)

def total (a : HKind → Bool) : Nat := 9 * (wt a 0 + wt a 1 + wt a 2 + wt a 3 + wt a 4 + wt a 5 + wt a 6 + wt a 7 + wt a 8)

def pack (a0 a1 a2 a3 a4 a5 a6 : Bool) : HKind → Bool
  | .pawn => a0 | .lance => a1 | .knight => a2 | .silver => a3 | .gold => a4 | .bishop => a5 | .rook => a6

theorem pack_eq (a : HKind → Bool) : a = pack (a .pawn) (a .lance) (a .knight) (a .silver) (a .gold) (a .bishop) (a .rook) := by
  funext h; cases h <;> rfl

def gains (a : HKind → Bool) (z : Bool) : Nat :=
  (18 - b2n (a .pawn)) * gain a z .pawn + (4 - b2n (a .lance)) * gain a z .lance + (4 - b2n (a .knight)) * gain a z .knight +
  (4 - b2n (a .silver)) * gain a z .silver + (4 - b2n (a .gold)) * gain a z .gold + (2 - b2n (a .bishop)) * gain a z .bishop +
  (2 - b2n (a .rook)) * gain a z .rook

theorem grand_total (a : HKind → Bool) :
    total a + gainK a + gains a true ≤ 593 + wt a 0 ∧ total a + gainK a + gains a false ≤ 593 + wt a 1 := by
  have : ∀ a0 a1 a2 a3 a4 a5 a6 : Bool,
      total (pack a0 a1 a2 a3 a4 a5 a6) + gainK (pack a0 a1 a2 a3 a4 a5 a6) + gains (pack a0 a1 a2 a3 a4 a5 a6) true ≤
        593 + wt (pack a0 a1 a2 a3 a4 a5 a6) 0 ∧
      total (pack a0 a1 a2 a3 a4 a5 a6) + gainK (pack a0 a1 a2 a3 a4 a5 a6) + gains (pack a0 a1 a2 a3 a4 a5 a6) false ≤
        593 + wt (pack a0 a1 a2 a3 a4 a5 a6) 1 := by decide +kernel
  rw [pack_eq a]
  exact this _ _ _ _ _ _ _

theorem wt_mono (a : HKind → Bool) {r r' : Nat} (h : r ≤ r') : wt a r ≤ wt a r' := by
  have step : ∀ h : HKind, b2n (a h && dropOK h r) ≤ b2n (a h && dropOK h r') := by
    intro hk
    cases hd : dropOK hk r with
    | false => simp [b2n]
    | true =>
      have : dropOK hk r' = true := by cases hk <;> simp only [dropOK, decide_eq_true_eq] at hd ⊢ <;> omega
      rw [this]
  unfold wt
  have := step .pawn; have := step .lance; have := step .knight; have := step .silver; have := step .gold
  have := step .bishop; have := step .rook
  omega

theorem sum_wt (a : HKind → Bool) (c : Color) : ∑ t : Square, wt a (fr c t) = total a := by
  have h : ∀ a0 a1 a2 a3 a4 a5 a6 : Bool, ((List.finRange 81).map fun t => wt (pack a0 a1 a2 a3 a4 a5 a6) (fr c t)).sum =
      total (pack a0 a1 a2 a3 a4 a5 a6) := by cases c <;> decide +kernel
  rw [Fin.sum_univ_def, pack_eq a]
  exact h _ _ _ _ _ _ _

theorem sum_if (p : Square → Bool) (g : Nat) : ∑ t : Square, (if p t = true then g else 0) = (List.finRange 81).countP p * g := by
  rw [Fin.sum_univ_def]
  generalize List.finRange 81 = l
  induction l with
  | nil => simp
  | cons x l ih =>
    rw [List.map_cons, List.sum_cons, ih, List.countP_cons, Nat.add_mul]
    split <;> simp <;> omega

open Classical in
/-- The pseudo-legal moves from a square. -/
noncomputable def movesFrom (q : Pos) (s : Square) : Finset (Square × Bool) :=
  Finset.univ.filter fun tb => q.Pseudo (.move s tb.1 tb.2)

open Classical in
/-- The pseudo-legal drops of a kind. -/
noncomputable def dropsOf (q : Pos) (h : HKind) : Finset Square := Finset.univ.filter fun t => q.Pseudo (.drop h t)

theorem mem_movesFrom {q : Pos} {s : Square} {tb : Square × Bool} : tb ∈ movesFrom q s ↔ q.Pseudo (.move s tb.1 tb.2) := by
  simp only [movesFrom, Finset.mem_filter, Finset.mem_univ, true_and]

theorem mem_dropsOf {q : Pos} {h : HKind} {t : Square} : t ∈ dropsOf q h ↔ q.Pseudo (.drop h t) := by
  simp only [dropsOf, Finset.mem_filter, Finset.mem_univ, true_and]

theorem dropsOf_card (q : Pos) (h : HKind) [DecidablePred fun t => q.Pseudo (.drop h t)] :
    (dropsOf q h).card = ∑ t : Square, if q.Pseudo (.drop h t) then 1 else 0 := by
  rw [← Finset.card_filter]
  congr 1
  ext t
  simp only [dropsOf, Finset.mem_filter, Finset.mem_univ, true_and]

attribute [irreducible] movesFrom dropsOf

theorem coord_inj {s t : Square} (h : (X s, Y s) = (X t, Y t)) : s = t := by
  have h1 : X s = X t := congrArg Prod.fst h
  have h2 : Y s = Y t := congrArg Prod.snd h
  unfold X at h1; unfold Y at h2
  exact Fin.ext (by omega)

theorem movesFrom_le {q : Pos} {s : Square} {k : Kind} (hs : q.board s = some (q.turn, k)) (P : (Int × Int) × Bool → Bool)
    (hP : ∀ t b, q.Pseudo (.move s t b) → P ((X t, Y t), b) = true) :
    (movesFrom q s).card ≤ ((freeMoves q.turn k s).filter P).length := by
  classical
  have h1 : (movesFrom q s).card ≤ ((freeMoves q.turn k s).filter P).toFinset.card := by
    refine Finset.card_le_card_of_injOn (fun tb => ((X tb.1, Y tb.1), tb.2)) ?_ ?_
    · intro tb htb
      have htb := mem_movesFrom.mp (Finset.mem_coe.mp htb)
      rw [Finset.mem_coe, List.mem_toFinset, List.mem_filter]
      exact ⟨mem_freeMoves hs htb, hP _ _ htb⟩
    · intro tb _ tb' _ e
      have e1 : ((X tb.1, Y tb.1), tb.2) = ((X tb'.1, Y tb'.1), tb'.2) := e
      exact Prod.ext (coord_inj (Prod.ext_iff.mp e1).1) (Prod.ext_iff.mp e1).2
  exact h1.trans (List.toFinset_card_le _)

theorem movesFrom_empty {q : Pos} {s : Square} (hs : ∀ k, q.board s ≠ some (q.turn, k)) : (movesFrom q s).card = 0 := by
  rw [Finset.card_eq_zero, Finset.eq_empty_iff_forall_notMem]
  intro tb h
  obtain ⟨k, hk, -⟩ := mem_movesFrom.mp h
  exact hs k hk

section
variable {q : Pos} {k1 k2 : Square}

/-- Which kinds the player holds. -/
def held (q : Pos) (h : HKind) : Bool := decide (1 ≤ q.hand q.turn h)

/-- The opposing king on the far rank. -/
def zk (q : Pos) (k2 : Square) : Bool := fr q.turn k2 == 0

theorem movesFrom_mz (hk2 : ∀ s, q.board s = some (q.turn.opp, .king) ↔ s = k2) (hw : ¬ q.InCheck q.turn.opp) {s : Square} {k : Kind}
    (hs : q.board s = some (q.turn, k)) : (movesFrom q s).card ≤ mz (zk q k2) k (fr q.turn s) := by
  have hbase : (movesFrom q s).card ≤ mx k (fr q.turn s) := by
    refine (movesFrom_le hs (fun _ => true) (fun _ _ _ => rfl)).trans ?_
    rw [List.filter_true]
    exact freeMoves_le _ _ _
  unfold mz
  split
  · rename_i hc
    simp only [zk, Bool.and_eq_true, beq_iff_eq, decide_eq_true_eq] at hc
    obtain ⟨⟨hz, rfl⟩, hr⟩ := hc
    have hne : s ≠ k2 := by
      rintro rfl
      have := (hk2 s).mpr rfl
      rw [hs] at this
      simp at this
    refine (movesFrom_le hs (fun m => !decide (m.1 = (X k2, Y k2))) ?_).trans (rook_le q.turn s k2 hr hz hne)
    intro t b hp
    simp only [Bool.not_eq_true', decide_eq_false_iff_not]
    intro e
    obtain rfl := coord_inj e
    obtain ⟨k, hk, ha, -⟩ := hp
    have eo : q.turn.opp.opp = q.turn := by cases q.turn <;> rfl
    refine hw ⟨t, (hk2 t).mpr rfl, s, k, ?_, ?_⟩ <;> rw [eo]
    · exact hk
    · exact ha
  · exact hbase

open Classical in
/-- The share of one square in the number of moves. -/
noncomputable def share (q : Pos) (t : Square) : Nat := (movesFrom q t).card + if q.board t = none then wt (held q) (fr q.turn t) else 0

def handAt (q : Pos) (t : Square) (h : HKind) : Bool := decide ((q.board t).bind (·.2.hand) = some h)

/-- What the pieces on a square can add. -/
def adds (q : Pos) (z : Bool) (t : Square) (h : HKind) : Nat := if handAt q t h = true then gain (held q) z h else 0

theorem share_le (hk1 : ∀ s, q.board s = some (q.turn, .king) ↔ s = k1) (hk2 : ∀ s, q.board s = some (q.turn.opp, .king) ↔ s = k2)
    (hw : ¬ q.InCheck q.turn.opp) (t : Square) :
    share q t + (if t = k2 then wt (held q) (fr q.turn k2) else 0) ≤ wt (held q) (fr q.turn t) + (if t = k1 then gainK (held q) else 0) +
      (adds q (zk q k2) t .pawn + adds q (zk q k2) t .lance + adds q (zk q k2) t .knight + adds q (zk q k2) t .silver +
       adds q (zk q k2) t .gold + adds q (zk q k2) t .bishop + adds q (zk q k2) t .rook) := by
  unfold share
  rcases hb : q.board t with _ | ⟨c, k⟩
  · have h0 : (movesFrom q t).card = 0 := movesFrom_empty (fun k => by rw [hb]; simp)
    have : t ≠ k2 := by rintro rfl; have := (hk2 t).mpr rfl; rw [hb] at this; cases this
    rw [h0, if_pos rfl, if_neg this]
    omega
  · rw [if_neg (by simp)]
    by_cases hking : k = .king
    · subst hking
      by_cases hc : c = q.turn
      · subst hc
        have e1 : t = k1 := (hk1 t).mp hb
        have : t ≠ k2 := by
          rintro rfl; have := (hk2 t).mpr rfl; rw [hb] at this
          revert this; cases q.turn <;> simp [Color.opp]
        rw [if_pos e1, if_neg this]
        have hm := movesFrom_mz hk2 hw hb
        have : mz (zk q k2) .king (fr q.turn t) = mx .king (fr q.turn t) := by
          unfold mz; rw [if_neg]; simp
        rw [this] at hm
        have hg : mx .king (fr q.turn t) - wt (held q) (fr q.turn t) ≤ gainK (held q) :=
          le_maxL (List.mem_map.mpr ⟨_, List.mem_range.mpr (fr_lt _ _), rfl⟩)
        omega
      · have ho : c = q.turn.opp := by revert hc; cases c <;> cases q.turn <;> simp [Color.opp]
        rw [ho] at hb
        have e2 := (hk2 t).mp hb
        have h0 : (movesFrom q t).card = 0 := movesFrom_empty (fun k => by
          rw [hb]; cases q.turn <;> simp [Color.opp])
        rw [if_pos e2, h0, e2]
        omega
    · have hn2 : t ≠ k2 := by rintro rfl; have := (hk2 t).mpr rfl; rw [hb] at this; simp at this; exact hking this.2
      rw [if_neg hn2]
      have hm : (movesFrom q t).card ≤ mz (zk q k2) k (fr q.turn t) := by
        by_cases hc : c = q.turn
        · subst hc; exact movesFrom_mz hk2 hw hb
        · rw [movesFrom_empty]
          · omega
          · intro k'; rw [hb]; simp [hc]
      obtain ⟨h, hh⟩ : ∃ h, k.hand = some h := by
        cases k <;> first | exact absurd rfl hking | exact ⟨_, rfl⟩
      have hg : mz (zk q k2) k (fr q.turn t) - wt (held q) (fr q.turn t) ≤ gain (held q) (zk q k2) h :=
        le_maxL (List.mem_flatMap.mpr ⟨k, mem_kindsOf hh, List.mem_map.mpr ⟨_, List.mem_range.mpr (fr_lt _ _), rfl⟩⟩)
      have ha : adds q (zk q k2) t h = gain (held q) (zk q k2) h := by
        unfold adds handAt
        rw [hb]
        simp [hh]
      have hsum : adds q (zk q k2) t h ≤ adds q (zk q k2) t .pawn + adds q (zk q k2) t .lance + adds q (zk q k2) t .knight +
          adds q (zk q k2) t .silver + adds q (zk q k2) t .gold + adds q (zk q k2) t .bishop + adds q (zk q k2) t .rook := by
        cases h <;> omega
      split <;> omega

theorem sum_adds (q : Pos) (z : Bool) (h : HKind) : ∑ t : Square, adds q z t h = q.onBoard h * gain (held q) z h := by
  unfold adds Pos.onBoard
  rw [sum_if]
  rfl

theorem onBoard_le (hi : q.InSet) (h : HKind) : q.onBoard h ≤ h.total - b2n (held q h) := by
  have h1 := hi h
  unfold Pos.material at h1
  unfold held b2n
  cases hd : decide (1 ≤ q.hand q.turn h) with
  | false => simp; omega
  | true =>
    simp only [decide_eq_true_eq] at hd
    have : 1 ≤ q.hand .black h + q.hand .white h := by revert hd; cases q.turn <;> intro hd <;> omega
    simp; omega

theorem sum_share_le (hi : q.InSet) (hk1 : ∀ s, q.board s = some (q.turn, .king) ↔ s = k1)
    (hk2 : ∀ s, q.board s = some (q.turn.opp, .king) ↔ s = k2) (hw : ¬ q.InCheck q.turn.opp) : ∑ t : Square, share q t ≤ 593 := by
  have h := Finset.sum_le_sum (fun t (_ : t ∈ (Finset.univ : Finset Square)) => share_le hk1 hk2 hw t)
  simp only [Finset.sum_add_distrib, sum_adds, sum_wt] at h
  rw [Finset.sum_ite_eq' Finset.univ k2 (fun _ => wt (held q) (fr q.turn k2)), if_pos (Finset.mem_univ _),
    Finset.sum_ite_eq' Finset.univ k1 (fun _ => gainK (held q)), if_pos (Finset.mem_univ _)] at h
  have hb : ∀ z h, q.onBoard h * gain (held q) z h ≤ (h.total - b2n (held q h)) * gain (held q) z h :=
    fun z h => Nat.mul_le_mul_right _ (onBoard_le hi h)
  have hg : ∀ z, q.onBoard .pawn * gain (held q) z .pawn + q.onBoard .lance * gain (held q) z .lance +
      q.onBoard .knight * gain (held q) z .knight + q.onBoard .silver * gain (held q) z .silver +
      q.onBoard .gold * gain (held q) z .gold + q.onBoard .bishop * gain (held q) z .bishop +
      q.onBoard .rook * gain (held q) z .rook ≤ gains (held q) z := by
    intro z
    unfold gains
    have := hb z .pawn; have := hb z .lance; have := hb z .knight; have := hb z .silver; have := hb z .gold
    have := hb z .bishop; have := hb z .rook
    simp only [HKind.total] at *
    omega
  have hgt := grand_total (held q)
  have hz := hg (zk q k2)
  cases e : zk q k2 with
  | true =>
    have : fr q.turn k2 = 0 := by simpa [zk] using e
    rw [e] at hz h
    rw [this] at h
    omega
  | false =>
    have : 1 ≤ fr q.turn k2 := by have : fr q.turn k2 ≠ 0 := by simpa [zk] using e
                                  omega
    have := wt_mono (held q) this
    rw [e] at hz h
    omega

theorem dropsOf_le (h : HKind) : (dropsOf q h).card ≤
    ∑ t : Square, if q.board t = none then b2n (held q h && dropOK h (fr q.turn t)) else 0 := by
  classical
  rw [dropsOf_card]
  refine Finset.sum_le_sum fun t _ => ?_
  split
  · rename_i hp
    obtain ⟨h1, h2, h3, -⟩ := hp
    rw [if_pos h2, dropOK_of h3]
    simp [held, h1, b2n]
  · exact Nat.zero_le _

theorem sum_drops_le : (dropsOf q .pawn).card + (dropsOf q .lance).card + (dropsOf q .knight).card + (dropsOf q .silver).card +
    (dropsOf q .gold).card + (dropsOf q .bishop).card + (dropsOf q .rook).card ≤
    ∑ t : Square, if q.board t = none then wt (held q) (fr q.turn t) else 0 := by
  have hsum : (∑ t : Square, if q.board t = none then wt (held q) (fr q.turn t) else 0) =
      ∑ t : Square, ((if q.board t = none then b2n (held q .pawn && dropOK .pawn (fr q.turn t)) else 0) +
        (if q.board t = none then b2n (held q .lance && dropOK .lance (fr q.turn t)) else 0) +
        (if q.board t = none then b2n (held q .knight && dropOK .knight (fr q.turn t)) else 0) +
        (if q.board t = none then b2n (held q .silver && dropOK .silver (fr q.turn t)) else 0) +
        (if q.board t = none then b2n (held q .gold && dropOK .gold (fr q.turn t)) else 0) +
        (if q.board t = none then b2n (held q .bishop && dropOK .bishop (fr q.turn t)) else 0) +
        (if q.board t = none then b2n (held q .rook && dropOK .rook (fr q.turn t)) else 0)) := by
    refine Finset.sum_congr rfl fun t _ => ?_
    by_cases hb : q.board t = none
    · simp only [if_pos hb]; rfl
    · simp only [if_neg hb]
  rw [hsum]
  simp only [Finset.sum_add_distrib]
  have := dropsOf_le (q := q) .pawn; have := dropsOf_le (q := q) .lance; have := dropsOf_le (q := q) .knight
  have := dropsOf_le (q := q) .silver; have := dropsOf_le (q := q) .gold; have := dropsOf_le (q := q) .bishop
  have := dropsOf_le (q := q) .rook
  omega

open Classical in
/-- All pseudo-legal moves. -/
noncomputable def allMoves (q : Pos) : Finset Mv :=
  (Finset.univ.biUnion fun s : Square => (movesFrom q s).image fun tb => Mv.move s tb.1 tb.2) ∪
  ((dropsOf q .pawn).image (Mv.drop .pawn) ∪ (dropsOf q .lance).image (Mv.drop .lance) ∪ (dropsOf q .knight).image (Mv.drop .knight) ∪
   (dropsOf q .silver).image (Mv.drop .silver) ∪ (dropsOf q .gold).image (Mv.drop .gold) ∪
   (dropsOf q .bishop).image (Mv.drop .bishop) ∪ (dropsOf q .rook).image (Mv.drop .rook))

theorem mem_allMoves {m : Mv} (h : q.Pseudo m) : m ∈ allMoves q := by
  simp only [allMoves, Finset.mem_union, Finset.mem_biUnion, Finset.mem_image]
  cases m with
  | move s t b => exact Or.inl ⟨s, Finset.mem_univ _, (t, b), mem_movesFrom.mpr h, rfl⟩
  | drop k t =>
    have ht : t ∈ dropsOf q k := mem_dropsOf.mpr h
    have hex : ∃ a ∈ dropsOf q k, Mv.drop k a = Mv.drop k t := ⟨t, ht, rfl⟩
    refine Or.inr ?_
    cases k <;> simp only [hex, true_or, or_true]

theorem card_allMoves : (allMoves q).card ≤ ∑ t : Square, share q t := by
  classical
  unfold allMoves
  have h1 : (Finset.univ.biUnion fun s : Square => (movesFrom q s).image fun tb => Mv.move s tb.1 tb.2).card ≤
      ∑ s : Square, (movesFrom q s).card :=
    Finset.card_biUnion_le.trans (Finset.sum_le_sum fun s _ => Finset.card_image_le)
  have h2 := sum_drops_le (q := q)
  have e : ∑ t : Square, share q t = (∑ s : Square, (movesFrom q s).card) +
      ∑ t : Square, if q.board t = none then wt (held q) (fr q.turn t) else 0 := by
    rw [← Finset.sum_add_distrib]
    refine Finset.sum_congr rfl fun t _ => ?_
    unfold share
    congr
  rw [e]
  refine (Finset.card_union_le _ _).trans (Nat.add_le_add h1 (le_trans ?_ h2))
  have u := fun (s t : Finset Mv) => Finset.card_union_le s t
  have im := fun k => Finset.card_image_le (s := dropsOf q k) (f := Mv.drop k)
  refine (u _ _).trans (Nat.add_le_add ?_ (im _))
  refine (u _ _).trans (Nat.add_le_add ?_ (im _))
  refine (u _ _).trans (Nat.add_le_add ?_ (im _))
  refine (u _ _).trans (Nat.add_le_add ?_ (im _))
  refine (u _ _).trans (Nat.add_le_add ?_ (im _))
  exact (u _ _).trans (Nat.add_le_add (im _) (im _))

attribute [irreducible] allMoves

/-- At most 593 pseudo-legal moves. -/
theorem pseudo_le (hi : q.InSet) (hk1 : ∀ s, q.board s = some (q.turn, .king) ↔ s = k1)
    (hk2 : ∀ s, q.board s = some (q.turn.opp, .king) ↔ s = k2) (hw : ¬ q.InCheck q.turn.opp) {l : List Mv} (nd : l.Nodup)
    (hl : ∀ m ∈ l, q.Pseudo m) : l.length ≤ 593 := by
  classical
  rw [← List.toFinset_card_of_nodup nd]
  have hsub : l.toFinset ⊆ allMoves q := by
    intro m hm
    rw [List.mem_toFinset] at hm
    exact mem_allMoves (hl m hm)
  refine (Finset.card_le_card hsub).trans ?_
  exact card_allMoves.trans (sum_share_le hi hk1 hk2 hw)

end

end Verif
