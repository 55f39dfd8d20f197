import Verif.Model.MoveIter
import Verif.Props.Legal
import Verif.Props.Csa
import Verif.Spec.Line

/-! C92: `legal_moves` as an iterator, and counting games with it. -/

namespace Verif

open Verif.Spec Verif.Position

theorem takeN_spec (n : Nat) : ∀ it : MoveIter, it.curr ≤ it.moves.length →
    it.takeN n = ((List.range n).map fun i => it.moves[it.curr + i]?, ⟨it.moves, min (it.curr + n) it.moves.length⟩) := by
  induction n with
  | zero => intro it h; simp [MoveIter.takeN, Nat.min_eq_left h]
  | succ n ih =>
    intro it h
    unfold MoveIter.takeN
    rw [List.range_succ_eq_map]
    by_cases he : it.curr = it.moves.length
    · have hn : it.next = (none, it) := if_pos he
      rw [hn, ih it h]
      refine Prod.ext ?_ ?_
      · simp only [List.map_cons, List.map_map, Nat.add_zero]
        congr 1
        · rw [List.getElem?_eq_none (by omega)]
        · apply List.map_congr_left
          intro i _
          simp only [Function.comp]
          rw [List.getElem?_eq_none (by omega), List.getElem?_eq_none (by omega)]
      · simp only [MoveIter.mk.injEq, true_and]
        omega
    · have hn : it.next = (it.moves[it.curr]?, ⟨it.moves, it.curr + 1⟩) := if_neg he
      rw [hn, ih ⟨it.moves, it.curr + 1⟩ (by simp only; omega)]
      refine Prod.ext ?_ ?_
      · simp only [List.map_cons, List.map_map, Nat.add_zero]
        congr 1
        apply List.map_congr_left
        intro i _
        simp only [Function.comp]
        congr 1
        omega
      · simp only [MoveIter.mk.injEq, true_and]
        omega

theorem takeN_all (l : List Move) (n : Nat) :
    (MoveIter.takeN (l.length + n) ⟨l, 0⟩).1 = l.map some ++ List.replicate n none := by
  rw [takeN_spec _ _ (Nat.zero_le _)]
  apply List.ext_getElem?
  intro i
  simp only [Nat.zero_add]
  rw [List.getElem?_map]
  by_cases h1 : i < l.length
  · rw [List.getElem?_range (by omega), List.getElem?_append_left (by simpa using h1)]
    simp [h1]
  · by_cases h2 : i < l.length + n
    · rw [List.getElem?_range h2, List.getElem?_append_right (by simpa using h1)]
      simp only [List.length_map, Option.map_some]
      rw [List.getElem?_replicate, if_pos (by omega), List.getElem?_eq_none (by omega)]
    · rw [List.getElem?_eq_none (by simpa using h2), List.getElem?_eq_none (by simp; omega)]
      rfl

/-- **C92**: reading `legal_moves` to the end gives every legal move exactly once and then nothing more, however often one asks;
`len` is the number of legal moves all the time. -/
theorem C92_reading (p : Position) (hp : Consistent p) (hc : CheckOK p) (hr : (absPos p).Regular) :
    ∃ (it : MoveIter) (l : List Move), MoveIter.legal p = some it ∧ l.Nodup ∧
      (∀ m, m ∈ l ↔ ∃ mv, m = encode p mv ∧ (absPos p).Legal mv) ∧
      (∀ n, (it.takeN (l.length + n)).1 = l.map some ++ List.replicate n none) ∧
      ∀ n, (it.takeN n).2.len = Set.ncard {mv | (absPos p).Legal mv} := by
  obtain ⟨l, e, nd, hm⟩ := genLegal_spec hp hc hr
  obtain ⟨l', e', -, hcard⟩ := C26_count p hp hc hr
  rw [e] at e'
  injection e' with e'
  subst e'
  refine ⟨⟨l, 0⟩, l, by unfold MoveIter.legal; rw [e]; rfl, nd, hm, takeN_all l, fun n => ?_⟩
  rw [takeN_spec _ _ (Nat.zero_le _)]
  exact hcard

/-- **C92**: the same for `pseudo_legal_moves`: moves by the movement, promotion and drop rules, each once, all legal moves
among them, then nothing more. -/
theorem C92_reading_pseudo (p : Position) (hp : Consistent p) (hc : CheckOK p) (hr : (absPos p).Regular) :
    ∃ (it : MoveIter) (l : List Move), MoveIter.pseudo p = some it ∧ l.Nodup ∧
      (∀ m ∈ l, ∃ mv, m = encode p mv ∧ (absPos p).Pseudo mv) ∧ (∀ mv, (absPos p).Legal mv → encode p mv ∈ l) ∧
      (∀ n, (it.takeN (l.length + n)).1 = l.map some ++ List.replicate n none) ∧ ∀ n, (it.takeN n).2.len = l.length := by
  obtain ⟨l, e, nd, h1, h2⟩ := C25_pseudo_legal p hp hc hr
  refine ⟨⟨l, 0⟩, l, by unfold MoveIter.pseudo; rw [e]; rfl, nd, h1, h2, takeN_all l, fun n => ?_⟩
  rw [takeN_spec _ _ (Nat.zero_le _)]
  rfl

example (Z : Zobrist) : Consistent (startModel Z) ∧ CheckOK (startModel Z) ∧ (absPos (startModel Z)).Regular :=
  ⟨(startModel_ok Z).1.views, (startModel_ok Z).2⟩

variable {Z : Zobrist}

/-- The lines that begin with one of the given moves. -/
theorem forEach_spec {p : Position} (hp : Csa.Good Z p) (h : List HistEntry) {d : Nat}
    {visit : Board → Option (Nat × Board)}
    (hv : ∀ b : Board, Csa.Good Z b.pos → ∃ L : List (List Mv), visit b = some (L.length, b) ∧ L.Nodup ∧
      ∀ ms, ms ∈ L ↔ (absPos b.pos).Line ms ∧ ms.length = d) (rest : List Mv) :
    ∀ (it : MoveIter) (fuel : Nat), it.curr ≤ it.moves.length → it.moves.drop it.curr = rest.map (encode p) →
      rest.Nodup → (∀ m ∈ rest, (absPos p).Legal m) → rest.length < fuel →
      ∃ L : List (List Mv), forEach Z visit fuel it ⟨p, h⟩ = some (L.length, ⟨p, h⟩) ∧ L.Nodup ∧
        ∀ ms, ms ∈ L ↔ ∃ m t, ms = m :: t ∧ m ∈ rest ∧ ((absPos p).play m).Line t ∧ t.length = d := by
  induction rest with
  | nil =>
    intro it fuel hc hd _ _ hf
    obtain ⟨fuel, rfl⟩ : ∃ f, fuel = f + 1 := ⟨fuel - 1, by omega⟩
    have he : it.curr = it.moves.length := by
      have := congrArg List.length hd
      simp at this
      omega
    have hn : it.next = (none, it) := if_pos he
    refine ⟨[], ?_, List.nodup_nil, ?_⟩
    · unfold forEach
      rw [hn]
      rfl
    · intro ms
      constructor
      · intro h; exact absurd h List.not_mem_nil
      · rintro ⟨m, t, -, hm, -⟩; exact absurd hm List.not_mem_nil
  | cons m rest ih =>
    intro it fuel hc hd hnd hl hf
    obtain ⟨fuel, rfl⟩ : ∃ f, fuel = f + 1 := ⟨fuel - 1, by omega⟩
    have hlt : it.curr < it.moves.length := by
      have := congrArg List.length hd
      simp at this
      omega
    rw [List.drop_eq_getElem_cons hlt, List.map_cons] at hd
    obtain ⟨hd1, hd2⟩ := List.cons.inj hd
    have hn : it.next = (some (encode p m), ⟨it.moves, it.curr + 1⟩) := by
      unfold MoveIter.next
      rw [if_neg (by omega), List.getElem?_eq_getElem hlt, hd1]
    have hm : (absPos p).Legal m := hl m List.mem_cons_self
    obtain ⟨p', e, hg, ha⟩ := hp.doMove hm
    obtain ⟨b', hpush, hpop⟩ := C17_pop_push Z ⟨p, h⟩ hp.inv m
      (pseudo_playable hm.1.1 hp.regular.waiting)
    have hb' : b' = ⟨p', .move (encode p m) :: h⟩ := by
      have : Board.push Z ⟨p, h⟩ (encode p m) = some ⟨p', .move (encode p m) :: h⟩ := by simp [Board.push, e]
      rw [this] at hpush
      exact (Option.some.inj hpush).symm
    obtain ⟨L1, hv1, nd1, hm1⟩ := hv b' (by rw [hb']; exact hg)
    obtain ⟨L2, hf2, nd2, hm2⟩ := ih ⟨it.moves, it.curr + 1⟩ fuel (by simp only; omega) hd2 (List.nodup_cons.1 hnd).2
      (fun x hx => hl x (List.mem_cons_of_mem _ hx)) (by simp only [List.length_cons] at hf; omega)
    refine ⟨L1.map (m :: ·) ++ L2, ?_, ?_, ?_⟩
    · unfold forEach
      rw [hn]
      simp only [hpush, Option.bind_some, hv1, hpop, hf2, List.length_append, List.length_map]
    · rw [List.nodup_append]
      refine ⟨nd1.map (fun a b h => (List.cons.inj h).2), nd2, ?_⟩
      intro x hx y hy hxy
      obtain ⟨t, -, rfl⟩ := List.mem_map.1 hx
      obtain ⟨m', t', e', hm', -⟩ := (hm2 y).1 hy
      rw [← hxy] at e'
      rw [← (List.cons.inj e').1] at hm'
      exact (List.nodup_cons.1 hnd).1 hm'
    · intro ms
      rw [List.mem_append, List.mem_map, hm2]
      have hpos : absPos b'.pos = (absPos p).play m := by rw [hb']; exact ha
      constructor
      · rintro (⟨t, ht, rfl⟩ | ⟨m', t, rfl, hm', h3, h4⟩)
        · have := (hm1 t).1 ht
          rw [hpos] at this
          exact ⟨m, t, rfl, List.mem_cons_self, this⟩
        · exact ⟨m', t, rfl, List.mem_cons_of_mem _ hm', h3, h4⟩
      · rintro ⟨m', t, rfl, hm', h3, h4⟩
        rcases List.mem_cons.1 hm' with rfl | hm'
        · exact Or.inl ⟨t, (hm1 t).2 (by rw [hpos]; exact ⟨h3, h4⟩), rfl⟩
        · exact Or.inr ⟨m', t, rfl, hm', h3, h4⟩

theorem countGames_spec (d : Nat) : ∀ b : Board, Csa.Good Z b.pos → ∃ L : List (List Mv),
    countGames Z d b = some (L.length, b) ∧ L.Nodup ∧ ∀ ms, ms ∈ L ↔ (absPos b.pos).Line ms ∧ ms.length = d := by
  induction d with
  | zero =>
    intro b _
    refine ⟨[[]], rfl, by simp, fun ms => ?_⟩
    rw [List.mem_singleton]
    constructor
    · rintro rfl; exact ⟨trivial, rfl⟩
    · rintro ⟨-, h⟩; exact List.length_eq_zero_iff.1 h
  | succ d ih =>
    rintro ⟨p, h⟩ hp
    obtain ⟨l, e, nd, hm⟩ := genLegal_spec hp.inv.views hp.check hp.regular
    obtain ⟨rest, hrest⟩ : ∃ rest : List Mv, l = rest.map (encode p) ∧ ∀ m ∈ rest, (absPos p).Legal m := by
      clear nd e
      have : ∀ l' : List Move, (∀ m ∈ l', ∃ mv, m = encode p mv ∧ (absPos p).Legal mv) →
          ∃ rest : List Mv, l' = rest.map (encode p) ∧ ∀ m ∈ rest, (absPos p).Legal m := by
        intro l'
        induction l' with
        | nil => intro _; exact ⟨[], rfl, fun m h => absurd h List.not_mem_nil⟩
        | cons x l' ih =>
          intro hh
          obtain ⟨rest, h1, h2⟩ := ih fun m hm => hh m (List.mem_cons_of_mem _ hm)
          obtain ⟨mv, h3, h4⟩ := hh x List.mem_cons_self
          refine ⟨mv :: rest, by rw [List.map_cons, ← h1, ← h3], fun m hm => ?_⟩
          rcases List.mem_cons.1 hm with rfl | hm
          · exact h4
          · exact h2 m hm
      exact this l fun m h => (hm m).1 h
    have hnd : rest.Nodup := by rw [hrest.1] at nd; exact List.Nodup.of_map _ nd
    have hall : ∀ mv, (absPos p).Legal mv → mv ∈ rest := by
      intro mv hl
      have := (hm (encode p mv)).2 ⟨mv, rfl, hl⟩
      rw [hrest.1] at this
      obtain ⟨mv', h1, h2⟩ := List.mem_map.1 this
      rwa [← encode_inj p h2]
    obtain ⟨L, hL, ndL, hmL⟩ := forEach_spec hp h ih rest ⟨l, 0⟩ (l.length + 1) (Nat.zero_le _) hrest.1 hnd hrest.2
      (by rw [hrest.1, List.length_map]; omega)
    refine ⟨L, ?_, ndL, fun ms => ?_⟩
    · unfold countGames MoveIter.legal
      simp only [e, Option.map_some, Option.bind_some]
      exact hL
    · rw [hmL]
      constructor
      · rintro ⟨m, t, rfl, h1, h2, h3⟩
        exact ⟨⟨hrest.2 m h1, h2⟩, by rw [List.length_cons, h3]⟩
      · rintro ⟨h1, h2⟩
        cases ms with
        | nil => cases h2
        | cons m t => exact ⟨m, t, rfl, hall m h1.1, h1.2, by simpa using h2⟩

/-- **C92**: reading `legal_moves` while pushing and popping its moves on the same board, to any depth, counts every line of
legal moves of that length exactly once and leaves the board, with its history, as it was. -/
theorem C92_games (d : Nat) (b : Board) (hi : Inv Z b.pos) (hc : CheckOK b.pos) (hr : (absPos b.pos).Regular) :
    countGames Z d b = some (Set.ncard {ms | (absPos b.pos).Line ms ∧ ms.length = d}, b) := by
  obtain ⟨L, h1, nd, hm⟩ := countGames_spec d b ⟨hi, hc, hr⟩
  rw [h1]
  congr 2
  have : {ms | (absPos b.pos).Line ms ∧ ms.length = d} = ↑L.toFinset := by
    ext ms
    rw [Set.mem_setOf_eq, List.coe_toFinset, Set.mem_setOf_eq, hm]
  rw [this, Set.ncard_coe_finset, List.toFinset_card_of_nodup nd]

end Verif
