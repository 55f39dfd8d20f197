import Verif.Lemmas.DfpnPv

/-!
# C59 - C62: the df-pn mate search

`DfPn.search` is `Dfpn.pySearch`, `search_andnode` is `searchAnd`, `get_move` is `getMove` and `get_pv` is `getPv` (Verif/Model/Dfpn.lean).
Forced mates are those of Verif/Spec/Mate.lean without regard to repetition. As for the other mate search, the losing side is taken
not to decline a promotion (`keenReply`), since the search does not look at such replies.

The theorems are about searches that end: the model gives `none` for a search that has not ended within `fuel` nested calls and rounds,
and for one that overruns a buffer of moves.

`Clean` (Verif/Lemmas/DfpnLine.lean) asks that, among the positions that may come up in the search, those with equal hash keys
have equal boards, and that no repetition is judged by `is_draw(16)` as won by the attacker. The search relies on the first. The second
is a matter of the moves played before; the table of the search does not record how a position came about.
-/

namespace Verif
open Spec Bitboard Position Dfpn HandDom

/-- The limit of depth, as the search computes it. -/
def Dfpn.Config.maxDepth (c : Config) (p : Position) : Int := (c.limits p).maxDepth

theorem search_core {Z : Zobrist} {maxDepth : Int} {A : Color} {p : Position} (hV : Tree Z maxDepth A (Dfpn.Line Z maxDepth A p)) {L : Limits}
    (hL : L.maxDepth = maxDepth) {orNode : Bool} (ho : orNode = true ↔ p.turn = A) {fuel : Nat} {s : State}
    (he : inner Z L fuel orNode inf inf ⟨p, .empty, 0⟩ = some s) :
    s.pos = p ∧ TableOK (Proved A (Dfpn.Line Z maxDepth A p)) (s.tt.node orNode s.pos).1 ∧
      (((s.tt.node orNode s.pos).1.get (s.tt.node orNode s.pos).2).pn = 0 → Wins A (absPos p)) := by
  obtain ⟨h1, h2, -⟩ := inner_ok hV hL fuel orNode inf inf _ s he .root ho empty_ok (le_refl _) (le_refl _) (by
    show Entry.Unsettled _
    have : ((Table.empty.node orNode p).1.get (Table.empty.node orNode p).2) = .fresh (attHand orNode p) (depthOf p.gamePly) := by
      simp [Table.node, Table.look, Table.get, Table.empty, find]
    rw [this]; exact fresh_unsettled _ _)
  dsimp only at h1
  obtain ⟨hf, hT⟩ := hV.node .root ho h2
  rw [h1]
  refine ⟨rfl, hT, fun h0 => ?_⟩
  obtain ⟨w1, w2⟩ := hV.found_wins .root hf hT h0
  exact w1.wins fun k => counts_le w2 k

section
variable (Z : Zobrist) (c : Config) (p : Position) (hp : Inv Z p) (hc : CheckOK p) (hr : (absPos p).Regular)
  (hl : p.st.pliesFromNull ≤ p.prev.length)
include hp hc hr hl

theorem search_mates (hply : 0 ≤ p.gamePly ∧ p.gamePly ≤ 65533) (hd : c.maxDepth p ≤ 65533)
    (hcl : Clean Z (c.maxDepth p) p.turn p) (fuel : Nat) (p' : Position) (T : Table) (h : search Z c fuel p = some (true, p', T)) :
    ∃ n, MatesIn keenReply n (absPos p) := by
  have hs : Sound Z p := ⟨hp, hc, hr, hl⟩
  have hV := line_tree hs (fun e => absurd e (by cases p.turn <;> decide)) hply hd hcl
  have hgo : ∀ {s : State}, inner Z (c.limits p) fuel true inf inf ⟨p, .empty, 0⟩ = some s →
      decide (((s.tt.node true s.pos).1.get (s.tt.node true s.pos).2).pn = 0) = true → ∃ n, MatesIn keenReply n (absPos p) := by
    intro s he hb
    exact ((search_core hV rfl (iff_of_true rfl rfl) he).2.2 (of_decide_eq_true hb)).1 rfl
  unfold search at h
  dsimp only at h
  split at h
  · obtain ⟨s, he, h⟩ := Option.map_eq_some_iff.mp h
    exact hgo he (congrArg Prod.fst h)
  · next hin =>
    obtain ⟨m, hm, h⟩ := Option.bind_eq_some_iff.mp h
    split at h
    · obtain ⟨s, he, h⟩ := Option.map_eq_some_iff.mp h
      exact hgo he (congrArg Prod.fst h)
    · next hne =>
      obtain ⟨r, h1, h2⟩ := mate1_found hs (fun h => hin (hc.inCheck.mpr h))
      cases hm.symm.trans h1
      obtain ⟨mv, l1, l2, -⟩ := h2 hne
      exact ⟨0, mv, l1, l2⟩

/-- **C59** for `search_andnode`, called in a position where the side to move is in check: likewise, an answer true means that the side
to move loses by force. -/
theorem C59_search_andnode_partial (hin : (absPos p).InCheck p.turn) (hply : 0 ≤ p.gamePly ∧ p.gamePly ≤ 65533)
    (hd : c.maxDepth p ≤ 65533) (hcl : Clean Z (c.maxDepth p) p.turn.opp p) (fuel : Nat) (p' : Position) (T : Table)
    (h : searchAnd Z c fuel p = some (true, p', T)) : ∃ n, LosesIn keenReply n (absPos p) := by
  have hs : Sound Z p := ⟨hp, hc, hr, hl⟩
  have hV := line_tree (A := p.turn.opp) hs (fun _ => hin) hply hd hcl
  unfold searchAnd at h
  dsimp only at h
  obtain ⟨s, he, h⟩ := Option.map_eq_some_iff.mp h
  exact ((search_core hV rfl (orNode := false) (iff_of_false Bool.false_ne_true (fun e => absurd e (ne_opp _))) he).2.2 (of_decide_eq_true (congrArg Prod.fst h))).2 (opp_opp _).symm

/-- The table after a search. -/
theorem search_table (hply : 0 ≤ p.gamePly ∧ p.gamePly ≤ 65533) (hd : c.maxDepth p ≤ 65533) (hd' : p.gamePly + 1 ≤ c.maxDepth p)
    (hcl : Clean Z (c.maxDepth p) p.turn p)
    (fuel : Nat) (b : Bool) (p' : Position) (T : Table) (h : search Z c fuel p = some (b, p', T)) :
    TableOK (Proved p.turn (Dfpn.Line Z (c.maxDepth p) p.turn p)) T := by
  have hs : Sound Z p := ⟨hp, hc, hr, hl⟩
  have hV := line_tree hs (fun e => absurd e (by cases p.turn <;> decide)) hply hd hcl
  have hgo : ∀ {s : State}, inner Z (c.limits p) fuel true inf inf ⟨p, .empty, 0⟩ = some s →
      TableOK (Proved p.turn (Dfpn.Line Z (c.maxDepth p) p.turn p)) (s.tt.node true s.pos).1 :=
    fun he => (search_core hV rfl (iff_of_true rfl rfl) he).2.1
  unfold search at h
  dsimp only at h
  split at h
  · obtain ⟨s, he, h⟩ := Option.map_eq_some_iff.mp h
    cases h; exact hgo he
  · next hin =>
    obtain ⟨m, hm, h⟩ := Option.bind_eq_some_iff.mp h
    split at h
    · obtain ⟨s, he, h⟩ := Option.map_eq_some_iff.mp h
      cases h; exact hgo he
    · next hne =>
      obtain ⟨r, h1, h2⟩ := mate1_found hs (fun h => hin (hc.inCheck.mpr h))
      cases hm.symm.trans h1
      obtain ⟨mv, l1, l2, l3⟩ := h2 hne
      cases h
      have hck : ((absPos p).play mv).InCheck p.turn.opp := by have := l2.1; rw [play_turn] at this; exact this
      obtain ⟨p2, hstep⟩ := hV.step_check .root rfl hd' l1 hck
      have hlook : ∀ k hd d, Table.empty.look k hd d = (fun k' => if k' = k then [Entry.fresh hd d] else [], ⟨k, 0⟩) := by
        intro k hd d
        simp only [Table.look, Table.empty, find, List.nil_append, List.length_nil]
      unfold Table.child
      rw [hlook]
      dsimp only
      have hget : ∀ k hd d, Table.get (fun k' => if k' = k then [Entry.fresh hd d] else []) ⟨k, 0⟩ = .fresh hd d := by
        intro k hd d; simp [Table.get]
      rw [hget]
      have hpl := pseudo_playable l1.1.1 hr.waiting
      have hch : childHand true p m = p2.hand p.turn ∧ getBoardKeyAfter Z p m = p2.st.boardKey := by
        rw [← childHand_or hp.views hpl hstep.make, ← (hV.child_eq .root hstep (orNode := true) (iff_of_true rfl rfl)).1]
        rcases l3 with rfl | ⟨f, t, kd, rfl, hb, -, rfl⟩
        · exact ⟨rfl, rfl⟩
        · obtain ⟨hst, ⟨k, hs1, hpro⟩, -⟩ := hpl
          obtain ⟨g1, g2, -, g3, g4⟩ := gold_fields p hst
          have hpt : pieceType (p.piece f) = k.code := by rw [hp.views.code, hs1, pieceType_pieceCode]; rfl
          obtain ⟨b1, b3, -, -, b2, -, -, -, b4⟩ := board_fields p f t false k hpt hpro
          have b1 : sqN (encode p (.move f t false)).dst = t := b1
          have b2 : (encode p (.move f t false)).isDrop = false := b2
          have b3 : sqN (encode p (.move f t false)).src = f := b3
          have b4 : (encode p (.move f t false)).isPromotion = false := b4
          constructor
          · unfold childHand
            rw [g1, g2, b1, b2]
            rw [if_pos rfl, if_pos rfl, if_neg Bool.false_ne_true, if_neg Bool.false_ne_true]
          · show _ = getBoardKeyAfter Z p (encode p (.move f t false))
            unfold getBoardKeyAfter
            dsimp only
            rw [g1, g2, g3, g4, b1, b2, b3, b4]
            simp only [if_neg Bool.false_ne_true]
      have hwf : (childHand true p m).WF := by rw [hch.1]; exact hstep.sound.inv.views.hand _
      refine put_ok ?_ (cell_proved hV hwf ?_ (by decide : inf ≤ inf + 1))
      · intro k e he
        dsimp only at he
        split at he
        · rw [List.mem_singleton] at he
          rw [he]; exact fresh_ok hwf _ _
        · cases he
      · show Proved _ _ (getBoardKeyAfter Z p m) (childHand true p m)
        rw [hch.2, hch.1]
        refine hV.proved_wins hstep.mem ⟨fun e => ?_, fun _ => ⟨0, ?_⟩⟩ fun _ _ => le_refl _
        · exact absurd (hstep.turn.symm.trans e) (by cases p.turn <;> decide)
        · rw [hstep.abs]; exact l2

theorem search_same (fuel : Nat) (b : Bool) (p' : Position) (T : Table) (h : search Z c fuel p = some (b, p', T)) : p' = p := by
  have hg : Good Z true p := ⟨⟨hp, hc, hr, hl⟩, fun e => by cases e⟩
  unfold search at h
  dsimp only at h
  split at h
  · obtain ⟨s, he, h⟩ := Option.map_eq_some_iff.mp h
    cases h; exact inner_same fuel _ _ _ _ _ he hg
  · obtain ⟨m, hm, h⟩ := Option.bind_eq_some_iff.mp h
    split at h
    · obtain ⟨s, he, h⟩ := Option.map_eq_some_iff.mp h
      cases h; exact inner_same fuel _ _ _ _ _ he hg
    · cases h; rfl

theorem pySearch_inv {fuel : Nat} {b : Bool} {s : PvRes} (h : pySearch Z c fuel p = some (b, s)) :
    ∃ T, search Z c fuel p = some (b, p, T) ∧
      (b = true ∧ getPv Z fuel p T = some s ∨ b = false ∧ s = ⟨0, p, T, []⟩) := by
  unfold pySearch at h
  obtain ⟨⟨b', p', T⟩, h1, h⟩ := Option.bind_eq_some_iff.mp h
  rw [search_same Z c p hp hc hr hl fuel b' p' T h1] at h h1
  dsimp only at h
  split at h
  · next hb =>
    obtain ⟨s', h2, h⟩ := Option.map_eq_some_iff.mp h
    cases h
    exact ⟨T, by rw [h1, hb], .inl ⟨rfl, h2⟩⟩
  · next hb =>
    cases h
    exact ⟨T, by rw [h1, Bool.eq_false_iff.mpr hb], .inr ⟨rfl, rfl⟩⟩

/-- **C59** for `search`, the part that holds: in every regular position, if no hash keys collide and no repetition interferes, an
answer true means that the side to move has a forced mate, if the opponent never declines a promotion. -/
theorem C59_search_partial (hply : 0 ≤ p.gamePly ∧ p.gamePly ≤ 65533) (hd : c.maxDepth p ≤ 65533)
    (hcl : Clean Z (c.maxDepth p) p.turn p) (fuel : Nat) (s : PvRes) (h : pySearch Z c fuel p = some (true, s)) :
    ∃ n, MatesIn keenReply n (absPos p) := by
  obtain ⟨T, h1, -⟩ := pySearch_inv Z c p hp hc hr hl h
  exact search_mates Z c p hp hc hr hl hply hd hcl fuel p T h1

/-- **C61** for `search`: whatever the hash keys, a search that ends leaves the board as it was. -/
theorem C61_search (fuel : Nat) (b : Bool) (s : PvRes) (h : pySearch Z c fuel p = some (b, s)) : s.pos = p := by
  obtain ⟨T, h1, ⟨-, h2⟩ | ⟨-, rfl⟩⟩ := pySearch_inv Z c p hp hc hr hl h
  · exact (pvInner_ok walk_any fuel 0 true p T s h2 ⟨⟨hp, hc, hr, hl⟩, fun e => by cases e⟩ trivial).1
  · rfl

/-- The table after Python's `search`. -/
theorem pySearch_table (hply : 0 ≤ p.gamePly ∧ p.gamePly ≤ 65533) (hd : c.maxDepth p ≤ 65533) (hd' : p.gamePly + 1 ≤ c.maxDepth p)
    (hcl : Clean Z (c.maxDepth p) p.turn p)
    (fuel : Nat) (b : Bool) (s : PvRes) (h : pySearch Z c fuel p = some (b, s)) :
    TableOK (Proved p.turn (Dfpn.Line Z (c.maxDepth p) p.turn p)) s.tt := by
  have hsd : Sound Z p := ⟨hp, hc, hr, hl⟩
  have hV := line_tree hsd (fun e => absurd e (by cases p.turn <;> decide)) hply hd hcl
  obtain ⟨T, h1, h2⟩ := pySearch_inv Z c p hp hc hr hl h
  have hT := search_table Z c p hp hc hr hl hply hd hd' hcl fuel b p T h1
  rcases h2 with ⟨-, h2⟩ | ⟨-, rfl⟩
  · exact (pvInner_ok (walk_line hV) fuel (c.maxDepth p - p.gamePly).toNat true p T s h2
      ⟨⟨hsd, fun e => by cases e⟩, iff_of_true rfl rfl, fun _ => ⟨.root, by omega⟩⟩ hT).2.1
  · exact hT

/-- **C60**: after `search` on the board `p`, `get_move` on `p` or on any position `q` that may come up in the search, with the same
side to move and before the limit of depth, gives 0 or the move integer of a legal check after which the opponent loses by force, if it
never declines a promotion. The answer of `search` need not be true. -/
theorem C60_get_move_partial (hply : 0 ≤ p.gamePly ∧ p.gamePly ≤ 65533) (hd : c.maxDepth p ≤ 65533) (hd' : p.gamePly + 1 ≤ c.maxDepth p)
    (hcl : Clean Z (c.maxDepth p) p.turn p)
    (fuel : Nat) (b : Bool) (s : PvRes) (h : pySearch Z c fuel p = some (b, s))
    (q : Position) (hq : Dfpn.Line Z (c.maxDepth p) p.turn p q) (hqt : q.turn = p.turn) (hqd : q.gamePly + 1 ≤ c.maxDepth p)
    (m : Move) (hm : getMove Z q s.tt = some m) (hne : m ≠ 0#32) :
    ∃ mv, m = encode q mv ∧ (absPos q).Legal mv ∧ ((absPos q).play mv).InCheck q.turn.opp ∧
      ∃ n, LosesIn keenReply n ((absPos q).play mv) := by
  have hs : Sound Z p := ⟨hp, hc, hr, hl⟩
  have hV := line_tree hs (fun e => absurd e (by cases p.turn <;> decide)) hply hd hcl
  have hT := pySearch_table Z c p hp hc hr hl hply hd hd' hcl fuel b s h
  revert hT hm
  generalize s.tt = T
  intro hm hT
  unfold getMove at hm
  obtain ⟨l, hl', rfl⟩ := Option.map_eq_some_iff.mp hm
  have hlist := checks_list hV hq hqt hqd hl'
  clear hl' hm h
  induction l generalizing T with
  | nil => exact absurd rfl hne
  | cons m l ih =>
    obtain ⟨mv, q', rfl, hstep, -⟩ := hlist m (List.mem_cons_self ..)
    obtain ⟨hf, hT2⟩ := hV.child hq hstep (orNode := true) (iff_of_true rfl hqt) hT
    unfold moveLoop at hne ⊢
    dsimp only at hne ⊢
    split
    · next h0 =>
      obtain ⟨w1, w2⟩ := hV.found_wins hstep.mem hf hT2 h0
      obtain ⟨n, hn⟩ := (w1.wins (fun k => counts_le w2 k)).2 (by show q'.turn = _; rw [hstep.turn, hqt])
      rw [hstep.abs] at hn
      refine ⟨mv, rfl, hstep.legal, ?_, n, hn⟩
      have := Line.inCheck (A := p.turn) hs (fun e => absurd e (by cases p.turn <;> decide)) hstep.mem (by rw [hstep.turn, hqt])
      rw [hstep.abs, hstep.turn] at this
      exact this
    · next h0 =>
      rw [if_neg h0] at hne
      exact ih _ hT2 hne fun m hm => hlist m (List.mem_cons_of_mem _ hm)

/-- **C61** for `search_andnode`, called where the side to move is in check. -/
theorem C61_search_andnode (hin : (absPos p).InCheck p.turn) (fuel : Nat) (b : Bool) (p' : Position) (T : Table)
    (h : searchAnd Z c fuel p = some (b, p', T)) : p' = p := by
  unfold searchAnd at h
  dsimp only at h
  obtain ⟨s, he, h⟩ := Option.map_eq_some_iff.mp h
  cases h; exact inner_same fuel _ _ _ _ _ he ⟨⟨hp, hc, hr, hl⟩, fun _ => hin⟩

omit hp hc hr hl in
/-- **C62**: whatever the hash keys and the table, `get_pv` on any regular board leaves the board as it was and gives a line of legal
moves, in which the side that begins gives check by each of its moves. -/
theorem C62_get_pv_legal (q : Position) (hp : Inv Z q) (hc : CheckOK q) (hr : (absPos q).Regular) (hl : q.st.pliesFromNull ≤ q.prev.length)
    (T : Table) (fuel : Nat) (s : PvRes) (h : getPv Z fuel q T = some s) :
    s.pos = q ∧ ∃ l, Spells Z q s.pv l ∧ Variation (fun _ => True) 0 true (absPos q) l := by
  obtain ⟨h1, -, h2⟩ := pvInner_ok walk_any fuel 0 true q T s h ⟨⟨hp, hc, hr, hl⟩, fun e => by cases e⟩ trivial
  exact ⟨h1, h2⟩

/-- **C62** after a search: the opponent loses by force after each check of the line within the limit of depth, if it never declines
a promotion. -/
theorem C62_get_pv_wins_partial (hply : 0 ≤ p.gamePly ∧ p.gamePly ≤ 65533) (hd : c.maxDepth p ≤ 65533) (hd' : p.gamePly + 1 ≤ c.maxDepth p)
    (hcl : Clean Z (c.maxDepth p) p.turn p)
    (fuel : Nat) (b : Bool) (s : PvRes) (h : pySearch Z c fuel p = some (b, s)) (fuel' : Nat) (s' : PvRes)
    (hs : getPv Z fuel' p s.tt = some s') :
    ∃ l, Spells Z p s'.pv l ∧ Variation (fun q => ∃ n, LosesIn keenReply n q) (c.maxDepth p - p.gamePly).toNat true (absPos p) l := by
  have hsd : Sound Z p := ⟨hp, hc, hr, hl⟩
  have hV := line_tree hsd (fun e => absurd e (by cases p.turn <;> decide)) hply hd hcl
  have hT := pySearch_table Z c p hp hc hr hl hply hd hd' hcl fuel b s h
  exact (pvInner_ok (walk_line hV) fuel' (c.maxDepth p - p.gamePly).toNat true p s.tt s' hs
    ⟨⟨hsd, fun e => by cases e⟩, iff_of_true rfl rfl, fun _ => ⟨.root, by omega⟩⟩ hT).2.2

end
end Verif
