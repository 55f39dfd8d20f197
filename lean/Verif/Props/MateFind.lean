import Verif.Lemmas.MateFind
import Verif.Props.MateComplete
import Verif.Props.MateSearch

/-!
# C85: which forced mates the search finds

C43 says that an answer of `is_mate` and `mate_move` can be trusted. Here is the other direction: which forced mates they do find. The
answer is exact, relative to what `mate_move_in_1ply` finds (C56): every legal check and every legal reply that does not decline
a promotion is tried, and a line counts when its last position is one where `mate_move_in_1ply` succeeds and the mating side is
not itself in check. `Caught`, `Forced`, `ChecksBy` are in Verif/Spec/Mate.lean.
-/

namespace Verif
open Spec Bitboard Position

/-- The side to move can mate by a move whose piece gives check from a square with none between it and the king. -/
def ClosingMate (q : Pos) : Prop := ∃ m, q.Legal m ∧ (q.play m).Mated ∧ CloseCheck q m

/-! ### What holds -/

/-- **C85** for `is_mate(2)`, `is_mate(4)`, ...: the answer is true exactly if the side to move is in check and loses within that many
plies whatever it replies, in lines that end where `mate_move_in_1ply` finds the mate. (Or a list of moves overruns its buffer.) -/
theorem C85_is_mate_exact (Z : Zobrist) (p : Position) (hp : Inv Z p) (hc : CheckOK p) (hr : (absPos p).Regular)
    (hl : p.st.pliesFromNull ≤ p.prev.length) (n fuel : Nat) (hf : n + 1 ≤ fuel) :
    (∃ b, isMate Z fuel (2 * (n + 1) : Nat) p = some (b, p) ∧ (b = true ↔ Caught (shogi Z) keenReply Found1 n p)) ∨
    (isMate Z fuel (2 * (n + 1) : Nat) p = none ∧ ∃ q, Reaches Z (2 * n + 1) p q ∧ Overrun q) := by
  unfold isMate
  split
  · rename_i h
    exact evenPly_exact n fuel hf ⟨hp, hc, hr, hl⟩ (hc.inCheck.mp h)
  · rename_i h
    refine .inl ⟨false, rfl, (fun h => by cases h), fun hc' => absurd (hc.inCheck.mpr ?_) h⟩
    match n, hc' with
    | 0, hc' => exact hc'.1
    | 1, hc' => exact hc'.1
    | n + 2, hc' => exact hc'.1

/-- **C85** for `mate_move(3)`, `mate_move(5)`, ...: the answer is 0 exactly if no legal check leads to such a loss, and otherwise it is
the move integer of one that does. -/
theorem C85_mate_move_exact (Z : Zobrist) (p : Position) (hp : Inv Z p) (hc : CheckOK p) (hr : (absPos p).Regular)
    (hl : p.st.pliesFromNull ≤ p.prev.length) (n fuel : Nat) (hf : n + 1 ≤ fuel) :
    (∃ m, mateMove Z fuel (2 * (n + 1) + 1 : Nat) p = some (m, p) ∧
      (m = 0#32 ↔ ∀ mv, ¬ ChecksBy (shogi Z) (Caught (shogi Z) keenReply Found1 n) p mv) ∧
      (m ≠ 0#32 → ∃ mv, m = encode p mv ∧ ChecksBy (shogi Z) (Caught (shogi Z) keenReply Found1 n) p mv)) ∨
    (mateMove Z fuel (2 * (n + 1) + 1 : Nat) p = none ∧ ∃ q, Reaches Z (2 * n + 2) p q ∧ Overrun q) := by
  have hs : Sound Z p := ⟨hp, hc, hr, hl⟩
  unfold mateMove
  rw [show ((2 * (n + 1) + 1 : Nat) : Int) - 1 = (2 * (n + 1) : Nat) by push_cast; omega]
  have assoc : ((orPicker p p.inCheck).bind fun l => (oddLoop Z (evenPly Z fuel (2 * (n + 1) : Nat)) l p).map fun r => (r.1.getD 0#32, r.2)) =
      ((orPicker p p.inCheck).bind fun l => oddLoop Z (evenPly Z fuel (2 * (n + 1) : Nat)) l p).map fun r => (r.1.getD 0#32, r.2) := by
    rcases orPicker p p.inCheck with _ | l <;> rfl
  rw [assoc]
  rcases odd_exact (fun q hq hin => evenPly_exact n fuel hf hq hin) hs hc.inCheck with ⟨o, eo, h1, h2⟩ | ⟨eo, h⟩
  · rw [eo]
    refine .inl ⟨o.getD 0#32, rfl, ?_, fun hne => ?_⟩
    · cases o with
      | none => exact ⟨fun _ => h1 rfl, fun _ => rfl⟩
      | some m =>
        obtain ⟨mv, e, hmv⟩ := h2 m rfl
        have hlg : (absPos p).Legal mv := hmv.1
        exact ⟨fun e0 => absurd (e.symm.trans e0) (encode_ne_zero hlg.1.1), fun hn => absurd hmv (hn mv)⟩
    · cases o with
      | none => exact absurd rfl hne
      | some m => exact h2 m rfl
  · rw [eo]; exact .inr ⟨rfl, h⟩

theorem closing_found {p : Position} (hp : Consistent p) (hr : (absPos p).Regular) (hn : ¬ (absPos p).InCheck p.turn)
    (h : ClosingMate (absPos p)) : Found1 p := by
  obtain ⟨mv, h1, h2, h3⟩ := h
  obtain ⟨m, e, hne, -⟩ := C56_contact_partial p hp hr hn mv h1 h2 h3
  exact ⟨hn, m, e, hne⟩

theorem fresh_judge {Z : Zobrist} {p : Position} (h : p.st.pliesFromNull < 4) : (shogi Z).judge p .new := isDraw_fresh h

theorem forced_caught {Z : Zobrist} {p : Position} (hp : Sound Z p) (hf : p.st.pliesFromNull ≤ 2) {n : Nat} (hn : n ≤ 1)
    (h : Forced keenReply ClosingMate n (absPos p)) : Caught (shogi Z) keenReply Found1 n p := by
  have step : ∀ {q : Position} {m : Mv}, Sound Z q → (absPos q).Legal m → ∃ q', (shogi Z).next q m q' ∧ Sound Z q' ∧
      absPos q' = (absPos q).play m ∧ q'.st.pliesFromNull = q.st.pliesFromNull + 1 := by
    intro q m hq hm
    obtain ⟨q', e, -, h1, h2, -⟩ := hq.step hm
    exact ⟨q', e, h1, h2, (next_view hq hm e).2⟩
  have last : ∀ {q : Position} {m : Mv}, Sound Z q → (absPos q).Legal m →
      (¬ ((absPos q).play m).InCheck ((absPos q).play m).turn ∧ ClosingMate ((absPos q).play m)) → ∃ q', (shogi Z).next q m q' ∧ Found1 q' ∧
        q'.st.pliesFromNull = q.st.pliesFromNull + 1 := by
    intro q m hq hm hx
    obtain ⟨q', e, h1, h2, h3⟩ := step hq hm
    rw [← h2] at hx
    exact ⟨q', e, closing_found h1.inv.views h1.regular hx.1 hx.2, h3⟩
  match n, hn, h with
  | 0, _, h =>
    refine ⟨h.1, fun m hm hk => ?_⟩
    obtain ⟨q', e, h1, h2⟩ := last hp hm (h.2 m hm hk)
    exact ⟨q', e, .inr ⟨.inl (fresh_judge (by omega)), h1⟩⟩
  | 1, _, h =>
    refine ⟨h.1, fun m hm hk => ?_⟩
    obtain ⟨m', hm', h3⟩ := h.2 m hm hk
    obtain ⟨q', e, h1, h2, h4⟩ := step hp hm
    rw [← h2] at hm' h3
    obtain ⟨q2, e2, s1, s2, s4⟩ := step h1 hm'
    rw [← s2] at h3
    refine ⟨q', e, .inr ⟨.inl (fresh_judge (by omega)), m', hm', q2, e2, h3.1, fun m2 hm2 hk2 => ?_⟩⟩
    obtain ⟨q3, e3, f3, -⟩ := last s1 hm2 (h3.2 m2 hm2 hk2)
    exact ⟨q3, e3, f3⟩

/-- **C85**, in terms of legal moves alone: at most two plies after the position was set up, `is_mate(2)` and `is_mate(4)` answer true
whenever the side to move loses by force, in lines whose last move gives check from a square with none between it and the
king while the mating side is not in check. (Or a list of moves overruns its buffer.) -/
theorem C85_is_mate_partial (Z : Zobrist) (p : Position) (hp : Inv Z p) (hc : CheckOK p) (hr : (absPos p).Regular)
    (hl : p.st.pliesFromNull ≤ p.prev.length) (h2 : p.st.pliesFromNull ≤ 2) (n fuel : Nat) (hn : n ≤ 1) (hf : n + 1 ≤ fuel)
    (h : Forced keenReply ClosingMate n (absPos p)) :
    isMate Z fuel (2 * (n + 1) : Nat) p = some (true, p) ∨ ∃ q, Reaches Z (2 * n + 1) p q ∧ Overrun q := by
  rcases C85_is_mate_exact Z p hp hc hr hl n fuel hf with ⟨b, e, hb⟩ | ⟨-, h⟩
  · rw [hb.mpr (forced_caught ⟨hp, hc, hr, hl⟩ h2 hn h)] at e
    exact .inl e
  · exact .inr h

/-- **C85** for `mate_move(3)` and `mate_move(5)`, at most one ply after the position was set up: a legal move that starts such a forced
mate makes the answer nonzero. -/
theorem C85_mate_move_partial (Z : Zobrist) (p : Position) (hp : Inv Z p) (hc : CheckOK p) (hr : (absPos p).Regular)
    (hl : p.st.pliesFromNull ≤ p.prev.length) (h1 : p.st.pliesFromNull ≤ 1) (n fuel : Nat) (hn : n ≤ 1) (hf : n + 1 ≤ fuel) (mv : Mv)
    (hm : (absPos p).Legal mv) (h : Forced keenReply ClosingMate n ((absPos p).play mv)) :
    (∃ m, mateMove Z fuel (2 * (n + 1) + 1 : Nat) p = some (m, p) ∧ m ≠ 0#32) ∨ ∃ q, Reaches Z (2 * n + 2) p q ∧ Overrun q := by
  rcases C85_mate_move_exact Z p hp hc hr hl n fuel hf with ⟨m, e, h0, -⟩ | ⟨-, h⟩
  · refine .inl ⟨m, e, fun e0 => h0.mp e0 mv ⟨hm, ?_⟩⟩
    have hs : Sound Z p := ⟨hp, hc, hr, hl⟩
    obtain ⟨p', e1, -, s3, s4, -⟩ := hs.step hm
    have hpl := (next_view hs hm e1).2
    rw [← s4] at h
    have hcg := forced_caught s3 (by omega) hn h
    refine ⟨p', e1, ?_, .inr ⟨.inl (fresh_judge (by omega)), hcg⟩⟩
    match n, hcg with
    | 0, hcg => exact hcg.1
    | 1, hcg => exact hcg.1
    | n + 2, hcg => exact hcg.1
  · exact .inr h

/-- **C85**: a position that `is_mate(2)` calls lost, `is_mate(4)` calls lost. -/
theorem C85_deeper (Z : Zobrist) (p : Position) (hp : Inv Z p) (hc : CheckOK p) (hr : (absPos p).Regular)
    (hl : p.st.pliesFromNull ≤ p.prev.length) (fuel fuel' : Nat) (hf : 1 ≤ fuel) (hf' : 2 ≤ fuel') (q : Position)
    (h : isMate Z fuel 2 p = some (true, q)) : isMate Z fuel' 4 p = some (true, p) ∨ ∃ q, Reaches Z 3 p q ∧ Overrun q := by
  have hs : Sound Z p := ⟨hp, hc, hr, hl⟩
  rcases C85_is_mate_exact Z p hp hc hr hl 0 fuel hf with ⟨b, e, hb⟩ | ⟨e, -⟩
  swap
  · rw [show isMate Z fuel (2 * (0 + 1) : Nat) p = isMate Z fuel 2 p from rfl, h] at e; cases e
  rw [show isMate Z fuel (2 * (0 + 1) : Nat) p = isMate Z fuel 2 p from rfl, h] at e; cases e
  have hcg := hb.mp rfl
  rcases C85_is_mate_exact Z p hp hc hr hl 1 fuel' hf' with ⟨b, e', hb'⟩ | ⟨-, h⟩
  swap
  · exact .inr h
  rw [hb'.mpr ?_] at e'
  · exact .inl e'
  refine ⟨hcg.1, fun m hm hk => ?_⟩
  obtain ⟨s', e1, h1⟩ := hcg.2 m hm hk
  refine ⟨s', e1, ?_⟩
  rcases h1 with h1 | ⟨h1, h2⟩
  · exact .inl h1
  · refine .inr ⟨h1, ?_⟩
    obtain ⟨p', e2, -, s3, -⟩ := hs.step hm
    have e3 := shogi_next e2 e1
    subst e3
    obtain ⟨hn, m1, e4, hne⟩ := h2
    obtain ⟨r, e5, h5⟩ := C55_mate1_partial s' s3.inv.views s3.regular hn
    rw [e4] at e5; cases e5
    obtain ⟨mv, h6, h7, -⟩ := h5 hne
    obtain ⟨p2, e6, -, s6, s7, -, s8, -⟩ := s3.step h6
    refine ⟨mv, h6, p2, e6, ?_, fun m' hm' => ?_⟩
    · show (absPos p2).InCheck p2.turn
      rw [s7, s8]
      have := h7.1
      rw [play_turn] at this; exact this
    · have hm' : (absPos p2).Legal m' := hm'
      rw [s7] at hm'
      exact absurd hm'.1 (h7.2 m')

/-! ### What does not hold -/

/-- Black's king on 9i is in check by a gold that only the rook can take; White's king on 9a then is in check. -/
def counterBoard (s : Square) : Option (Color × Kind) :=
  match s.val with
  | 80 => some (.black, .king) | 70 => some (.black, .rook) | 79 => some (.white, .gold) | 68 => some (.white, .knight)
  | 59 => some (.white, .bishop) | 72 => some (.white, .king) | _ => none

def counterModel : Position := setPieces zeroKeys clear (fun s => pieceCode (counterBoard s)) (fun _ _ => 0)

theorem counterModel_ok : Inv zeroKeys counterModel ∧ absPos counterModel = ⟨counterBoard, fun _ _ => 0, .black⟩ ∧ CheckOK counterModel ∧
    (absPos counterModel).Regular :=
  setup_regular counterBoard (fun _ _ => 0) 80 72 (by decide +kernel) (by decide +kernel) (fun c h => Nat.zero_le _) (by decide +kernel)
    (fun h => by cases h <;> decide +kernel) (by decide +kernel)

theorem counterModel_sound : Sound zeroKeys counterModel :=
  ⟨counterModel_ok.1, counterModel_ok.2.2.1, counterModel_ok.2.2.2, by decide +kernel⟩

def counter1 : Mv := .move 70 79 false
def counter2 : Mv := .move 68 79 true

theorem counter_only (m : Mv) (hm : (absPos counterModel).Legal m) : m = counter1 := by
  obtain ⟨l, e, -, hl⟩ := genLegal_spec counterModel_sound.inv.views counterModel_sound.checks counterModel_sound.regular
  have h0 : (match genLegal counterModel true with
      | none => false
      | some l => l.all fun m => decide (m = encode counterModel counter1)) = true := by decide +kernel
  rw [e] at h0
  exact encode_inj _ (of_decide_eq_true (List.all_eq_true.mp h0 _ ((hl _).mpr ⟨m, rfl, hm⟩)))

theorem counter1_legal : (absPos counterModel).Legal counter1 := legal_of_list counterModel_sound (by decide +kernel)

theorem counter2_legal : ((absPos counterModel).play counter1).Legal counter2 := by
  obtain ⟨h1, h2, -⟩ := after_sound counterModel_sound counter1_legal
  rw [← h2]
  exact legal_of_list h1 (by decide +kernel)

theorem mated_of_none {p : Position} (hp : Sound zeroKeys p) (hl : genLegal p true = some []) (hc : p.inCheck = true)
    (hh : ¬ 1 ≤ (absPos p).hand p.turn .pawn) : (absPos p).Mated := by
  obtain ⟨l, e, -, hm⟩ := genLegal_spec hp.inv.views hp.checks hp.regular
  refine ⟨hp.checks.inCheck.mp hc, fun m hs => ?_⟩
  rw [hl] at e; cases e
  by_cases hmate : (absPos p).PawnDropMate m
  · obtain ⟨t, rfl, -⟩ := hmate
    exact hh hs.1.1
  · exact absurd ((hm _).mpr ⟨m, rfl, hs, hmate⟩) List.not_mem_nil

theorem counter2_mates : (((absPos counterModel).play counter1).play counter2).Mated := by
  obtain ⟨h1, h2, -⟩ := after_sound counterModel_sound counter1_legal
  have hl := counter2_legal
  rw [← h2] at hl ⊢
  obtain ⟨h3, h4, -⟩ := after_sound h1 hl
  rw [← h4]
  exact mated_of_none h3 (by decide +kernel) (by decide +kernel) (by decide +kernel)

/-- **C85** fails without the condition on checks: in this regular position every legal reply, the capture by the rook, allows White to
mate at once by a capture next to the king, but the reply gives check, so `is_mate(2)` does not look for the mate and answers
false. `is_mate(4)` finds it. -/
theorem C85_fails : Inv zeroKeys counterModel ∧ CheckOK counterModel ∧ (absPos counterModel).Regular ∧
    LosesIn anyReply 1 (absPos counterModel) ∧ isMate zeroKeys 1 2 counterModel = some (false, counterModel) ∧
    isMate zeroKeys 2 4 counterModel = some (true, counterModel) := by
  have hs := counterModel_sound
  refine ⟨hs.inv, hs.checks, hs.regular, ⟨?_, fun m hm _ => ?_⟩, ?_, ?_⟩
  · show (absPos counterModel).InCheck counterModel.turn
    rw [← hs.checks.inCheck]; decide +kernel
  · rw [counter_only m hm]
    exact ⟨counter2, counter2_legal, counter2_mates⟩
  · have h : (isMate zeroKeys 1 2 counterModel).map (·.1) = some false := by decide +kernel
    obtain ⟨⟨b, q⟩, e, h⟩ := Option.map_eq_some_iff.mp h
    cases h
    rw [e, ((C58_unchanged zeroKeys counterModel hs.inv hs.checks hs.regular hs.plies 1 2 q).1 _ e)]
  · have h : (isMate zeroKeys 2 4 counterModel).map (·.1) = some true := by decide +kernel
    obtain ⟨⟨b, q⟩, e, h⟩ := Option.map_eq_some_iff.mp h
    cases h
    rw [e, ((C58_unchanged zeroKeys counterModel hs.inv hs.checks hs.regular hs.plies 2 4 q).1 _ e)]

/-! ### The hypotheses are met -/

theorem zeroModel_sound : Sound zeroKeys zeroModel :=
  ⟨zeroModel_ok.1, zeroModel_ok.2.2.1, zeroModel_ok.2.2.2, by decide +kernel⟩

def zero1 : Mv := .move 80 71 false
def zero2 : Mv := .move 69 70 false

theorem zero_only (m : Mv) (hm : (absPos zeroModel).Legal m) : m = zero1 := by
  obtain ⟨l, e, -, hl⟩ := genLegal_spec zeroModel_sound.inv.views zeroModel_sound.checks zeroModel_sound.regular
  have h0 : (match genLegal zeroModel true with
      | none => false
      | some l => l.all fun m => decide (m = encode zeroModel zero1)) = true := by decide +kernel
  rw [e] at h0
  exact encode_inj _ (of_decide_eq_true (List.all_eq_true.mp h0 _ ((hl _).mpr ⟨m, rfl, hm⟩)))

theorem zero1_legal : (absPos zeroModel).Legal zero1 := legal_of_list zeroModel_sound (by decide +kernel)

theorem zero2_mates : ((absPos zeroModel).play zero1).Legal zero2 ∧ (((absPos zeroModel).play zero1).play zero2).Mated := by
  obtain ⟨h1, h2, -⟩ := after_sound zeroModel_sound zero1_legal
  have hl : (absPos (after zeroModel zero1)).Legal zero2 := legal_of_list h1 (by decide +kernel)
  rw [← h2]
  refine ⟨hl, ?_⟩
  obtain ⟨h3, h4, -⟩ := after_sound h1 hl
  rw [← h4]
  exact mated_of_none h3 (by decide +kernel) (by decide +kernel) (by decide +kernel)

/-- In `zeroModel` Black has one move; White then mates with the gold next to the king and is not in check. -/
example : Inv zeroKeys zeroModel ∧ CheckOK zeroModel ∧ (absPos zeroModel).Regular ∧ zeroModel.st.pliesFromNull ≤ zeroModel.prev.length ∧
    zeroModel.st.pliesFromNull ≤ 2 ∧ Forced keenReply ClosingMate 0 (absPos zeroModel) ∧ (absPos zeroModel).Legal zero1 := by
  have hs := zeroModel_sound
  refine ⟨hs.inv, hs.checks, hs.regular, hs.plies, by decide +kernel, ⟨?_, fun m hm _ => ?_⟩, zero1_legal⟩
  · show (absPos zeroModel).InCheck zeroModel.turn
    rw [← hs.checks.inCheck]; decide +kernel
  · rw [zero_only m hm]
    obtain ⟨h1, h2, -⟩ := after_sound zeroModel_sound zero1_legal
    refine ⟨?_, zero2, zero2_mates.1, zero2_mates.2, 71, ?_, ⟨.gold, ?_, ?_⟩, ?_⟩
    · rw [← h2]
      show ¬ (absPos (after zeroModel zero1)).InCheck (after zeroModel zero1).turn
      rw [← h1.checks.inCheck]; decide +kernel
    · rw [← h2]; decide +kernel
    · rw [← h2]; decide +kernel
    · exact Or.inl ⟨(0, -1), by decide, by decide⟩
    · have hst : StepAt .white .gold 70 71 := ⟨(0, -1), by decide, by decide⟩
      exact fun u => hst.no_between u

/-- In `goldModel` the drop of the gold leaves no reply, so it starts a forced mate. -/
example : Inv zeroKeys goldModel ∧ CheckOK goldModel ∧ (absPos goldModel).Regular ∧ goldModel.st.pliesFromNull ≤ goldModel.prev.length ∧
    goldModel.st.pliesFromNull ≤ 1 ∧ ∃ mv, (absPos goldModel).Legal mv ∧ Forced keenReply ClosingMate 0 ((absPos goldModel).play mv) := by
  have hs : Sound zeroKeys goldModel := ⟨goldModel_ok.1, goldModel_ok.2.2.1, goldModel_ok.2.2.2, by decide +kernel⟩
  have hn : ¬ (absPos goldModel).InCheck goldModel.turn := by rw [← hs.checks.inCheck]; decide +kernel
  have he : goldModel.mateMoveIn1Ply = some (encode goldModel (.drop .gold 37)) := by decide +kernel
  obtain ⟨m, e, h⟩ := C55_mate1_partial goldModel hs.inv.views hs.regular hn
  rw [he] at e; cases e
  obtain ⟨mv, h1, h2, -⟩ := h (by decide +kernel)
  exact ⟨hs.inv, hs.checks, hs.regular, hs.plies, by decide +kernel, mv, h1, h2.1, fun m hm _ => absurd hm.1 (h2.2 m)⟩

end Verif
