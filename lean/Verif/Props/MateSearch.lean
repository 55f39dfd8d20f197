import Verif.Lemmas.MateSound
import Verif.Lemmas.Promote

/-!
# C43, C57, C58: the mate search

`mate_move(n)` is `Position.mateMove` and `is_mate(n)` is `Position.isMate` (Verif/Model/MateSearch.lean). Forced mates are those of
Verif/Spec/Mate.lean: `LosesIn allow n q`, `MatesIn allow n q` without regard to repetition and `GLosesIn`, `GMatesBy` with the verdicts
of `is_draw(16)` along the game (`shogi Z`). `allow` says which replies the losing side may choose: `anyReply` or `keenReply`, where it
does not decline the promotion of a pawn, bishop or rook, nor that of a lance on the last two ranks. Such replies are what the
search does not look at.

`fuel` bounds the number of nested calls in the model. `n + 1` suffices for `2 (n + 1)` plies.
-/

namespace Verif
open Spec Bitboard Position

/-! ### What holds -/

/-- **C43** for `is_mate(2)`, `is_mate(4)`, ..., the part that holds: in every regular position the search leaves the position as it
was, and when the answer is true the side to move loses by force within that number of plies, if it never declines a promotion.
The only other outcome is that in some position reached by fewer legal moves a list of moves overruns the buffer of 91. -/
theorem C43_is_mate_partial (Z : Zobrist) (p : Position) (hp : Inv Z p) (hc : CheckOK p) (hr : (absPos p).Regular)
    (hl : p.st.pliesFromNull ≤ p.prev.length) (n fuel : Nat) (hf : n + 1 ≤ fuel) :
    (∃ b, isMate Z fuel (2 * (n + 1) : Nat) p = some (b, p) ∧ (b = true → GLosesIn (shogi Z) keenReply (n + 1) p)) ∨
    (isMate Z fuel (2 * (n + 1) : Nat) p = none ∧ ∃ q, Reaches Z (2 * n + 1) p q ∧ Overrun q) := by
  unfold isMate
  split
  · rename_i h
    exact evenPly_res n fuel hf ⟨hp, hc, hr, hl⟩ (hc.inCheck.mp h)
  · exact .inl ⟨false, rfl, fun h => by cases h⟩

/-- **C43** for `mate_move(3)`, `mate_move(5)`, ...: likewise, and an answer other than 0 is the move integer of a legal move that
starts the forced mate. -/
theorem C43_mate_move_partial (Z : Zobrist) (p : Position) (hp : Inv Z p) (hc : CheckOK p) (hr : (absPos p).Regular)
    (hl : p.st.pliesFromNull ≤ p.prev.length) (n fuel : Nat) (hf : n + 1 ≤ fuel) :
    (∃ m, mateMove Z fuel (2 * (n + 1) + 1 : Nat) p = some (m, p) ∧
      (m ≠ 0#32 → ∃ mv, m = encode p mv ∧ GMatesBy (shogi Z) keenReply (n + 1) p mv)) ∨
    (mateMove Z fuel (2 * (n + 1) + 1 : Nat) p = none ∧ ∃ q, Reaches Z (2 * n + 2) p q ∧ Overrun q) := by
  have hs : Sound Z p := ⟨hp, hc, hr, hl⟩
  unfold mateMove
  rw [show ((2 * (n + 1) + 1 : Nat) : Int) - 1 = (2 * (n + 1) : Nat) by push_cast; omega]
  rcases orPicker_res hs hc.inCheck with ⟨r, er, h1⟩ | ⟨er, h1⟩
  · rw [er, Option.bind_some]
    rcases oddLoop_res (n := n + 1) (fun q hq hin => evenPly_res n fuel hf hq hin) hs r h1 with ⟨o, eo, ho⟩ | ⟨eo, h2⟩
    · rw [eo]
      refine .inl ⟨o.getD 0#32, rfl, fun hne => ?_⟩
      cases o with
      | none => exact absurd rfl hne
      | some m => exact ho m rfl
    · rw [eo]; exact .inr ⟨rfl, h2⟩
  · rw [er]; exact .inr ⟨rfl, h1.mono (by omega)⟩

/-- The restriction on the replies never leaves the losing side without a move: who has a legal move has one that does not
decline a promotion. -/
theorem C43_replies (q : Pos) (m : Mv) (hm : q.Legal m) : ∃ m', q.Legal m' ∧ keenReply q m' := keen_exists hm

theorem isDraw_fresh {p : Position} (h : p.st.pliesFromNull < 4) : p.isDraw 16 = some .none := by
  unfold isDraw
  dsimp only
  rw [if_neg (by omega)]

theorem judge_fresh {Z : Zobrist} {p : Position} {v : Verdict} (h : p.st.pliesFromNull < 4) (hj : (shogi Z).judge p v) : v = .new := by
  have : some Repetition.none = some (Verdict.rep v) := (isDraw_fresh h).symm.trans hj
  cases v <;> simp [Verdict.rep] at this ⊢

theorem next_view {Z : Zobrist} {p p' : Position} (hp : Sound Z p) {m : Mv} (hm : (absPos p).Legal m) (he : (shogi Z).next p m p') :
    absPos p' = (absPos p).play m ∧ p'.st.pliesFromNull = p.st.pliesFromNull + 1 := by
  obtain ⟨p2, e, -, -, h, -⟩ := hp.step hm
  have : p2 = p' := Option.some.inj (e.symm.trans he)
  exact ⟨this ▸ h, (doMove_record he).2.1⟩

theorem gLoses_fresh {Z : Zobrist} {p : Position} (hp : Sound Z p) (hf : p.st.pliesFromNull ≤ 2) {n : Nat} (hn : n ≤ 1)
    (h : GLosesIn (shogi Z) keenReply (n + 1) p) : LosesIn keenReply (n + 1) (absPos p) := by
  refine ⟨h.1, fun m hm hk => ?_⟩
  obtain ⟨s', h1, h2⟩ := h.2 m hm hk
  obtain ⟨e, hpl⟩ := next_view hp hm h1
  rcases h2 with h2 | ⟨-, ⟨-, h3⟩ | ⟨h3, -⟩⟩
  · exact absurd (judge_fresh (by omega) h2) (by decide)
  · have h3 : MatesIn keenReply n (absPos s') := h3
    rw [e] at h3
    exact h3
  · omega

/-- **C43** without repetitions: at most two plies after the position was set up, `is_mate(2)` and `is_mate(4)` answer true only when
the side to move loses by force in the game tree of legal moves, if it never declines a promotion. -/
theorem C43_fresh_partial (Z : Zobrist) (p : Position) (hp : Inv Z p) (hc : CheckOK p) (hr : (absPos p).Regular)
    (hl : p.st.pliesFromNull ≤ p.prev.length) (h2 : p.st.pliesFromNull ≤ 2) (n fuel : Nat) (hn : n ≤ 1) (hf : n + 1 ≤ fuel) (q : Position)
    (h : isMate Z fuel (2 * (n + 1) : Nat) p = some (true, q)) : LosesIn keenReply (n + 1) (absPos p) := by
  rcases C43_is_mate_partial Z p hp hc hr hl n fuel hf with ⟨b, e, hb⟩ | ⟨e, -⟩
  · rw [h] at e; cases e
    exact gLoses_fresh ⟨hp, hc, hr, hl⟩ h2 hn (hb rfl)
  · rw [h] at e; cases e

/-- **C43** for two plies without any restriction: when `is_mate(2)` answers true, at most two plies after the position was set up,
then after every legal reply there is a legal move that mates. -/
theorem C43_two_plies (Z : Zobrist) (p : Position) (hp : Inv Z p) (hc : CheckOK p) (hr : (absPos p).Regular)
    (hl : p.st.pliesFromNull ≤ p.prev.length) (h2 : p.st.pliesFromNull ≤ 2) (fuel : Nat) (hf : 1 ≤ fuel) (q : Position)
    (h : isMate Z fuel 2 p = some (true, q)) :
    (absPos p).InCheck p.turn ∧ ∀ m, (absPos p).Legal m → ∃ m', ((absPos p).play m).Legal m' ∧ (((absPos p).play m).play m').Mated := by
  have := losesIn_one (C43_fresh_partial Z p hp hc hr hl h2 0 fuel (by omega) hf q h)
  exact ⟨this.1, fun m hm => this.2 m hm trivial⟩

/-- **C43** for three plies without any restriction: at most one ply after the position was set up, an answer of `mate_move(3)`
other than 0 is a legal check after which every legal reply allows a legal move that mates. -/
theorem C43_three_plies (Z : Zobrist) (p : Position) (hp : Inv Z p) (hc : CheckOK p) (hr : (absPos p).Regular)
    (hl : p.st.pliesFromNull ≤ p.prev.length) (h1 : p.st.pliesFromNull ≤ 1) (fuel : Nat) (hf : 1 ≤ fuel) (m : Move) (q : Position)
    (h : mateMove Z fuel 3 p = some (m, q)) (hne : m ≠ 0#32) :
    ∃ mv, m = encode p mv ∧ (absPos p).Legal mv ∧ ((absPos p).play mv).InCheck p.turn.opp ∧
      ∀ m1, ((absPos p).play mv).Legal m1 → ∃ m2, (((absPos p).play mv).play m1).Legal m2 ∧ ((((absPos p).play mv).play m1).play m2).Mated := by
  have hs : Sound Z p := ⟨hp, hc, hr, hl⟩
  rcases C43_mate_move_partial Z p hp hc hr hl 0 fuel hf with ⟨m', e, hm⟩ | ⟨e, -⟩
  swap
  · rw [show mateMove Z fuel (2 * (0 + 1) + 1 : Nat) p = mateMove Z fuel 3 p from rfl, h] at e; cases e
  rw [show mateMove Z fuel (2 * (0 + 1) + 1 : Nat) p = mateMove Z fuel 3 p from rfl, h] at e
  cases e
  obtain ⟨mv, e, hlg, s', hnext, hj⟩ := hm hne
  have hlg : (absPos p).Legal mv := hlg
  obtain ⟨ev, hpl⟩ := next_view hs hlg hnext
  obtain ⟨p2, e2, -, hs', -, -, ht, -⟩ := hs.step hlg
  have e3 : p2 = s' := Option.some.inj (e2.symm.trans hnext)
  subst e3
  rcases hj with hj | ⟨-, hg⟩
  · exact absurd (judge_fresh (by omega) hj) (by decide)
  · have := losesIn_one (gLoses_fresh hs' (by omega) (by omega) hg)
    rw [ev] at this
    refine ⟨mv, e, hlg, ?_, fun m1 hm1 => this.2 m1 hm1 trivial⟩
    have h0 := this.1
    rw [play_turn] at h0
    exact h0

/-! ### What does not hold -/

/-- Black, in check by the lance on 9a, can put the bishop or the rook on 9c. -/
def shunBoard (s : Square) : Option (Color × Kind) :=
  match s.val with
  | 76 => some (.black, .king) | 77 => some (.black, .pawn) | 68 => some (.black, .lance) | 67 => some (.black, .pawn)
  | 58 => some (.black, .bishop) | 2 => some (.black, .rook) | 72 => some (.white, .lance) | 64 => some (.white, .knight)
  | 55 => some (.white, .knight) | 36 => some (.white, .king) | _ => none

/-- White holds a pawn. -/
def shunHand (c : Color) (h : Nat) : Nat := match c, h with | .white, 0 => 1 | _, _ => 0

def shunModel : Position := setPieces zeroKeys clear (fun s => pieceCode (shunBoard s)) shunHand

theorem shunModel_ok : Inv zeroKeys shunModel ∧ absPos shunModel = ⟨shunBoard, fun c h => shunHand c h.code, .black⟩ ∧ CheckOK shunModel ∧
    (absPos shunModel).Regular :=
  setup_regular shunBoard shunHand 76 36 (by decide +kernel) (by decide +kernel) (fun c h => by cases c <;> cases h <;> decide)
    (by decide +kernel) (fun h => by cases h <;> decide +kernel) (by decide +kernel)

theorem shunModel_sound : Sound zeroKeys shunModel :=
  ⟨shunModel_ok.1, shunModel_ok.2.2.1, shunModel_ok.2.2.2, by decide +kernel⟩

/-- The line: bishop to 9c without promotion, lance takes, rook takes. -/
def shun1 : Mv := .move 58 74 false
def shun2 : Mv := .move 72 74 false
def shun3 : Mv := .move 2 74 true
def after (p : Position) (m : Mv) : Position := (doMove zeroKeys p (encode p m)).getD p
def shunP1 : Position := after shunModel shun1
def shunP2 : Position := after shunP1 shun2
def shunP3 : Position := after shunP2 shun3

theorem legal_of_list {p : Position} (hp : Sound zeroKeys p) {m : Mv}
    (h : (match genLegal p true with | none => false | some l => l.contains (encode p m)) = true) : (absPos p).Legal m := by
  obtain ⟨l, e, -, hm⟩ := genLegal_spec hp.inv.views hp.checks hp.regular
  rw [e] at h
  obtain ⟨mv, e1, e2⟩ := (hm _).mp (by simpa using h : encode p m ∈ l)
  rw [encode_inj _ e1]; exact e2

theorem after_sound {p : Position} (hp : Sound zeroKeys p) {m : Mv} (hm : (absPos p).Legal m) :
    Sound zeroKeys (after p m) ∧ absPos (after p m) = (absPos p).play m ∧ doMove zeroKeys p (encode p m) = some (after p m) := by
  obtain ⟨p', e, -, h1, h2, -⟩ := hp.step hm
  unfold after
  rw [e]
  exact ⟨h1, h2, rfl⟩

theorem shun1_legal : (absPos shunModel).Legal shun1 := legal_of_list shunModel_sound (by decide +kernel)
theorem shunP1_sound : Sound zeroKeys shunP1 := (after_sound shunModel_sound shun1_legal).1
theorem shun2_legal : (absPos shunP1).Legal shun2 := legal_of_list shunP1_sound (by decide +kernel)
theorem shunP2_sound : Sound zeroKeys shunP2 := (after_sound shunP1_sound shun2_legal).1
theorem shun3_legal : (absPos shunP2).Legal shun3 := legal_of_list shunP2_sound (by decide +kernel)
theorem shunP3_sound : Sound zeroKeys shunP3 := (after_sound shunP2_sound shun3_legal).1

/-- The only check White has then. -/
theorem shun_only (m : Mv) (hm : (absPos shunP1).Legal m) (hc : ((absPos shunP1).play m).InCheck shunP1.turn.opp) : m = shun2 := by
  obtain ⟨l, e, -, hl⟩ := genLegal_spec shunP1_sound.inv.views shunP1_sound.checks shunP1_sound.regular
  have h0 : (match genLegal shunP1 true with
      | none => false
      | some l => l.all fun m => !shunP1.moveGivesCheck m || decide (m = encode shunP1 shun2)) = true := by decide +kernel
  rw [e] at h0
  have := List.all_eq_true.mp h0 _ ((hl _).mpr ⟨m, rfl, hm⟩)
  rw [(C22_moveGivesCheck shunP1 shunP1_sound.inv.views shunP1_sound.regular.waiting m hm.1).mpr hc] at this
  exact encode_inj _ (of_decide_eq_true (by simpa using this))

/-- After the rook took, no check of White mates. -/
theorem shun_none : ¬ MatesIn anyReply 0 (absPos shunP3) := by
  rintro ⟨m, hm, hmate⟩
  have hmate : ((absPos shunP3).play m).Mated := hmate
  obtain ⟨l, e, -, hl⟩ := genLegal_spec shunP3_sound.inv.views shunP3_sound.checks shunP3_sound.regular
  have h0 : (match genLegal shunP3 true with
      | none => false
      | some l => l.all fun m => !shunP3.moveGivesCheck m || (match doMove zeroKeys shunP3 m with
        | none => false
        | some q => (match genLegal q true with | some (_ :: _) => true | _ => false))) = true := by decide +kernel
  rw [e] at h0
  have := List.all_eq_true.mp h0 _ ((hl _).mpr ⟨m, rfl, hm⟩)
  have hc : ((absPos shunP3).play m).InCheck shunP3.turn.opp := by
    have := hmate.1
    rw [play_turn] at this; exact this
  rw [(C22_moveGivesCheck shunP3 shunP3_sound.inv.views shunP3_sound.regular.waiting m hm.1).mpr hc] at this
  obtain ⟨hs, ha, ed⟩ := after_sound shunP3_sound hm
  rw [ed] at this
  dsimp only at this
  obtain ⟨l', e', -, hl'⟩ := genLegal_spec hs.inv.views hs.checks hs.regular
  rw [e'] at this
  cases l' with
  | nil => simp at this
  | cons x l' =>
    obtain ⟨mv, -, hmv⟩ := (hl' x).mp List.mem_cons_self
    rw [ha] at hmv
    exact hmate.2 mv hmv.1

theorem shun_escapes : ¬ MatesIn anyReply 1 (absPos shunP1) := by
  rintro ⟨m, hm, hc, h⟩
  rw [play_turn] at hc
  have := shun_only m hm hc
  subst this
  rw [← (after_sound shunP1_sound shun2_legal).2.1] at h
  obtain ⟨m', h1, h2⟩ := h shun3 shun3_legal trivial
  apply shun_none
  rw [show shunP3 = after shunP2 shun3 from rfl, (after_sound shunP2_sound shun3_legal).2.1]
  exact ⟨m', h1, h2⟩

/-- **C43** fails for `is_mate(4)`: it does not look at replies that decline a promotion. In this regular position it answers true,
while Black escapes by moving the bishop to 9c without promoting: then the drop of a pawn on 9d, which the promoted bishop could
capture, would be mate and is forbidden. There is no forced mate within four plies, with or without repetition verdicts. -/
theorem C43_fails : Inv zeroKeys shunModel ∧ CheckOK shunModel ∧ (absPos shunModel).Regular ∧
    (∃ q, isMate zeroKeys 2 4 shunModel = some (true, q)) ∧ ¬ LosesIn anyReply 2 (absPos shunModel) ∧
    ¬ GLosesIn (shogi zeroKeys) anyReply 2 shunModel := by
  refine ⟨shunModel_ok.1, shunModel_ok.2.2.1, shunModel_ok.2.2.2, ?_, ?_, ?_⟩
  · have h : (isMate zeroKeys 2 4 shunModel).map (·.1) = some true := by decide +kernel
    obtain ⟨⟨b, q⟩, e, h⟩ := Option.map_eq_some_iff.mp h
    cases h
    exact ⟨q, e⟩
  · rintro ⟨-, h⟩
    obtain ⟨m', h1, h2⟩ := h shun1 shun1_legal trivial
    apply shun_escapes
    rw [show shunP1 = after shunModel shun1 from rfl, (after_sound shunModel_sound shun1_legal).2.1]
    exact ⟨m', h1, h2⟩
  · rintro ⟨-, h⟩
    obtain ⟨s', h1, h2⟩ := h shun1 shun1_legal trivial
    have e : shunP1 = s' := Option.some.inj ((after_sound shunModel_sound shun1_legal).2.2.symm.trans h1)
    subst e
    have hpl : shunP1.st.pliesFromNull < 4 := by decide +kernel
    rcases h2 with h2 | ⟨-, ⟨-, h3⟩ | ⟨h3, -⟩⟩
    · exact absurd (judge_fresh hpl h2) (by decide)
    · exact shun_escapes h3
    · exact absurd h3 (by decide)

/-- Black's king on 9i is in check by a pawn; it can go to 8i, where it is mated. -/
def zeroBoard (s : Square) : Option (Color × Kind) :=
  match s.val with
  | 80 => some (.black, .king) | 79 => some (.white, .pawn) | 78 => some (.white, .pawn) | 69 => some (.white, .gold)
  | 77 => some (.white, .knight) | 36 => some (.white, .king) | _ => none

def zeroModel : Position := setPieces zeroKeys clear (fun s => pieceCode (zeroBoard s)) (fun _ _ => 0)

theorem zeroModel_ok : Inv zeroKeys zeroModel ∧ absPos zeroModel = ⟨zeroBoard, fun _ _ => 0, .black⟩ ∧ CheckOK zeroModel ∧
    (absPos zeroModel).Regular :=
  setup_regular zeroBoard (fun _ _ => 0) 80 36 (by decide +kernel) (by decide +kernel) (fun c h => Nat.zero_le _) (by decide +kernel)
    (fun h => by cases h <;> decide +kernel) (by decide +kernel)

/-- **C43** fails for `is_mate(0)`, which the Python method accepts: the depth passes 4 and 2 on no way down, so the search has no
limit, and it answers true in this regular position, where the side to move has a legal move. -/
theorem C43_fails_zero : Inv zeroKeys zeroModel ∧ CheckOK zeroModel ∧ (absPos zeroModel).Regular ∧
    (∃ q, isMate zeroKeys 3 0 zeroModel = some (true, q)) ∧ (absPos zeroModel).Legal (.move 80 71 false) ∧
    ¬ LosesIn anyReply 0 (absPos zeroModel) := by
  have hs : Sound zeroKeys zeroModel := ⟨zeroModel_ok.1, zeroModel_ok.2.2.1, zeroModel_ok.2.2.2, by decide +kernel⟩
  have hleg : (absPos zeroModel).Legal (.move 80 71 false) := legal_of_list hs (by decide +kernel)
  refine ⟨zeroModel_ok.1, zeroModel_ok.2.2.1, zeroModel_ok.2.2.2, ?_, hleg, fun h => h.2 _ hleg.1⟩
  have h : (isMate zeroKeys 3 0 zeroModel).map (·.1) = some true := by decide +kernel
  obtain ⟨⟨b, q⟩, e, h⟩ := Option.map_eq_some_iff.mp h
  cases h
  exact ⟨q, e⟩

/-- The hypotheses of the theorems above are met by this position, where `is_mate(2)` answers true. -/
example : Inv zeroKeys zeroModel ∧ CheckOK zeroModel ∧ (absPos zeroModel).Regular ∧
    zeroModel.st.pliesFromNull ≤ zeroModel.prev.length ∧ zeroModel.st.pliesFromNull ≤ 1 ∧
    (isMate zeroKeys 1 2 zeroModel).map (·.1) = some true :=
  ⟨zeroModel_ok.1, zeroModel_ok.2.2.1, zeroModel_ok.2.2.2, by decide +kernel, by decide +kernel, by decide +kernel⟩

/-- Here `mate_move(3)` answers with the drop of a gold that mates. -/
example : Inv zeroKeys goldModel ∧ CheckOK goldModel ∧ (absPos goldModel).Regular ∧
    goldModel.st.pliesFromNull ≤ goldModel.prev.length ∧ goldModel.st.pliesFromNull ≤ 1 ∧
    (mateMove zeroKeys 1 3 goldModel).map (·.1) = some (encode goldModel (.drop .gold 37)) ∧ encode goldModel (.drop .gold 37) ≠ 0#32 :=
  ⟨goldModel_ok.1, goldModel_ok.2.2.1, goldModel_ok.2.2.2, by decide +kernel, by decide +kernel, by decide +kernel, by decide +kernel⟩

/-! ### C57: the buffer of the mate search -/

/-- **C57**, the part that holds: if in every position that fewer than `2 (n + 1)` legal moves can reach the evasions and the checks
number at most 91, `is_mate(2 (n + 1))` ends with an answer. -/
theorem C57_is_mate_partial (Z : Zobrist) (p : Position) (hp : Inv Z p) (hc : CheckOK p) (hr : (absPos p).Regular)
    (hl : p.st.pliesFromNull ≤ p.prev.length) (n fuel : Nat) (hf : n + 1 ≤ fuel) (h : ∀ q, Reaches Z (2 * n + 1) p q → ¬ Overrun q) :
    ∃ r, isMate Z fuel (2 * (n + 1) : Nat) p = some r := by
  rcases C43_is_mate_partial Z p hp hc hr hl n fuel hf with ⟨b, e, -⟩ | ⟨-, q, h1, h2⟩
  · exact ⟨_, e⟩
  · exact absurd h2 (h q h1)

/-- **C57** for `mate_move`. -/
theorem C57_mate_move_partial (Z : Zobrist) (p : Position) (hp : Inv Z p) (hc : CheckOK p) (hr : (absPos p).Regular)
    (hl : p.st.pliesFromNull ≤ p.prev.length) (n fuel : Nat) (hf : n + 1 ≤ fuel) (h : ∀ q, Reaches Z (2 * n + 2) p q → ¬ Overrun q) :
    ∃ r, mateMove Z fuel (2 * (n + 1) + 1 : Nat) p = some r := by
  rcases C43_mate_move_partial Z p hp hc hr hl n fuel hf with ⟨b, e, -⟩ | ⟨-, q, h1, h2⟩
  · exact ⟨_, e⟩
  · exact absurd h2 (h q h1)

/-- Black's king on 1e is in check by a rook on 9e across seven empty squares. Black holds one of every kind and surrounds the rank
with golds, promoted pawns, silvers, knights and a promoted bishop. -/
def spillBoard (s : Square) : Option (Color × Kind) :=
  match s.val with
  | 4 => some (.black, .king) | 76 => some (.white, .rook) | 36 => some (.white, .king)
  | 14 => some (.black, .gold) | 23 => some (.black, .gold) | 32 => some (.black, .gold)
  | 41 => some (.black, .proPawn) | 50 => some (.black, .proPawn) | 59 => some (.black, .proPawn) | 68 => some (.black, .proPawn)
  | 77 => some (.black, .proPawn)
  | 21 => some (.black, .silver) | 30 => some (.black, .silver) | 39 => some (.black, .silver) | 48 => some (.black, .horse)
  | 57 => some (.black, .proPawn) | 66 => some (.black, .proPawn) | 75 => some (.black, .proPawn)
  | 33 => some (.black, .knight) | 42 => some (.black, .knight) | 51 => some (.black, .knight)
  | _ => none

def spillHand (c : Color) (h : Nat) : Nat := match c, h with | .black, 0 => 1 | .black, 1 => 1 | .black, 2 => 1 | .black, 3 => 1 | .black, 4 => 1 | .black, 5 => 1 | .black, 6 => 1 | _, _ => 0

def spillModel : Position := setPieces zeroKeys clear (fun s => pieceCode (spillBoard s)) spillHand

theorem spillModel_ok : Inv zeroKeys spillModel ∧ absPos spillModel = ⟨spillBoard, fun c h => spillHand c h.code, .black⟩ ∧ CheckOK spillModel ∧
    (absPos spillModel).Regular :=
  setup_regular spillBoard spillHand 4 36 (by decide +kernel) (by decide +kernel) (fun c h => by cases c <;> cases h <;> decide)
    (by decide +kernel) (fun h => by cases h <;> decide +kernel) (by decide +kernel)

/-- **C57** is false: in this regular position, built from one set of pieces, there are 92 evasions, all of them legal. `is_mate(n)`
writes the last of them past the end of its buffer, for every `n`. -/
theorem C57_fails : Inv zeroKeys spillModel ∧ (absPos spillModel).InSet ∧ CheckOK spillModel ∧ (absPos spillModel).Regular ∧
    (∃ l, genEvasion spillModel false = some l ∧ l.length = 92 ∧ ∀ m ∈ l, ∃ mv, m = encode spillModel mv ∧ (absPos spillModel).Legal mv) ∧
    ∀ fuel ply, isMate zeroKeys fuel ply spillModel = none := by
  have hin : spillModel.inCheck = true := by decide +kernel
  have hlen : (genEvasion spillModel false).map List.length = some 92 := by decide +kernel
  obtain ⟨l, el, hl⟩ := Option.map_eq_some_iff.mp hlen
  have hp : andPicker spillModel = none := by
    unfold andPicker fits maxCheckMoves
    rw [el, Option.bind_some, if_neg (by omega)]; rfl
  refine ⟨spillModel_ok.1, spillModel_ok.1.inSet, spillModel_ok.2.2.1, spillModel_ok.2.2.2, ⟨l, el, hl, fun m hm => ?_⟩, fun fuel ply => ?_⟩
  · obtain ⟨l', el', h⟩ := C24_sound spillModel spillModel_ok.1.views spillModel_ok.2.2.1 spillModel_ok.2.2.2
    refine h m ?_
    have h0 : (match genEvasion spillModel false, genLegal spillModel true with
        | some l, some l' => l.all fun m => l'.contains m
        | _, _ => false) = true := by decide +kernel
    rw [el, el'] at h0
    simpa using List.all_eq_true.mp h0 m hm
  · unfold isMate
    rw [if_pos hin]
    cases fuel with
    | zero => rfl
    | succ fuel => rw [evenPly, hp]; rfl

/-! ### C58: the board afterwards -/

/-- **C58**: in every regular position, for every argument, when `is_mate` and `mate_move` return, the position is the same as before:
pieces, hands, side to move, keys, checkers, counters and record. -/
theorem C58_unchanged (Z : Zobrist) (p : Position) (hp : Inv Z p) (hc : CheckOK p) (hr : (absPos p).Regular)
    (hl : p.st.pliesFromNull ≤ p.prev.length) (fuel : Nat) (n : Int) (q : Position) :
    (∀ b, isMate Z fuel n p = some (b, q) → q = p) ∧ (∀ m, mateMove Z fuel n p = some (m, q) → q = p) := by
  have hs : Sound Z p := ⟨hp, hc, hr, hl⟩
  constructor
  · intro b e
    unfold isMate at e
    split at e
    · rename_i h
      exact evenPly_same fuel n hs (hc.inCheck.mp h) e
    · cases e; rfl
  · intro m e
    unfold mateMove at e
    rcases orPicker_res hs hc.inCheck with ⟨l, el, h1⟩ | ⟨el, -⟩
    · rw [el, Option.bind_some] at e
      obtain ⟨r, e1, e⟩ := Option.map_eq_some_iff.mp e
      have := oddLoop_same (fun q r hq hin e => evenPly_same fuel _ hq hin e) hs l h1 e1
      cases e
      exact this
    · rw [el] at e; cases e

theorem LChain.recorded {Z : Zobrist} {p0 : Position} {b : Board} (hb : LChain Z p0 b) (h0 : p0.st.pliesFromNull ≤ p0.prev.length) :
    b.pos.st.pliesFromNull ≤ b.pos.prev.length := by
  induction hb with
  | base cc _ _ _ => exact h0
  | push b m p' cc hb hm he ih =>
    obtain ⟨r1, r2, -⟩ := doMove_record he
    show p'.st.pliesFromNull ≤ p'.prev.length
    rw [r1, r2]; simp; exact ih
  | pass b cc hb hn ih =>
    show (0 : Int) ≤ _
    omega

/-- **C58** along games: after any sequence of legal pushes, passes and take-backs from a set-up position, a call of `is_mate` or
`mate_move` that returns leaves the board as it was. -/
theorem C58_history (Z : Zobrist) (p : Position) (hp : Inv Z p) (hc : CheckOK p) (hr : (absPos p).Regular)
    (hl : p.st.pliesFromNull ≤ p.prev.length) (ops : List Op) (ho : Always LegalOp Z ⟨p, []⟩ ops) (fuel : Nat) (n : Int) :
    ∃ b, Board.run Z ⟨p, []⟩ ops = some b ∧ ∀ q, (∀ a, isMate Z fuel n b.pos = some (a, q) → q = b.pos) ∧
      (∀ m, mateMove Z fuel n b.pos = some (m, q) → q = b.pos) := by
  obtain ⟨b, e, hb⟩ := (LChain.base (p0 := p) p.st.continuousCheck hp hc hr.waiting).run ops ho
  exact ⟨b, e, fun q => C58_unchanged Z b.pos hb.good.1 hb.good.2.1 (hb.regular hr) (hb.recorded hl) fuel n q⟩

end Verif
