import Verif.Lemmas.MateRuns
import Verif.Lemmas.MateFarFind
import Verif.Lemmas.MateFarMove
import Verif.Props.Mate
import Verif.Props.MoveText

/-!
# C56: which mates in one are found

`C56_fails` (Verif/Props/Mate.lean) shows that some mates are missed. Here: no mate is missed that is given by the piece played, from
a square with nothing between it and the king — a square next to the king or a knight's jump away — and none that is given by
dropping a piece, from whatever distance.
-/

namespace Verif
open Spec Bitboard Position

/-- The square a move leads to. -/
def Spec.Mv.goal : Mv → Square
  | .move _ t _ => t
  | .drop _ t => t

/-- After `mv` the piece just played attacks the opposing king and no square lies between the two. -/
def CloseCheck (q : Pos) (mv : Mv) : Prop :=
  ∃ k, q.board k = some (q.turn.opp, .king) ∧ (q.play mv).AttacksSq q.turn mv.goal k ∧ ∀ u, ¬ Between mv.goal u k

theorem group_found {p : Position} {k : Square} (h : Ready p k) {o : Option Move} (ho : o ∈ p.mateGroups k) {m : Move} (e : o = some m) :
    m ≠ 0#32 := by
  have hf : Found2 p m := groups_sound h (e ▸ ho)
  obtain ⟨mv, hl, -, rfl | ⟨f, t, kd, -, -, -, rfl⟩⟩ := hf
  · exact encode_ne_zero hl.1.1
  · intro e0
    have hf := f.isLt
    have ht := t.isLt
    have g1 : pieceType (p.piece t) < 16 := Nat.mod_lt _ (by decide)
    have := congrArg BitVec.toNat e0
    unfold genMove at this
    rw [makeCaptureMove_toNat _ _ _ _ g1 (by decide) (by omega) (by omega)] at this
    simp only [PT.Gold, BitVec.toNat_ofNat] at this
    omega

/-- If one of the groups has an answer, then so has `mate_move_in_1ply`, and it is right. -/
theorem answer_of_group {p : Position} {k : Square} (h : Ready p k) {o : Option Move} (ho : o ∈ p.mateGroups k) (hh : Hit o) :
    ∃ m, p.mateMoveIn1Ply = some m ∧ m ≠ 0#32 ∧ ∃ mv', (absPos p).Legal mv' ∧ ((absPos p).play mv').Mated ∧
      move16 m = move16 (encode p mv') := by
  obtain ⟨m, rfl⟩ := hh
  have hv : p.mateMoveIn1Ply = some (((p.mateGroups k).findSome? id).getD 0#32) := by unfold mateMoveIn1Ply; rw [h.king]; rfl
  obtain ⟨m', hm'⟩ : ∃ m', (p.mateGroups k).findSome? id = some m' := by
    rcases hg : (p.mateGroups k).findSome? id with _ | m'
    · rw [List.findSome?_eq_none_iff] at hg
      have := hg _ ho; cases this
    · exact ⟨m', rfl⟩
  rw [hm'] at hv
  obtain ⟨a, ha, e⟩ := List.exists_of_findSome?_eq_some hm'
  have hne := group_found h ha e
  obtain ⟨m2, e2, h2⟩ := C55_mate1_partial p h.cons h.reg h.calm
  rw [hv] at e2; cases e2
  obtain ⟨mv', h3, h4, h5, -⟩ := h2 hne
  exact ⟨m', hv, hne, mv', h3, h4, h5⟩

/-- **C56**, the part that holds: in every regular position in which the side to move is not in check, if some legal move mates and the
piece played gives check from a square with none between it and the king, then `mate_move_in_1ply` answers with a nonzero
integer, and that integer stands for a legal move that mates. -/
theorem C56_contact_partial (p : Position) (hp : Consistent p) (hr : (absPos p).Regular) (hn : ¬ (absPos p).InCheck p.turn)
    (mv : Mv) (hl : (absPos p).Legal mv) (hm : ((absPos p).play mv).Mated) (hc : CloseCheck (absPos p) mv) :
    ∃ m, p.mateMoveIn1Ply = some m ∧ m ≠ 0#32 ∧ ∃ mv', (absPos p).Legal mv' ∧ ((absPos p).play mv').Mated ∧
      move16 m = move16 (encode p mv') := by
  obtain ⟨k, hk, ⟨kt, hb, hat⟩, hnb⟩ := hc
  have hk : p.kingSquare p.turn.opp = some k := (hp.king _ _).mpr hk
  have h : Ready p k := ⟨hp, hr, hn, hk⟩
  have hat := contact_full hat hnb
  have hnear : AnyNear p k := by
    cases mv with
    | move f t pro =>
      obtain ⟨⟨⟨kd, hf, h1⟩, h2⟩, -⟩ := hl
      refine move_near h (f := f) (t := t) (kd := kd) (pro := pro) ⟨hf, ⟨⟨kd, hf, h1⟩, h2⟩, hm, ?_⟩
      rcases (play_move_own hf).mp hb with ⟨-, rfl⟩ | ⟨e, -⟩
      · exact hat
      · exact absurd rfl e
    | drop hd t =>
      refine drop_near h hl hm ?_
      have : kt = hd.kind := by
        have := hb
        unfold Pos.play Pos.set at this
        simp [Mv.goal] at this
        exact this.symm
      subst this
      exact hat
  obtain ⟨o, ho, hh⟩ := hnear
  exact answer_of_group h (by rw [mateGroups_near]; exact List.mem_append_left _ ho) hh

/-- **C56**, the part that holds for drops: if dropping a piece mates, from whatever distance, then `mate_move_in_1ply`
answers with a mate, although it tries no drop farther away than three squares. (The last hypothesis leaves out the cases where the opponent holds a piece that the rules keep from
being dropped in between because of the rank: the search takes it for a possible answer.) -/
theorem C56_drop_partial (p : Position) (hp : Consistent p) (hr : (absPos p).Regular) (hn : ¬ (absPos p).InCheck p.turn)
    (x : HKind) (t k : Square) (hl : (absPos p).Legal (.drop x t)) (hm : ((absPos p).play (.drop x t)).Mated)
    (hk : (absPos p).board k = some (p.turn.opp, .king)) 
    (hopen : ∀ y, 1 ≤ (absPos p).hand p.turn.opp y → ∀ w, Between t w k → ¬ Dead p.turn.opp y.kind w) :
    ∃ m, p.mateMoveIn1Ply = some m ∧ m ≠ 0#32 ∧ ∃ mv', (absPos p).Legal mv' ∧ ((absPos p).play mv').Mated ∧
      move16 m = move16 (encode p mv') := by
  have hk' : p.kingSquare p.turn.opp = some k := (hp.king _ _).mpr hk
  have h : Ready p k := ⟨hp, hr, hn, hk'⟩
  obtain ⟨⟨⟨hin, hempty, hdead, hnifu⟩, hsafe⟩, hpm⟩ := hl
  have htk : t ≠ k := by rintro rfl; rw [hk] at hempty; cases hempty
  have haf := After.of_drop (q := absPos p) x hempty
  have hK' := haf.king h.kingAt htk
  have ht' : ((absPos p).play (.drop x t)).turn = p.turn.opp := haf.turn
  have hopp : ((absPos p).play (.drop x t)).turn.opp = p.turn := by rw [ht', opp_opp]
  obtain ⟨s, hs⟩ := hK'.inCheck.mp hm.1
  have := drop_checker h hempty hs
  subst this
  obtain ⟨kd, hb, hat⟩ := hs
  rw [hopp] at hb hat
  obtain rfl : kd = x.kind := by
    rcases (haf.own s kd).mp hb with ⟨-, e⟩ | ⟨-, e⟩
    · exact e
    · rw [hempty] at e; cases e
  by_cases hnb : ∀ u, ¬ Between s u k
  · exact C56_contact_partial p hp hr hn (.drop x s) ⟨⟨⟨hin, hempty, hdead, hnifu⟩, hsafe⟩, hpm⟩ hm ⟨k, hk, ⟨x.kind, hb, hat⟩, hnb⟩
  · rw [not_forall] at hnb
    obtain ⟨w, hw⟩ := hnb
    rw [not_not] at hw
    rcases (attacks_iff ..).mp hat with e | ⟨hsl, hfree⟩
    · exact absurd hw (e.no_between w)
    · have hsl' := hsl
      obtain ⟨g, hg, n, hn1, hat'⟩ := hsl'
      have hgd := isDir_orient (c := p.turn) (isDir_slides _ g hg)
      have hfree' : ∀ w, Between s w k → (absPos p).board w = none := by
        intro w hw
        have := hfree w hw
        rw [Bool.eq_false_iff, ne_eq, haf.occ, not_or] at this
        rcases hbw : (absPos p).board w with _ | v
        · rfl
        · exact absurd ⟨by simp, occ_of_board hbw⟩ this.2
      have hn2 : 2 ≤ n := by
        obtain ⟨j, hj, hjn, -⟩ := between_at (isDir_neg hgd) hn1 (at_symm.mp hat') hw
        omega
      have c : FarDrop p k s x (neg (orient p.turn g)) n := ⟨isDir_neg hgd, hn2, at_symm.mp hat', hempty, hsl, hfree', hm⟩
      exact answer_of_group h (by rw [mateGroups_near]; simp) (c.found h ((has_iff hp p.turn x).mpr hin) fun w hw y hy => hopen y hy w hw)

/-- **C56, moves of line pieces**: a mating move that gives check with a line piece from the second square from the king is found, or another mate in its place, if
the piece uncovers no line of one of its own side to the king, at most three squares next to the king are free and not attacked before the move, the
opponent has no two pawns on a file, and holds no piece that may not be dropped in between. -/
theorem C56_slide_partial (p : Position) (hp : Consistent p) (hr : (absPos p).Regular) (hn : ¬ (absPos p).InCheck p.turn)
    (f t k : Square) (kd : Kind) (pro : Bool) (d : Dir) (hl : (absPos p).Legal (.move f t pro)) (hm : ((absPos p).play (.move f t pro)).Mated)
    (hk : (absPos p).board k = some (p.turn.opp, .king)) (hf : (absPos p).board f = some (p.turn, kd)) (hd : d ∈ orth ++ diag) (ht : At k d 2 t)
    (hcov : ∀ s kd', (absPos p).board s = some (p.turn, kd') → Attacks p.turn kd' (fun _ => false) s k → ¬ Between s f k)
    (hopen : ∀ y, 1 ≤ (absPos p).hand p.turn.opp y → ∀ w, Between t w k → ¬ Dead p.turn.opp y.kind w)
    (hone : ∀ u v, (absPos p).board u = some (p.turn.opp, .pawn) → (absPos p).board v = some (p.turn.opp, .pawn) → X u = X v → u = v)
    (hesc : ∀ l : List Square, l.Nodup → (∀ u ∈ l, Attacks p.turn.opp .king (absPos p).occ k u ∧ (∀ kd', (absPos p).board u ≠ some (p.turn.opp, kd')) ∧
      ∀ s, ¬ (absPos p).AttacksSq p.turn s u) → l.length ≤ 3) :
    ∃ m, p.mateMoveIn1Ply = some m ∧ m ≠ 0#32 ∧ ∃ mv', (absPos p).Legal mv' ∧ ((absPos p).play mv').Mated ∧
      move16 m = move16 (encode p mv') := by
  have hk' : p.kingSquare p.turn.opp = some k := (hp.king _ _).mpr hk
  have h : Ready p k := ⟨hp, hr, hn, hk'⟩
  have hdir : IsDir d := by
    exact (show ∀ d ∈ orth ++ diag, (d.1 = 0 ∨ d.1 = 1 ∨ d.1 = -1) ∧ (d.2 = 0 ∨ d.2 = 1 ∨ d.2 = -1) ∧ ¬ (d.1 = 0 ∧ d.2 = 0) by decide) d hd
  obtain ⟨one, h1⟩ : ∃ one, At k d 1 one := at_prefix hdir (by omega) ht
  have hb1 : Between t one k := between_symm.mp (between_iff.mpr ⟨d, hdir, line_of_at (le_refl 1) h1, ⟨1, by omega, at_sub (by omega) h1 ht⟩⟩)
  have hb2 : ∀ w, Between t w k → w = one := fun w hw => between_two hdir h1 ht hw
  obtain ⟨kd', hb', ha, hnt, hpr⟩ := hl.1.1
  rw [show (absPos p).turn = p.turn from rfl, hf] at hb'; cases hb'
  have htk : t ≠ k := (line_ne hdir (line_of_at (by omega) ht)).symm
  have haf := After.of_move (q := absPos p) pro hf hnt
  have hK' := haf.king h.kingAt htk
  have ht' : ((absPos p).play (.move f t pro)).turn = p.turn.opp := haf.turn
  have hopp : ((absPos p).play (.move f t pro)).turn.opp = p.turn := by rw [ht', opp_opp]
  have hcv : ∀ s kd', (absPos p).board s = some (p.turn, kd') → SlideLine p.turn kd' s k → ¬ Between s f k := fun s kd' e1 e2 =>
    hcov s kd' e1 ((attacks_iff ..).mpr (.inr ⟨e2, fun _ _ => rfl⟩))
  obtain ⟨s, hs⟩ := hK'.inCheck.mp hm.1
  have hst : s = t := by
    by_contra hne
    obtain ⟨⟨kd', g1, g2⟩, g3, -⟩ := (move_checker h hf ha hnt hs hne).1
    exact hcv s kd' g1 g2 g3
  subst hst
  obtain ⟨kt, hb, hat⟩ := hs
  rw [hopp] at hb hat
  obtain rfl : kt = Pos.arriving kd pro := by
    rcases (haf.own s kt).mp hb with ⟨-, e⟩ | ⟨-, e⟩
    · exact e
    · exact absurd e (hnt kt)
  rcases (attacks_iff ..).mp hat with e | ⟨hsl, hfree⟩
  · exact absurd hb1 (e.no_between one)
  · have hfo : f ≠ one := by
      rintro rfl
      refine hr.waiting ⟨k, hk, f, kd, by rw [opp_opp]; exact hf, ?_⟩
      rw [show (absPos p).turn = p.turn from rfl, opp_opp]
      obtain ⟨g, hg, hgl⟩ := hsl
      have hgd := line_dir_unique (isDir_orient (c := p.turn) (isDir_slides _ g hg)) (isDir_neg hdir) hgl (line_of_at (by omega) (at_symm.mp ht))
      have hgk : g ∈ kd.slides := by
        cases pro
        · exact hg
        · cases kd <;> first | exact hg | cases hg
      refine (attacks_iff ..).mpr (.inr ⟨⟨g, hgk, by rw [hgd]; exact line_of_at (le_refl 1) (at_symm.mp h1)⟩, fun u hu => ?_⟩)
      obtain ⟨j, hj, hj1, -⟩ := between_at hdir (le_refl 1) h1 hu
      omega
    have c : FarMove p k f s kd pro d := ⟨hdir, ht, hf, hl.1, hsl, fun w hw => by
      have hwo := hfree w hw
      rw [Bool.eq_false_iff, ne_eq, haf.occ, not_or] at hwo
      rcases hbw : (absPos p).board w with _ | v
      · rfl
      · refine absurd ⟨?_, occ_of_board hbw⟩ hwo.2
        rw [hb2 w hw]
        intro e; exact hfo (Option.some.inj e).symm, hm, hcv⟩
    exact answer_of_group h (by rw [mateGroups_near]; simp) (c.found h (fun w hw y hy => hopen y hy w hw) hone fun l h1 h2 => hesc l h1 fun u hu => by
      obtain ⟨e1, e2⟩ := h2 u hu
      exact ⟨.inl e1, e2⟩)

/-- So an answer of 0 says that any mate in one is given from afar or by uncovering a check. -/
theorem C56_zero_partial (p : Position) (hp : Consistent p) (hr : (absPos p).Regular) (hn : ¬ (absPos p).InCheck p.turn)
    (h0 : p.mateMoveIn1Ply = some 0#32) (mv : Mv) (hl : (absPos p).Legal mv) (hm : ((absPos p).play mv).Mated) :
    ¬ CloseCheck (absPos p) mv := by
  intro hc
  obtain ⟨m, e, hne, -⟩ := C56_contact_partial p hp hr hn mv hl hm hc
  rw [h0] at e; cases e; exact hne rfl

/-- The hypotheses are met in `goldModel` by the drop of the gold in front of the king. -/
example : Consistent goldModel ∧ (absPos goldModel).Regular ∧ ¬ (absPos goldModel).InCheck goldModel.turn ∧
    (absPos goldModel).Legal (.drop .gold 37) ∧ ((absPos goldModel).play (.drop .gold 37)).Mated ∧
    CloseCheck (absPos goldModel) (.drop .gold 37) := by
  obtain ⟨hi, ha, hc, hr⟩ := goldModel_ok
  have hn : ¬ (absPos goldModel).InCheck goldModel.turn := by rw [← inCheckB_iff hi.views]; decide +kernel
  have he : goldModel.mateMoveIn1Ply = some (encode goldModel (.drop .gold 37)) := by decide +kernel
  obtain ⟨m, e, h⟩ := C55_mate1_partial goldModel hi.views hr hn
  rw [he] at e; cases e
  obtain ⟨mv, h1, h2, -, -, h3⟩ := h (by decide +kernel)
  have hmv : mv = .drop .gold 37 := by
    by_contra hne
    obtain ⟨f, t, kd, rfl, hb, hk⟩ := h3 (fun e => hne (encode_inj _ e).symm)
    rw [ha] at hb
    have hno : ∀ f, goldBoard f ≠ some (.black, .proPawn) ∧ goldBoard f ≠ some (.black, .proLance) ∧
        goldBoard f ≠ some (.black, .proKnight) ∧ goldBoard f ≠ some (.black, .proSilver) := by decide +kernel
    obtain ⟨n1, n2, n3, n4⟩ := hno f
    rcases hk with rfl | rfl | rfl | rfl
    exacts [n1 hb, n2 hb, n3 hb, n4 hb]
  subst hmv
  have hst : StepAt .black .gold 37 36 := ⟨(0, -1), by decide, by decide⟩
  refine ⟨hi.views, hr, hn, h1, h2, 36, ?_, ⟨.gold, rfl, ?_⟩, ?_⟩
  · rw [ha]; decide +kernel
  · exact Or.inl hst
  · exact fun u => hst.no_between u

/-! ### Drops: what the hypotheses leave out, and a case that meets them -/

/-- Reading a mate off the computed lists. -/
theorem mate_by_lists {p : Position} (hi : Inv zeroKeys p) (hc : CheckOK p) (hr : (absPos p).Regular) {mv : Mv}
    (h1 : (match genLegal p true with | none => true | some l => l.contains (encode p mv)) = true)
    (h2 : (match doMove zeroKeys p (encode p mv) with
      | none => false
      | some p' => inCheckB p' p'.turn && genLegal p' true == some []) = true)
    (hpawn : (absPos p).hand p.turn.opp .pawn = 0) : (absPos p).Legal mv ∧ ((absPos p).play mv).Mated := by
  have hleg : (absPos p).Legal mv := by
    obtain ⟨l, e, hm⟩ := C24_sound p hi.views hc hr
    rw [e] at h1
    obtain ⟨mv', e1, e2⟩ := hm (encode p mv) (by simpa using h1)
    rw [encode_inj _ e1]; exact e2
  refine ⟨hleg, ?_⟩
  obtain ⟨p', e, hi', hc', hw', ha', -⟩ := doMove_safe zeroKeys hi hr.waiting hleg.1
  have hr' : (absPos p').Regular := by rw [ha']; exact Regular.play hr hleg.1
  rw [← ha']
  rw [e] at h2
  simp only [Bool.and_eq_true, beq_iff_eq] at h2
  refine ⟨(inCheckB_iff hi'.views _).mp h2.1, fun m hs => ?_⟩
  obtain ⟨l, e2, hm⟩ := C25_complete p' hi'.views hc' hr'
  rw [h2.2] at e2; cases e2
  have hnl : ¬ (absPos p').Legal m := fun h => by have := hm m h; cases this
  refine hnl ⟨hs, ?_⟩
  rintro ⟨t, rfl, -⟩
  have := hs.1.1
  rw [ha', play_turn, play_hand_opp, show (absPos p).turn = p.turn from rfl, hpawn] at this
  omega

/-- White's king on 1i, Black's rook on 9h and a rook in Black's hand; White holds a knight if `knight`. -/
def dropBoard (s : Square) : Option (Color × Kind) :=
  match s.val with
  | 8 => some (.white, .king) | 79 => some (.black, .rook) | 72 => some (.black, .king) | _ => none

def dropHand (knight : Bool) (c : Color) (h : Nat) : Nat := match c, h with | .white, 2 => knight.toNat | .black, 6 => 1 | _, _ => 0

def dropModel (knight : Bool) : Position := setPieces zeroKeys clear (fun s => pieceCode (dropBoard s)) (dropHand knight)

theorem dropModel_ok (knight : Bool) : Inv zeroKeys (dropModel knight) ∧
    absPos (dropModel knight) = ⟨dropBoard, fun c h => dropHand knight c h.code, .black⟩ ∧ CheckOK (dropModel knight) ∧
    (absPos (dropModel knight)).Regular := by
  cases knight
  · exact setup_regular dropBoard (dropHand false) 72 8 (by decide +kernel) (by decide +kernel) (fun c h => by cases c <;> cases h <;> decide)
      (by decide +kernel) (fun h => by cases h <;> decide +kernel) (by decide +kernel)
  · exact setup_regular dropBoard (dropHand true) 72 8 (by decide +kernel) (by decide +kernel) (fun c h => by cases c <;> cases h <;> decide)
      (by decide +kernel) (fun h => by cases h <;> decide +kernel) (by decide +kernel)

/-- Dropping the rook on 5i, four squares from the king, mates, with or without the knight. -/
theorem dropModel_mate (knight : Bool) : ¬ (absPos (dropModel knight)).InCheck (dropModel knight).turn ∧
    (absPos (dropModel knight)).Legal (.drop .rook 44) ∧ ((absPos (dropModel knight)).play (.drop .rook 44)).Mated := by
  obtain ⟨hi, ha, hc, hr⟩ := dropModel_ok knight
  refine ⟨by rw [← inCheckB_iff hi.views]; cases knight <;> decide +kernel, ?_⟩
  exact mate_by_lists hi hc hr (by cases knight <;> decide +kernel) (by cases knight <;> decide +kernel) (by rw [ha]; cases knight <;> decide +kernel)

/-- **C56** fails for drops too, if the opponent holds a piece that may not be dropped in between: White's knight cannot be dropped on the last
rank, so the rook mates, but the answer is 0. -/
theorem C56_fails_drop : Inv zeroKeys (dropModel true) ∧ CheckOK (dropModel true) ∧ (absPos (dropModel true)).Regular ∧
    ¬ (absPos (dropModel true)).InCheck (dropModel true).turn ∧
    (absPos (dropModel true)).Legal (.drop .rook 44) ∧ ((absPos (dropModel true)).play (.drop .rook 44)).Mated ∧
    (dropModel true).mateMoveIn1Ply = some 0#32 :=
  ⟨(dropModel_ok true).1, (dropModel_ok true).2.2.1, (dropModel_ok true).2.2.2, (dropModel_mate true).1, (dropModel_mate true).2.1,
    (dropModel_mate true).2.2, by decide +kernel⟩

/-- Without the knight the hypotheses of `C56_drop_partial` are met by the drop on 5i (and the answer is a drop on 3i). -/
example : Consistent (dropModel false) ∧ (absPos (dropModel false)).Regular ∧ ¬ (absPos (dropModel false)).InCheck (dropModel false).turn ∧
    (absPos (dropModel false)).Legal (.drop .rook 44) ∧ ((absPos (dropModel false)).play (.drop .rook 44)).Mated ∧
    (absPos (dropModel false)).board 8 = some ((dropModel false).turn.opp, .king) ∧
    (∀ y, 1 ≤ (absPos (dropModel false)).hand (dropModel false).turn.opp y → ∀ w, Between 44 w 8 → ¬ Dead (dropModel false).turn.opp y.kind w) ∧
    (dropModel false).mateMoveIn1Ply = some (encode (dropModel false) (.drop .rook 26)) := by
  obtain ⟨hi, ha, hc, hr⟩ := dropModel_ok false
  refine ⟨hi.views, hr, (dropModel_mate false).1, (dropModel_mate false).2.1, (dropModel_mate false).2.2, ?_, ?_, by decide +kernel⟩
  · rw [ha]; decide +kernel
  · intro y hy
    rw [ha] at hy
    cases y <;> exact absurd hy (by decide +kernel)

/-! ### Moves of line pieces: what the hypotheses leave out, and a case that meets them -/

/-- White's king on 5e between four of its own pieces, Black's dragon on 7i. -/
def slideBoard (s : Square) : Option (Color × Kind) :=
  match s.val with
  | 40 => some (.white, .king) | 39 => some (.white, .pawn) | 41 => some (.white, .lance) | 30 => some (.white, .pawn)
  | 32 => some (.white, .knight) | 62 => some (.black, .dragon) | 80 => some (.black, .king) | _ => none

def slideModel : Position := setPieces zeroKeys clear (fun s => pieceCode (slideBoard s)) (fun _ _ => 0)

theorem slideModel_ok : Inv zeroKeys slideModel ∧ absPos slideModel = ⟨slideBoard, fun _ _ => 0, .black⟩ ∧ CheckOK slideModel ∧
    (absPos slideModel).Regular :=
  setup_regular slideBoard (fun _ _ => 0) 80 40 (by decide +kernel) (by decide +kernel) (fun c h => by cases c <;> cases h <;> decide)
      (by decide +kernel) (fun h => by cases h <;> decide +kernel) (by decide +kernel)

/-- **C56** fails for moves of line pieces that take more than three squares from the king: the dragon mates on 7e, two squares from the king, but the
answer is 0. -/
theorem C56_fails_slide : Inv zeroKeys slideModel ∧ CheckOK slideModel ∧ (absPos slideModel).Regular ∧
    ¬ (absPos slideModel).InCheck slideModel.turn ∧ (absPos slideModel).Legal (.move 62 58 false) ∧
    ((absPos slideModel).play (.move 62 58 false)).Mated ∧ slideModel.mateMoveIn1Ply = some 0#32 := by
  obtain ⟨hi, ha, hc, hr⟩ := slideModel_ok
  obtain ⟨h1, h2⟩ := mate_by_lists (mv := .move 62 58 false) hi hc hr (by decide +kernel) (by decide +kernel) (by rw [ha])
  exact ⟨hi, hc, hr, by rw [← inCheckB_iff hi.views]; decide +kernel, h1, h2, by decide +kernel⟩

/-- White's king on 1i, Black's rooks on 9h and 3e. -/
def towerBoard (s : Square) : Option (Color × Kind) :=
  match s.val with
  | 8 => some (.white, .king) | 79 => some (.black, .rook) | 22 => some (.black, .rook) | 72 => some (.black, .king) | _ => none

def towerModel : Position := setPieces zeroKeys clear (fun s => pieceCode (towerBoard s)) (fun _ _ => 0)

theorem towerModel_ok : Inv zeroKeys towerModel ∧ absPos towerModel = ⟨towerBoard, fun _ _ => 0, .black⟩ ∧ CheckOK towerModel ∧
    (absPos towerModel).Regular :=
  setup_regular towerBoard (fun _ _ => 0) 72 8 (by decide +kernel) (by decide +kernel) (fun c h => by cases c <;> cases h <;> decide)
      (by decide +kernel) (fun h => by cases h <;> decide +kernel) (by decide +kernel)

/-- The hypotheses of `C56_slide_partial` are met by the move of the rook to 3i, and it is the answer. -/
example : Consistent towerModel ∧ (absPos towerModel).Regular ∧ ¬ (absPos towerModel).InCheck towerModel.turn ∧
    (absPos towerModel).Legal (.move 22 26 false) ∧ ((absPos towerModel).play (.move 22 26 false)).Mated ∧
    (absPos towerModel).board 8 = some (towerModel.turn.opp, .king) ∧ (absPos towerModel).board 22 = some (towerModel.turn, .rook) ∧
    ((1, 0) : Dir) ∈ orth ++ diag ∧ At 8 (1, 0) 2 26 ∧
    (∀ s kd', (absPos towerModel).board s = some (towerModel.turn, kd') → Attacks towerModel.turn kd' (fun _ => false) s 8 → ¬ Between s 22 8) ∧
    (∀ y, 1 ≤ (absPos towerModel).hand towerModel.turn.opp y → ∀ w, Between 26 w 8 → ¬ Dead towerModel.turn.opp y.kind w) ∧
    (∀ u v, (absPos towerModel).board u = some (towerModel.turn.opp, .pawn) → (absPos towerModel).board v = some (towerModel.turn.opp, .pawn) →
      X u = X v → u = v) ∧
    (∀ l : List Square, l.Nodup → (∀ u ∈ l, Attacks towerModel.turn.opp .king (absPos towerModel).occ 8 u ∧
      (∀ kd', (absPos towerModel).board u ≠ some (towerModel.turn.opp, kd')) ∧
      ∀ s, ¬ (absPos towerModel).AttacksSq towerModel.turn s u) → l.length ≤ 3) ∧
    towerModel.mateMoveIn1Ply = some (encode towerModel (.move 22 26 false)) := by
  obtain ⟨hi, ha, hc, hr⟩ := towerModel_ok
  obtain ⟨h1, h2⟩ := mate_by_lists (mv := .move 22 26 false) hi hc hr (by decide +kernel) (by decide +kernel) (by rw [ha])
  refine ⟨hi.views, hr, by rw [← inCheckB_iff hi.views]; decide +kernel, h1, h2, by rw [ha]; decide +kernel, by rw [ha]; decide +kernel,
    by decide, by decide, ?_, ?_, ?_, ?_, by decide +kernel⟩
  · rintro s kd' - - ⟨d, hd, j, m, hj, hjm, e1, e2⟩
    simp only [orth, diag, List.cons_append, List.nil_append, List.mem_cons, List.not_mem_nil, or_false] at hd
    have hx : X 22 = 2 ∧ Y 22 = 4 ∧ X 8 = 0 ∧ Y 8 = 8 := by decide
    obtain ⟨x1, x2, x3, x4⟩ := hx
    rcases hd with rfl | rfl | rfl | rfl | rfl | rfl | rfl | rfl <;> unfold At at e1 e2 <;> simp only at e1 e2 <;> omega
  · intro y hy
    rw [ha] at hy
    exact absurd hy (Nat.not_succ_le_zero 0)
  · intro u v hu
    rw [ha] at hu
    have : ∀ u, towerBoard u ≠ some (.white, .pawn) := by decide +kernel
    exact absurd hu (this u)
  · intro l hl hu
    have hsub : l ⊆ [17] := by
      intro u hul
      obtain ⟨e1, e2, e3⟩ := hu u hul
      have hku : (kingAttack 8).isSet u = true := (isSet_king_step _ 8 u).mpr (king_step e1)
      by_contra hne
      have hall : ∀ u : Square, (kingAttack 8).isSet u = true → u ∉ [17] → (towerModel.attackersTo .black u towerModel.occupied).isAny = true := by
        decide +kernel
      have hany := hall u hku hne
      rw [(wf_attackersTo hi.views _ _ _).isAny_iff] at hany
      obtain ⟨s, hs⟩ := hany
      rw [isSet_attackersTo hi.views, hi.views.occ_fun] at hs
      obtain ⟨kd, h3, h4⟩ := hs
      exact e3 s ⟨kd, h3, h4⟩
    have := (hl.subperm hsub).length_le
    simp at this; omega

end Verif
