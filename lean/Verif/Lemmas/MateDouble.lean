import Verif.Lemmas.MateFar

/-!
The group of `mateMoveIn1Ply` that gives check by two pieces at once.
-/

namespace Verif
open Spec Bitboard Position

/-- What the last two groups return: as `Found`, but a promoted minor piece may be called a gold in the move word. -/
def Found2 (p : Position) (m : Move) : Prop :=
  ∃ mv, (absPos p).Legal mv ∧ ((absPos p).play mv).Mated ∧ (m = encode p mv ∨
    ∃ f t kd, mv = .move f t false ∧ (absPos p).board f = some (p.turn, kd) ∧ goldLike kd = true ∧ m = genMove p PT.Gold f t)

theorem Found.two {p : Position} {m : Move} (h : Found p m) : Found2 p m := by
  obtain ⟨mv, h1, h2, h3⟩ := h
  exact ⟨mv, h1, h2, .inl h3⟩

/-- A piece of the side to move leaves the line between its own line piece on `S` and the enemy king. -/
structure Unc (p : Position) (k src S t : Square) (kd : Kind) : Prop where
  board : (absPos p).board src = some (p.turn, kd)
  notKing : kd ≠ .king
  pin : PinLine (absPos p) p.turn k src S
  att : Attacks p.turn kd (absPos p).occ src t
  free : ∀ kd', (absPos p).board t ≠ some (p.turn, kd')
  off : ¬ OnLine src t k

section
variable {p : Position} {k : Square} (h : Ready p k)
include h

theorem not_attacked {s : Square} {kd : Kind} (hs : (absPos p).board s = some (p.turn, kd)) : ¬ Attacks p.turn kd (absPos p).occ s k := by
  intro ha
  apply h.reg.waiting
  show (absPos p).InCheck p.turn.opp
  rw [h.kingAt.inCheck, opp_opp]
  exact ⟨s, kd, hs, ha⟩

omit h in
theorem pin_line {src S : Square} (hp : PinLine (absPos p) p.turn k src S) :
    ∃ d n m, IsDir d ∧ 1 ≤ m ∧ m < n ∧ At k d m src ∧ At k d n S := by
  obtain ⟨d, hd, ⟨a, ha, h1⟩, ⟨b, hb, h2⟩⟩ := between_iff.mp (between_symm.mp hp.btw)
  exact ⟨d, a + b, a, hd, ha, by omega, h1, at_add h1 h2⟩

variable {src S t : Square} {kd : Kind}

theorem Unc.tk (hU : Unc p k src S t kd) : t ≠ k := by
  rintro rfl; exact not_attacked h hU.board hU.att

omit h in
theorem Unc.after (hU : Unc p k src S t kd) (pro : Bool) :
    After (absPos p) ((absPos p).play (.move src t pro)) (some src) t (Pos.arriving kd pro) := After.of_move pro hU.board hU.free

omit h in
theorem Unc.between (hU : Unc p k src S t kd) : S ≠ t ∧ ¬ Between S t k := hU.pin.leaves (attacks_ne hU.att).symm hU.off

omit h in
theorem Unc.S_own (hU : Unc p k src S t kd) (pro : Bool) {kS : Kind} (hS : (absPos p).board S = some (p.turn, kS)) :
    ((absPos p).play (.move src t pro)).board S = some (p.turn, kS) := by
  refine ((hU.after pro).own S kS).mpr (.inr ⟨fun e => ?_, hS⟩)
  exact between_ne_left hU.pin.btw (Option.some.inj e).symm

omit h in
theorem Unc.S_free (hU : Unc p k src S t kd) (pro : Bool) {w : Square} (hw : Between S w k) :
    ((absPos p).play (.move src t pro)).occ w = false := by
  rw [Bool.eq_false_iff, ne_eq, (hU.after pro).occ]
  rintro (rfl | ⟨e, ho⟩)
  · exact hU.between.2 hw
  · exact e (congrArg some (hU.pin.only w hw ho))

theorem Unc.checker (hU : Unc p k src S t kd) (pro : Bool) : Checker ((absPos p).play (.move src t pro)) k S := by
  have := (move_gives (q := absPos p) (pro := pro) h.kingAt h.reg.waiting hU.board hU.att hU.free S).mpr (.inr ⟨hU.pin, hU.between.2⟩)
  unfold Checker
  rw [play_turn, opp_opp]
  exact this

/-- Next to the king, the line of the uncovered piece is covered by it. -/
theorem Unc.line_covered (hU : Unc p k src S t kd) (pro : Bool) {d : Dir} {n : Nat} (hd : IsDir d) (hn : 2 ≤ n) (hS : At k d n S)
    {u : Square} (hu : StepAt p.turn.opp .king k u) (hl : At k d 1 u ∨ At k (neg d) 1 u) :
    ∃ s kd', ((absPos p).play (.move src t pro)).board s = some (p.turn, kd') ∧
      Attacks p.turn kd' (occWithout ((absPos p).play (.move src t pro)).occ k) s u := by
  obtain ⟨kS, hbS, hsl⟩ := hU.pin.piece
  refine ⟨S, kS, hU.S_own pro hbS, far_cover hd hn hS hsl (fun w hw => hU.S_free pro hw) hu ?_⟩
  rcases hl with hl | hl
  · exact line_of_at (n := n - 1) (by omega) (at_symm.mp (at_sub (by omega) hl hS))
  · exact line_trans (line_of_at (by omega) (at_symm.mp hS)) (line_of_at (le_refl 1) hl)

theorem goto_false {bb : Bitboard} (hb : (absPos p).board src = some (p.turn, kd)) (htk : t ≠ k) {occ' : Square → Bool}
    (hocc : ∀ w, occ' w = true → w ≠ k ∧ (w = t ∨ (w ≠ src ∧ (absPos p).occ w = true)))
    (hc : p.canKingEscapeGoto p.turn.opp k src t bb (p.occupied ^^^ setMask src) = false) :
    ∀ u, StepAt p.turn.opp .king k u → ((∀ kd, (absPos p).board u ≠ some (p.turn.opp, kd)) ∨ u = t) →
      (bb.isSet u = true ∧ u ≠ t) ∨ Guarded p (some src) occ' u := by
  intro u hu hfr
  by_contra hcon
  rw [not_or] at hcon
  unfold canKingEscapeGoto at hc
  simp only [opp_opp] at hc
  rw [List.any_eq_false] at hc
  have hw : (kingAttack k &&& ~~~((bb ||| p.byColor p.turn.opp) &&& ~~~setMask t)).WF := (wf_kingAttack k).and_left
  have e2 : (kingAttack k).isSet u = true := (isSet_king_step _ k u).mpr hu
  have hmem : u ∈ (kingAttack k &&& ~~~((bb ||| p.byColor p.turn.opp) &&& ~~~setMask t)).toList := by
    rw [hw.mem_toList, isSet_and, isSet_not, isSet_and, isSet_or, isSet_not, isSet_setMask, e2]
    by_cases hut : u = t
    · simp [hut]
    · have e1 : (p.byColor p.turn.opp).isSet u = false := by
        rcases hfr with hfr | hfr
        · rw [Bool.eq_false_iff, ne_eq, h.cons.color]; rintro ⟨kd, e⟩; exact hfr kd e
        · exact absurd hfr hut
      have e3 : bb.isSet u = false := by rw [Bool.eq_false_iff]; exact fun e => hcon.1 ⟨e, hut⟩
      simp [e1, e3]
  have := hc u hmem
  rw [Bool.not_eq_true, Bool.not_eq_false'] at this
  obtain ⟨s, hs⟩ := (((wf_attackersTo h.cons _ _ _).and_left : (p.attackersTo p.turn u
    ((p.occupied ^^^ setMask src ||| setMask t) ^^^ setMask k) &&& ~~~setMask src).WF).isAny_iff).mp this
  rw [isSet_and, isSet_not, isSet_setMask, Bool.and_eq_true, isSet_attackersTo h.cons] at hs
  obtain ⟨⟨kd', hs1, hs2⟩, hs3⟩ := hs
  apply hcon.2
  refine ⟨s, kd', hs1, ?_, attacks_mono (fun w hw => ?_) hs2⟩
  · intro e; cases e; simp at hs3
  · obtain ⟨hwk, hw⟩ := hocc w hw
    rw [isSet_xor, isSet_or, isSet_xor, isSet_setMask, isSet_setMask, isSet_setMask]
    rcases hw with rfl | ⟨hws, hw⟩
    · simp [hwk]
    · rw [h.cons.occ_fun, hw]; simp [hwk, hws]

/-- Both the moved piece and the uncovered one give check. -/
theorem Unc.double (hU : Unc p k src S t kd) {pro : Bool} {bb : Bitboard} (hpro : ProOK p.turn kd src t pro)
    (hl : leavesLine src t (p.kingSquare p.turn) p.pinnedBB = false)
    (hat : Attacks p.turn (Pos.arriving kd pro) (absPos p).occ t k)
    (hc : p.canKingEscapeGoto p.turn.opp k src t bb (p.occupied ^^^ setMask src) = false)
    (hcov : ∀ u, StepAt p.turn.opp .king k u → bb.isSet u = true →
      ∃ s kd', ((absPos p).play (.move src t pro)).board s = some (p.turn, kd') ∧
        Attacks p.turn kd' (occWithout ((absPos p).play (.move src t pro)).occ k) s u) :
    (absPos p).Legal (.move src t pro) ∧ ((absPos p).play (.move src t pro)).Mated := by
  have ha := hU.after pro
  have hturn : ((absPos p).play (.move src t pro)).turn = p.turn.opp := ha.turn
  refine ⟨h.legal_move hU.board hU.notKing ⟨kd, hU.board, hU.att, hU.free, hpro.1, hpro.2⟩
    (fun k' hk' => leavesLineN_false (knight := false) h hU.board hU.att hU.free hk' hl), ?_⟩
  have hct : Checker ((absPos p).play (.move src t pro)) k t := by
    have := (move_gives (q := absPos p) (pro := pro) h.kingAt h.reg.waiting hU.board hU.att hU.free t).mpr (.inl ⟨rfl, hat⟩)
    unfold Checker
    rw [play_turn, opp_opp]
    exact this
  refine mated_of_two (ha.king h.kingAt (hU.tk h)) (hU.checker h pro) hct hU.between.1 ?_
  intro u hu hfr
  rw [hturn] at hu hfr
  rw [hturn, opp_opp]
  have hocc : ∀ w, occWithout ((absPos p).play (.move src t pro)).occ k w = true → w ≠ k ∧ (w = t ∨ (w ≠ src ∧ (absPos p).occ w = true)) := by
    intro w hw
    unfold occWithout at hw
    split at hw
    · cases hw
    · rename_i hwk
      refine ⟨hwk, ?_⟩
      rcases (ha.occ w).mp hw with e | ⟨e, e'⟩
      · exact .inl e
      · exact .inr ⟨fun x => e (congrArg some x), e'⟩
  have hfr' : (∀ kd, (absPos p).board u ≠ some (p.turn.opp, kd)) ∨ u = t := by
    by_cases hut : u = t
    · exact .inr hut
    · exact .inl fun kd e => hfr kd ((ha.them u kd).mpr ⟨hut, e⟩)
  rcases goto_false h hU.board (hU.tk h) hocc hc u hu hfr' with ⟨e, -⟩ | ⟨s, kd', e1, e2, e3⟩
  · exact hcov u hu e
  · exact ⟨s, kd', (ha.own s kd').mpr (.inr ⟨e2, e1⟩), e3⟩

omit h in
theorem Unc.covers (hU : Unc p k src S t kd) {pro : Bool} {bb : Bitboard}
    (hc : Covers ((absPos p).play (.move src t pro)) p.turn (Pos.arriving kd pro) t k bb) :
    ∀ u, StepAt p.turn.opp .king k u → bb.isSet u = true →
      ∃ s kd', ((absPos p).play (.move src t pro)).board s = some (p.turn, kd') ∧
        Attacks p.turn kd' (occWithout ((absPos p).play (.move src t pro)).occ k) s u :=
  fun u hu hb => ⟨t, _, (hU.after pro).arrived, hc u hu hb⟩

omit h in
theorem Unc.att' (hU : Unc p k src S t kd) {pro : Bool} {kt : Kind} (ha : Attacks p.turn kt (absPos p).occ t k) :
    Attacks p.turn kt ((absPos p).play (.move src t pro)).occ t k := by
  refine attacks_mono' (fun u hu ho => ?_) ha
  rcases ((hU.after pro).occ u).mp ho with e | e
  · exact absurd e (between_ne_left hu)
  · exact e.2

/-! ### Pawns, knights, silvers -/

theorem doublePawn_sound {m : Move} (hb : (absPos p).board src = some (p.turn, .pawn)) (hp : PinLine (absPos p) p.turn k src S)
    (hm : p.doublePawn k src = some m) : Found2 p m := by
  unfold doublePawn at hm
  simp only at hm
  split at hm
  · cases hm
  rename_i c1
  split at hm
  · cases hm
  rename_i c2
  split at hm
  · cases hm
  rename_i c3
  split at hm
  · cases hm
  rename_i c4
  split at hm
  · cases hm
  rename_i c5
  split at hm
  · cases hm
  rename_i c6
  rw [Bool.not_eq_true] at c5 c6
  simp only [Bool.not_eq_true', Bool.not_eq_false] at c3 c4
  have hfr : 0 < farRank p.turn src := by
    have hdead := h.reg.alive src p.turn .pawn hb
    simp only [Dead] at hdead
    have : 0 ≤ farRank p.turn src := by unfold farRank Y; cases p.turn <;> simp only <;> omega
    omega
  have hat : Attacks p.turn .pawn (absPos p).occ src (frontSq p.turn src) := by
    have : farRank p.turn.opp src < 8 := by
      revert hfr; unfold farRank; cases p.turn <;> simp only [Color.opp] <;> omega
    exact pawn_flip (back_attack p.turn.opp (absPos p).occ this)
  obtain ⟨t, ht⟩ : ∃ t, t = frontSq p.turn src := ⟨_, rfl⟩
  rw [← ht] at c2 c3 c4 c5 c6 hm hat
  have hcoord : X src = X t := by
    have := (pawn_attack_iff ..).mp hat
    exact this.1.symm
  have hU : Unc p k src S t .pawn := by
    refine ⟨hb, by decide, hp, hat, ?_, ?_⟩
    · intro kd e
      apply c2
      rw [h.cons.code, e]
      refine ⟨mkPiece_ne_zero _ _, ?_⟩
      rw [show pieceColor (pieceCode (some (p.turn, kd))) = p.turn from pieceColor_mkPiece _ _]
      exact (opp_ne _).symm
    · rintro ⟨d, hd, ⟨n, hn, h1, h2⟩, hl⟩
      apply c1
      have hx : d.1 = 0 := by
        rcases hl with ⟨a, ha, e1, e2⟩ | ⟨a, ha, e1, e2⟩
        · rcases hd.1 with e | e | e <;> rw [e] at e1 ⊢ <;> omega
        · simp only [neg] at e1
          rcases hd.1 with e | e | e <;> rw [e] at e1 ⊢ <;> omega
      rw [hx] at h1
      have := file_eq_X src; have := file_eq_X k
      omega
  have hg : (goldAttack p.turn t).isSet k = true := by
    obtain ⟨x, hx⟩ := ((WF.setMask k).and_right : (goldAttack p.turn t &&& setMask k).WF).isAny_iff.mp c4
    rw [isSet_and, isSet_setMask, Bool.and_eq_true, decide_eq_true_eq] at hx
    rw [← hx.2]; exact hx.1
  have hz : zone p.turn t := (canPromote_iff ..).mp c3
  obtain ⟨e1, e2⟩ := hU.double h (pro := true) (proOK_true rfl (.inr hz)) c5 (gold_attack (kd := .proPawn) rfl hg) c6
    (hU.covers (covers_gold (kt := .proPawn) rfl))
  exact ⟨_, e1, e2, .inl (by rw [← Option.some.inj hm]; exact genPro_eq (pieceType_at h.cons hb))⟩

omit h in
theorem doubleStep_none {pt : Nat} {pro : Bool} {attack : Square → Bitboard} {t : Square} (hk : (attack t).isSet k = true) :
    p.doubleStep k pt src pro attack t = none := by
  unfold doubleStep
  have : (attack t &&& setMask k).isAny = true := by
    refine ((WF.setMask k).and_right : (attack t &&& setMask k).WF).isAny_iff.mpr ⟨k, ?_⟩
    rw [isSet_and, hk, isSet_setMask]; simp
  simp only [this, if_true]
  split
  · rfl
  · split <;> rfl

omit h in
theorem orElse_none {a b : Option Move} (ha : a = none) (hb : b = none) : (a <|> b) = none := by rw [ha, hb]; rfl

omit h in
theorem doubleKnight_none : p.doubleKnight k src = none := by
  unfold doubleKnight
  simp only
  split
  · rfl
  · apply orElse_none
    · rw [List.findSome?_eq_none_iff]
      intro t ht
      rw [(((wf_knightAttack _ _).and_left).and_left).mem_toList, isSet_and, isSet_and, Bool.and_eq_true, Bool.and_eq_true] at ht
      refine doubleStep_none ?_
      have := (back_knight p.turn k t (fun _ => false)).mp ht.1.2
      exact (C13_steps p.turn t k (fun _ => false)).2.1.mpr this
    · rw [List.findSome?_eq_none_iff]
      intro t ht
      rw [((wf_knightAttack _ _).and_left).mem_toList, isSet_and, Bool.and_eq_true] at ht
      refine doubleStep_none ?_
      have := (back_gold p.turn .gold rfl k t (fun _ => false)).mp ht.2
      exact ((C13_steps p.turn t k (fun _ => false)).2.2.2.1 .gold (by simp)).mpr this

omit h in
theorem doubleSilver_none : p.doubleSilver k src = none := by
  unfold doubleSilver
  simp only
  split
  · rfl
  · apply orElse_none
    · rw [List.findSome?_eq_none_iff]
      intro t ht
      rw [(((wf_silverAttack _ _).and_left).and_left).mem_toList, isSet_and, isSet_and, Bool.and_eq_true, Bool.and_eq_true] at ht
      refine doubleStep_none ?_
      have := (back_silver p.turn k t (fun _ => false)).mp ht.1.2
      exact (C13_steps p.turn t k (fun _ => false)).2.2.1.mpr this
    · rw [List.findSome?_eq_none_iff]
      intro t ht
      rw [(((wf_silverAttack _ _).and_left).and_left).mem_toList, isSet_and, isSet_and, Bool.and_eq_true, Bool.and_eq_true] at ht
      refine doubleStep_none ?_
      have := (back_gold p.turn .gold rfl k t (fun _ => false)).mp ht.1.2
      exact ((C13_steps p.turn t k (fun _ => false)).2.2.2.1 .gold (by simp)).mpr this

/-! ### Golds and line pieces -/

theorem tryDouble_split {pt : Nat} {m : Move} (hb : (absPos p).board src = some (p.turn, kd)) (hkd : kd ≠ .king)
    (hp : PinLine (absPos p) p.turn k src S) (hat : Attacks p.turn kd (absPos p).occ src t)
    (hfree : ∀ kd', (absPos p).board t ≠ some (p.turn, kd')) (hm : p.tryDouble k src pt t = some m) :
    Unc p k src S t kd ∧ leavesLine src t (p.kingSquare p.turn) p.pinnedBB = false ∧
    p.canKingEscapeGoto p.turn.opp k src t (doubleAttacks p.turn pt (canPromote p.turn src || canPromote p.turn t) t) (p.occupied ^^^ setMask src) = false ∧
    m = if (canPromote p.turn src || canPromote p.turn t) = true ∧ (!pt.testBit 3) = true ∧ pt ≠ PT.Gold then genPro p pt src t else genMove p pt src t := by
  unfold tryDouble at hm
  simp only at hm
  split at hm
  · cases hm
  rename_i c1
  split at hm
  · cases hm
  rename_i c2
  split at hm
  · cases hm
  rename_i c3
  rw [Bool.not_eq_true] at c1 c2 c3
  refine ⟨⟨hb, hkd, hp, hat, hfree, ?_⟩, c2, c3, (Option.some.inj hm).symm⟩
  rw [← isAlignedT_iff hp.aligned, c1]; decide

omit h in
theorem canPromote2_iff (c : Color) (s t : Square) : (canPromote c s || canPromote c t) = true ↔ zone c s ∨ zone c t := by
  rw [Bool.or_eq_true, canPromote_iff, canPromote_iff]

omit h in
/-- A line piece moving across to a square next to the king on a diagonal. -/
theorem cross_diag {k s t : Square} {d e g : Dir} {m j : Nat} (hd : IsDir d) (he : IsDir e) (hg : IsDir g) (hdd : d.1 ≠ 0 ∧ d.2 ≠ 0)
    (hed : e.1 ≠ 0 ∧ e.2 ≠ 0) (hm : 1 ≤ m) (hj : 1 ≤ j) (ht : At k e 1 t) (hs : At k d m s) (ha : At s g j t)
    (hgo : (g.1 = 0 ∨ g.2 = 0) ∨ j = 1) (hne : d ≠ e) : m = 1 ∧ (g.1 = 0 ∨ g.2 = 0) ∧ d ≠ neg e := by
  obtain ⟨h1, h2⟩ := ht
  obtain ⟨h3, h4⟩ := hs
  obtain ⟨h5, h6⟩ := ha
  obtain ⟨ha, hb, hc1⟩ := hd
  obtain ⟨ha', hb', hc2⟩ := he
  obtain ⟨hea, heb, hc3⟩ := hg
  obtain ⟨a, b⟩ := d
  obtain ⟨x, y⟩ := e
  obtain ⟨v, w⟩ := g
  simp only [neg, Prod.mk.injEq, ne_eq] at *
  rcases ha with rfl | rfl | rfl <;> rcases hb with rfl | rfl | rfl <;> first | omega | skip
  all_goals rcases ha' with rfl | rfl | rfl <;> rcases hb' with rfl | rfl | rfl <;> first | omega | skip
  all_goals rcases hea with rfl | rfl | rfl <;> rcases heb with rfl | rfl | rfl <;> omega

omit h in
theorem unit_ne {x : Int} (h : x = 0 ∨ x = 1 ∨ x = -1) (hx : ¬ x = 0) : x = 1 ∨ x = -1 := by omega

omit h in
theorem unit_le {x : Int} (h : x = 0 ∨ x = 1 ∨ x = -1) : -1 ≤ x ∧ x ≤ 1 := by omega

omit h in
/-- Where the straight lines from such a square meet the neighbours of the king. -/
theorem cross_near {k t u : Square} {d e f g : Dir} {j : Nat} (hd : IsDir d) (he : IsDir e) (hf : IsDir f) (hg : IsDir g) (hdd : d.1 ≠ 0 ∧ d.2 ≠ 0)
    (hed : e.1 ≠ 0 ∧ e.2 ≠ 0) (hj : 2 ≤ j) (ht : At k e 1 t) (hu : At k f 1 u) (ha : At t g j u) (hgo : g.1 = 0 ∨ g.2 = 0) (hne : d ≠ e) (hne' : d ≠ neg e) :
    f = d ∨ f = neg d := by
  obtain ⟨h1, h2⟩ := ht
  obtain ⟨h3, h4⟩ := hu
  obtain ⟨h5, h6⟩ := ha
  obtain ⟨ha, hb, hc1⟩ := hd
  obtain ⟨ha', hb', hc2⟩ := he
  obtain ⟨hfa, hfb, hc4⟩ := hf
  obtain ⟨hea, heb, hc3⟩ := hg
  obtain ⟨a, b⟩ := d
  obtain ⟨x, y⟩ := e
  obtain ⟨r, s⟩ := f
  obtain ⟨v, w⟩ := g
  simp only [neg, Prod.mk.injEq, ne_eq] at *
  have hx := unit_ne ha' hed.1
  have hy := unit_ne hb' hed.2
  have ha2 := unit_ne ha hdd.1
  have hb2 := unit_ne hb hdd.2
  have hr := unit_le hfa
  have hs := unit_le hfb
  have e1 : r = x + (j : Int) * v := by clear * - h1 h3 h5; omega
  have e2 : s = y + (j : Int) * w := by clear * - h2 h4 h6; omega
  clear h1 h2 h3 h4 h5 h6 hfa hfb ha' hb' ha hb hc1 hc2 hc4 hdd hed
  have key : (r = x ∧ s = -y) ∨ (r = -x ∧ s = y) := by
    clear ha2 hb2 hne hne'
    rcases hea with rfl | rfl | rfl <;> rcases heb with rfl | rfl | rfl <;> rcases hx with rfl | rfl <;> rcases hy with rfl | rfl <;> omega
  clear e1 e2 hr hs hea heb hc3 hgo
  rcases ha2 with rfl | rfl <;> rcases hb2 with rfl | rfl <;> rcases hx with rfl | rfl <;> rcases hy with rfl | rfl <;> omega

/-- A rook or dragon between the king and a line piece of its own side stands on a diagonal of the king. -/
theorem Unc.diag (hU : Unc p k src S t kd) (hkd : kd = .rook ∨ kd = .dragon) {d : Dir} {m n : Nat} (hd : IsDir d) (hm : 1 ≤ m) (hmn : m < n)
    (hs : At k d m src) (hS : At k d n S) : d.1 ≠ 0 ∧ d.2 ≠ 0 := by
  by_contra ho
  refine not_attacked h hU.board ((attacks_iff ..).mpr (.inr ⟨slideLine_at hm hs (slides_orth hkd hd ho), fun w hw => ?_⟩))
  rw [Bool.eq_false_iff]
  intro hw'
  have hb := between_trans_right hU.pin.btw hw
  exact between_ne_left hw (hU.pin.only w hb hw')

omit h in
theorem dragon_cases {c : Color} {t k : Square} (ha : StepAt c .king k t) : SlideLine p.turn .dragon t k ∨ ∃ e, IsDir e ∧ (e.1 ≠ 0 ∧ e.2 ≠ 0) ∧ At k e 1 t := by
  obtain ⟨e, he, ht⟩ := king_step_dir ha
  by_cases ho : e.1 ≠ 0 ∧ e.2 ≠ 0
  · exact .inr ⟨e, he, ho, ht⟩
  · exact .inl (slideLine_at (le_refl 1) ht (slides_orth (.inr rfl) he ho))

/-- The lines of a dragon that gives check from a diagonal square. -/
theorem Unc.dragon_covers (hU : Unc p k src S t kd) (hkd : kd = .rook ∨ kd = .dragon) {pro : Bool} (hkt : Pos.arriving kd pro = .dragon)
    (hat : SlideLine p.turn .dragon t k ∨ ∃ e, IsDir e ∧ (e.1 ≠ 0 ∧ e.2 ≠ 0) ∧ At k e 1 t) (hatt : Attacks p.turn .dragon (absPos p).occ t k) :
    ∀ u, StepAt p.turn.opp .king k u → (rookAttackToEdge t ||| kingAttack t).isSet u = true →
      ∃ s kd', ((absPos p).play (.move src t pro)).board s = some (p.turn, kd') ∧
        Attacks p.turn kd' (occWithout ((absPos p).play (.move src t pro)).occ k) s u := by
  rcases hat with hsl | ⟨e, he, hed, ht⟩
  · refine hU.covers ?_
    rw [hkt]
    refine Covers.or (covers_edge (hU.att' hatt) (fun _ => hsl) fun u hu => ?_) (covers_adj (.inr rfl))
    exact (isSet_rookEdge p.turn t u).mp hu
  · intro u hu hb
    have harr := (hU.after pro).arrived
    rw [hkt] at harr
    rw [isSet_or, Bool.or_eq_true] at hb
    rcases hb with hb | hb
    · obtain ⟨g, hg, hgd, j, hj, hl⟩ := rookEdge_dir hb
      by_cases hj1 : j = 1
      · subst hj1
        exact ⟨t, .dragon, harr, adj_attack (.inr rfl) (king_step_of hg hl)⟩
      · obtain ⟨d, n, m, hd, hm, hmn, hs, hS⟩ := pin_line hU.pin
        have hdd := hU.diag h hkd hd hm hmn hs hS
        have hde : d ≠ e := by
          rintro rfl
          by_cases hm1 : m = 1
          · subst hm1; exact attacks_ne hU.att (at_unique hs ht)
          · refine hU.off ⟨neg d, isDir_neg hd, line_of_at hm (at_symm.mp hs), .inl (line_of_at (n := m - 1) (by omega) (at_symm.mp ?_))⟩
            exact at_sub (by omega) ht hs
        have hx : ∃ g j, IsDir g ∧ 1 ≤ j ∧ At src g j t ∧ ((g.1 = 0 ∨ g.2 = 0) ∨ j = 1) := by
          rcases hU.att with ⟨x, hx, hst⟩ | ⟨x, hx, j, hj, hst, -⟩
          · have hxd : IsDir x := by
              have hx' : x ∈ kd.steps := hx
              rcases hkd with rfl | rfl <;> simp only [Kind.steps, Spec.diag, List.mem_cons, List.not_mem_nil, or_false] at hx' <;>
              rcases hx' with rfl | rfl | rfl | rfl <;> (unfold IsDir; decide)
            exact ⟨_, 1, isDir_orient (c := p.turn) hxd, le_refl 1, hst, .inr rfl⟩
          · refine ⟨_, j, isDir_orient (c := p.turn) (isDir_slides kd x hx), hj, hst, .inl ?_⟩
            have := (slide_class (c := p.turn) hx).2 (by rcases hkd with e | e <;> simp [e])
            omega
        obtain ⟨g', j', hg', hj', hl', ho⟩ := hx
        obtain ⟨-, -, hdn⟩ := cross_diag hd he hg' hdd hed hm hj' ht hs hl' ho hde
        obtain ⟨f, hf, hfu⟩ := king_step_dir hu
        refine hU.line_covered h pro hd (by omega) hS hu ?_
        rcases cross_near hd he hf hg hdd hed (by omega) ht hfu hl (by omega) hde hdn with rfl | rfl
        · exact .inl hfu
        · exact .inr hfu
    · exact ⟨t, .dragon, harr, adj_attack (.inr rfl) ((isSet_king_step _ t u).mp hb)⟩

omit h in
theorem isSet_enemyField (c : Color) (s : Square) : (enemyField c).isSet s = true ↔ zone c s := by
  revert c s
  intro c s
  unfold zone farRank
  cases c
  · revert s; decide +kernel
  · revert s; decide +kernel

omit h in
theorem wf_doubleTargets {pt : Nat} {bb : Bitboard} (ht : p.doubleTargets k src pt = some bb) : bb.WF := by
  unfold doubleTargets at ht
  simp only at ht
  split at ht
  · split at ht
    · cases ht
    · cases ht; exact (wf_goldAttack _ _).and_left
  · cases ht; exact (wf_bishopAttack _ _).and_right
  · cases ht; exact (wf_horseAttack _ _).and_left
  · cases ht; exact (wf_rookAttack _ _).and_right
  · cases ht; exact (wf_dragonAttack _ _).and_left
  · cases ht

theorem doubleLine_sound {pt : Nat} {bb : Bitboard} {m : Move} (hb : (absPos p).board src = some (p.turn, kd)) (hkd : kd ≠ .king)
    (hp : PinLine (absPos p) p.turn k src S) (hpt : pt = asGold kd.code) (ht : p.doubleTargets k src pt = some bb)
    (hmem : t ∈ (bb &&& ~~~p.byColor p.turn).toList) (hm : p.tryDouble k src pt t = some m) : Found2 p m := by
  have hpk := pieceType_at h.cons hb
  have hmem : bb.isSet t = true ∧ ∀ kd', (absPos p).board t ≠ some (p.turn, kd') := by
    rw [(wf_doubleTargets ht).and_left.mem_toList] at hmem
    have := hmem
    rw [isSet_and, Bool.and_eq_true, isSet_not, Bool.not_eq_true', not_own_iff h.cons] at this
    exact this
  obtain ⟨hset, hfree⟩ := hmem
  subst hpt
  have gold : goldLike kd = true → asGold kd.code = 7 → Found2 p m := by
    intro hg e7
    rw [e7] at ht hm
    unfold doubleTargets at ht
    simp only at ht
    split at ht
    · cases ht
    · cases ht
      rw [isSet_and, Bool.and_eq_true] at hset
      obtain ⟨hU, hl, hc, rfl⟩ := tryDouble_split h hb hkd hp (gold_attack hg hset.1) hfree hm
      rw [if_neg (fun e => e.2.2 rfl)]
      obtain ⟨e1, e2⟩ := hU.double h (pro := false) (proOK_false (dead_gold hg)) hl ((back_gold p.turn kd hg k t _).mp hset.2) hc
        (hU.covers (covers_gold hg))
      exact ⟨_, e1, e2, .inr ⟨src, t, kd, rfl, hb, hg, rfl⟩⟩
  have hocc : p.occupied.isSet = (absPos p).occ := h.cons.occ_fun
  have hnear : ∀ x : Bitboard, (x ||| (kingAttack k &&& (if canPromote p.turn src then allOne else enemyField p.turn))).isSet t = true →
      x.isSet t = true ∨ ((kingAttack k).isSet t = true ∧ (canPromote p.turn src || canPromote p.turn t) = true) := by
    intro x hx
    rw [isSet_or, Bool.or_eq_true, isSet_and, Bool.and_eq_true] at hx
    rcases hx with e | ⟨e1, e2⟩
    · exact .inl e
    · refine .inr ⟨e1, ?_⟩
      split at e2
      · rename_i e; simp [e]
      · rw [Bool.or_eq_true, canPromote_iff p.turn t]; exact .inr ((isSet_enemyField _ _).mp e2)
  cases kd with
  | pawn => cases ht
  | lance => cases ht
  | knight => cases ht
  | silver => cases ht
  | king => exact absurd rfl hkd
  | gold => exact gold rfl rfl
  | proPawn => exact gold rfl rfl
  | proLance => exact gold rfl rfl
  | proKnight => exact gold rfl rfl
  | proSilver => exact gold rfl rfl
  | bishop =>
    change some _ = some bb at ht
    cases ht
    rw [isSet_and, Bool.and_eq_true] at hset
    have hat : Attacks p.turn .bishop (absPos p).occ src t := by rw [← hocc]; exact (C12_bishop true _ _ _ _).mp hset.2
    obtain ⟨hU, hl, hc, rfl⟩ := tryDouble_split h hb hkd hp hat hfree hm
    change p.canKingEscapeGoto _ _ _ _ (if (canPromote p.turn src || canPromote p.turn t) = true then _ else _) _ = false at hc
    cases hpr : (canPromote p.turn src || canPromote p.turn t)
    · rw [hpr] at hc
      have hk : (bishopAttack k p.occupied).isSet t = true := by
        rcases hnear _ hset.1 with e | ⟨-, e⟩
        · exact e
        · rw [hpr] at e; cases e
      have hk' : Attacks p.turn .bishop (absPos p).occ t k := by rw [← hocc]; exact (back_bishop ..).mp hk
      obtain ⟨e1, e2⟩ := hU.double h (pro := false) (proOK_false id) hl hk' hc (hU.covers (covers_bishop (hU.att' hk')))
      exact ⟨_, e1, e2, .inl (genMove_eq hpk)⟩
    · rw [hpr] at hc
      have hk' : Attacks p.turn .horse (absPos p).occ t k := by
        rw [← hocc]
        refine (back_horse ..).mp ?_
        rcases hnear _ hset.1 with e | ⟨e, -⟩
        · exact .inl e
        · exact .inr e
      obtain ⟨e1, e2⟩ := hU.double h (pro := true) (proOK_true rfl ((canPromote2_iff ..).mp hpr)) hl hk' hc (hU.covers (covers_horse (hU.att' hk')))
      exact ⟨_, e1, e2, .inl (genPro_eq hpk)⟩
  | horse =>
    change some _ = some bb at ht
    cases ht
    rw [isSet_and, Bool.and_eq_true] at hset
    have hat : Attacks p.turn .horse (absPos p).occ src t := by rw [← hocc]; exact (C12_horse ..).mp hset.1
    obtain ⟨hU, hl, hc, rfl⟩ := tryDouble_split h hb hkd hp hat hfree hm
    have hk' : Attacks p.turn .horse (absPos p).occ t k := by
      rw [← hocc, ← back_horse]
      have := hset.2
      rw [horseAttack, isSet_or, Bool.or_eq_true] at this
      exact this
    rw [if_neg (fun e => by have := e.2.1; revert this; decide)]
    obtain ⟨e1, e2⟩ := hU.double h (pro := false) (proOK_false id) hl hk' hc (hU.covers (covers_horse (hU.att' hk')))
    exact ⟨_, e1, e2, .inl (genMove_eq hpk)⟩
  | rook =>
    change some _ = some bb at ht
    cases ht
    rw [isSet_and, Bool.and_eq_true] at hset
    have hat : Attacks p.turn .rook (absPos p).occ src t := by rw [← hocc]; exact (C12_rook ..).mp hset.2
    obtain ⟨hU, hl, hc, rfl⟩ := tryDouble_split h hb hkd hp hat hfree hm
    change p.canKingEscapeGoto _ _ _ _ (if (canPromote p.turn src || canPromote p.turn t) = true then _ else _) _ = false at hc
    cases hpr : (canPromote p.turn src || canPromote p.turn t)
    · rw [hpr] at hc
      have hk : (rookAttack k p.occupied).isSet t = true := by
        rcases hnear _ hset.1 with e | ⟨-, e⟩
        · exact e
        · rw [hpr] at e; cases e
      have hk' : Attacks p.turn .rook (absPos p).occ t k := by rw [← hocc]; exact (back_rook ..).mp hk
      obtain ⟨e1, e2⟩ := hU.double h (pro := false) (proOK_false id) hl hk' hc (hU.covers (covers_rook (hU.att' hk')))
      exact ⟨_, e1, e2, .inl (genMove_eq hpk)⟩
    · rw [hpr] at hc
      have hk2 : Attacks p.turn .dragon (absPos p).occ t k ∧
          (SlideLine p.turn .dragon t k ∨ ∃ e, IsDir e ∧ (e.1 ≠ 0 ∧ e.2 ≠ 0) ∧ At k e 1 t) := by
        rcases hnear _ hset.1 with e | ⟨e, -⟩
        · have hr : Attacks p.turn .rook (absPos p).occ t k := by rw [← hocc]; exact (back_rook ..).mp e
          refine ⟨by rw [← hocc]; exact (back_dragon ..).mp (.inl e), .inl ?_⟩
          rcases (attacks_iff ..).mp hr with ⟨x, hx, -⟩ | ⟨⟨x, hx, hl⟩, -⟩
          · cases hx
          · exact ⟨x, hx, hl⟩
        · exact ⟨by rw [← hocc]; exact (back_dragon ..).mp (.inr e), dragon_cases ((isSet_king_step p.turn _ _).mp e)⟩
      obtain ⟨e1, e2⟩ := hU.double h (pro := true) (proOK_true rfl ((canPromote2_iff ..).mp hpr)) hl hk2.1 hc
        (hU.dragon_covers h (.inl rfl) rfl hk2.2 hk2.1)
      exact ⟨_, e1, e2, .inl (genPro_eq hpk)⟩
  | dragon =>
    change some _ = some bb at ht
    cases ht
    rw [isSet_and, Bool.and_eq_true] at hset
    have hat : Attacks p.turn .dragon (absPos p).occ src t := by rw [← hocc]; exact (C12_dragon ..).mp hset.1
    obtain ⟨hU, hl, hc, rfl⟩ := tryDouble_split h hb hkd hp hat hfree hm
    have hk := hset.2
    rw [dragonAttack, isSet_or, Bool.or_eq_true] at hk
    have hk' : Attacks p.turn .dragon (absPos p).occ t k := by rw [← hocc, ← back_dragon]; exact hk
    have hk2 : SlideLine p.turn .dragon t k ∨ ∃ e, IsDir e ∧ (e.1 ≠ 0 ∧ e.2 ≠ 0) ∧ At k e 1 t := by
      rcases hk with e | e
      · have hr : Attacks p.turn .rook (absPos p).occ t k := by rw [← hocc]; exact (back_rook ..).mp e
        left
        rcases (attacks_iff ..).mp hr with ⟨x, hx, -⟩ | ⟨⟨x, hx, hl⟩, -⟩
        · cases hx
        · exact ⟨x, hx, hl⟩
      · exact dragon_cases ((isSet_king_step p.turn _ _).mp e)
    rw [if_neg (fun e => by have := e.2.1; revert this; decide)]
    obtain ⟨e1, e2⟩ := hU.double h (pro := false) (proOK_false id) hl hk' hc (hU.dragon_covers h (.inr rfl) rfl hk2 hk')
    exact ⟨_, e1, e2, .inl (genMove_eq hpk)⟩

theorem mateDouble_sound {m : Move} (hm : p.mateDouble k = some m) : Found2 p m := by
  unfold mateDouble at hm
  obtain ⟨src, hs, hm⟩ := mem_found hm
  have hwf : (p.discoveredCheckBB true).WF := wf_hiddenCheckers h.cons false true
  rw [hwf.mem_toList] at hs
  obtain ⟨k', e, S, hp, kd, hb⟩ := (isSet_discoveredCheckBB h.cons true src).mp hs
  rw [h.king] at e; cases e
  rw [if_pos rfl] at hb
  unfold mateDoubleOne at hm
  rw [pieceType_at h.cons hb] at hm
  have line : ∀ pt, pt = asGold kd.code → kd ≠ .king → (match p.doubleTargets k src pt with
      | none => none
      | some bb => (bb &&& ~~~p.byColor p.turn).toList.findSome? (p.tryDouble k src pt)) = some m → Found2 p m := by
    intro pt hpt hkd hm
    split at hm
    · cases hm
    · rename_i bb hbb
      obtain ⟨t, ht, hm⟩ := mem_found hm
      exact doubleLine_sound h hb hkd hp hpt hbb ht hm
  cases kd with
  | pawn => exact doublePawn_sound h hb hp hm
  | lance => cases hm
  | knight => exact absurd (doubleKnight_none.symm.trans hm) (by simp)
  | silver => exact absurd (doubleSilver_none.symm.trans hm) (by simp)
  | king => cases hm
  | _ => exact line _ rfl (by decide) hm

end

end Verif
