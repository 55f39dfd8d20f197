import Verif.Lemmas.MateFar
import Verif.Lemmas.MateFound

/-!
The group of `mateMoveIn1Ply` that gives check from afar finds every mating drop from afar: if one farther away than three squares
mates, then so does one three squares away.
-/

namespace Verif
open Spec Bitboard Position

section
variable {p : Position} {k : Square} (h : Ready p k)
include h

/-! ### The attack sets leave nothing out -/

theorem isSet_bbOf2c_of {a b kd : Kind} {f : Square} (hb : (absPos p).board f = some (p.turn, kd)) (hk : kd = a ∨ kd = b) :
    (p.bbOf2c a.code b.code p.turn).isSet f = true := by
  unfold bbOf2c bbOf2
  rw [isSet_and, isSet_or, Bool.and_eq_true, Bool.or_eq_true, h.cons.color, h.cons.type, h.cons.type]
  refine ⟨?_, kd, hb⟩
  rcases hk with rfl | rfl
  · exact .inl ⟨_, hb⟩
  · exact .inr ⟨_, hb⟩

theorem own_ne_king {s : Square} {kd : Kind} (hb : (absPos p).board s = some (p.turn, kd)) : s ≠ k := by
  rintro rfl
  have := h.kingAt.at
  rw [hb] at this
  exact absurd (congrArg Prod.fst (Option.some.inj this)).symm (opp_ne p.turn)

omit h in
theorem around_mem {f : Square → Bitboard} {u s : Square} (hu : (kingAttack k).isSet u = true) (hs : (f u).isSet s = true) (hsk : s ≠ k) :
    (unionOver (kingAttack k) f &&& ~~~setMask k).isSet s = true := by
  rw [isSet_and, isSet_not, isSet_setMask, Bool.and_eq_true, isSet_unionOver]
  refine ⟨⟨u, ((wf_kingAttack k).mem_toList u).mpr hu, hs⟩, by simpa using hsk⟩

theorem around_gold {s u : Square} {kd : Kind} (hb : (absPos p).board s = some (p.turn, kd)) (hst : StepAt p.turn kd s u)
    (hu : StepAt p.turn.opp .king k u) (hg : goldLike kd = true) :
    ∃ s ∈ (p.goldsC p.turn &&& checkAround p.turn PT.Gold k).toList, (goldAttack p.turn s).isSet u = true := by
  have hku : (kingAttack k).isSet u = true := (isSet_king_step _ k u).mpr hu
  have hsk := own_ne_king h hb
  have ha : Attacks p.turn kd (fun _ => true) s u := .inl hst
  refine ⟨s, ?_, ?_⟩
  · rw [(wf_goldsC h).and_left.mem_toList, isSet_and, Bool.and_eq_true]
    exact ⟨(isSet_goldsC h p.turn s).mpr ⟨kd, hb, hg⟩, around_mem hku ((back_gold p.turn kd hg u s _).mpr ha) hsk⟩
  · have := (C13_steps p.turn s u (fun _ => true)).2.2.2.1 kd (by cases kd <;> simp [goldLike] at hg ⊢)
    exact this.mpr ha

theorem around_king {s u : Square} {kd : Kind} (hb : (absPos p).board s = some (p.turn, kd)) (hst : StepAt p.turn kd s u)
    (hu : StepAt p.turn.opp .king k u) (hk : kd = .horse ∨ kd = .dragon ∨ kd = .king) :
    ∃ s ∈ ((p.bbOf3 PT.Horse PT.Dragon PT.King &&& p.byColor p.turn) &&& checkAround p.turn PT.King k).toList, (kingAttack s).isSet u = true := by
  have hku : (kingAttack k).isSet u = true := (isSet_king_step _ k u).mpr hu
  have hsk := own_ne_king h hb
  have hks : StepAt p.turn .king s u := by
    obtain ⟨d, hd, hd2⟩ := hst
    refine ⟨d, ?_, hd2⟩
    rcases hk with rfl | rfl | rfl
    · exact (show ∀ d ∈ Kind.horse.steps, d ∈ Kind.king.steps by decide) d hd
    · exact (show ∀ d ∈ Kind.dragon.steps, d ∈ Kind.king.steps by decide) d hd
    · exact hd
  refine ⟨s, ?_, (isSet_king_step p.turn s u).mpr hks⟩
  rw [(wf_bbOf3c h).and_left.mem_toList, isSet_and, Bool.and_eq_true]
  refine ⟨?_, around_mem hku ((back_king p.turn u s (fun _ => true)).mpr (.inl hks)) hsk⟩
  unfold bbOf3 bbOf2
  simp only [isSet_and, isSet_or, Bool.and_eq_true, Bool.or_eq_true, h.cons.color]
  refine ⟨?_, kd, hb⟩
  rcases hk with rfl | rfl | rfl
  · exact .inl (.inl ((h.cons.type .horse s).mpr ⟨_, hb⟩))
  · exact .inl (.inr ((h.cons.type .dragon s).mpr ⟨_, hb⟩))
  · exact .inr ((h.cons.type .king s).mpr ⟨_, hb⟩)

theorem aroundNonSlider_complete {s u : Square} {kd : Kind} (hb : (absPos p).board s = some (p.turn, kd)) (hst : StepAt p.turn kd s u)
    (hu : StepAt p.turn.opp .king k u) : (p.aroundNonSlider p.turn k).isSet u = true := by
  have hku : (kingAttack k).isSet u = true := (isSet_king_step _ k u).mpr hu
  have hsk := own_ne_king h hb
  have ha : Attacks p.turn kd (fun _ => true) s u := .inl hst
  unfold aroundNonSlider
  simp only [isSet_or, Bool.or_eq_true, isSet_unionOver]
  cases kd
  case pawn =>
    refine .inl (.inl (.inl (.inl ?_)))
    exact (mem_pawnAttack h.cons (fun s hs => h.reg.alive s _ _ hs) u).mpr ⟨s, hb, .inl hst⟩
  case lance => obtain ⟨d, hd, -⟩ := hst; cases hd
  case knight =>
    refine .inl (.inl (.inl (.inr ⟨s, ?_, (C13_steps p.turn s u (fun _ => true)).2.1.mpr ha⟩)))
    rw [(wf_bbOf h _ _).and_left.mem_toList, isSet_and, Bool.and_eq_true]
    exact ⟨(isSet_bbOf h .knight p.turn s).mpr hb, around_mem hku ((back_knight p.turn u s _).mpr ha) hsk⟩
  case silver =>
    refine .inl (.inl (.inr ⟨s, ?_, (C13_steps p.turn s u (fun _ => true)).2.2.1.mpr ha⟩))
    rw [(wf_bbOf h _ _).and_left.mem_toList, isSet_and, Bool.and_eq_true]
    exact ⟨(isSet_bbOf h .silver p.turn s).mpr hb, around_mem hku ((back_silver p.turn u s _).mpr ha) hsk⟩
  case bishop => obtain ⟨d, hd, -⟩ := hst; cases hd
  case rook => obtain ⟨d, hd, -⟩ := hst; cases hd
  case gold => exact .inl (.inr (around_gold h hb hst hu rfl))
  case proPawn => exact .inl (.inr (around_gold h hb hst hu rfl))
  case proLance => exact .inl (.inr (around_gold h hb hst hu rfl))
  case proKnight => exact .inl (.inr (around_gold h hb hst hu rfl))
  case proSilver => exact .inl (.inr (around_gold h hb hst hu rfl))
  case king => exact .inr (around_king h hb hst hu (by simp))
  case horse => exact .inr (around_king h hb hst hu (by simp))
  case dragon => exact .inr (around_king h hb hst hu (by simp))

omit h in
/-- Three kinds of lines. -/
theorem slide_kinds {c : Color} {kd : Kind} {occ : Square → Bool} {s u : Square} (hs : SlideLine c kd s u) (hf : ∀ w, Between s w u → occ w = false) :
    (kd = .lance ∧ Attacks c .lance occ s u) ∨ ((kd = .bishop ∨ kd = .horse) ∧ Attacks c .bishop occ s u) ∨
    ((kd = .rook ∨ kd = .dragon) ∧ Attacks c .rook occ s u) := by
  have key : ∀ kd', kd'.slides = kd.slides → Attacks c kd' occ s u := fun kd' e => (attacks_iff ..).mpr (.inr ⟨by unfold SlideLine at hs ⊢; rw [e]; exact hs, hf⟩)
  cases kd
  case lance => exact .inl ⟨rfl, key _ rfl⟩
  case bishop => exact .inr (.inl ⟨by simp, key _ rfl⟩)
  case horse => exact .inr (.inl ⟨by simp, key _ rfl⟩)
  case rook => exact .inr (.inr ⟨by simp, key _ rfl⟩)
  case dragon => exact .inr (.inr ⟨by simp, key _ rfl⟩)
  all_goals obtain ⟨d, hd, -⟩ := hs; cases hd

theorem attacksSlider_complete {occ : Bitboard} {s u : Square} {kd : Kind} (hb : (absPos p).board s = some (p.turn, kd))
    (hs : SlideLine p.turn kd s u) (hf : ∀ w, Between s w u → occ.isSet w = false) : (p.attacksSlider p.turn occ).isSet u = true := by
  unfold attacksSlider
  simp only [isSet_or, Bool.or_eq_true, isSet_unionOver]
  rcases slide_kinds hs hf with ⟨rfl, ha⟩ | ⟨hk, ha⟩ | ⟨hk, ha⟩
  · exact .inl (.inl ⟨s, (mem_bbOf h.cons .lance p.turn s).mpr hb, (isSet_attacksFrom .lance p.turn s u occ).mpr ha⟩)
  · exact .inl (.inr ⟨s, ((wf_bbOf2c h _ _).mem_toList s).mpr (isSet_bbOf2c_of h (a := .bishop) (b := .horse) hb hk), (isSet_attacksFrom .bishop p.turn s u occ).mpr ha⟩)
  · exact .inr ⟨s, ((wf_bbOf2c h _ _).mem_toList s).mpr (isSet_bbOf2c_of h (a := .rook) (b := .dragon) hb hk), (isSet_attacksFrom .rook p.turn s u occ).mpr ha⟩

omit h in
theorem slideLine_back {c : Color} {kd : Kind} {s u : Square} (hs : SlideLine c kd s u) : SlideLine c.opp kd u s := by
  obtain ⟨d, hd, hl⟩ := hs
  refine ⟨d, hd, ?_⟩
  rw [orient_opp]
  obtain ⟨n, hn, hl⟩ := hl
  exact ⟨n, hn, at_symm.mp hl⟩

omit h in
theorem lance_line {c : Color} {a s : Square} (hX : X s = X a) (hY : match c with | .black => Y a < Y s | .white => Y s < Y a) :
    (lanceAttackToEdge c.opp a).isSet s = true := by
  rw [isSet_lanceEdge]
  refine ⟨(0, -1), by decide, ?_⟩
  cases c
  · refine ⟨(Y s - Y a).toNat, ?_, ?_, ?_⟩ <;> simp only [Color.opp, orient] at * <;> omega
  · refine ⟨(Y a - Y s).toNat, ?_, ?_, ?_⟩ <;> simp only [Color.opp, orient] at * <;> omega

omit h in
/-- A lance that attacks a square next to the king stands where `checkAround` looks for it. -/
theorem lance_around {c : Color} {s u : Square} (hs : SlideLine c .lance s u) (hu : StepAt c.opp .king k u) (hsk : s ≠ k) :
    (checkAround c PT.Lance k).isSet s = true := by
  obtain ⟨d, hd, n, hn, h1, h2⟩ := hs
  obtain rfl : d = (0, -1) := by simpa [Kind.slides] using hd
  obtain ⟨c1, c2, c3, c4⟩ := king_step_coord hu
  have hY : match c with | .black => Y k ≤ Y s | .white => Y s ≤ Y k := by
    cases c <;> simp [orient] at h1 h2 ⊢ <;> omega
  have hX : X s = X u := by cases c <;> simp [orient] at h1 h2 ⊢ <;> omega
  have hkx := X_bounds k
  have hsx := X_bounds s
  have hk := k.isLt
  have hside : ∀ a : Square, X a = X s → Y a = Y k → (lanceAttackToEdge c.opp a ||| setMask a).isSet s = true := by
    intro a h3 h4
    rw [isSet_or, isSet_setMask, Bool.or_eq_true, decide_eq_true_eq]
    by_cases e : a = s
    · exact .inr e.symm
    · left
      refine lance_line h3.symm ?_
      have : Y a ≠ Y s := fun e' => e (sq_ext h3 e')
      cases c <;> simp only at * <;> omega
  have hne : (~~~setMask k).isSet s = true := by rw [isSet_not, isSet_setMask]; simpa using hsk
  rw [show checkAround c PT.Lance k = (lanceAttackToEdge c.opp k |||
      (if file k ≠ 0 then lanceAttackToEdge c.opp (sqN (k.val - 9)) ||| setMask (sqN (k.val - 9)) else zero) |||
      (if file k ≠ 8 then lanceAttackToEdge c.opp (sqN (k.val + 9)) ||| setMask (sqN (k.val + 9)) else zero)) &&& ~~~setMask k from rfl,
    isSet_and, hne, Bool.and_true, isSet_or, isSet_or, Bool.or_eq_true, Bool.or_eq_true]
  have hfk := file_eq_X k
  rcases (by omega : X s = X k ∨ X s = X k - 1 ∨ X s = X k + 1) with e | e | e
  · refine .inl (.inl (lance_line e ?_))
    have : Y s ≠ Y k := fun e' => hsk (sq_ext e e')
    cases c <;> simp only at * <;> omega
  · refine .inl (.inr ?_)
    have hf0 : file k ≠ 0 := by omega
    rw [if_pos hf0]
    have h9 : 9 ≤ k.val := by unfold file at hf0; omega
    have hv : (sqN (k.val - 9)).val = k.val - 9 := Nat.mod_eq_of_lt (by omega)
    refine hside _ ?_ ?_
    · rw [e]; unfold X; rw [hv]; omega
    · unfold Y; rw [hv]; omega
  · refine .inr ?_
    have hf0 : file k ≠ 8 := by omega
    rw [if_pos hf0]
    have h9 : k.val < 72 := by unfold file at hf0; omega
    have hv : (sqN (k.val + 9)).val = k.val + 9 := Nat.mod_eq_of_lt (by omega)
    refine hside _ ?_ ?_
    · rw [e]; unfold X; rw [hv]; omega
    · unfold Y; rw [hv]; omega

theorem aroundSlider_complete {s u : Square} {kd : Kind} (hb : (absPos p).board s = some (p.turn, kd))
    (hs : SlideLine p.turn kd s u) (hf : ∀ w, Between s w u → p.occupied.isSet w = false) (hu : StepAt p.turn.opp .king k u) :
    (p.aroundSlider p.turn k).isSet u = true := by
  have hku : (kingAttack k).isSet u = true := (isSet_king_step _ k u).mpr hu
  have hsk := own_ne_king h hb
  unfold aroundSlider
  simp only [isSet_or, Bool.or_eq_true, isSet_unionOver]
  rcases slide_kinds hs hf with ⟨rfl, ha⟩ | ⟨hk, ha⟩ | ⟨hk, ha⟩
  · refine .inl (.inl ⟨s, ?_, (isSet_attacksFrom .lance p.turn s u _).mpr ha⟩)
    rw [(wf_bbOf h _ _).and_left.mem_toList, isSet_and, Bool.and_eq_true]
    exact ⟨(isSet_bbOf h .lance p.turn s).mpr hb, lance_around hs hu hsk⟩
  · refine .inl (.inr ⟨s, ?_, (isSet_attacksFrom .bishop p.turn s u _).mpr ha⟩)
    rw [(wf_bbOf2c h _ _).and_left.mem_toList, isSet_and, Bool.and_eq_true]
    refine ⟨isSet_bbOf2c_of h (a := .bishop) (b := .horse) hb hk, around_mem hku ((isSet_bishopEdge p.turn.opp u s).mpr ?_) hsk⟩
    rcases hk with rfl | rfl <;> exact slideLine_back hs
  · refine .inr ⟨s, ?_, (isSet_attacksFrom .rook p.turn s u _).mpr ha⟩
    rw [(wf_bbOf2c h _ _).and_left.mem_toList, isSet_and, Bool.and_eq_true]
    refine ⟨isSet_bbOf2c_of h (a := .rook) (b := .dragon) hb hk, around_mem hku ((isSet_rookEdge p.turn.opp u s).mpr ?_) hsk⟩
    rcases hk with rfl | rfl <;> exact slideLine_back hs

end

theorem any_of_set {b : Bitboard} {s : Square} (h : b.isSet s = true) : b.isAny = true := by
  by_contra hc
  obtain ⟨h0, h1⟩ := (not_isAny b).mp (by simpa using hc)
  have : b = zero := by cases b; simp only at h0 h1; subst h0 h1; rfl
  rw [this] at h
  simp at h

/-! ### A mating drop from afar -/

/-- A drop on the `n`th square from the king in direction `d` that mates. -/
structure FarDrop (p : Position) (k t : Square) (hp : HKind) (d : Dir) (n : Nat) : Prop where
  dir : IsDir d
  far : 2 ≤ n
  stands : At k d n t
  empty : (absPos p).board t = none
  slide : SlideLine p.turn hp.kind t k
  free : ∀ w, Between t w k → (absPos p).board w = none
  mate : ((absPos p).play (.drop hp t)).Mated

section
variable {p : Position} {k : Square} (h : Ready p k) {t : Square} {hp : HKind} {d : Dir} {n : Nat} (c : FarDrop p k t hp d n)

theorem FarDrop.after (c : FarDrop p k t hp d n) : After (absPos p) ((absPos p).play (.drop hp t)) none t hp.kind := After.of_drop hp c.empty

theorem FarDrop.ne (c : FarDrop p k t hp d n) : t ≠ k := (line_ne c.dir (line_of_at (by have := c.far; omega) c.stands)).symm

theorem FarDrop.kinds (c : FarDrop p k t hp d n) : hp.kind.steps = [] ∧ ((hp = .bishop ∧ (d.1 ≠ 0 ∧ d.2 ≠ 0)) ∨
    ((hp = .rook ∨ (hp = .lance ∧ neg d = orient p.turn (0, -1))) ∧ ¬ (d.1 ≠ 0 ∧ d.2 ≠ 0))) := by
  obtain ⟨g, hg, hl⟩ := c.slide
  have hgd := isDir_orient (c := p.turn) (isDir_slides _ g hg)
  have hcl := slide_class (c := p.turn) hg
  have e : orient p.turn g = neg d :=
    line_dir_unique hgd (isDir_neg c.dir) hl (line_of_at (by have := c.far; omega) (at_symm.mp c.stands))
  rw [e] at hcl
  have hn : ((neg d).1 ≠ 0 ∧ (neg d).2 ≠ 0) ↔ (d.1 ≠ 0 ∧ d.2 ≠ 0) := by simp only [neg]; omega
  rw [hn] at hcl
  cases hp
  case bishop => exact ⟨rfl, .inl ⟨rfl, hcl.1 (.inl rfl)⟩⟩
  case rook => exact ⟨rfl, .inr ⟨.inl rfl, hcl.2 (.inl rfl)⟩⟩
  case lance =>
    refine ⟨rfl, .inr ⟨.inr ⟨rfl, ?_⟩, hcl.2 (.inr (.inr rfl))⟩⟩
    obtain rfl : g = (0, -1) := by simpa [Kind.slides, HKind.kind] using hg
    exact e.symm
  all_goals cases hg

include h c

/-- What the mated king cannot step to. -/
theorem FarDrop.guard {u : Square} (hu : StepAt p.turn.opp .king k u) (hnb : ∀ kd, (absPos p).board u ≠ some (p.turn.opp, kd)) :
    Line t (neg d) u ∨ ∃ s kd, (absPos p).board s = some (p.turn, kd) ∧ Attacks p.turn kd ((absPos p).play (.drop hp t)).occ s u := by
  have ha := c.after
  have hK' := ha.king h.kingAt c.ne
  have ht' : ((absPos p).play (.drop hp t)).turn = p.turn.opp := ha.turn
  have hopp : ((absPos p).play (.drop hp t)).turn.opp = p.turn := by rw [ht', opp_opp]
  obtain ⟨s, kd, hs, hatt⟩ := mated_king hK' c.mate (u := u) (by rw [ht']; exact hu)
    (fun kd e => hnb kd ((ha.them u kd).mp (by rw [← ha.turn]; exact e)).2)
  rcases (ha.own s kd).mp (by rw [hopp] at hs; exact hs) with ⟨rfl, rfl⟩ | ⟨-, hb⟩
  · left
    rw [hopp] at hatt
    obtain ⟨k0, k1⟩ := c.kinds
    rcases (attacks_iff ..).mp hatt with ⟨d, hd, -⟩ | ⟨⟨g, hg, hl⟩, -⟩
    · rw [k0] at hd; cases hd
    · obtain ⟨e, he, hst⟩ := king_step_dir hu
      have hcl := slide_class (c := p.turn) hg
      rcases far_line c.dir c.far c.stands he hst (isDir_orient (c := p.turn) (isDir_slides _ g hg)) hl with e | ⟨e1, e2, -⟩
      · rw [← e]; exact hl
      · exfalso
        rcases k1 with ⟨-, k2⟩ | ⟨rfl | ⟨rfl, -⟩, -⟩
        · omega
        · exact hcl.2 (.inl rfl) e2
        · exact hcl.2 (.inr (.inr rfl)) e2
  · right
    refine ⟨s, kd, hb, ?_⟩
    rcases attacks_without.mp hatt with e | ⟨e, -⟩
    · rw [hopp] at e; exact e
    · exfalso
      have := drop_checker h c.empty ⟨kd, hs, e⟩
      subst this
      rw [c.empty] at hb; cases hb

omit h c in
theorem farEdge_of {one t u : Square} {d : Dir} (hd : IsDir d) (h1 : At k d 1 one) (hl : Line t (neg d) u) :
    (farEdge (directionsOf k one) t).isSet u = true := by
  unfold farEdge
  by_cases hg : isDiagDir (directionsOf k one) = true
  · rw [if_pos hg, isSet_bishopEdge .black]
    obtain ⟨g, h2, h3⟩ := slides_diag (us := .black) (kt := .bishop) (.inl rfl) hd ((diag_iff hd h1).mp hg)
    exact ⟨g, h2, by rw [h3]; exact hl⟩
  · rw [if_neg hg, isSet_rookEdge .black]
    obtain ⟨g, h2, h3⟩ := slides_orth (us := .black) (kt := .rook) (.inl rfl) hd (fun e => hg ((diag_iff hd h1).mpr e))
    exact ⟨g, h2, by rw [h3]; exact hl⟩

theorem FarDrop.occ_eq (w : Square) : (p.occupied ||| setMask t).isSet w = ((absPos p).play (.drop hp t)).occ w := by
  rw [Bool.eq_iff_iff, c.after.occ, isSet_or, isSet_setMask, Bool.or_eq_true, decide_eq_true_eq, h.cons.occ]
  constructor
  · rintro (e | e)
    · exact .inr ⟨by simp, e⟩
    · exact .inl e
  · rintro (e | ⟨-, e⟩)
    · exact .inr e
    · exact .inl e

theorem FarDrop.covered {one : Square} (h1 : At k d 1 one) : p.farCovered k (directionsOf k one) t = true := by
  unfold farCovered
  simp only [Bool.not_eq_true']
  have hw : (~~~farEdge (directionsOf k one) t &&& (~~~p.byColor p.turn.opp &&& kingAttack k &&&
      ~~~(p.aroundNonSlider p.turn k ||| p.attacksSlider p.turn (p.occupied ||| setMask t)))).WF :=
    ((wf_kingAttack k).and_right.and_left).and_right
  rw [Bool.eq_false_iff, ne_eq, hw.isAny_iff]
  rintro ⟨u, hu⟩
  simp only [isSet_and, isSet_not, isSet_or, Bool.and_eq_true, Bool.not_eq_true', Bool.or_eq_false_iff] at hu
  obtain ⟨h2, ⟨h3, h4⟩, h5, h6⟩ := hu
  have hst : StepAt p.turn.opp .king k u := (isSet_king_step _ k u).mp h4
  rcases c.guard h hst (fun kd e => by rw [(h.cons.color _ _).mpr ⟨kd, e⟩] at h3; cases h3) with e | ⟨s, kd, hb, ha⟩
  · rw [farEdge_of c.dir h1 e] at h2; cases h2
  · rcases (attacks_iff ..).mp ha with e | ⟨e1, e2⟩
    · rw [aroundNonSlider_complete h hb e hst] at h5; cases h5
    · rw [attacksSlider_complete h hb e1 (fun w hw => by rw [c.occ_eq h]; exact e2 w hw)] at h6; cases h6

omit h c in
/-- Only two squares next to the king lie on the line. -/
theorem line_two {c : Color} {u : Square} (hd : IsDir d) (ht : At k d n t) (hl : Line t (neg d) u) (hu : StepAt c .king k u) :
    At k d 1 u ∨ At k (neg d) 1 u := by
  obtain ⟨e, he, hst⟩ := king_step_dir hu
  obtain ⟨m, hm, hl⟩ := hl
  obtain ⟨a, b⟩ := d
  obtain ⟨x, y⟩ := e
  obtain ⟨ha, hb, hc⟩ := hd
  obtain ⟨h1, h2, h3⟩ := he
  unfold At neg at *
  simp only at *
  rcases ha with rfl | rfl | rfl <;> rcases hb with rfl | rfl | rfl <;> omega

omit h c in
/-- A square three away lies on no line to a square next to the king but the one through the king. -/
theorem third_line {v u : Square} {g e : Dir} (hd : IsDir d) (hv : At k d 3 v) (hg : IsDir g) (he : IsDir e) (hu : At k e 1 u) (hl : Line v g u) :
    g = neg d := by
  rcases far_line hd (by omega) hv he hu hg hl with e1 | ⟨e1, -, e3⟩
  · exact e1
  · exfalso
    obtain ⟨a, b⟩ := d
    obtain ⟨x, y⟩ := e
    obtain ⟨z, w⟩ := g
    obtain ⟨ha, hb, hc⟩ := hd
    obtain ⟨h1, h2, h3⟩ := he
    obtain ⟨g1, g2, g3⟩ := hg
    unfold At at *
    simp only at *
    rcases ha with rfl | rfl | rfl <;> rcases hb with rfl | rfl | rfl <;> first | omega | skip
    all_goals rcases h1 with rfl | rfl | rfl <;> rcases h2 with rfl | rfl | rfl <;> omega

/-- Three squares away the dropped piece leaves no more squares to the king than it does farther away. -/
theorem FarDrop.covered_third {one v : Square} (hn : 3 ≤ n) (h1 : At k d 1 one) (hv : At k d 3 v) : p.farCovered k (directionsOf k one) v = true := by
  unfold farCovered
  simp only [Bool.not_eq_true']
  have hw : (~~~farEdge (directionsOf k one) v &&& (~~~p.byColor p.turn.opp &&& kingAttack k &&&
      ~~~(p.aroundNonSlider p.turn k ||| p.attacksSlider p.turn (p.occupied ||| setMask v)))).WF :=
    ((wf_kingAttack k).and_right.and_left).and_right
  rw [Bool.eq_false_iff, ne_eq, hw.isAny_iff]
  rintro ⟨u, hu⟩
  simp only [isSet_and, isSet_not, isSet_or, Bool.and_eq_true, Bool.not_eq_true', Bool.or_eq_false_iff] at hu
  obtain ⟨h2, ⟨h3, h4⟩, h5, h6⟩ := hu
  have hst : StepAt p.turn.opp .king k u := (isSet_king_step _ k u).mp h4
  obtain ⟨e, he, hat⟩ := king_step_dir hst
  rcases c.guard h hst (fun kd e => by rw [(h.cons.color _ _).mpr ⟨kd, e⟩] at h3; cases h3) with e' | ⟨s, kd, hb, ha⟩
  · have hvu : Line v (neg d) u := by
      rcases line_two c.dir c.stands e' hst with e1 | e1
      · exact ⟨2, by omega, at_symm.mp (at_sub (by omega) e1 hv)⟩
      · exact ⟨4, by omega, at_add (at_symm.mp hv) e1⟩
    rw [farEdge_of c.dir h1 hvu] at h2; cases h2
  · rcases (attacks_iff ..).mp ha with e1 | ⟨e1, e2⟩
    · rw [aroundNonSlider_complete h hb e1 hst] at h5; cases h5
    · rw [attacksSlider_complete h hb e1 (fun w hbw => ?_)] at h6
      · cases h6
      · have hoc := e2 w hbw
        rw [← c.occ_eq h, isSet_or, Bool.or_eq_false_iff] at hoc
        rw [isSet_or, hoc.1, Bool.false_or, isSet_setMask, decide_eq_false_iff_not]
        intro hwv
        subst hwv
        obtain ⟨g, hg, g1, g2⟩ := between_iff.mp hbw
        have hgd := third_line c.dir hv hg he hat g2
        subst hgd
        have hline : Line w (neg d) k := line_of_at (by omega) (at_symm.mp hv)
        have hsk : Line s (neg d) k := line_trans g1 hline
        have hsl : SlideLine p.turn kd s k := by
          obtain ⟨f, hf, hl⟩ := e1
          have := line_dir_unique (isDir_orient (c := p.turn) (isDir_slides kd f hf)) hg hl (line_trans g1 g2)
          exact ⟨f, hf, by rw [this]; exact hsk⟩
        have hone : u = one ∨ Between s k u := by
          rcases line_two c.dir hv g2 hst with e3 | e3
          · exact .inl (at_unique e3 h1)
          · exact .inr (between_iff.mpr ⟨neg d, hg, hsk, line_of_at (le_refl 1) e3⟩)
        have ht' : ((absPos p).play (.drop hp t)).turn = p.turn.opp := c.after.turn
        rcases hone with hone | hone
        · subst hone
          have hfar := c.far
          have hbu : Between t u k := between_symm.mp (between_iff.mpr ⟨d, c.dir, line_of_at (le_refl 1) h1,
            ⟨n - 1, by omega, at_sub (by omega) h1 c.stands⟩⟩)
          have hatk : Attacks p.turn kd ((absPos p).play (.drop hp t)).occ s k := by
            refine (attacks_iff ..).mpr (.inr ⟨hsl, fun x hx => ?_⟩)
            have hsu : Between s u k := between_iff.mpr ⟨neg d, hg, line_trans g1 g2, line_of_at (le_refl 1) (at_symm.mp h1)⟩
            rcases between_cases hsu hx with e4 | e4 | e4
            · subst e4
              rw [Bool.eq_false_iff, ne_eq, c.after.occ, not_or]
              refine ⟨between_ne_left hbu, fun e5 => ?_⟩
              have := e5.2
              unfold Pos.occ at this; rw [c.free x hbu] at this; cases this
            · exact e2 x e4
            · exfalso
              obtain ⟨j, hj, hj1, -⟩ := between_at c.dir (le_refl 1) h1 e4
              omega
          have := drop_checker h c.empty ⟨kd, by rw [ht', opp_opp]; exact (c.after.own s kd).mpr (.inr ⟨by simp, hb⟩), by rw [ht', opp_opp]; exact hatk⟩
          subst this
          rw [c.empty] at hb; cases hb
        · have := e2 k hone
          rw [Bool.eq_false_iff, ne_eq, c.after.occ, not_or] at this
          exact this.2 ⟨by simp, h.kingAt.occ⟩

omit h c in
theorem popCount_two {b : Bitboard} (hb : b.WF) {x y : Square} (hs : ∀ u, b.isSet u = true → u = x ∨ u = y) : b.popCount ≤ 2 := by
  rw [hb.popCount_eq]
  have hnd : ((List.finRange 81).filter fun s => b.isSet s).Nodup := (List.nodup_finRange 81).filter _
  have hsub : ((List.finRange 81).filter fun s => b.isSet s) ⊆ [x, y] := by
    intro u hu
    have := hs u (List.mem_filter.mp hu).2
    simpa using this
  exact (List.Subperm.length_le (hnd.subperm hsub))

theorem FarDrop.few {one : Square} (h1 : At k d 1 one) : (~~~p.byColor p.turn.opp &&& kingAttack k &&&
    ~~~(p.aroundNonSlider p.turn k ||| p.aroundSlider p.turn k)).popCount ≤ 2 := by
  have hw : (~~~p.byColor p.turn.opp &&& kingAttack k &&& ~~~(p.aroundNonSlider p.turn k ||| p.aroundSlider p.turn k)).WF :=
    (wf_kingAttack k).and_right.and_left
  have key : ∀ u, (~~~p.byColor p.turn.opp &&& kingAttack k &&& ~~~(p.aroundNonSlider p.turn k ||| p.aroundSlider p.turn k)).isSet u = true →
      At k d 1 u ∨ At k (neg d) 1 u := by
    intro u hu
    simp only [isSet_and, isSet_not, isSet_or, Bool.and_eq_true, Bool.not_eq_true', Bool.or_eq_false_iff] at hu
    obtain ⟨⟨h3, h4⟩, h5, h6⟩ := hu
    have hst : StepAt p.turn.opp .king k u := (isSet_king_step _ k u).mp h4
    rcases c.guard h hst (fun kd e => by rw [(h.cons.color _ _).mpr ⟨kd, e⟩] at h3; cases h3) with e | ⟨s, kd, hb, ha⟩
    · exact line_two c.dir c.stands e hst
    · exfalso
      rcases (attacks_iff ..).mp ha with e | ⟨e1, e2⟩
      · rw [aroundNonSlider_complete h hb e hst] at h5; cases h5
      · rw [aroundSlider_complete h hb e1 (fun w hw => ?_) hst] at h6
        · cases h6
        · have := e2 w hw
          rw [← c.occ_eq h, isSet_or, Bool.or_eq_false_iff] at this
          exact this.1
  by_cases hx : ∃ y, At k (neg d) 1 y
  · obtain ⟨y, hy⟩ := hx
    refine popCount_two hw (x := one) (y := y) fun u hu => ?_
    rcases key u hu with e | e
    · exact .inl (at_unique e h1)
    · exact .inr (at_unique e hy)
  · refine popCount_two hw (x := one) (y := one) fun u hu => ?_
    rcases key u hu with e | e
    · exact .inl (at_unique e h1)
    · exact absurd ⟨u, e⟩ hx

omit h c in
theorem attacks_part {c : Color} {kd : Kind} {occ : Square → Bool} {f v w : Square} (ha : Attacks c kd occ f v) (hb : Between f w v) :
    Attacks c kd occ f w := by
  rcases (attacks_iff ..).mp ha with e | ⟨⟨g, hg, hl⟩, e2⟩
  · exact absurd hb (e.no_between w)
  · have hgd := isDir_orient (c := c) (isDir_slides kd g hg)
    exact (attacks_iff ..).mpr (.inr ⟨⟨g, hg, ((between_on hgd hl).mp hb).1⟩, fun u hu => e2 u (between_trans_left hb hu)⟩)

/-- A piece that could capture on `v` or step in between is pinned. -/
theorem FarDrop.pinned {f v : Square} {kd : Kind} (hv : v = t ∨ Between t v k) (hb : (absPos p).board f = some (p.turn.opp, kd)) (hkd : kd ≠ .king)
    (ha : Attacks p.turn.opp kd (absPos p).occ f v) (hft : ¬ Between f t v) :
    ∃ s, PinLine (absPos p) p.turn k f s ∧ s ≠ v ∧ ¬ Between s v k := by
  have haf := c.after
  have hK' := haf.king h.kingAt c.ne
  have ht' : ((absPos p).play (.drop hp t)).turn = p.turn.opp := haf.turn
  have hopp : ((absPos p).play (.drop hp t)).turn.opp = p.turn := by rw [ht', opp_opp]
  have hfne : f ≠ t := by rintro rfl; rw [c.empty] at hb; cases hb
  obtain ⟨s, hs, hne, hnb⟩ := mated_piece hK' c.mate (f := f) (v := v) (kd := kd)
    (by rw [ht']; exact (haf.them f kd).mpr ⟨hfne, hb⟩) hkd
    (by rw [ht']; exact attacks_mono' (fun w hw ho => by
      rcases (haf.occ w).mp ho with e | e
      · subst e; exact absurd hw hft
      · exact e.2) ha)
    (fun kd' e => by
      obtain ⟨e1, e2⟩ := (haf.them v kd').mp (by rw [← haf.turn]; exact e)
      rcases hv with e3 | e3
      · exact e1 e3
      · rw [c.free v e3] at e2; cases e2)
  rcases hs with hs | hs
  · have := drop_checker h c.empty hs
    subst this
    rcases hv with e | e
    · exact absurd e.symm hne
    · exact absurd e hnb
  · refine ⟨s, ?_, hne, hnb⟩
    rw [hopp] at hs
    obtain ⟨⟨kd', g1, g2⟩, g3, g4, g5⟩ := hs
    rcases (haf.own s kd').mp g1 with ⟨rfl, -⟩ | ⟨-, g1⟩
    · rw [c.free f g3] at hb; cases hb
    · refine ⟨⟨kd', g1, g2⟩, g3, ?_, fun u hu ho => g5 u hu ((haf.occ u).mpr (.inr ⟨by simp, ho⟩))⟩
      unfold Pos.occ; rw [hb]; rfl

theorem FarDrop.no_capture {v : Square} (hv : v = t ∨ Between t v k) :
    p.canCapture p.turn.opp k v (p.discoveredCheckBB false) p.occupied = false := by
  unfold canCapture anyFree
  rw [List.any_eq_false]
  intro f hf
  have hw : (p.attackersTo p.turn.opp v p.occupied &&& ~~~p.byType PT.King).WF := (wf_attackersTo h.cons _ _ _).and_left
  rw [hw.mem_toList, isSet_and, isSet_not, Bool.and_eq_true, isSet_attackersTo h.cons, Bool.not_eq_true', Bool.eq_false_iff, ne_eq,
    show PT.King = Kind.code .king from rfl, h.cons.type] at hf
  obtain ⟨⟨kd, hb, hatt⟩, hnk⟩ := hf
  have hkd : kd ≠ .king := by rintro rfl; exact hnk ⟨_, hb⟩
  rw [h.cons.occ_fun] at hatt
  have hnt : ¬ Between f t v := by
    intro hft
    have hvt : Between t v k := by
      rcases hv with e | e
      · subst e; exact absurd rfl (between_ne_right hft)
      · exact e
    obtain ⟨s, hs, -, hnb⟩ := c.pinned h (.inl rfl) hb hkd (attacks_part hatt hft) (fun e => between_ne_right e rfl)
    apply hnb
    refine between_trans_right hs.btw ?_
    obtain ⟨e, he, h1, h2⟩ := between_iff.mp hft
    obtain ⟨g, hg, h3, h4⟩ := between_iff.mp hvt
    obtain rfl := line_dir_unique he hg h2 h3
    exact between_iff.mpr ⟨e, he, h1, line_trans h3 h4⟩
  have hvk : v ≠ k := by
    rcases hv with e | e
    · rw [e]; exact c.ne
    · exact between_ne_right e
  have hl := (leavesLine_iff (bb := p.discoveredCheckBB false) (a := p.turn) (b := p.turn.opp) (by rw [isSet_discoveredCheckBB h.cons, h.king]; simp)
    ⟨kd, hb⟩ h.kingAt.occ (fun u hu => Attacks.path hatt u hu) hvk (attacks_ne hatt).symm).mpr (c.pinned h hv hb hkd hatt hnt)
  unfold leavesLine at hl
  rw [Bool.and_eq_true] at hl
  have h1 : (p.discoveredCheckBB false).isAny = true := any_of_set hl.1
  have h2 : (p.discoveredCheckBB false &&& setMask f).isAny = true :=
    any_of_set (s := f) (by rw [isSet_and, isSet_setMask, hl.1]; simp)
  have h3 : isAlignedT f v k = false := by simpa using hl.2
  rw [h1, h2, h3]; decide

/-- Pieces in hand that could step in between. -/
theorem FarDrop.no_hand {x : HKind} {w : Square} (hw : Between t w k) (hd : ¬ Dead p.turn.opp x.kind w) (hx : 1 ≤ (absPos p).hand p.turn.opp x)
    (hn : x = .pawn → ∀ u, X u = X w → (absPos p).board u ≠ some (p.turn.opp, .pawn)) : False := by
  have haf := c.after
  have hK' := haf.king h.kingAt c.ne
  have ht' : ((absPos p).play (.drop hp t)).turn = p.turn.opp := haf.turn
  have hwe : ((absPos p).play (.drop hp t)).board w = none := by
    have := (haf.occ w).not
    rcases hb : ((absPos p).play (.drop hp t)).board w with _ | v
    · rfl
    · exfalso
      rcases (haf.occ w).mp (occ_of_board hb) with e | ⟨-, e⟩
      · exact between_ne_left hw e
      · unfold Pos.occ at e; rw [c.free w hw] at e; cases e
  refine c.mate.2 (.drop x w) ⟨⟨?_, hwe, ?_, ?_⟩, ?_⟩
  · rw [ht', show ((absPos p).play (.drop hp t)).hand p.turn.opp = _ from haf.hand]; exact hx
  · rw [ht']; exact hd
  · intro e u hu e'
    rw [ht'] at e'
    exact hn e u hu ((haf.them u .pawn).mp e').2
  · rw [drop_inCheck hK' hwe]
    rintro ⟨s, hs, hnb⟩
    have := drop_checker h c.empty hs
    subst this
    exact hnb hw

theorem FarDrop.no_pawn {w : Square} (hw : Between t w k) (hopen : ∀ x, 1 ≤ (absPos p).hand p.turn.opp x → ¬ Dead p.turn.opp x.kind w) :
    p.canPawnDrop p.turn.opp w = false := by
  rw [Bool.eq_false_iff]
  intro hc
  unfold canPawnDrop at hc
  rw [Bool.and_eq_true, Bool.not_eq_true'] at hc
  have hx := (has_iff h.cons p.turn.opp .pawn).mp hc.1
  refine c.no_hand h hw (hopen _ hx) hx fun _ u hu e => ?_
  have : (p.bbOf PT.Pawn p.turn.opp &&& fileMask (file w)).isAny = true := by
    refine any_of_set (s := u) ?_
    rw [isSet_and, Bool.and_eq_true, show (fileMask (file w)).isSet u = _ from isSet_fileMask ⟨file w, file_lt w⟩ u, decide_eq_true_eq]
    refine ⟨(isSet_bbOf h .pawn p.turn.opp u).mpr e, ?_⟩
    have := file_eq_X u; have := file_eq_X w
    simp only; omega
  rw [hc.2] at this; cases this

theorem FarDrop.only_pawns {one : Square} (h1 : At k d 1 one) (hopen : ∀ x, 1 ≤ (absPos p).hand p.turn.opp x → ¬ Dead p.turn.opp x.kind one) :
    (p.hand p.turn.opp).exceptPawnExists = false := by
  rw [Bool.eq_false_iff, ne_eq, exceptPawn_iff]
  rintro ⟨i, hi1, hi6, hi⟩
  obtain ⟨x, hx, hxp⟩ : ∃ x : HKind, x.code = i ∧ x ≠ .pawn := by
    rcases (by omega : i = 1 ∨ i = 2 ∨ i = 3 ∨ i = 4 ∨ i = 5 ∨ i = 6) with rfl | rfl | rfl | rfl | rfl | rfl
    exacts [⟨.lance, rfl, by decide⟩, ⟨.knight, rfl, by decide⟩, ⟨.silver, rfl, by decide⟩, ⟨.gold, rfl, by decide⟩, ⟨.bishop, rfl, by decide⟩,
      ⟨.rook, rfl, by decide⟩]
  rw [← hx] at hi
  have hx := (has_iff h.cons p.turn.opp x).mp hi
  have hf := c.far
  have hw : Between t one k := between_symm.mp (between_iff.mpr ⟨d, c.dir, line_of_at (le_refl 1) h1,
    ⟨n - 1, by omega, at_sub (by omega) h1 c.stands⟩⟩)
  exact c.no_hand h hw (hopen _ hx) hx fun e => absurd e hxp

omit h in
theorem FarDrop.type {one : Square} (h1 : At k d 1 one) (hin : (p.hand p.turn).has hp.code = true) :
    ∃ pt, farDropType p.turn (p.hand p.turn) (directionsOf k one) = some pt := by
  have hdi := diag_iff c.dir h1
  unfold farDropType
  rcases c.kinds.2 with ⟨rfl, e⟩ | ⟨e, e'⟩
  · rw [show HKind.bishop.code = 5 from rfl] at hin
    rw [if_pos (hdi.mpr e), if_pos hin]; exact ⟨_, rfl⟩
  · rw [if_neg (fun x => e' (hdi.mp x))]
    by_cases hc : ((directionsOf k one == match p.turn with | .black => 16 | .white => 8) && (p.hand p.turn).has 1) = true
    · exact ⟨_, if_pos hc⟩
    · rcases e with rfl | ⟨rfl, e⟩
      · exact ⟨_, (if_neg hc).trans (if_pos hin)⟩
      · exfalso
        apply hc
        rw [Bool.and_eq_true]
        refine ⟨?_, hin⟩
        rw [directions_at c.dir h1]
        clear hc c h1 hdi e'
        obtain ⟨a, b⟩ := d
        simp only [neg, orient] at e
        revert e
        cases p.turn <;> simp only [Prod.mk.injEq] <;> rintro ⟨e1, e2⟩
        · obtain rfl : a = 0 := by omega
          obtain rfl : b = 1 := by omega
          decide
        · obtain rfl : a = 0 := by omega
          obtain rfl : b = -1 := by omega
          decide

/-- Every such drop is found, or another one in its place. -/
theorem FarDrop.found (hin : (p.hand p.turn).has hp.code = true)
    (hopen : ∀ w, Between t w k → ∀ x, 1 ≤ (absPos p).hand p.turn.opp x → ¬ Dead p.turn.opp x.kind w) : Hit (p.mateFar k) := by
  have hf := c.far
  obtain ⟨one, h1⟩ : ∃ one, At k d 1 one := at_prefix c.dir (by omega) c.stands
  obtain ⟨v, h2⟩ : ∃ v, At k d 2 v := at_prefix c.dir hf c.stands
  have hbt : ∀ j w, 1 ≤ j → j < n → At k d j w → Between t w k := fun j w hj hjn hw =>
    between_symm.mp (between_iff.mpr ⟨d, c.dir, line_of_at hj hw, ⟨n - j, by omega, at_sub (by omega) hw c.stands⟩⟩)
  have hb1 := hbt 1 one (le_refl 1) (by omega) h1
  have hex := c.only_pawns h h1 (hopen one hb1)
  have hfew := c.few h h1
  have hnext : nextSquare k one = some v := nextSquare_of c.dir (line_of_at (le_refl 1) h1) (at_sub (by omega) h1 h2)
  have hto : (absPos p).board v = none := by
    rcases (by omega : n = 2 ∨ 3 ≤ n) with e | e
    · subst e; rw [at_unique h2 c.stands]; exact c.empty
    · exact c.free v (hbt 2 v (by omega) (by omega) h2)
  have hto0 := (piece_zero_iff h.cons v).mpr hto
  have hc1 := c.no_capture h (.inr hb1)
  have hp1 := c.no_pawn h hb1 (hopen one hb1)
  have hc2 : p.canCapture p.turn.opp k v (p.discoveredCheckBB false) p.occupied = false := by
    rcases (by omega : n = 2 ∨ 3 ≤ n) with e | e
    · subst e; rw [at_unique h2 c.stands]; exact c.no_capture h (.inl rfl)
    · exact c.no_capture h (.inr (hbt 2 v (by omega) (by omega) h2))
  obtain ⟨pt, hpt⟩ := c.type h1 hin
  obtain ⟨esc, hesc⟩ : ∃ esc, esc = (~~~p.byColor p.turn.opp &&& kingAttack k &&&
    ~~~(p.aroundNonSlider p.turn k ||| p.aroundSlider p.turn k)).popCount := ⟨_, rfl⟩
  rw [← hesc] at hfew
  have hdrop : Hit (p.mateFarDrop k one v esc) := by
    unfold mateFarDrop
    dsimp only
    rw [hpt]
    dsimp only
    rw [if_neg (show ¬ (p.piece v ≠ 0) from fun e => e hto0), if_neg (by rw [hc1]; decide), if_neg (by rw [hc2]; decide)]
    split
    · exact ⟨_, rfl⟩
    · rename_i hcov
      rcases (by omega : n = 2 ∨ 3 ≤ n) with e | e
      · subst e
        have := at_unique h2 c.stands
        subst this
        exact absurd (c.covered h h1) hcov
      · have hb2 := hbt 2 v (by omega) (by omega) h2
        obtain ⟨far, h3⟩ : ∃ far, At k d 3 far := at_prefix c.dir e c.stands
        have hfar : far = t ∨ Between t far k := by
          rcases (by omega : n = 3 ∨ 4 ≤ n) with e | e
          · subst e; exact .inl (at_unique h3 c.stands)
          · exact .inr (hbt 3 far (by omega) (by omega) h3)
        have hfe : (absPos p).board far = none := by
          rcases hfar with e | e
          · rw [e]; exact c.empty
          · exact c.free far e
        have hnx : nextSquare one v = some far :=
          nextSquare_of c.dir ⟨1, le_refl 1, at_sub (by omega) h1 h2⟩ (at_sub (by omega) h2 h3)
        rw [hnx]
        dsimp only
        rw [if_neg (show ¬ (p.piece far ≠ 0) from fun e => e ((piece_zero_iff h.cons far).mpr hfe)),
          if_neg (by rw [c.no_pawn h hb2 (hopen v hb2)]; decide), if_neg (by rw [c.no_capture h hfar]; decide),
          if_pos (c.covered_third h e h1 h3)]
        exact ⟨_, rfl⟩
  unfold mateFar
  dsimp only
  rw [if_neg (by rw [hex]; decide), ← hesc, if_neg (by omega)]
  have hmem : one ∈ (~~~p.occupied &&& kingAttack k).toList := by
    have hw : (~~~p.occupied &&& kingAttack k).WF := (wf_kingAttack k).and_right
    rw [hw.mem_toList, isSet_and, Bool.and_eq_true]
    exact ⟨(empty_iff h.cons one).mpr (c.free one hb1), (isSet_king_step p.turn k one).mpr (king_step_of c.dir h1)⟩
  refine hit_find hmem ?_
  unfold mateFarOne
  dsimp only
  rw [hnext]
  dsimp only
  rw [if_neg (show ¬ (p.piece v ≠ 0 ∧ _) from fun e => e.1 hto0), if_neg (by rw [hp1]; decide),
    if_neg (show ¬ (pieceType (p.piece v) = PT.Pawn ∧ _) from fun e => by rw [hto0] at e; exact absurd e.1 (by decide))]
  exact hit_left hdrop

end

end Verif
