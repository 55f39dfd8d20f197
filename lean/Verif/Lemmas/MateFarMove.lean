import Verif.Lemmas.MateFarFind

/-!
The same for moves of line pieces to a square two away from the king, if they uncover nothing.
-/

namespace Verif
open Spec Bitboard Position

section
variable {p : Position} {k : Square} (h : Ready p k)
include h

/-! ### The attack sets without one piece -/

theorem avoid_gold {a s u : Square} {kd : Kind} (hb : (absPos p).board s = some (p.turn, kd)) (hst : StepAt p.turn kd s u)
    (hu : StepAt p.turn.opp .king k u) (hsa : s ≠ a) (hg : goldLike kd = true) :
    ∃ s ∈ (p.goldsC p.turn &&& checkAround p.turn PT.Gold k &&& ~~~setMask a).toList, (goldAttack p.turn s).isSet u = true := by
  have hku : (kingAttack k).isSet u = true := (isSet_king_step _ k u).mpr hu
  have hsk := own_ne_king h hb
  have ha : Attacks p.turn kd (fun _ => true) s u := .inl hst
  refine ⟨s, ?_, ?_⟩
  · rw [(wf_goldsC h).and_left.and_left.mem_toList, isSet_and, isSet_and, isSet_not, isSet_setMask, Bool.and_eq_true, Bool.and_eq_true]
    exact ⟨⟨(isSet_goldsC h p.turn s).mpr ⟨kd, hb, hg⟩, around_mem hku ((back_gold p.turn kd hg u s _).mpr ha) hsk⟩, by simpa using hsa⟩
  · have := (C13_steps p.turn s u (fun _ => true)).2.2.2.1 kd (by cases kd <;> simp [goldLike] at hg ⊢)
    exact this.mpr ha

theorem avoid_king {a s u : Square} {kd : Kind} (hb : (absPos p).board s = some (p.turn, kd)) (hst : StepAt p.turn kd s u)
    (hu : StepAt p.turn.opp .king k u) (hsa : s ≠ a) (hk : kd = .horse ∨ kd = .dragon ∨ kd = .king) :
    ∃ s ∈ ((p.bbOf3 PT.Horse PT.Dragon PT.King &&& p.byColor p.turn) &&& checkAround p.turn PT.King k &&& ~~~setMask a).toList,
      (kingAttack s).isSet u = true := by
  have hku : (kingAttack k).isSet u = true := (isSet_king_step _ k u).mpr hu
  have hsk := own_ne_king h hb
  have hks : StepAt p.turn .king s u := by
    obtain ⟨d, hd, hd2⟩ := hst
    refine ⟨d, ?_, hd2⟩
    rcases hk with rfl | rfl | rfl
    · exact (show ∀ d ∈ Kind.horse.steps, d ∈ Kind.king.steps by decide) d hd
    · exact (show ∀ d ∈ Kind.dragon.steps, d ∈ Kind.king.steps by decide) d hd
    · exact hd
  refine ⟨s, ?_, (isSet_king_step p.turn s u).mpr hks⟩
  rw [(wf_bbOf3c h).and_left.and_left.mem_toList, isSet_and, isSet_and, isSet_not, isSet_setMask, Bool.and_eq_true, Bool.and_eq_true]
  refine ⟨⟨?_, around_mem hku ((back_king p.turn u s (fun _ => true)).mpr (.inl hks)) hsk⟩, by simpa using hsa⟩
  unfold bbOf3 bbOf2
  simp only [isSet_and, isSet_or, Bool.and_eq_true, Bool.or_eq_true, h.cons.color]
  refine ⟨?_, kd, hb⟩
  rcases hk with rfl | rfl | rfl
  · exact .inl (.inl ((h.cons.type .horse s).mpr ⟨_, hb⟩))
  · exact .inl (.inr ((h.cons.type .dragon s).mpr ⟨_, hb⟩))
  · exact .inr ((h.cons.type .king s).mpr ⟨_, hb⟩)

theorem aroundNonSliderAvoid_complete {a s u : Square} {kd : Kind} (hb : (absPos p).board s = some (p.turn, kd)) (hst : StepAt p.turn kd s u)
    (hu : StepAt p.turn.opp .king k u) (hsa : s ≠ a) : (p.aroundNonSliderAvoid p.turn k a).isSet u = true := by
  have hku : (kingAttack k).isSet u = true := (isSet_king_step _ k u).mpr hu
  have hsk := own_ne_king h hb
  have ha : Attacks p.turn kd (fun _ => true) s u := .inl hst
  unfold aroundNonSliderAvoid
  simp only [isSet_or, Bool.or_eq_true, isSet_unionOver]
  cases kd
  case pawn =>
    refine .inl (.inl (.inl (.inl ?_)))
    exact (mem_pawnAttack h.cons (fun s hs => h.reg.alive s _ _ hs) u).mpr ⟨s, hb, .inl hst⟩
  case lance => obtain ⟨d, hd, -⟩ := hst; cases hd
  case knight =>
    refine .inl (.inl (.inl (.inr ⟨s, ?_, (C13_steps p.turn s u (fun _ => true)).2.1.mpr ha⟩)))
    rw [(wf_bbOf h _ _).and_left.and_left.mem_toList, isSet_and, isSet_and, isSet_not, isSet_setMask, Bool.and_eq_true, Bool.and_eq_true]
    exact ⟨⟨(isSet_bbOf h .knight p.turn s).mpr hb, around_mem hku ((back_knight p.turn u s _).mpr ha) hsk⟩, by simpa using hsa⟩
  case silver =>
    refine .inl (.inl (.inr ⟨s, ?_, (C13_steps p.turn s u (fun _ => true)).2.2.1.mpr ha⟩))
    rw [(wf_bbOf h _ _).and_left.and_left.mem_toList, isSet_and, isSet_and, isSet_not, isSet_setMask, Bool.and_eq_true, Bool.and_eq_true]
    exact ⟨⟨(isSet_bbOf h .silver p.turn s).mpr hb, around_mem hku ((back_silver p.turn u s _).mpr ha) hsk⟩, by simpa using hsa⟩
  case bishop => obtain ⟨d, hd, -⟩ := hst; cases hd
  case rook => obtain ⟨d, hd, -⟩ := hst; cases hd
  case gold => exact .inl (.inr (avoid_gold h hb hst hu hsa rfl))
  case proPawn => exact .inl (.inr (avoid_gold h hb hst hu hsa rfl))
  case proLance => exact .inl (.inr (avoid_gold h hb hst hu hsa rfl))
  case proKnight => exact .inl (.inr (avoid_gold h hb hst hu hsa rfl))
  case proSilver => exact .inl (.inr (avoid_gold h hb hst hu hsa rfl))
  case king => exact .inr (avoid_king h hb hst hu hsa (by simp))
  case horse => exact .inr (avoid_king h hb hst hu hsa (by simp))
  case dragon => exact .inr (avoid_king h hb hst hu hsa (by simp))

theorem attacksSliderAvoid_complete {occ : Bitboard} {a s u : Square} {kd : Kind} (hb : (absPos p).board s = some (p.turn, kd))
    (hs : SlideLine p.turn kd s u) (hf : ∀ w, Between s w u → occ.isSet w = false) (hsa : s ≠ a) :
    (p.attacksSliderAvoid p.turn a occ).isSet u = true := by
  unfold attacksSliderAvoid
  simp only [isSet_or, Bool.or_eq_true, isSet_unionOver]
  rcases slide_kinds hs hf with ⟨rfl, ha⟩ | ⟨hk, ha⟩ | ⟨hk, ha⟩
  · refine .inl (.inl ⟨s, ?_, (isSet_attacksFrom .lance p.turn s u occ).mpr ha⟩)
    rw [(wf_bbOf h _ _).and_left.mem_toList, isSet_and, isSet_not, isSet_setMask, Bool.and_eq_true]
    exact ⟨(isSet_bbOf h .lance p.turn s).mpr hb, by simpa using hsa⟩
  · refine .inl (.inr ⟨s, ?_, (isSet_attacksFrom .bishop p.turn s u occ).mpr ha⟩)
    rw [(wf_bbOf2c h _ _).and_left.mem_toList, isSet_and, isSet_not, isSet_setMask, Bool.and_eq_true]
    exact ⟨isSet_bbOf2c_of h (a := .bishop) (b := .horse) hb hk, by simpa using hsa⟩
  · refine .inr ⟨s, ?_, (isSet_attacksFrom .rook p.turn s u occ).mpr ha⟩
    rw [(wf_bbOf2c h _ _).and_left.mem_toList, isSet_and, isSet_not, isSet_setMask, Bool.and_eq_true]
    exact ⟨isSet_bbOf2c_of h (a := .rook) (b := .dragon) hb hk, by simpa using hsa⟩

end

/-! ### A mating move of a line piece -/

/-- A move of a line piece to the second square from the king in direction `d` that mates and uncovers no line to the king. -/
structure FarMove (p : Position) (k f t : Square) (kd : Kind) (pro : Bool) (d : Dir) : Prop where
  dir : IsDir d
  stands : At k d 2 t
  piece : (absPos p).board f = some (p.turn, kd)
  safe : (absPos p).Safe (.move f t pro)
  slide : SlideLine p.turn (Pos.arriving kd pro) t k
  free : ∀ w, Between t w k → (absPos p).board w = none
  mate : ((absPos p).play (.move f t pro)).Mated
  covers : ∀ s kd', (absPos p).board s = some (p.turn, kd') → SlideLine p.turn kd' s k → ¬ Between s f k

section
variable {p : Position} {k f t : Square} {kd : Kind} {pro : Bool} {d : Dir} (h : Ready p k) (c : FarMove p k f t kd pro d)

theorem FarMove.goes (c : FarMove p k f t kd pro d) : Attacks p.turn kd (absPos p).occ f t ∧ (∀ kd', (absPos p).board t ≠ some (p.turn, kd')) ∧
    ProOK p.turn kd f t pro := by
  obtain ⟨⟨kd', hb, h1, h2, h3, h4⟩, -⟩ := c.safe
  have := c.piece
  rw [show (absPos p).turn = p.turn from rfl, this] at hb; cases hb
  exact ⟨h1, h2, h3, h4⟩

theorem FarMove.after (c : FarMove p k f t kd pro d) :
    After (absPos p) ((absPos p).play (.move f t pro)) (some f) t (Pos.arriving kd pro) := After.of_move pro c.piece c.goes.2.1

theorem FarMove.ne (c : FarMove p k f t kd pro d) : t ≠ k := (line_ne c.dir (line_of_at (by omega) c.stands)).symm

/-- Which pieces these are. -/
theorem FarMove.kinds (c : FarMove p k f t kd pro d) :
    ((d.1 ≠ 0 ∧ d.2 ≠ 0) ∧ (kd = .bishop ∨ kd = .horse) ∧ (Pos.arriving kd pro = .bishop ∨ Pos.arriving kd pro = .horse)) ∨
    (¬ (d.1 ≠ 0 ∧ d.2 ≠ 0) ∧ (((kd = .rook ∨ kd = .dragon) ∧ (Pos.arriving kd pro = .rook ∨ Pos.arriving kd pro = .dragon)) ∨
      (kd = .lance ∧ Pos.arriving kd pro = .lance ∧ neg d = orient p.turn (0, -1)))) := by
  obtain ⟨g, hg, hl⟩ := c.slide
  have hgd := isDir_orient (c := p.turn) (isDir_slides _ g hg)
  have hcl := slide_class (c := p.turn) hg
  have e : orient p.turn g = neg d := line_dir_unique hgd (isDir_neg c.dir) hl (line_of_at (by omega) (at_symm.mp c.stands))
  rw [e] at hcl
  have hn : ((neg d).1 ≠ 0 ∧ (neg d).2 ≠ 0) ↔ (d.1 ≠ 0 ∧ d.2 ≠ 0) := by simp only [neg]; omega
  rw [hn] at hcl
  have hpr := c.goes.2.2.1
  cases pro
  · cases kd
    case bishop => exact .inl ⟨hcl.1 (.inl rfl), .inl rfl, .inl rfl⟩
    case horse => exact .inl ⟨hcl.1 (.inr rfl), .inr rfl, .inr rfl⟩
    case rook => exact .inr ⟨hcl.2 (.inl rfl), .inl ⟨.inl rfl, .inl rfl⟩⟩
    case dragon => exact .inr ⟨hcl.2 (.inr (.inl rfl)), .inl ⟨.inr rfl, .inr rfl⟩⟩
    case lance =>
      refine .inr ⟨hcl.2 (.inr (.inr rfl)), .inr ⟨rfl, rfl, ?_⟩⟩
      obtain rfl : g = (0, -1) := by simpa [Kind.slides, Pos.arriving] using hg
      exact e.symm
    all_goals cases hg
  · have hpr := (hpr rfl).1
    cases kd
    case bishop => exact .inl ⟨hcl.1 (.inr rfl), .inl rfl, .inr rfl⟩
    case rook => exact .inr ⟨hcl.2 (.inr (.inl rfl)), .inl ⟨.inl rfl, .inr rfl⟩⟩
    all_goals first | cases hg; done | cases hpr

include h c

theorem FarMove.checker {s : Square} (hs : Checker ((absPos p).play (.move f t pro)) k s) : s = t := by
  by_contra hne
  obtain ⟨⟨kd', h1, h2⟩, h3, -⟩ := (move_checker h c.piece c.goes.1 c.goes.2.1 hs hne).1
  exact c.covers s kd' h1 h2 h3

/-- What the mated king cannot step to. -/
theorem FarMove.guard {u : Square} (hu : StepAt p.turn.opp .king k u) (hnb : ∀ kd, (absPos p).board u ≠ some (p.turn.opp, kd)) :
    Attacks p.turn (Pos.arriving kd pro) (occWithout ((absPos p).play (.move f t pro)).occ k) t u ∨
    ∃ s kd', (absPos p).board s = some (p.turn, kd') ∧ s ≠ f ∧ Attacks p.turn kd' ((absPos p).play (.move f t pro)).occ s u := by
  have ha := c.after
  have hK' := ha.king h.kingAt c.ne
  have ht' : ((absPos p).play (.move f t pro)).turn = p.turn.opp := ha.turn
  have hopp : ((absPos p).play (.move f t pro)).turn.opp = p.turn := by rw [ht', opp_opp]
  obtain ⟨s, kd', hs, hatt⟩ := mated_king hK' c.mate (u := u) (by rw [ht']; exact hu)
    (fun kd e => hnb kd ((ha.them u kd).mp (by rw [← ha.turn]; exact e)).2)
  rcases (ha.own s kd').mp (by rw [hopp] at hs; exact hs) with ⟨rfl, rfl⟩ | ⟨hne, hb⟩
  · left; rw [hopp] at hatt; exact hatt
  · rcases attacks_without.mp hatt with e | ⟨e, -⟩
    · right
      rw [hopp] at e
      exact ⟨s, kd', hb, by simpa using hne, e⟩
    · exfalso
      have := c.checker h ⟨kd', hs, e⟩
      subst this
      exact c.goes.2.1 _ hb

theorem FarMove.slide_eq (w : Square) : (p.occupied ^^^ setMask f).isSet w = true ↔ w ≠ f ∧ (absPos p).occ w = true := by
  rw [isSet_xor, isSet_setMask, h.cons.occ]
  by_cases e : w = f
  · subst e; simp [occ_of_board c.piece]
  · simp [e]

theorem FarMove.occ_eq (w : Square) : (p.occupied ^^^ setMask f ||| setMask t).isSet w = ((absPos p).play (.move f t pro)).occ w := by
  rw [Bool.eq_iff_iff, c.after.occ, isSet_or, isSet_setMask, Bool.or_eq_true, decide_eq_true_eq, c.slide_eq h]
  constructor
  · rintro (e | e)
    · exact .inr ⟨by simpa using e.1, e.2⟩
    · exact .inl e
  · rintro (e | ⟨e, e'⟩)
    · exact .inr e
    · exact .inl ⟨by simpa using e, e'⟩

omit h c in
theorem attack_edges {c : Color} {kt : Kind} {occ : Square → Bool} {s u : Square} (hk : ∀ g ∈ kt.steps, IsDir g) (ha : Attacks c kt occ s u) :
    (rookAttackToEdge s ||| bishopAttackToEdge s).isSet u = true := by
  rw [edges_iff]
  rcases (attacks_iff ..).mp ha with ⟨g, hg, e⟩ | ⟨⟨g, hg, e⟩, -⟩
  · exact ⟨_, isDir_orient (c := c) (hk g hg), 1, le_refl 1, e⟩
  · exact ⟨_, isDir_orient (c := c) (isDir_slides kt g hg), e⟩

/-- `farAttacks` leaves nothing out. -/
theorem FarMove.attacks {one u : Square} (h1 : At k d 1 one)
    (ha : Attacks p.turn (Pos.arriving kd pro) (occWithout ((absPos p).play (.move f t pro)).occ k) t u) :
    (p.farAttacks (directionsOf k one) f t).isSet u = true := by
  have hdi := diag_iff c.dir h1
  have hpt : pieceType (p.piece f) = kd.code := pieceType_at h.cons c.piece
  unfold farAttacks
  rcases c.kinds with ⟨e, -, hk⟩ | ⟨e, ⟨hk, hk'⟩ | ⟨rfl, hk, -⟩⟩
  · rw [if_pos (hdi.mpr e)]
    refine attack_edges ?_ ha
    rcases hk with hk | hk <;> rw [hk] <;> (unfold IsDir; decide)
  · rw [if_neg (fun x => e (hdi.mp x)), hpt, if_neg (by rcases hk with rfl | rfl <;> decide)]
    have hall : (rookAttackToEdge t ||| bishopAttackToEdge t).isSet u = true := by
      refine attack_edges ?_ ha
      rcases hk' with hk | hk <;> rw [hk] <;> (unfold IsDir; decide)
    split
    · exact hall
    · rename_i hc
      rw [Bool.or_eq_true, not_or] at hc
      have hkr : kd = .rook := by
        rcases hk with rfl | rfl
        · rfl
        · exact absurd (show decide (Kind.dragon.code = PT.Dragon) = true by decide) hc.2
      subst hkr
      have hpro : pro = false := by
        rw [Bool.eq_false_iff]
        intro e
        obtain ⟨-, hz⟩ := c.goes.2.2.1 e
        apply hc.1
        unfold canPromote2; rw [Bool.or_eq_true, canPromote_iff, canPromote_iff]; exact hz
      subst hpro
      rcases (attacks_iff ..).mp ha with ⟨g, hg, -⟩ | ⟨hs, -⟩
      · cases hg
      · exact (isSet_rookEdge p.turn t u).mpr hs
  · rw [if_neg (fun x => e (hdi.mp x)), hpt, if_pos (show Kind.lance.code = PT.Lance from rfl)]
    rw [hk] at ha
    rcases (attacks_iff ..).mp ha with ⟨g, hg, -⟩ | ⟨⟨g, hg, hs⟩, -⟩
    · cases hg
    · exact (isSet_rookEdge p.turn t u).mpr ⟨g, (show ∀ d ∈ Kind.lance.slides, d ∈ Kind.rook.slides by decide) g hg, hs⟩

theorem FarMove.covered {one : Square} (h1 : At k d 1 one) :
    (kingAttack k &&& ~~~(p.byColor p.turn.opp ||| p.aroundAvoid p.turn k f (p.occupied ^^^ setMask f ||| setMask t) |||
      p.farAttacks (directionsOf k one) f t)).isAny = false := by
  have hw : (kingAttack k &&& ~~~(p.byColor p.turn.opp ||| p.aroundAvoid p.turn k f (p.occupied ^^^ setMask f ||| setMask t) |||
      p.farAttacks (directionsOf k one) f t)).WF := (wf_kingAttack k).and_left
  rw [Bool.eq_false_iff, ne_eq, hw.isAny_iff]
  rintro ⟨u, hu⟩
  unfold aroundAvoid at hu
  simp only [isSet_and, isSet_not, isSet_or, Bool.and_eq_true, Bool.not_eq_true', Bool.or_eq_false_iff] at hu
  obtain ⟨h4, ⟨h3, h5, h6⟩, h7⟩ := hu
  have hst : StepAt p.turn.opp .king k u := (isSet_king_step _ k u).mp h4
  rcases c.guard h hst (fun kd e => by rw [(h.cons.color _ _).mpr ⟨kd, e⟩] at h3; cases h3) with e | ⟨s, kd', hb, hne, ha⟩
  · rw [c.attacks h h1 e] at h7; cases h7
  · rcases (attacks_iff ..).mp ha with e | ⟨e1, e2⟩
    · rw [aroundNonSliderAvoid_complete h hb e hst hne] at h5; cases h5
    · rw [attacksSliderAvoid_complete h hb e1 (fun w hw => by rw [c.occ_eq h]; exact e2 w hw) hne] at h6; cases h6

/-- A piece that could capture on `v` or step in between is pinned. -/
theorem FarMove.pinned {g v : Square} {kd' : Kind} (hv : v = t ∨ Between t v k) (hb : (absPos p).board g = some (p.turn.opp, kd')) (hkd : kd' ≠ .king)
    (hgt : g ≠ t) (ha : Attacks p.turn.opp kd' ((absPos p).play (.move f t pro)).occ g v) :
    ∃ s, PinLine (absPos p) p.turn k g s ∧ ¬ OnLine g v k := by
  have haf := c.after
  have hK' := haf.king h.kingAt c.ne
  have ht' : ((absPos p).play (.move f t pro)).turn = p.turn.opp := haf.turn
  have hopp : ((absPos p).play (.move f t pro)).turn.opp = p.turn := by rw [ht', opp_opp]
  have hgf : g ≠ f := by rintro rfl; rw [c.piece] at hb; exact opp_ne p.turn (congrArg Prod.fst (Option.some.inj hb)).symm
  obtain ⟨s, hs, hne, hnb⟩ := mated_piece hK' c.mate (f := g) (v := v) (kd := kd')
    (by rw [ht']; exact (haf.them g kd').mpr ⟨hgt, hb⟩) hkd (by rw [ht']; exact ha)
    (fun kd' e => by
      obtain ⟨e1, e2⟩ := (haf.them v kd').mp (by rw [← haf.turn]; exact e)
      rcases hv with e3 | e3
      · exact e1 e3
      · rw [c.free v e3] at e2; cases e2)
  rcases hs with hs | hs
  · have := c.checker h hs
    subst this
    rcases hv with e | e
    · exact absurd e.symm hne
    · exact absurd e hnb
  · have hvk : v ≠ k := by
      rcases hv with e | e
      · rw [e]; exact c.ne
      · exact between_ne_right e
    have hon := hs.onLine hK'.occ (fun u hu => Attacks.path ha u hu) hvk (attacks_ne ha).symm
    rw [hopp] at hs
    obtain ⟨⟨kd2, g1, g2⟩, g3, g4, g5⟩ := hs
    rcases (haf.own s kd2).mp g1 with ⟨rfl, -⟩ | ⟨-, g1⟩
    · rw [c.free g g3] at hb; cases hb
    · refine ⟨s, ⟨⟨kd2, g1, g2⟩, g3, occ_of_board hb, fun u hu ho => ?_⟩, fun e => ?_⟩
      · refine g5 u hu ((haf.occ u).mpr (.inr ⟨?_, ho⟩))
        rintro e
        cases e
        exact c.covers s kd2 g1 g2 hu
      · rcases hon.mp e with e | e
        · exact hne e.symm
        · exact hnb e

omit h c in
theorem anyFree_of {pinned sum : Bitboard} {v : Square} (hw : sum.WF)
    (hs : ∀ g, sum.isSet g = true → pinned.isSet g = true ∧ isAlignedT g v k = false) : anyFree pinned v k sum = false := by
  unfold anyFree
  rw [List.any_eq_false]
  intro g hg
  obtain ⟨h0, h3⟩ := hs g ((hw.mem_toList g).mp hg)
  have h1 : pinned.isAny = true := any_of_set h0
  have h2 : (pinned &&& setMask g).isAny = true := any_of_set (s := g) (by rw [isSet_and, isSet_setMask, h0]; simp)
  rw [h1, h2, h3]; decide

theorem FarMove.barred {g v : Square} {kd' : Kind} (hv : v = t ∨ Between t v k) (hb : (absPos p).board g = some (p.turn.opp, kd')) (hkd : kd' ≠ .king)
    (hgt : g ≠ t) (ha : Attacks p.turn.opp kd' (p.occupied ^^^ setMask f).isSet g v) :
    (p.discoveredCheckBB false).isSet g = true ∧ isAlignedT g v k = false := by
  have hkey : ∀ v, v = t ∨ Between t v k → Attacks p.turn.opp kd' (p.occupied ^^^ setMask f).isSet g v → ¬ Between g t v →
      ∃ s, PinLine (absPos p) p.turn k g s ∧ ¬ OnLine g v k := by
    intro v hv ha hnt
    refine c.pinned h hv hb hkd hgt (attacks_mono' (fun w hw ho => ?_) ha)
    rw [← c.occ_eq h, isSet_or, isSet_setMask, Bool.or_eq_true, decide_eq_true_eq] at ho
    rcases ho with e | e
    · exact e
    · subst e; exact absurd hw hnt
  have hnt : ¬ Between g t v := by
    intro hft
    have hvt : Between t v k := by
      rcases hv with e | e
      · subst e; exact absurd rfl (between_ne_right hft)
      · exact e
    obtain ⟨s, hs, hnb⟩ := hkey t (.inl rfl) (attacks_part ha hft) (fun e => between_ne_right e rfl)
    apply hnb
    obtain ⟨e, he, h1, h2⟩ := between_iff.mp hft
    obtain ⟨e', he', h3, h4⟩ := between_iff.mp hvt
    obtain rfl := line_dir_unique he he' h2 h3
    exact ⟨e, he, line_trans h1 (line_trans h3 h4), .inl h1⟩
  obtain ⟨s, hs, hon⟩ := hkey v hv ha hnt
  refine ⟨?_, ?_⟩
  · rw [isSet_discoveredCheckBB h.cons, h.king]
    exact ⟨k, rfl, s, hs, by simpa using ⟨kd', hb⟩⟩
  · rw [Bool.eq_false_iff, ne_eq, isAlignedT_iff hs.aligned]; exact hon

theorem FarMove.no_capture : p.canCapture p.turn.opp k t (p.discoveredCheckBB false) (p.occupied ^^^ setMask f) = false := by
  unfold canCapture
  refine anyFree_of (wf_attackersTo h.cons _ _ _).and_left fun g hg => ?_
  rw [isSet_and, isSet_not, Bool.and_eq_true, isSet_attackersTo h.cons, Bool.not_eq_true', Bool.eq_false_iff, ne_eq,
    show PT.King = Kind.code .king from rfl, h.cons.type] at hg
  obtain ⟨⟨kd', hb, hatt⟩, hnk⟩ := hg
  exact c.barred h (.inl rfl) hb (by rintro rfl; exact hnk ⟨_, hb⟩) (attacks_ne hatt) hatt

theorem FarMove.no_step {v : Square} (hv : Between t v k) :
    p.canCaptureAvoid p.turn.opp k v t (p.discoveredCheckBB false) (p.occupied ^^^ setMask f) = false := by
  unfold canCaptureAvoid
  refine anyFree_of (wf_attackersTo h.cons _ _ _).and_left fun g hg => ?_
  rw [isSet_and, isSet_not, isSet_or, isSet_setMask, Bool.and_eq_true, isSet_attackersTo h.cons, Bool.not_eq_true', Bool.or_eq_false_iff,
    Bool.eq_false_iff, ne_eq, show PT.King = Kind.code .king from rfl, h.cons.type, decide_eq_false_iff_not] at hg
  obtain ⟨⟨kd', hb, hatt⟩, hnk, hne⟩ := hg
  exact c.barred h (.inr hv) hb (by rintro rfl; exact hnk ⟨_, hb⟩) hne hatt

/-- Pieces in hand that could step in between. -/
theorem FarMove.no_hand {x : HKind} {w : Square} (hw : Between t w k) (hd : ¬ Dead p.turn.opp x.kind w) (hx : 1 ≤ (absPos p).hand p.turn.opp x)
    (hn : x = .pawn → ∀ u, u ≠ t → X u = X w → (absPos p).board u ≠ some (p.turn.opp, .pawn)) : False := by
  have haf := c.after
  have hK' := haf.king h.kingAt c.ne
  have ht' : ((absPos p).play (.move f t pro)).turn = p.turn.opp := haf.turn
  have hwe : ((absPos p).play (.move f t pro)).board w = none := by
    rcases hb : ((absPos p).play (.move f t pro)).board w with _ | v
    · rfl
    · exfalso
      rcases (haf.occ w).mp (occ_of_board hb) with e | ⟨-, e⟩
      · exact between_ne_left hw e
      · unfold Pos.occ at e; rw [c.free w hw] at e; cases e
  refine c.mate.2 (.drop x w) ⟨⟨?_, hwe, ?_, ?_⟩, ?_⟩
  · rw [ht', show ((absPos p).play (.move f t pro)).hand p.turn.opp = _ from haf.hand]; exact hx
  · rw [ht']; exact hd
  · intro e u hu e'
    rw [ht'] at e'
    obtain ⟨e1, e2⟩ := (haf.them u .pawn).mp e'
    exact hn e u e1 hu e2
  · rw [drop_inCheck hK' hwe]
    rintro ⟨s, hs, hnb⟩
    have := c.checker h hs
    subst this
    exact hnb hw

theorem FarMove.no_pawn {w : Square} (hw : Between t w k) (hopen : ∀ x, 1 ≤ (absPos p).hand p.turn.opp x → ¬ Dead p.turn.opp x.kind w) :
    p.canPawnDrop p.turn.opp w = false := by
  rw [Bool.eq_false_iff]
  intro hc
  unfold canPawnDrop at hc
  rw [Bool.and_eq_true, Bool.not_eq_true'] at hc
  have hx := (has_iff h.cons p.turn.opp .pawn).mp hc.1
  refine c.no_hand h hw (hopen _ hx) hx fun _ u _ hu e => ?_
  have : (p.bbOf PT.Pawn p.turn.opp &&& fileMask (file w)).isAny = true := by
    refine any_of_set (s := u) ?_
    rw [isSet_and, Bool.and_eq_true, show (fileMask (file w)).isSet u = _ from isSet_fileMask ⟨file w, file_lt w⟩ u, decide_eq_true_eq]
    refine ⟨(isSet_bbOf h .pawn p.turn.opp u).mpr e, ?_⟩
    have := file_eq_X u; have := file_eq_X w
    simp only; omega
  rw [hc.2] at this; cases this

theorem FarMove.only_pawns {w : Square} (hw : Between t w k) (hopen : ∀ x, 1 ≤ (absPos p).hand p.turn.opp x → ¬ Dead p.turn.opp x.kind w) :
    (p.hand p.turn.opp).exceptPawnExists = false := by
  rw [Bool.eq_false_iff, ne_eq, exceptPawn_iff]
  rintro ⟨i, hi1, hi6, hi⟩
  obtain ⟨x, hx, hxp⟩ : ∃ x : HKind, x.code = i ∧ x ≠ .pawn := by
    rcases (by omega : i = 1 ∨ i = 2 ∨ i = 3 ∨ i = 4 ∨ i = 5 ∨ i = 6) with rfl | rfl | rfl | rfl | rfl | rfl
    exacts [⟨.lance, rfl, by decide⟩, ⟨.knight, rfl, by decide⟩, ⟨.silver, rfl, by decide⟩, ⟨.gold, rfl, by decide⟩, ⟨.bishop, rfl, by decide⟩,
      ⟨.rook, rfl, by decide⟩]
  rw [← hx] at hi
  have hx := (has_iff h.cons p.turn.opp x).mp hi
  exact c.no_hand h hw (hopen _ hx) hx fun e => absurd e hxp

theorem FarMove.no_exchange {w : Square} (hw : Between t w k) (hopen : ∀ x, 1 ≤ (absPos p).hand p.turn.opp x → ¬ Dead p.turn.opp x.kind w)
    (hone : ∀ u v, (absPos p).board u = some (p.turn.opp, .pawn) → (absPos p).board v = some (p.turn.opp, .pawn) → X u = X v → u = v) :
    ¬ (pieceType (p.piece t) = PT.Pawn ∧ file t = file w ∧ (p.hand p.turn.opp).has 0) := by
  rintro ⟨e1, e2, e3⟩
  have hx := (has_iff h.cons p.turn.opp .pawn).mp e3
  have hbt : (absPos p).board t = some (p.turn.opp, .pawn) := by
    rcases hb : (absPos p).board t with _ | ⟨c', kd'⟩
    · rw [(piece_zero_iff h.cons t).mpr hb] at e1; exact absurd e1 (by decide)
    · rw [pieceType_at h.cons hb] at e1
      obtain rfl : kd' = .pawn := by cases kd' <;> first | rfl | exact absurd e1 (by decide)
      by_cases hc : c' = p.turn
      · subst hc; exact absurd hb (c.goes.2.1 _)
      · rw [show c' = p.turn.opp from by cases c' <;> cases ht : p.turn <;> simp_all [Color.opp]]
  refine c.no_hand h hw (hopen _ hx) hx fun _ u hu hX e => hu ?_
  refine hone u t e hbt ?_
  have := file_eq_X t; have := file_eq_X w
  omega

theorem FarMove.mover {one : Square} (h1 : At k d 1 one) : f ∈ (p.farMovers (directionsOf k one) t).toList := by
  have hdi := diag_iff c.dir h1
  have hg := c.goes.1
  have hb := c.piece
  have wz : ∀ (b : Bool) (x : Bitboard), x.WF → (if b = true then x else zero).WF := by
    intro b x hx; cases b
    · exact WF.zero
    · exact hx
  have sz : ∀ (a x y : Bitboard), a.isSet f = true → y.isSet f = true → x.isSet f = true →
      (if a.andIsAny y = true then x &&& y else zero).isSet f = true := by
    intro a x y ha hy hx
    have hc : a.andIsAny y = true := any_of_set (s := f) (by rw [isSet_and, ha, hy]; rfl)
    rw [if_pos hc, isSet_and, hx, hy]; rfl
  have hop : Attacks p.turn kd p.occupied.isSet f t := by rw [h.cons.occ_fun]; exact hg
  unfold farMovers
  simp only
  rcases c.kinds with ⟨e, hk, -⟩ | ⟨e, hk⟩
  · rw [if_neg (by rw [hdi.mpr e]; decide),
      ((wz _ _ (wf_bbOf2c h _ _).and_right).or (wz _ _ (wf_bbOf h _ _).and_right)).mem_toList, isSet_or, Bool.or_eq_true]
    have hin := isSet_bbOf2c_of h (a := .bishop) (b := .horse) hb hk
    rcases (attacks_iff ..).mp hop with hst | ⟨hs, hf⟩
    · right
      have hkh : kd = .horse := by
        rcases hk with rfl | rfl
        · obtain ⟨g, hg, -⟩ := hst; cases hg
        · rfl
      subst hkh
      have hki : (kingAttack t).isSet f = true := (back_king p.turn t f (fun _ => true)).mpr (.inl (by
        obtain ⟨g, hg, hg2⟩ := hst
        exact ⟨g, (show ∀ d ∈ Kind.horse.steps, d ∈ Kind.king.steps by decide) g hg, hg2⟩))
      exact sz _ _ _ hki ((isSet_bbOf h .horse p.turn f).mpr hb) hki
    · left
      have hsb : SlideLine p.turn .bishop f t := by
        rcases hk with rfl | rfl <;> exact hs
      exact sz _ _ _ ((isSet_bishopEdge p.turn.opp t f).mpr (slideLine_back hsb)) hin
        ((back_bishop p.turn t f p.occupied).mpr ((attacks_iff ..).mpr (.inr ⟨hsb, hf⟩)))
  · rw [if_pos (by rw [Bool.not_eq_true', Bool.eq_false_iff]; exact fun x => e (hdi.mp x)),
      (((wz _ _ (wf_bbOf2c h _ _).and_right).or (wz _ _ (wf_bbOf h _ _).and_right)).or (wz _ _ (wf_bbOf h _ _).and_right)).mem_toList,
      isSet_or, isSet_or, Bool.or_eq_true, Bool.or_eq_true]
    rcases hk with ⟨hk, -⟩ | ⟨rfl, -, hd⟩
    · left
      have hin := isSet_bbOf2c_of h (a := .rook) (b := .dragon) hb hk
      rcases (attacks_iff ..).mp hop with hst | ⟨hs, hf⟩
      · right
        have hkh : kd = .dragon := by
          rcases hk with rfl | rfl
          · obtain ⟨g, hg, -⟩ := hst; cases hg
          · rfl
        subst hkh
        have hki : (kingAttack t).isSet f = true := (back_king p.turn t f (fun _ => true)).mpr (.inl (by
          obtain ⟨g, hg, hg2⟩ := hst
          exact ⟨g, (show ∀ d ∈ Kind.dragon.steps, d ∈ Kind.king.steps by decide) g hg, hg2⟩))
        exact sz _ _ _ hki ((isSet_bbOf h .dragon p.turn f).mpr hb) hki
      · left
        have hsb : SlideLine p.turn .rook f t := by
          rcases hk with rfl | rfl <;> exact hs
        exact sz _ _ _ ((isSet_rookEdge p.turn.opp t f).mpr (slideLine_back hsb)) hin
          ((back_rook p.turn t f p.occupied).mpr ((attacks_iff ..).mpr (.inr ⟨hsb, hf⟩)))
    · right
      rcases (attacks_iff ..).mp hop with ⟨g, hg, -⟩ | ⟨hs, hf⟩
      · cases hg
      · have hin := (isSet_bbOf h .lance p.turn f).mpr hb
        have hed := (isSet_lanceEdge p.turn.opp t f).mpr (slideLine_back hs)
        have hat := (back_lance p.turn t f p.occupied).mpr hop
        refine (congrArg (fun x : Bitboard => x.isSet f) (if_pos ?_)).trans ?_
        · rw [Bool.and_eq_true]
          refine ⟨?_, any_of_set (s := f) (by rw [isSet_and, hed]; exact hin)⟩
          rw [directions_at c.dir h1]
          clear * - hd
          obtain ⟨a, b⟩ := d
          simp only [neg, orient] at hd
          revert hd
          cases p.turn <;> simp only [Prod.mk.injEq] <;> rintro ⟨e1, e2⟩
          · obtain rfl : a = 0 := by omega
            obtain rfl : b = 1 := by omega
            decide
          · obtain rfl : a = 0 := by omega
            obtain rfl : b = -1 := by omega
            decide
        · show (lanceAttack p.turn.opp t p.occupied &&& p.bbOf PT.Lance p.turn).isSet f = true
          rw [isSet_and, hat]; exact hin

/-- Every such move is found, or another mate in its place. -/
theorem FarMove.found (hopen : ∀ w, Between t w k → ∀ x, 1 ≤ (absPos p).hand p.turn.opp x → ¬ Dead p.turn.opp x.kind w)
    (hone : ∀ u v, (absPos p).board u = some (p.turn.opp, .pawn) → (absPos p).board v = some (p.turn.opp, .pawn) → X u = X v → u = v)
    (hesc : ∀ l : List Square, l.Nodup → (∀ u ∈ l, StepAt p.turn.opp .king k u ∧ (∀ kd', (absPos p).board u ≠ some (p.turn.opp, kd')) ∧
      ∀ s, ¬ (absPos p).AttacksSq p.turn s u) → l.length ≤ 3) : Hit (p.mateFar k) := by
  obtain ⟨one, h1⟩ : ∃ one, At k d 1 one := at_prefix c.dir (by omega) c.stands
  have hb1 : Between t one k := between_symm.mp (between_iff.mpr ⟨d, c.dir, line_of_at (le_refl 1) h1,
    ⟨1, by omega, at_sub (by omega) h1 c.stands⟩⟩)
  have hnext : nextSquare k one = some t := nextSquare_of c.dir (line_of_at (le_refl 1) h1) (at_sub (by omega) h1 c.stands)
  have hkk : kd ≠ .king := by
    rintro rfl
    rcases c.kinds with ⟨-, e, -⟩ | ⟨-, ⟨e, -⟩ | ⟨e, -⟩⟩
    · rcases e with e | e <;> cases e
    · rcases e with e | e <;> cases e
    · cases e
  have htry : Hit (p.tryFar k one t (directionsOf k one) f) := by
    unfold tryFar
    dsimp only
    have hll : leavesLine f t (p.kingSquare p.turn) p.pinnedBB = false := leavesLineN_pinned h (knight := false) (fun e => by cases e) c.piece hkk c.safe
    rw [if_neg (by rw [hll]; decide), if_neg (by rw [c.no_capture h]; decide), if_neg (by rw [c.no_step h hb1]; decide),
      if_neg (by rw [c.covered h h1]; decide)]
    exact ⟨_, rfl⟩
  have hfew : (~~~p.byColor p.turn.opp &&& kingAttack k &&& ~~~(p.aroundNonSlider p.turn k ||| p.aroundSlider p.turn k)).popCount ≤ 3 := by
    have hw : (~~~p.byColor p.turn.opp &&& kingAttack k &&& ~~~(p.aroundNonSlider p.turn k ||| p.aroundSlider p.turn k)).WF :=
      (wf_kingAttack k).and_right.and_left
    rw [hw.popCount_eq]
    refine hesc _ ((List.nodup_finRange 81).filter _) fun u hu => ?_
    have hu := (List.mem_filter.mp hu).2
    simp only [isSet_and, isSet_not, isSet_or, Bool.and_eq_true, Bool.not_eq_true', Bool.or_eq_false_iff] at hu
    obtain ⟨⟨h3, h4⟩, h5, h6⟩ := hu
    have hst : StepAt p.turn.opp .king k u := (isSet_king_step _ k u).mp h4
    refine ⟨hst, fun kd' e => (by rw [(h.cons.color _ _).mpr ⟨kd', e⟩] at h3; cases h3), ?_⟩
    rintro s ⟨kd', hb, ha⟩
    rcases (attacks_iff ..).mp ha with e | ⟨e1, e2⟩
    · rw [aroundNonSlider_complete h hb e hst] at h5; cases h5
    · rw [aroundSlider_complete h hb e1 (fun w hw => by rw [h.cons.occ_fun]; exact e2 w hw) hst] at h6
      cases h6
  unfold mateFar
  dsimp only
  rw [if_neg (by rw [c.only_pawns h hb1 (hopen one hb1)]; decide), if_neg (by omega)]
  have hmem : one ∈ (~~~p.occupied &&& kingAttack k).toList := by
    have hw : (~~~p.occupied &&& kingAttack k).WF := (wf_kingAttack k).and_right
    rw [hw.mem_toList, isSet_and, Bool.and_eq_true]
    exact ⟨(empty_iff h.cons one).mpr (c.free one hb1), (isSet_king_step p.turn k one).mpr (king_step_of c.dir h1)⟩
  refine hit_find hmem ?_
  unfold mateFarOne
  dsimp only
  rw [hnext]
  dsimp only
  rw [if_neg (show ¬ (p.piece t ≠ 0 ∧ pieceColor (p.piece t) = p.turn) from fun e => ?_), if_neg (by rw [c.no_pawn h hb1 (hopen one hb1)]; decide),
    if_neg (c.no_exchange h hb1 (hopen one hb1) hone)]
  · refine hit_right ?_
    unfold mateFarMove
    exact hit_find (c.mover h h1) htry
  · obtain ⟨e0, e⟩ := e
    rcases hb : (absPos p).board t with _ | ⟨c', kd'⟩
    · exact e0 ((piece_zero_iff h.cons t).mpr hb)
    · rw [h.cons.code, hb, show pieceCode (some (c', kd')) = mkPiece c' kd'.code from rfl, pieceColor_mkPiece] at e
      rw [e] at hb
      exact c.goes.2.1 kd' hb

end

end Verif
