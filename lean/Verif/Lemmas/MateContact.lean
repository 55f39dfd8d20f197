import Verif.Model.Mate1
import Verif.Lemmas.Mated

/-!
Mate by a piece next to the king (or a knight): the tests of `mateMoveIn1Ply` for drops and moves into contact.
-/

namespace Verif
open Spec Bitboard Position

/-! ### Taking a piece off -/

/-- The lifted position with the piece array brought in line. -/
def liftFull (p : Position) (pt : Nat) (sq : Square) (gold : Bool) : Position :=
  { p.lift pt sq gold with piece := upd p.piece sq 0 }

section
variable {p : Position}

theorem liftFull_board (pt : Nat) (sq : Square) (gold : Bool) :
    (absPos (liftFull p pt sq gold)).board = Pos.set (absPos p).board sq none := by
  funext s
  show decodePiece (upd p.piece sq 0 s) = _
  unfold upd Pos.set
  split
  · rfl
  · rfl

theorem lift_other (b : Bitboard) (sq s : Square) (hne : s ≠ sq) : (b.xorBit sq).isSet s = b.isSet s := by
  rw [isSet_xorBit]; simp [hne]

theorem lift_self (b : Bitboard) (sq : Square) : (b.xorBit sq).isSet sq = !b.isSet sq := by
  rw [isSet_xorBit]; simp

theorem liftFull_consistent (h : Consistent p) {sq : Square} {kd : Kind} (hs : (absPos p).board sq = some (p.turn, kd))
    (hkd : kd ≠ .king) : Consistent (liftFull p kd.code sq (goldLike kd)) := by
  have hb := liftFull_board (p := p) kd.code sq (goldLike kd)
  have hself : (absPos (liftFull p kd.code sq (goldLike kd))).board sq = none := by rw [hb]; simp [Pos.set]
  have hother : ∀ s, s ≠ sq → (absPos (liftFull p kd.code sq (goldLike kd))).board s = (absPos p).board s := by
    intro s hne; rw [hb]; simp [Pos.set, hne]
  have htype : ∀ n : Nat, n ≠ 0 → (liftFull p kd.code sq (goldLike kd)).byType n =
      if n = kd.code then (p.byType n).xorBit sq else p.byType n := by
    intro n hn
    show upd (upd p.byType PT.Occupied _) kd.code _ n = _
    unfold upd
    by_cases e : n = kd.code
    · subst e; rw [if_pos rfl, if_pos rfl, if_neg hn]
    · rw [if_neg e, if_neg e, if_neg hn]
  have hoccb : (liftFull p kd.code sq (goldLike kd)).occupied = p.occupied.xorBit sq := by
    show upd (upd p.byType PT.Occupied _) kd.code _ PT.Occupied = _
    unfold upd
    rw [if_neg (code_ne_zero kd).symm, if_pos rfl]; rfl
  have hcol : ∀ c, (liftFull p kd.code sq (goldLike kd)).byColor c = if c = p.turn then (p.byColor c).xorBit sq else p.byColor c := by
    intro c
    show upd p.byColor p.turn _ c = _
    unfold upd
    split
    · rename_i e; rw [e]
    · rfl
  have hgold : (liftFull p kd.code sq (goldLike kd)).golds = if goldLike kd = true then p.golds.xorBit sq else p.golds := rfl
  constructor
  · intro s
    show upd p.piece sq 0 s = _
    unfold upd
    split
    · rename_i e; rw [e, hself]; rfl
    · rename_i e; rw [hother s e]; exact h.code s
  · intro k s
    rw [htype _ (code_ne_zero k)]
    by_cases e : s = sq
    · subst e
      rw [hself]
      split
      · rename_i ec
        rw [lift_self, h.type_some hs, code_inj.mp ec]; simp
      · rename_i ec
        rw [h.type_some hs]
        have : k ≠ kd := fun e => ec (by rw [e])
        simp [this]
    · rw [hother s e]
      split
      · rw [lift_other _ _ _ e, h.type]
      · exact h.type k s
  · intro c s
    rw [hcol]
    by_cases e : s = sq
    · subst e
      rw [hself]
      split
      · rename_i ec
        rw [lift_self, h.color_some hs, ec]; simp
      · rename_i ec
        rw [h.color_some hs]; simp [ec]
    · rw [hother s e]
      split
      · rw [lift_other _ _ _ e, h.color]
      · exact h.color c s
  · intro s
    rw [hoccb]
    unfold Pos.occ
    by_cases e : s = sq
    · subst e
      rw [hself, lift_self, h.occ, occ_of_board hs]; rfl
    · rw [hother s e, lift_other _ _ _ e, h.occ]; rfl
  · intro s
    rw [hgold]
    by_cases e : s = sq
    · subst e
      rw [hself]
      split
      · rename_i ec
        rw [lift_self, h.golds_some hs, ec]; simp
      · rename_i ec
        rw [h.golds_some hs]; simp [ec]
    · rw [hother s e]
      split
      · rw [lift_other _ _ _ e, h.golds]
      · exact h.golds s
  · intro c s
    show p.kingSquare c = some s ↔ _
    rw [h.king]
    by_cases e : s = sq
    · subst e
      rw [hself, hs]; simp [hkd]
    · rw [hother s e]
  · intro n
    by_cases hn : n = 0
    · subst hn
      show ((liftFull p kd.code sq (goldLike kd)).occupied).WF
      rw [hoccb]; exact h.wfOcc.xorBit sq
    · rw [htype n hn]
      split
      · exact (h.wfType n).xorBit sq
      · exact h.wfType n
  · intro c
    rw [hcol]
    split
    · exact (h.wfColor c).xorBit sq
    · exact h.wfColor c
  · rw [hoccb]; exact h.wfOcc.xorBit sq
  · rw [hgold]
    split
    · exact h.wfGolds.xorBit sq
    · exact h.wfGolds
  · exact h.hand

/-- Lift, then put down. -/
theorem after_lift {sq t : Square} {kd : Kind} (pro : Bool) (hs : (absPos p).board sq = some (p.turn, kd))
    (ht : ∀ kd', (absPos p).board t ≠ some (p.turn, kd')) (pt : Nat) (gold : Bool) :
    After (absPos (liftFull p pt sq gold)) ((absPos p).play (.move sq t pro)) none t (Pos.arriving kd pro) := by
  have ha : After (absPos p) ((absPos p).play (.move sq t pro)) (some sq) t (Pos.arriving kd pro) := .of_move pro hs ht
  have hb := liftFull_board (p := p) pt sq gold
  have hb' : ∀ s v, (absPos (liftFull p pt sq gold)).board s = some v ↔ some s ≠ some sq ∧ (absPos p).board s = some v := by
    intro s v
    rw [hb]; unfold Pos.set
    by_cases e : s = sq
    · simp [e]
    · simp [e]
  constructor
  · exact ha.turn
  · intro kd' e; exact ht kd' ((hb' _ _).mp e).2
  · intro s kd'
    refine (ha.own s kd').trans (or_congr_right ?_)
    rw [show (absPos (liftFull p pt sq gold)).turn = (absPos p).turn from rfl, hb']
    simp
  · intro s kd'
    refine (ha.them s kd').trans (and_congr_right fun hne => ?_)
    rw [show (absPos (liftFull p pt sq gold)).turn = (absPos p).turn from rfl, hb']
    refine ⟨fun e => ⟨fun e' => ?_, e⟩, fun e => e.2⟩
    rw [Option.some.inj e'] at e
    rw [hs] at e
    simp only [Option.some.injEq, Prod.mk.injEq] at e
    exact ne_opp _ e.1
  · intro u
    refine (ha.occ u).trans (or_congr_right ?_)
    unfold Pos.occ
    rw [hb]; unfold Pos.set
    by_cases e : u = sq
    · simp [e]
    · simp [e]
  · exact ha.hand

end

/-! ### The tests -/

section
variable {p : Position} (h : Consistent p)
include h

/-- No escape: every square next to the king is occupied by its own side, covered by `bb`, or attacked. -/
theorem canKingEscape_false {us : Color} {k t : Square} {bb : Bitboard} (hf : p.canKingEscape us k t bb = false) :
    ∀ u, StepAt us.opp .king k u → (∀ kd, (absPos p).board u ≠ some (us.opp, kd)) → u ≠ t → bb.isSet u = true ∨
      ∃ s kd, (absPos p).board s = some (us, kd) ∧ Attacks us kd ((p.occupied.setBit t).clearBit k).isSet s u := by
  intro u hst hu hut
  unfold canKingEscape at hf
  rw [List.any_eq_false] at hf
  have hw : ((bb.notAnd ((p.byColor us.opp).notAnd (kingAttack k))).clearBit t).WF :=
    (((wf_kingAttack k).notAnd).notAnd).clearBit t
  by_cases hb : bb.isSet u = true
  · exact .inl hb
  · right
    have := hf u ((hw.mem_toList u).mpr ?_)
    · rw [Bool.not_eq_true, Bool.not_eq_false'] at this
      exact (attackersIsAny_iff h us u _).mp this
    · rw [isSet_clearBit, isSet_notAnd, isSet_notAnd]
      have h1 : (kingAttack k).isSet u = true := by
        have := (isSet_attacksFrom .king us.opp k u p.occupied).mpr (.inl hst)
        exact this
      have h2 : (p.byColor us.opp).isSet u = false := by
        rw [Bool.eq_false_iff, ne_eq, h.color]; rintro ⟨kd, e⟩; exact hu kd e
      rw [h1, h2, Bool.eq_false_iff.mpr hb]; simp [hut]

/-- No capture: every attacker of the square other than the king is pinned and would leave the line. -/
theorem canPieceCaptureDc_false {k t : Square} (hk : p.kingSquare p.turn.opp = some k) (htk : t ≠ k)
    (hf : p.canPieceCaptureDc p.turn.opp k t (p.discoveredCheckBB false) = false) :
    ∀ f kd, (absPos p).board f = some (p.turn.opp, kd) → kd ≠ .king → Attacks p.turn.opp kd (absPos p).occ f t →
      ∃ s, PinLine (absPos p) p.turn k f s ∧ s ≠ t ∧ ¬ Between s t k := by
  intro f kd hb hkd ha
  unfold canPieceCaptureDc at hf
  rw [List.any_eq_false] at hf
  have := hf f (((wf_attackersToExceptKing h _ _).mem_toList f).mpr ((isSet_attackersToExceptKing h _ _ _).mpr ⟨kd, hkd, hb, ha⟩))
  rw [Bool.not_eq_true, Bool.not_eq_false'] at this
  refine (leavesLine_iff (a := p.turn) (b := p.turn.opp) ?_ ⟨kd, hb⟩ (h.kingAt hk).occ (fun u hu => Attacks.path ha u hu) htk
    (attacks_ne ha).symm).mp this
  rw [isSet_discoveredCheckBB h, hk]; simp

end

/-- Mate by contact. `p₁` is the position without the moving piece. -/
theorem contact_mate {p₁ : Position} (h₁ : Consistent p₁) {q' : Pos} {k t : Square} {kt : Kind} {bb : Bitboard}
    (ha : After (absPos p₁) q' none t kt) (hk : p₁.kingSquare p₁.turn.opp = some k)
    (hat : Attacks p₁.turn kt q'.occ t k) (hnb : ∀ u, ¬ Between t u k)
    (hesc : p₁.canKingEscape p₁.turn k t bb = false)
    (hbb : ∀ u, StepAt p₁.turn.opp .king k u → bb.isSet u = true → Attacks p₁.turn kt (occWithout q'.occ k) t u)
    (hsup : StepAt p₁.turn.opp .king k t → p₁.attackersToIsAny p₁.turn t p₁.occupied = true)
    (hcap : (∃ s, Checker q' k s ∧ s ≠ t ∧ ¬ Between s t k) ∨
      p₁.canPieceCaptureDc p₁.turn.opp k t (p₁.discoveredCheckBB false) = false) : q'.Mated := by
  have hK := h₁.kingAt hk
  have htk : t ≠ k := attacks_ne hat
  have hK' := ha.king hK htk
  have hturn : (absPos p₁).turn = p₁.turn := rfl
  have ht' : q'.turn = p₁.turn.opp := ha.turn
  have hopp : q'.turn.opp = p₁.turn := by rw [ht', opp_opp]
  have hchk : Checker q' k t := by
    refine ⟨kt, ?_, ?_⟩
    · rw [hopp]; exact ha.arrived
    · rw [hopp]; exact hat
  refine mated_of hK' hchk ?_ ?_ ?_
  · intro u hst hu
    rw [ht'] at hst hu
    rw [hopp]
    by_cases hut : u = t
    · subst hut
      obtain ⟨s, kd, hs, hatt⟩ := (attackersIsAny_iff h₁ _ _ _).mp (hsup hst)
      refine ⟨s, kd, (ha.own s kd).mpr (.inr ⟨by simp, hs⟩), attacks_mono' (fun w hw ho => ?_) hatt⟩
      unfold occWithout at ho
      split at ho
      · cases ho
      · rcases (ha.occ w).mp ho with e | e
        · exact absurd e (between_ne_right hw)
        · rw [h₁.occ]; exact e.2
    · rcases canKingEscape_false h₁ hesc u hst (fun kd e => hu kd ((ha.them u kd).mpr ⟨hut, e⟩)) hut with e | ⟨s, kd, hs, hatt⟩
      · exact ⟨t, kt, ha.arrived, hbb u hst e⟩
      · refine ⟨s, kd, (ha.own s kd).mpr (.inr ⟨by simp, hs⟩), attacks_mono' (fun w _ ho => ?_) hatt⟩
        unfold occWithout at ho
        split at ho
        · cases ho
        · rename_i hwk
          rw [isSet_clearBit, isSet_setBit]
          rcases (ha.occ w).mp ho with e | e
          · simp [e]; rintro rfl; exact hwk e
          · rw [h₁.occ, e.2]; simp [hwk]
  · intro f v kd hf hkd hatt hv
    rcases hv with rfl | hv
    · rcases hcap with ⟨s, hs, hne, hnb'⟩ | hcap
      · exact ⟨s, .inl hs, hne, hnb'⟩
      · rw [ht'] at hf hatt
        obtain ⟨hfv, hfq⟩ := (ha.them f kd).mp hf
        obtain ⟨s, hp, hne, hnb'⟩ := canPieceCaptureDc_false h₁ hk htk hcap f kd hfq hkd
          (attacks_mono' (fun w hw ho => (ha.occ w).mpr (.inr ⟨by simp, ho⟩)) hatt)
        refine ⟨s, .inr ?_, hne, hnb'⟩
        rw [hopp]
        exact ha.pin hp (by simp) (by simp) hnb'
    · exact absurd hv (hnb v)
  · intro hp v hv
    exact absurd hv (hnb v)

/-! ### Squares covered by the arriving piece -/

/-- Every square of `bb` next to the king is attacked from `t` once the king steps aside. -/
def Covers (q' : Pos) (c : Color) (kt : Kind) (t k : Square) (bb : Bitboard) : Prop :=
  ∀ u, StepAt c.opp .king k u → bb.isSet u = true → Attacks c kt (occWithout q'.occ k) t u

theorem isSet_rookEdge (c : Color) (s u : Square) : (rookAttackToEdge s).isSet u = true ↔ SlideLine c .rook s u := by
  rw [← attacks_zero_slide rfl, ← isSet_attacksFrom]; rfl
theorem isSet_bishopEdge (c : Color) (s u : Square) : (bishopAttackToEdge s).isSet u = true ↔ SlideLine c .bishop s u := by
  rw [← attacks_zero_slide rfl, ← isSet_attacksFrom]; rfl
theorem isSet_lanceEdge (c : Color) (s u : Square) : (lanceAttackToEdge c s).isSet u = true ↔ SlideLine c .lance s u := by
  rw [← attacks_zero_slide rfl, ← isSet_attacksFrom]; rfl

theorem king_step_ne {c : Color} {k u : Square} (h : StepAt c .king k u) : u ≠ k :=
  (attacks_ne (occ := fun _ => false) (Or.inl h)).symm

theorem isSet_king_step (c : Color) (k u : Square) : (kingAttack k).isSet u = true ↔ StepAt c .king k u := by
  have := isSet_attacksFrom .king c k u zero
  refine (show (kingAttack k).isSet u = true ↔ _ from this).trans ⟨king_step, .inl⟩

section
variable {q' : Pos} {c : Color} {t k : Square}

theorem covers_zero (kt : Kind) : Covers q' c kt t k zero := fun u _ e => by simp at e

theorem Covers.or {kt : Kind} {a b : Bitboard} (ha : Covers q' c kt t k a) (hb : Covers q' c kt t k b) : Covers q' c kt t k (a ||| b) := by
  intro u hst hu
  rw [isSet_or, Bool.or_eq_true] at hu
  exact hu.elim (ha u hst) (hb u hst)

/-- Steps do not look at the occupancy. -/
theorem covers_steps (kt : Kind) {bb : Bitboard} (h : ∀ u, bb.isSet u = true → StepAt c kt t u) : Covers q' c kt t k bb :=
  fun u _ hu => .inl (h u hu)

theorem covers_edge {kt : Kind} {bb : Bitboard} (ha : Attacks c kt q'.occ t k) (hdr : kt = .dragon → SlideLine c kt t k)
    (h : ∀ u, bb.isSet u = true → SlideLine c kt t u) : Covers q' c kt t k bb :=
  fun u hst hu => edge_attack (h u hu) ha hdr hst (king_step_ne hst)

theorem step_of_gold {kt : Kind} (hg : goldLike kt = true) {u : Square} (h : (goldAttack c t).isSet u = true) : StepAt c kt t u := by
  obtain ⟨d, hd, ha⟩ := (isSet_goldAttack c t u).mp h
  refine ⟨d, ?_, ha⟩
  cases kt <;> first | exact hd | cases hg

theorem covers_gold {kt : Kind} (hg : goldLike kt = true) : Covers q' c kt t k (goldAttack c t) :=
  covers_steps kt fun _ => step_of_gold hg

theorem covers_silver : Covers q' c .silver t k (silverAttack c t) :=
  covers_steps .silver fun u h => (isSet_silverAttack c t u).mp h

theorem covers_rook (ha : Attacks c .rook q'.occ t k) : Covers q' c .rook t k (rookAttackToEdge t) :=
  covers_edge ha (fun e => by cases e) fun u => (isSet_rookEdge c t u).mp
theorem covers_bishop (ha : Attacks c .bishop q'.occ t k) : Covers q' c .bishop t k (bishopAttackToEdge t) :=
  covers_edge ha (fun e => by cases e) fun u => (isSet_bishopEdge c t u).mp
theorem covers_lance (ha : Attacks c .lance q'.occ t k) : Covers q' c .lance t k (lanceAttackToEdge c t) :=
  covers_edge ha (fun e => by cases e) fun u => (isSet_lanceEdge c t u).mp

/-- Horses and dragons attack all their neighbours. -/
theorem adj_attack {kt : Kind} (hkt : kt = .horse ∨ kt = .dragon) {occ : Square → Bool} {u : Square} (h : StepAt c .king t u) :
    Attacks c kt occ t u := by
  obtain ⟨d, hd, ha⟩ := h
  rcases List.mem_append.mp hd with e | e
  · rcases hkt with rfl | rfl
    · exact .inl ⟨d, e, ha⟩
    · exact .inr ⟨d, e, reach_of_at_one ha⟩
  · rcases hkt with rfl | rfl
    · exact .inr ⟨d, e, reach_of_at_one ha⟩
    · exact .inl ⟨d, e, ha⟩

theorem covers_adj {kt : Kind} (hkt : kt = .horse ∨ kt = .dragon) : Covers q' c kt t k (kingAttack t) := by
  intro u _ hu
  exact adj_attack hkt ((isSet_king_step c t u).mp hu)
theorem covers_horse (ha : Attacks c .horse q'.occ t k) : Covers q' c .horse t k (bishopAttackToEdge t ||| kingAttack t) :=
  (covers_edge ha (fun e => by cases e) fun u => (isSet_bishopEdge c t u).mp).or (covers_adj (.inl rfl))

theorem covers_dragon {occ : Bitboard} (ho : ∀ u w, Between t w u → occWithout q'.occ k w = true → occ.isSet w = true) :
    Covers q' c .dragon t k (dragonAttack t occ) := by
  intro u _ hu
  exact attacks_mono' (ho u) ((isSet_attacksFrom .dragon c t u occ).mp hu)

end

/-! ### One candidate -/

theorem knight_coord {c : Color} {occ : Square → Bool} {f t : Square} (h : Attacks c .knight occ f t) :
    (X t - X f = 1 ∨ X t - X f = -1) ∧ farRank c t = farRank c f - 2 := by
  unfold farRank
  rcases h with ⟨d, hd, h1, h2⟩ | ⟨d, hd, -⟩
  · simp [Kind.steps] at hd
    rcases hd with rfl | rfl <;> cases c <;> simp [orient] at h1 h2 ⊢ <;> omega
  · cases hd

theorem knight_dead {c : Color} {occ : Square → Bool} {t k : Square} (hd : Dead c .knight t) (h : Attacks c .knight occ t k) : False := by
  have h1 := (knight_coord h).2
  unfold Dead at hd
  simp only at hd
  have hfr : 0 ≤ farRank c k := by unfold farRank Y; cases c <;> simp only <;> omega
  omega

/-- A knight never moves along a line. -/
theorem knight_offline {c : Color} {occ : Square → Bool} {f t k : Square} (h : Attacks c .knight occ f t) : ¬ OnLine f t k := by
  obtain ⟨h1, h2⟩ := knight_coord h
  rintro ⟨d, hd, -, hl⟩
  have hy : Y t - Y f = 2 ∨ Y t - Y f = -2 := by
    unfold farRank at h2; cases c <;> simp only at h2 <;> omega
  obtain ⟨ha, hb, hc⟩ := hd
  obtain ⟨d1, d2⟩ := d
  rcases hl with ⟨n, hn, h3, h4⟩ | ⟨n, hn, h3, h4⟩ <;> simp only [neg] at h3 h4 ha hb <;>
    rcases ha with rfl | rfl | rfl <;> rcases hb with rfl | rfl | rfl <;> omega

/-- A legal move that mates, in the encoding of the code. -/
def Found (p : Position) (m : Move) : Prop :=
  ∃ mv, (absPos p).Legal mv ∧ ((absPos p).play mv).Mated ∧ m = encode p mv

/-- What is known of the position in which a mate is looked for. -/
structure Ready (p : Position) (k : Square) : Prop where
  cons : Consistent p
  reg : (absPos p).Regular
  calm : ¬ (absPos p).InCheck p.turn
  king : p.kingSquare p.turn.opp = some k

section
variable {p : Position} {k : Square} (h : Ready p k)
include h

theorem Ready.kingAt : KingAt (absPos p) p.turn.opp k := h.cons.kingAt h.king

theorem Ready.legal_drop {hp : HKind} {t : Square} (hne : hp ≠ .pawn) (hm : (absPos p).Pseudo (.drop hp t)) :
    (absPos p).Legal (.drop hp t) := by
  refine ⟨⟨hm, ?_⟩, ?_⟩
  · obtain ⟨k', hk'⟩ := kings_of h.cons h.reg p.turn
    have hK := h.cons.kingAt hk'
    rw [drop_inCheck (q := absPos p) hK hm.2.1]
    rintro ⟨s, hs, -⟩
    exact h.calm (hK.inCheck.mpr ⟨s, hs⟩)
  · rintro ⟨t', e, -⟩; cases e; exact hne rfl

theorem Ready.legal_move {f t : Square} {pro : Bool} {kd : Kind} (hf : (absPos p).board f = some (p.turn, kd)) (hkd : kd ≠ .king)
    (hm : (absPos p).Pseudo (.move f t pro))
    (hpin : ∀ k', p.kingSquare p.turn = some k' → ¬ ∃ s, PinLine (absPos p) p.turn.opp k' f s ∧ s ≠ t ∧ ¬ Between s t k') :
    (absPos p).Legal (.move f t pro) := by
  refine ⟨⟨hm, ?_⟩, ?_⟩
  · obtain ⟨k', hk'⟩ := kings_of h.cons h.reg p.turn
    have hK := h.cons.kingAt hk'
    obtain ⟨kd', hf', ha, ht, -⟩ := hm
    rw [show (absPos p).turn = p.turn from rfl] at hf' ha ht
    rw [move_inCheck (q := absPos p) hK hf hkd ht]
    rintro ⟨s, hs | hs, h1, h2⟩
    · exact h.calm (hK.inCheck.mpr ⟨s, hs⟩)
    · exact hpin k' hk' ⟨s, hs, h1, h2⟩
  · rintro ⟨t', e, -⟩; cases e

/-- A drop that passes the tests mates. -/
theorem tryDrop_sound {hp : HKind} {t : Square} {support : Bool} {bb : Bitboard} {m : Move} (hne : hp ≠ .pawn)
    (hin : (p.hand p.turn).has hp.code = true) (ht : (absPos p).board t = none)
    (hat : ∀ occ, Attacks p.turn hp.kind occ t k) (hnb : ∀ u, ¬ Between t u k)
    (hcov : Covers ((absPos p).play (.drop hp t)) p.turn hp.kind t k bb)
    (hsup : support = false → ¬ StepAt p.turn.opp .king k t)
    (htry : p.tryDrop k hp.kind.code support bb t = some m) : Found p m := by
  unfold tryDrop at htry
  split at htry
  · rename_i hc
    simp only [Bool.and_eq_true, Bool.or_eq_true, Bool.not_eq_true'] at hc
    obtain ⟨⟨h1, h2⟩, h3⟩ := hc
    cases htry
    have hdead : ¬ Dead p.turn hp.kind t := by
      intro hd
      have := hat (fun _ => false)
      have hfr : 0 ≤ farRank p.turn k := by unfold farRank Y; cases p.turn <;> simp only <;> omega
      cases hp <;> first | exact hd.elim | exact absurd rfl hne | skip
      · have := forward p.turn (.inr (.inl rfl)) this
        simp only [Dead, HKind.kind] at hd; omega
      · exact knight_dead hd this
    have hps : (absPos p).Pseudo (.drop hp t) := by
      refine ⟨(has_iff h.cons p.turn hp).mp hin, ht, hdead, fun e => absurd e hne⟩
    refine ⟨.drop hp t, h.legal_drop hne hps, ?_, rfl⟩
    refine contact_mate h.cons (After.of_drop hp ht) h.king (hat _) hnb h2 hcov (fun hst => ?_) (.inr h3)
    rcases h1 with h1 | h1
    · exact absurd hst (hsup h1)
    · exact h1
  · cases htry

theorem leavesLineN_false {knight : Bool} {f t k' : Square} {kd : Kind} (hf : (absPos p).board f = some (p.turn, kd))
    (ha : Attacks p.turn kd (absPos p).occ f t) (ht : ∀ kd', (absPos p).board t ≠ some (p.turn, kd'))
    (hk' : p.kingSquare p.turn = some k') (hl : leavesLineN knight f t (p.kingSquare p.turn) p.pinnedBB = false) :
    ¬ ∃ s, PinLine (absPos p) p.turn.opp k' f s ∧ s ≠ t ∧ ¬ Between s t k' := by
  have hK := h.cons.kingAt hk'
  have htk : t ≠ k' := by rintro rfl; exact ht _ hK.at
  have hbb : p.pinnedBB.isSet f = true ↔ ∃ s, PinLine (absPos p) p.turn.opp k' f s ∧ ∃ kd, (absPos p).board f = some (p.turn, kd) := by
    rw [isSet_pinnedBB h.cons, hk']; simp
  unfold leavesLineN at hl
  split at hl
  · rintro ⟨s, hs, -⟩
    rw [hbb.mpr ⟨s, hs, kd, hf⟩] at hl; cases hl
  · rw [← leavesLine_iff (a := p.turn.opp) (b := p.turn) hbb ⟨kd, hf⟩ hK.occ (fun u hu => Attacks.path ha u hu) htk
      (attacks_ne ha).symm, ← hk', hl]
    simp

theorem leavesLineN_true {knight : Bool} {f t : Square} {kd : Kind} (hkn : knight = true → kd = .knight)
    (hf : (absPos p).board f = some (p.turn, kd))
    (ha : Attacks p.turn kd (absPos p).occ f t) (htk : t ≠ k)
    (hl : leavesLineN knight f t (some k) (p.discoveredCheckBB true) = true) :
    ∃ s, PinLine (absPos p) p.turn k f s ∧ s ≠ t ∧ ¬ Between s t k := by
  have hK := h.kingAt
  have hbb : (p.discoveredCheckBB true).isSet f = true ↔ ∃ s, PinLine (absPos p) p.turn k f s ∧ ∃ kd, (absPos p).board f = some (p.turn, kd) := by
    rw [isSet_discoveredCheckBB h.cons, h.king]; simp
  unfold leavesLineN at hl
  split at hl
  · rename_i hkt
    obtain ⟨s, hs, -⟩ := hbb.mp hl
    refine ⟨s, hs, hs.leaves (attacks_ne ha).symm ?_⟩
    rw [hkn hkt] at ha
    exact knight_offline ha
  · exact (leavesLine_iff (a := p.turn) (b := p.turn) hbb ⟨kd, hf⟩ hK.occ (fun u hu => Attacks.path ha u hu) htk
      (attacks_ne ha).symm).mp hl

/-- A move that passes the tests mates. -/
theorem tryMove_sound {f t : Square} {kd : Kind} {pro support knight : Bool} {bb : Bitboard} {m : Move}
    (hf : (absPos p).board f = some (p.turn, kd)) (hkd : kd ≠ .king) (ha : Attacks p.turn kd (absPos p).occ f t)
    (ht : ∀ kd', (absPos p).board t ≠ some (p.turn, kd')) (hpro : ProOK p.turn kd f t pro)
    (hkn : knight = true → kd = .knight)
    (hat : ∀ occ, Attacks p.turn (Pos.arriving kd pro) occ t k) (hnb : ∀ u, ¬ Between t u k)
    (hcov : Covers ((absPos p).play (.move f t pro)) p.turn (Pos.arriving kd pro) t k bb)
    (hsup : support = false → ¬ StepAt p.turn.opp .king k t)
    (htry : p.tryMove k kd.code f t pro (goldLike kd) support knight bb = some m) : Found p m := by
  have htk : t ≠ k := attacks_ne (hat (fun _ => false))
  unfold tryMove at htry
  simp only at htry
  split at htry
  · rename_i hc
    simp only [Bool.and_eq_true, Bool.or_eq_true, Bool.not_eq_true'] at hc
    obtain ⟨⟨⟨h1, h2⟩, h3⟩, h4⟩ := hc
    have hps : (absPos p).Pseudo (.move f t pro) := ⟨kd, hf, ha, ht, hpro.1, hpro.2⟩
    have hpt : pieceType (p.piece f) = kd.code := pieceType_at h.cons hf
    refine ⟨.move f t pro, h.legal_move hf hkd hps (fun k' hk' => leavesLineN_false h hf ha ht hk' h4), ?_, ?_⟩
    · have hcons := liftFull_consistent h.cons hf hkd
      refine contact_mate (p₁ := liftFull p kd.code f (goldLike kd)) hcons (after_lift pro hf ht _ _) h.king (hat _) hnb h2 hcov
        (fun hst => ?_) ?_
      · rcases h1 with h1 | h1
        · exact absurd hst (hsup h1)
        · exact h1
      · rcases h3 with h3 | h3
        · left
          obtain ⟨s, hs, hne, hb⟩ := leavesLineN_true h hkn hf ha htk h3
          refine ⟨s, ?_, hne, hb⟩
          have := (move_gives (q := absPos p) (pro := pro) h.kingAt h.reg.waiting hf ha ht s).mpr (.inr ⟨hs, hb⟩)
          unfold Checker
          rw [play_turn, opp_opp]
          exact this
        · exact .inr h3
    · rw [← Option.some.inj htry]
      cases pro
      · exact genMove_eq hpt
      · exact genPro_eq hpt
  · cases htry

end

end Verif
