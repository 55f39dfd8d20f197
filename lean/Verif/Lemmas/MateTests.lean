import Verif.Lemmas.MateNear

/-!
The converse of `contact_mate`: after a mating move next to the king the tests of `mateMoveIn1Ply` succeed.
-/

namespace Verif
open Spec Bitboard Position

/-- A piece that attacks a square it may go to can go there with or without promoting. -/
theorem some_promotion (c : Color) (kd : Kind) (f t : Square) : ∃ pro, ProOK c kd f t pro := by
  by_cases hd : Dead c kd t
  · refine ⟨true, proOK_true ?_ (.inr ?_)⟩
    · cases kd <;> first | rfl | exact hd.elim
    · unfold zone
      cases kd <;> first | exact hd.elim | (simp only [Dead] at hd; omega)
  · exact ⟨false, proOK_false hd⟩

/-- What a mated king cannot do. -/
theorem mated_king {q : Pos} {k : Square} (hK : KingAt q q.turn k) (hm : q.Mated) {u : Square} (hst : StepAt q.turn .king k u)
    (hu : ∀ kd, q.board u ≠ some (q.turn, kd)) :
    ∃ s kd, q.board s = some (q.turn.opp, kd) ∧ Attacks q.turn.opp kd (occWithout q.occ k) s u := by
  have hps : q.Pseudo (.move k u false) := ⟨.king, hK.at, .inl hst, hu, (fun e => by cases e), fun _ => id⟩
  rw [← king_inCheck (pro := false) hK (king_step_ne hst)]
  by_contra hc
  exact hm.2 _ ⟨hps, hc⟩

/-- What its other pieces cannot do. -/
theorem mated_piece {q : Pos} {k : Square} (hK : KingAt q q.turn k) (hm : q.Mated) {f v : Square} {kd : Kind}
    (hf : q.board f = some (q.turn, kd)) (hkd : kd ≠ .king) (ha : Attacks q.turn kd q.occ f v) (hv : ∀ kd, q.board v ≠ some (q.turn, kd)) :
    ∃ s, (Checker q k s ∨ PinLine q q.turn.opp k f s) ∧ s ≠ v ∧ ¬ Between s v k := by
  obtain ⟨pro, hpro⟩ := some_promotion q.turn kd f v
  rw [← move_inCheck (pro := pro) hK hf hkd hv]
  by_contra hc
  exact hm.2 (.move f v pro) ⟨⟨kd, hf, ha, hv, hpro.1, hpro.2⟩, hc⟩

/-- The arriving piece attacks no more squares next to the king than `bb` has. -/
def Within (q' : Pos) (c : Color) (kt : Kind) (t k : Square) (bb : Bitboard) : Prop :=
  ∀ u, StepAt c.opp .king k u → Attacks c kt (occWithout q'.occ k) t u → bb.isSet u = true

section
variable {p₁ : Position} (h₁ : Consistent p₁) {q' : Pos} {k t : Square} {kt : Kind}
  (ha : After (absPos p₁) q' none t kt) (hk : p₁.kingSquare p₁.turn.opp = some k) (htk : t ≠ k) (hm : q'.Mated)
include h₁ ha hk htk hm

theorem escape_test {bb : Bitboard} (hbb : Within q' p₁.turn kt t k bb) : p₁.canKingEscape p₁.turn k t bb = false := by
  have hK' := ha.king (h₁.kingAt hk) htk
  have ht' : q'.turn = p₁.turn.opp := ha.turn
  have hopp : q'.turn.opp = p₁.turn := by rw [ht', opp_opp]
  unfold canKingEscape
  rw [List.any_eq_false]
  intro u hu
  have hw : ((bb.notAnd ((p₁.byColor p₁.turn.opp).notAnd (kingAttack k))).clearBit t).WF :=
    (((wf_kingAttack k).notAnd).notAnd).clearBit t
  rw [hw.mem_toList, isSet_clearBit, isSet_notAnd, isSet_notAnd] at hu
  simp only [Bool.and_eq_true, Bool.not_eq_true', decide_eq_false_iff_not] at hu
  obtain ⟨hut, hbu, hown, hka⟩ : u ≠ t ∧ bb.isSet u = false ∧ (p₁.byColor p₁.turn.opp).isSet u = false ∧ (kingAttack k).isSet u = true := by
    tauto
  have hst : StepAt p₁.turn.opp .king k u := (isSet_king_step _ k u).mp hka
  have hown' : ∀ kd, (absPos p₁).board u ≠ some (p₁.turn.opp, kd) := fun kd e => by
    rw [(h₁.color _ _).mpr ⟨kd, e⟩] at hown; cases hown
  obtain ⟨s, kd, hs, hatt⟩ := mated_king hK' hm (u := u) (by rw [ht']; exact hst)
    (fun kd e => hown' kd ((ha.them u kd).mp (by rw [← ha.turn]; exact e)).2)
  rw [hopp] at hs hatt
  rw [Bool.not_eq_true, Bool.not_eq_false', attackersIsAny_iff h₁]
  rcases (ha.own s kd).mp hs with ⟨rfl, rfl⟩ | ⟨-, hs⟩
  · rw [hbb u hst hatt] at hbu; cases hbu
  · refine ⟨s, kd, hs, attacks_mono' (fun w hw ho => ?_) hatt⟩
    rw [isSet_clearBit, isSet_setBit] at ho
    unfold occWithout
    split
    · rename_i e; subst e; simp at ho
    · rename_i e
      refine (ha.occ w).mpr ?_
      by_cases hwt : w = t
      · exact .inl hwt
      · right
        refine ⟨by simp, ?_⟩
        rw [← h₁.occ]
        simpa [hwt, e] using ho

theorem support_test (hx : ∀ s, Checker q' k s → ¬ Between s k t) (hst : StepAt p₁.turn.opp .king k t) :
    p₁.attackersToIsAny p₁.turn t p₁.occupied = true := by
  have hK' := ha.king (h₁.kingAt hk) htk
  have ht' : q'.turn = p₁.turn.opp := ha.turn
  have hopp : q'.turn.opp = p₁.turn := by rw [ht', opp_opp]
  obtain ⟨s, kd, hs, hatt⟩ := mated_king hK' hm (u := t) (by rw [ht']; exact hst)
    (fun kd e => ((ha.them t kd).mp (by rw [← ha.turn]; exact e)).1 rfl)
  rcases attacks_without.mp hatt with hatt | ⟨h1, -, h2, -⟩
  · rw [hopp] at hs hatt
    rw [attackersIsAny_iff h₁]
    rcases (ha.own s kd).mp hs with ⟨rfl, rfl⟩ | ⟨-, hs⟩
    · exact absurd rfl (attacks_ne hatt)
    · refine ⟨s, kd, hs, attacks_mono' (fun w hw ho => ?_) hatt⟩
      rw [h₁.occ] at ho
      exact (ha.occ w).mpr (.inr ⟨by simp, ho⟩)
  · exact absurd h2 (hx s ⟨kd, hs, h1⟩)

theorem capture_test (hone : ∀ s, Checker q' k s → s = t) : p₁.canPieceCaptureDc p₁.turn.opp k t (p₁.discoveredCheckBB false) = false := by
  have hK' := ha.king (h₁.kingAt hk) htk
  have ht' : q'.turn = p₁.turn.opp := ha.turn
  have hopp : q'.turn.opp = p₁.turn := by rw [ht', opp_opp]
  unfold canPieceCaptureDc
  rw [List.any_eq_false]
  intro f hf
  rw [(wf_attackersToExceptKing h₁ _ _).mem_toList, isSet_attackersToExceptKing h₁] at hf
  obtain ⟨kd, hkd, hb, hatt⟩ := hf
  rw [Bool.not_eq_true, Bool.not_eq_false']
  rw [leavesLine_iff (a := p₁.turn) (b := p₁.turn.opp) (by rw [isSet_discoveredCheckBB h₁, hk]; simp) ⟨kd, hb⟩ (h₁.kingAt hk).occ
    (fun u hu => Attacks.path hatt u hu) htk (attacks_ne hatt).symm]
  have hft : f ≠ t := attacks_ne hatt
  obtain ⟨s, hs, hne, hnb⟩ := mated_piece hK' hm (f := f) (v := t) (kd := kd)
    (by rw [ht']; exact (ha.them f kd).mpr ⟨hft, hb⟩) hkd
    (by rw [ht']; exact attacks_mono' (fun w hw ho => by
      rcases (ha.occ w).mp ho with e | e
      · exact absurd e (between_ne_right hw)
      · exact e.2) hatt)
    (fun kd' e => ((ha.them t kd').mp (by rw [← ha.turn]; exact e)).1 rfl)
  rcases hs with hs | hs
  · exact absurd (hone s hs) hne
  · refine ⟨s, ?_, hne, hnb⟩
    rw [hopp] at hs
    obtain ⟨⟨kd', g1, g2⟩, g3, g4, g5⟩ := hs
    rcases (ha.own s kd').mp g1 with ⟨rfl, -⟩ | ⟨-, g1⟩
    · exact absurd rfl hne
    · refine ⟨⟨kd', g1, g2⟩, g3, ?_, fun u hu ho => g5 u hu ((ha.occ u).mpr (.inr ⟨by simp, ho⟩))⟩
      unfold Pos.occ; rw [hb]; rfl

end

theorem between_irrefl {s u : Square} (h : Between s u s) : False := by
  obtain ⟨d, ⟨ha, hb, hc⟩, h1, h2⟩ := between_iff.mp h
  obtain ⟨n, hn, h3, h4⟩ := line_trans h1 h2
  rcases ha with e | e | e <;> rcases hb with e' | e' | e' <;> rw [e] at h3 <;> rw [e'] at h4 <;> first | omega | exact hc ⟨e, e'⟩

/-- Two squares of a line from `s`: what lies between the first and a square beyond the second. -/
theorem between_rest {s f k t : Square} (h1 : Between s f k) (h2 : Between s k t) : Between f k t := by
  rcases between_cases (between_trans_left h2 h1) h2 with e | e | e
  · subst e; exact absurd rfl (between_ne_right h1)
  · have := between_trans_left h1 e
    exact absurd rfl (between_ne_right this)
  · exact e

section
variable {p : Position} {k : Square} (h : Ready p k)
include h

/-- After a drop only the dropped piece gives check. -/
theorem drop_checker {hp : HKind} {t s : Square} (ht : (absPos p).board t = none) (hc : Checker ((absPos p).play (.drop hp t)) k s) :
    s = t := by
  have hc' : ((absPos p).play (.drop hp t)).AttacksSq p.turn s k := by
    unfold Checker at hc; rw [play_turn, opp_opp] at hc; exact hc
  exact ((drop_gives (q := absPos p) h.kingAt h.reg.waiting ht s).mp hc').1

/-- The tests of a drop succeed if a drop on the same square mates. -/
theorem tryDrop_complete {hp hp' : HKind} {t : Square} {support : Bool} {bb : Bitboard} (ht : (absPos p).board t = none) (htk : t ≠ k)
    (hm : ((absPos p).play (.drop hp t)).Mated) (hbb : Within ((absPos p).play (.drop hp t)) p.turn hp.kind t k bb)
    (hsup : support = true → StepAt p.turn.opp .king k t) : ∃ m, p.tryDrop k hp'.kind.code support bb t = some m := by
  have ha := After.of_drop (q := absPos p) hp ht
  have h1 := escape_test h.cons ha h.king htk hm hbb
  have h2 := capture_test h.cons ha h.king htk hm (fun s hs => drop_checker h ht hs)
  have h3 : (!support || p.attackersToIsAny p.turn t p.occupied) = true := by
    cases support
    · rfl
    · rw [support_test h.cons ha h.king htk hm (fun s hs e => by rw [drop_checker h ht hs] at e; exact between_irrefl e) (hsup rfl)]; rfl
  refine ⟨makeDropMove hp'.kind.code t.val, if_pos ?_⟩
  rw [h1, h2, h3]; rfl

/-- After a move the other checkers stand behind the piece that moved. -/
theorem move_checker {f t s : Square} {kd : Kind} {pro : Bool} (hf : (absPos p).board f = some (p.turn, kd))
    (ha : Attacks p.turn kd (absPos p).occ f t) (ht : ∀ kd', (absPos p).board t ≠ some (p.turn, kd'))
    (hc : Checker ((absPos p).play (.move f t pro)) k s) (hne : s ≠ t) : PinLine (absPos p) p.turn k f s ∧ ¬ Between s t k := by
  have hc' : ((absPos p).play (.move f t pro)).AttacksSq p.turn s k := by
    unfold Checker at hc; rw [play_turn, opp_opp] at hc; exact hc
  rcases (move_gives (q := absPos p) h.kingAt h.reg.waiting hf ha ht s).mp hc' with e | e
  · exact absurd e.1 hne
  · exact e

theorem leavesLineN_pinned {knight : Bool} {f t : Square} {kd : Kind} {pro : Bool} (hkn : knight = true → kd = .knight)
    (hf : (absPos p).board f = some (p.turn, kd)) (hkd : kd ≠ .king) (hs : (absPos p).Safe (.move f t pro)) :
    leavesLineN knight f t (p.kingSquare p.turn) p.pinnedBB = false := by
  obtain ⟨k', hk'⟩ := kings_of h.cons h.reg p.turn
  have hK := h.cons.kingAt hk'
  obtain ⟨⟨kd', hf', ha, ht, -⟩, hsafe⟩ := hs
  rw [show (absPos p).turn = p.turn from rfl] at hf' ha ht
  rw [hf] at hf'; cases hf'
  rw [move_inCheck (q := absPos p) hK hf hkd ht] at hsafe
  have htk : t ≠ k' := by rintro rfl; exact ht _ hK.at
  have hbb : p.pinnedBB.isSet f = true ↔ ∃ s, PinLine (absPos p) p.turn.opp k' f s ∧ ∃ kd, (absPos p).board f = some (p.turn, kd) := by
    rw [isSet_pinnedBB h.cons, hk']; simp
  rw [Bool.eq_false_iff]
  intro hl
  apply hsafe
  unfold leavesLineN at hl
  split at hl
  · rename_i hkt
    obtain ⟨s, hs, -⟩ := hbb.mp hl
    rw [hkn hkt] at ha
    exact ⟨s, .inr hs, hs.leaves (attacks_ne ha).symm (knight_offline ha)⟩
  · rw [hk', leavesLine_iff (a := p.turn.opp) (b := p.turn) hbb ⟨kd, hf⟩ hK.occ (fun u hu => Attacks.path ha u hu) htk
      (attacks_ne ha).symm] at hl
    obtain ⟨s, h1, h2⟩ := hl
    exact ⟨s, .inr h1, h2⟩

/-- The tests of a move succeed if a move between the same squares mates. -/
theorem tryMove_complete {f t : Square} {kd : Kind} {pro pro' support knight : Bool} {bb : Bitboard} (hkn : knight = true → kd = .knight)
    (hf : (absPos p).board f = some (p.turn, kd)) (hkd : kd ≠ .king) (hs : (absPos p).Safe (.move f t pro)) (htk : t ≠ k)
    (hm : ((absPos p).play (.move f t pro)).Mated)
    (hbb : Within ((absPos p).play (.move f t pro)) p.turn (Pos.arriving kd pro) t k bb)
    (hsup : support = true → StepAt p.turn.opp .king k t) :
    ∃ m, p.tryMove k kd.code f t pro' (goldLike kd) support knight bb = some m := by
  have h4 := leavesLineN_pinned h hkn hf hkd hs
  obtain ⟨⟨kd', hf', ha, ht, -⟩, -⟩ := hs
  rw [show (absPos p).turn = p.turn from rfl] at hf' ha ht
  rw [hf] at hf'; cases hf'
  have hcons := liftFull_consistent h.cons hf hkd
  have haf := after_lift pro hf ht kd.code (goldLike kd)
  have hk1 : (liftFull p kd.code f (goldLike kd)).kingSquare (liftFull p kd.code f (goldLike kd)).turn.opp = some k := h.king
  have h1 := escape_test hcons haf hk1 htk hm hbb
  have h3 : (!support || (liftFull p kd.code f (goldLike kd)).attackersToIsAny p.turn t (liftFull p kd.code f (goldLike kd)).occupied) = true := by
    cases support
    · rfl
    · have := support_test hcons haf hk1 htk hm (fun s hs e => ?_) (hsup rfl)
      · rw [show (liftFull p kd.code f (goldLike kd)).turn = p.turn from rfl] at this
        rw [this]; rfl
      · by_cases hst : s = t
        · rw [hst] at e; exact between_irrefl e
        · have := Attacks.path ha k (between_rest (move_checker h hf ha ht hs hst).1.btw e)
          rw [h.kingAt.occ] at this; cases this
  have h2 : (leavesLineN knight f t (some k) (p.discoveredCheckBB true) || !(liftFull p kd.code f (goldLike kd)).canPieceCaptureDc p.turn.opp k t
      ((liftFull p kd.code f (goldLike kd)).discoveredCheckBB false)) = true := by
    by_cases hone : ∀ s, Checker ((absPos p).play (.move f t pro)) k s → s = t
    · have := capture_test hcons haf hk1 htk hm hone
      rw [show (liftFull p kd.code f (goldLike kd)).turn = p.turn from rfl] at this
      rw [this]; simp
    · simp only [not_forall] at hone
      obtain ⟨s, hs, hst⟩ := hone
      obtain ⟨hp, hb⟩ := move_checker h hf ha ht hs hst
      have hbb' : (p.discoveredCheckBB true).isSet f = true ↔
          ∃ s, PinLine (absPos p) p.turn k f s ∧ ∃ kd, (absPos p).board f = some (p.turn, kd) := by
        rw [isSet_discoveredCheckBB h.cons, h.king]; simp
      have : leavesLineN knight f t (some k) (p.discoveredCheckBB true) = true := by
        unfold leavesLineN
        split
        · exact hbb'.mpr ⟨s, hp, kd, hf⟩
        · exact (leavesLine_iff (a := p.turn) (b := p.turn) hbb' ⟨kd, hf⟩ h.kingAt.occ (fun u hu => Attacks.path ha u hu) htk
            (attacks_ne ha).symm).mpr ⟨s, hp, hst, hb⟩
      rw [this]; rfl
  refine ⟨if pro' then genPro p kd.code f t else genMove p kd.code f t, if_pos ?_⟩
  rw [Bool.and_eq_true, Bool.and_eq_true, Bool.and_eq_true]
  exact ⟨⟨⟨h3, by rw [Bool.not_eq_true']; exact h1⟩, h2⟩, by rw [h4]; rfl⟩

end

end Verif
