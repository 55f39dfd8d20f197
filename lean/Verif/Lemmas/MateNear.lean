import Verif.Lemmas.MateContact

/-!
The groups of `mateMoveIn1Ply` that put a piece next to the king: drops, then moves.
-/

namespace Verif
open Spec Bitboard Position

theorem mem_found {α : Type} {l : List α} {f : α → Option Move} {m : Move} (h : l.findSome? f = some m) : ∃ a ∈ l, f a = some m :=
  List.exists_of_findSome?_eq_some h

theorem if_found {b : Bool} {x : Option Move} {m : Move} (h : (if b = true then x else none) = some m) : b = true ∧ x = some m := by
  cases b
  · cases h
  · exact ⟨rfl, h⟩

theorem orElse_found {a b : Option Move} {m : Move} (h : (a <|> b) = some m) : a = some m ∨ b = some m := by
  cases a with
  | none => exact .inr h
  | some x => exact .inl h

/-! ### Attacks that nothing can block -/

/-- An attack with every square occupied is an attack over nothing. -/
theorem full_attack {c : Color} {kt : Kind} {t k : Square} (h : Attacks c kt (fun _ => true) t k) :
    (∀ occ, Attacks c kt occ t k) ∧ ∀ u, ¬ Between t u k :=
  ⟨fun _ => attacks_mono (fun _ _ => rfl) h, fun u hu => by have := Attacks.path h u hu; cases this⟩

theorem adj_line {c : Color} {kt : Kind} {t k : Square} (hs : ∃ d ∈ kt.slides, At t (orient c d) 1 k) : Attacks c kt (fun _ => true) t k := by
  obtain ⟨d, hd, h⟩ := hs
  exact .inr ⟨d, hd, reach_of_at_one h⟩

theorem full_rook (c : Color) {t k : Square} (h : (rookStepAttacks k).isSet t = true) : Attacks c .rook (fun _ => true) t k := by
  have := (back_rook c k t allOne).mp (rook_of_step ((isSet_rookStep k t).mp h))
  exact attacks_mono (fun _ _ => isSet_allOne _) this

theorem full_bishop (c : Color) {t k : Square} (h : (bishopStepAttacks k).isSet t = true) : Attacks c .bishop (fun _ => true) t k := by
  have := (back_bishop c k t allOne).mp (bishop_of_step ((isSet_bishopStep k t).mp h))
  exact attacks_mono (fun _ _ => isSet_allOne _) this

theorem full_lance (c : Color) {occ : Square → Bool} {t k : Square} (h : Attacks c .pawn occ t k) : Attacks c .lance (fun _ => true) t k := by
  obtain ⟨d, hd, ha⟩ := pawn_step h
  exact adj_line ⟨d, hd, ha⟩

theorem full_adj (c : Color) {kt : Kind} (hkt : kt = .horse ∨ kt = .dragon) {t k : Square} (h : (kingAttack k).isSet t = true) :
    Attacks c kt (fun _ => true) t k :=
  adj_attack hkt (king_step ((back_king c k t (fun _ => true)).mp h))

theorem isInFrontOf_iff (c : Color) (n : Nat) (hn : n ≤ 8) (s : Square) : isInFrontOf c n (8 - n) (rank s) = true ↔ farRank c s < n := by
  have := rank_eq_Y s
  have : rank s < 9 := by unfold rank; omega
  unfold isInFrontOf farRank
  cases c <;> simp only [decide_eq_true_eq] <;> omega

theorem back_attack (c : Color) (occ : Square → Bool) {s : Square} (h : farRank c s < 8) : Attacks c .pawn occ (backSq c s) s := by
  rw [pawn_attack_iff]
  exact (backSq_iff c _ s h).mp rfl

theorem isSet_tRank123 (c : Color) (t : Square) : (tRank123 c).isSet t = true ↔ zone c t := isSet_zone123 c t

theorem empty_iff {p : Position} (h : Consistent p) (t : Square) : (~~~p.occupied).isSet t = true ↔ (absPos p).board t = none := by
  rw [isSet_not, h.occ]
  unfold Pos.occ
  cases (absPos p).board t <;> simp

theorem piece_zero_iff {p : Position} (h : Consistent p) (t : Square) : p.piece t = 0 ↔ (absPos p).board t = none := by
  rw [h.code, pieceCode_eq_zero]

/-! ### Drops -/

section
variable {p : Position} {k : Square} (h : Ready p k)
include h

theorem mateRookDrop_sound {m : Move} (hm : p.mateRookDrop k = some m) : Found p m := by
  unfold mateRookDrop at hm
  simp only at hm
  split at hm
  · rename_i hin
    obtain ⟨t, ht, htry⟩ := mem_found hm
    have hw : (~~~p.occupied &&& rookStepAttacks k).WF := WF.and_right (WF.and_left (wf_goldAttack .black k))
    rw [hw.mem_toList, isSet_and, Bool.and_eq_true, empty_iff h.cons] at ht
    have hat := full_attack (full_rook p.turn ht.2)
    exact tryDrop_sound (hp := .rook) h (by decide) hin ht.1 hat.1 hat.2 (covers_rook (hat.1 _)) (fun e => by cases e) htry
  · split at hm
    · rename_i hc
      rw [Bool.and_eq_true, isInFrontOf_iff _ 8 (by decide)] at hc
      split at hm
      · rename_i h0
        have hpawn := back_attack p.turn (fun _ => true) hc.2
        have hat := full_attack (full_lance p.turn hpawn)
        exact tryDrop_sound (hp := .lance) h (by decide) hc.1 ((piece_zero_iff h.cons _).mp (by simpa using h0)) hat.1 hat.2
          (covers_lance (hat.1 _)) (fun e => by cases e) hm
      · cases hm
    · cases hm

theorem mateBishopDrop_sound {m : Move} (hm : p.mateBishopDrop k = some m) : Found p m := by
  unfold mateBishopDrop at hm
  split at hm
  · rename_i hin
    obtain ⟨t, ht, htry⟩ := mem_found hm
    have hw : (~~~p.occupied &&& bishopStepAttacks k).WF := WF.and_right (WF.and_left (wf_silverAttack .black k))
    rw [hw.mem_toList, isSet_and, Bool.and_eq_true, empty_iff h.cons] at ht
    have hat := full_attack (full_bishop p.turn ht.2)
    exact tryDrop_sound (hp := .bishop) h (by decide) hin ht.1 hat.1 hat.2 (covers_bishop (hat.1 _)) (fun e => by cases e) htry
  · cases hm

omit h in
theorem pawn_gold (c : Color) (s t : Square) (hp : (pawnAttack c s).isSet t = true) : (goldAttack c.opp s).isSet t = true := by
  rw [isSet_pawnAttack, step_iff] at hp
  rw [isSet_goldAttack, step_iff]
  cases c <;> simp [Kind.steps, Kind.goldSteps, Color.opp] at hp ⊢ <;> omega

theorem mateGoldDrop_sound {m : Move} (hm : p.mateGoldDrop k = some m) : Found p m := by
  unfold mateGoldDrop at hm
  simp only at hm
  split at hm
  · rename_i hin
    obtain ⟨t, ht, htry⟩ := mem_found hm
    have hsub : ∀ t, (if (p.hand p.turn).has 6 = true then goldAttack p.turn.opp k ^^^ pawnAttack p.turn k else goldAttack p.turn.opp k).isSet t = true →
        (goldAttack p.turn.opp k).isSet t = true := by
      intro t ht
      split at ht
      · by_contra hne
        rw [isSet_xor, Bool.eq_false_iff.mpr hne] at ht
        exact hne (pawn_gold _ _ _ (by simpa using ht))
      · exact ht
    have hw' : (if (p.hand p.turn).has 6 = true then goldAttack p.turn.opp k ^^^ pawnAttack p.turn k else goldAttack p.turn.opp k).WF := by
      split
      · exact (wf_goldAttack _ _).xor (wf_pawnAttack _ _)
      · exact wf_goldAttack _ _
    have hw : (~~~p.occupied &&& (if (p.hand p.turn).has 6 = true then goldAttack p.turn.opp k ^^^ pawnAttack p.turn k else goldAttack p.turn.opp k)).WF :=
      hw'.and_right
    rw [hw.mem_toList, isSet_and, Bool.and_eq_true, empty_iff h.cons] at ht
    have hat := full_attack ((back_gold p.turn .gold rfl k t (fun _ => true)).mp (hsub t ht.2))
    exact tryDrop_sound (hp := .gold) h (by decide) hin ht.1 hat.1 hat.2 (covers_gold rfl) (fun e => by cases e) htry
  · cases hm

omit h in
theorem goldAndSilver_silver (c : Color) (s t : Square) (hp : (goldAndSilverAttacks c s).isSet t = true) :
    (silverAttack c s).isSet t = true := by
  rw [isSet_goldAndSilver, step_iff] at hp
  rw [isSet_silverAttack, step_iff]
  cases c <;> simp [Kind.steps] at hp ⊢ <;> omega

theorem mateSilverDrop_sound {m : Move} (hm : p.mateSilverDrop k = some m) : Found p m := by
  unfold mateSilverDrop at hm
  simp only at hm
  split at hm
  · rename_i hin
    split at hm
    · cases hm
    · obtain ⟨t, ht, htry⟩ := mem_found hm
      have key : (absPos p).board t = none ∧ (silverAttack p.turn.opp k).isSet t = true := by
        have ws := wf_silverAttack p.turn.opp k
        split at ht
        · have hw : (~~~p.occupied &&& (silverAttack p.turn.opp k &&& inFrontMask p.turn (rank k))).WF := ws.and_left.and_right
          rw [hw.mem_toList, isSet_and, Bool.and_eq_true, empty_iff h.cons, isSet_and, Bool.and_eq_true] at ht
          exact ⟨ht.1, ht.2.1⟩
        · split at ht
          · have hw : (~~~p.occupied &&& goldAndSilverAttacks p.turn.opp k).WF := by
              refine WF.and_right ?_
              unfold goldAndSilverAttacks
              exact (wf_goldAttack _ _).and_left
            rw [hw.mem_toList, isSet_and, Bool.and_eq_true, empty_iff h.cons] at ht
            exact ⟨ht.1, goldAndSilver_silver _ _ _ ht.2⟩
          · have hw : (~~~p.occupied &&& silverAttack p.turn.opp k).WF := ws.and_right
            rw [hw.mem_toList, isSet_and, Bool.and_eq_true, empty_iff h.cons] at ht
            exact ht
      have hat := full_attack ((back_silver p.turn k t (fun _ => true)).mp key.2)
      exact tryDrop_sound (hp := .silver) h (by decide) hin key.1 hat.1 hat.2 covers_silver (fun e => by cases e) htry
  · cases hm

omit h in
theorem knight_not_adj {c c' : Color} {occ : Square → Bool} {t k : Square} (ha : Attacks c .knight occ t k) : ¬ StepAt c' .king k t := by
  intro hs
  have h1 := (knight_coord ha).2
  have h2 := king_step_coord hs
  unfold farRank at h1
  cases c <;> simp only at h1 <;> omega

theorem mateKnightDrop_sound {m : Move} (hm : p.mateKnightDrop k = some m) : Found p m := by
  unfold mateKnightDrop at hm
  split at hm
  · rename_i hin
    obtain ⟨t, ht, htry⟩ := mem_found hm
    have hw : (~~~p.occupied &&& knightAttack p.turn.opp k).WF := (wf_knightAttack _ _).and_right
    rw [hw.mem_toList, isSet_and, Bool.and_eq_true, empty_iff h.cons] at ht
    have ha := (back_knight p.turn k t (fun _ => true)).mp ht.2
    have hat := full_attack ha
    exact tryDrop_sound (hp := .knight) h (by decide) hin ht.1 hat.1 hat.2 (covers_zero _) (fun _ => knight_not_adj ha) htry
  · cases hm

/-! ### Moves -/

omit h in
theorem not_own_iff {p : Position} (h : Consistent p) (t : Square) :
    (p.byColor p.turn).isSet t = false ↔ ∀ kd, (absPos p).board t ≠ some (p.turn, kd) := by
  rw [Bool.eq_false_iff, ne_eq, h.color]; simp

omit h in
theorem wf_moveTarget (p : Position) (k : Square) : (p.moveTarget k).WF := (wf_kingAttack k).notAnd

theorem isSet_moveTarget (t : Square) : (p.moveTarget k).isSet t = true ↔
    (∀ kd, (absPos p).board t ≠ some (p.turn, kd)) ∧ (kingAttack k).isSet t = true := by
  unfold moveTarget
  rw [isSet_notAnd, Bool.and_eq_true, Bool.not_eq_true', not_own_iff h.cons]

/-- Squares a piece attacks, as the code asks for them. -/
theorem attack_of {kd : Kind} {f t : Square} (ht : (attacksFrom kd.code p.turn f p.occupied).isSet t = true) :
    Attacks p.turn kd (absPos p).occ f t := by
  rw [isSet_attacksFrom, h.cons.occ_fun] at ht; exact ht

omit h in
theorem proOK_true {c : Color} {kd : Kind} {f t : Square} (hk : kd.promoted.isSome = true) (hz : zone c f ∨ zone c t) : ProOK c kd f t true :=
  ⟨fun _ => ⟨hk, hz⟩, fun e => by cases e⟩
omit h in
theorem proOK_false {c : Color} {kd : Kind} {f t : Square} (hd : ¬ Dead c kd t) : ProOK c kd f t false :=
  ⟨(fun e => by cases e), fun _ => hd⟩

theorem covers_dragonBB {f t : Square} {kd : Kind} {pro : Bool} (hf : (absPos p).board f = some (p.turn, kd)) :
    Covers ((absPos p).play (.move f t pro)) p.turn .dragon t k (p.dragonBB k kd.code f t) := by
  refine covers_dragon fun u w hw ho => ?_
  have hocc : (p.lift kd.code f false).occupied = p.occupied.xorBit f := by
    show upd (upd p.byType PT.Occupied _) kd.code _ PT.Occupied = _
    unfold upd
    rw [if_neg (code_ne_zero kd).symm, if_pos rfl]; rfl
  rw [hocc, isSet_xor, isSet_xorBit, isSet_setMask, h.cons.occ]
  unfold occWithout at ho
  split at ho
  · cases ho
  · rename_i hwk
    rw [play_move_occ (q := absPos p) hf] at ho
    unfold occMove at ho
    rw [if_neg (between_ne_left hw)] at ho
    split at ho
    · cases ho
    · rename_i hwf
      rw [ho]; simp [hwf, hwk]

theorem mateDragon_sound {m : Move} (hm : p.mateDragon k = some m) : Found p m := by
  unfold mateDragon at hm
  obtain ⟨f, hf, hm⟩ := mem_found hm
  obtain ⟨t, ht, htry⟩ := mem_found hm
  have hf := (mem_bbOf h.cons .dragon p.turn f).mp hf
  rw [(wf_moveTarget p k).and_left.mem_toList, isSet_and, Bool.and_eq_true, isSet_moveTarget h] at ht
  have hat := full_attack (full_adj p.turn (.inr rfl) ht.1.2)
  exact tryMove_sound (kd := .dragon) (pro := false) h hf (by decide) (attack_of h (kd := .dragon) ht.2) ht.1.1 (proOK_false id) (fun e => by cases e)
    hat.1 hat.2 (covers_dragonBB h hf) (fun e => by cases e) htry

theorem mateHorse_sound {m : Move} (hm : p.mateHorse k = some m) : Found p m := by
  unfold mateHorse at hm
  obtain ⟨f, hf, hm⟩ := mem_found hm
  obtain ⟨t, ht, htry⟩ := mem_found hm
  have hf := (mem_bbOf h.cons .horse p.turn f).mp hf
  rw [(wf_moveTarget p k).and_left.mem_toList, isSet_and, Bool.and_eq_true, isSet_moveTarget h] at ht
  have hat := full_attack (full_adj p.turn (.inl rfl) ht.1.2)
  exact tryMove_sound (kd := .horse) (pro := false) h hf (by decide) (attack_of h (kd := .horse) ht.2) ht.1.1 (proOK_false id) (fun e => by cases e)
    hat.1 hat.2 (covers_horse (hat.1 _)) (fun e => by cases e) htry

theorem wf_bbOf (pt : Nat) (c : Color) : (p.bbOf pt c).WF := (h.cons.wfType _).and_left

theorem isSet_bbOf (kd : Kind) (c : Color) (f : Square) : (p.bbOf kd.code c).isSet f = true ↔ (absPos p).board f = some (c, kd) := by
  rw [← (wf_bbOf h _ _).mem_toList, mem_bbOf h.cons]

theorem rook_pro {f t : Square} {m : Move} (hf : (absPos p).board f = some (p.turn, .rook)) (ht : (p.moveTarget k).isSet t = true)
    (ha : (rookAttack f p.occupied).isSet t = true) (hz : zone p.turn f ∨ zone p.turn t)
    (htry : p.tryMove k PT.Rook f t true false true false (p.dragonBB k PT.Rook f t) = some m) : Found p m := by
  rw [isSet_moveTarget h] at ht
  have hat := full_attack (full_adj p.turn (.inr rfl) ht.2)
  exact tryMove_sound (kd := .rook) (pro := true) h hf (by decide) (attack_of h (kd := .rook) ha) ht.1 (proOK_true rfl hz) (fun e => by cases e)
    hat.1 hat.2 (covers_dragonBB h hf) (fun e => by cases e) htry

theorem mateRook_sound {m : Move} (hm : p.mateRook k = some m) : Found p m := by
  unfold mateRook at hm
  simp only at hm
  have wb := wf_bbOf h PT.Rook p.turn
  have hb := isSet_bbOf h .rook p.turn
  rcases orElse_found hm with hm | hm
  · obtain ⟨f, hf, hm⟩ := mem_found hm
    obtain ⟨t, ht, htry⟩ := mem_found hm
    rw [wb.and_left.mem_toList, isSet_and, Bool.and_eq_true, isSet_tRank123] at hf
    rw [(wf_moveTarget p k).and_left.mem_toList, isSet_and, Bool.and_eq_true] at ht
    exact rook_pro h ((hb f).mp hf.1) ht.1 ht.2 (.inl hf.2) htry
  · obtain ⟨f, hf, hm⟩ := mem_found hm
    rw [wb.andNot.mem_toList, isSet_andNot, Bool.and_eq_true] at hf
    have hf := (hb f).mp hf.1
    have wt : (p.moveTarget k &&& rookAttack f p.occupied &&& (rookStepAttacks k ||| tRank123 p.turn)).WF :=
      (wf_moveTarget p k).and_left.and_left
    rcases orElse_found hm with hm | hm
    · obtain ⟨t, ht, htry⟩ := mem_found hm
      rw [wt.and_left.mem_toList, isSet_and, isSet_and, isSet_and] at ht
      simp only [Bool.and_eq_true] at ht
      exact rook_pro h hf ht.1.1.1 ht.1.1.2 (.inr ((isSet_tRank123 _ _).mp ht.2)) htry
    · obtain ⟨t, ht, htry⟩ := mem_found hm
      rw [wt.andNot.mem_toList, isSet_andNot, isSet_and, isSet_and, isSet_or] at ht
      simp only [Bool.and_eq_true, Bool.or_eq_true, Bool.not_eq_true'] at ht
      obtain ⟨⟨⟨h1, h2⟩, h3⟩, h4⟩ := ht
      rw [h4] at h3
      have hat := full_attack (full_rook p.turn (h3.resolve_right (by decide)))
      exact tryMove_sound (kd := .rook) (pro := false) h hf (by decide) (attack_of h (kd := .rook) h2) ((isSet_moveTarget h t).mp h1).1 (proOK_false id)
        (fun e => by cases e) hat.1 hat.2 (covers_rook (hat.1 _)) (fun e => by cases e) htry

theorem bishop_pro {f t : Square} {m : Move} (hf : (absPos p).board f = some (p.turn, .bishop)) (ht : (p.moveTarget k).isSet t = true)
    (ha : (bishopAttack f p.occupied).isSet t = true) (hz : zone p.turn f ∨ zone p.turn t)
    (htry : p.tryMove k PT.Bishop f t true false true false (bishopAttackToEdge t ||| kingAttack t) = some m) : Found p m := by
  rw [isSet_moveTarget h] at ht
  have hat := full_attack (full_adj p.turn (.inl rfl) ht.2)
  exact tryMove_sound (kd := .bishop) (pro := true) h hf (by decide) (attack_of h (kd := .bishop) ha) ht.1 (proOK_true rfl hz) (fun e => by cases e)
    hat.1 hat.2 (covers_horse (hat.1 _)) (fun e => by cases e) htry

theorem mateBishop_sound {m : Move} (hm : p.mateBishop k = some m) : Found p m := by
  unfold mateBishop at hm
  simp only at hm
  have wb := wf_bbOf h PT.Bishop p.turn
  have hb := isSet_bbOf h .bishop p.turn
  rcases orElse_found hm with hm | hm
  · obtain ⟨f, hf, hm⟩ := mem_found hm
    obtain ⟨t, ht, htry⟩ := mem_found hm
    rw [wb.and_left.mem_toList, isSet_and, Bool.and_eq_true, isSet_tRank123] at hf
    rw [(wf_moveTarget p k).and_left.mem_toList, isSet_and, Bool.and_eq_true] at ht
    exact bishop_pro h ((hb f).mp hf.1) ht.1 ht.2 (.inl hf.2) htry
  · obtain ⟨f, hf, hm⟩ := mem_found hm
    rw [wb.andNot.mem_toList, isSet_andNot, Bool.and_eq_true] at hf
    have hf := (hb f).mp hf.1
    have wt : (p.moveTarget k &&& bishopAttack f p.occupied &&& (bishopStepAttacks k ||| tRank123 p.turn)).WF :=
      (wf_moveTarget p k).and_left.and_left
    rcases orElse_found hm with hm | hm
    · obtain ⟨t, ht, htry⟩ := mem_found hm
      rw [wt.and_left.mem_toList, isSet_and, isSet_and, isSet_and] at ht
      simp only [Bool.and_eq_true] at ht
      exact bishop_pro h hf ht.1.1.1 ht.1.1.2 (.inr ((isSet_tRank123 _ _).mp ht.2)) htry
    · obtain ⟨t, ht, htry⟩ := mem_found hm
      rw [wt.andNot.mem_toList, isSet_andNot, isSet_and, isSet_and, isSet_or] at ht
      simp only [Bool.and_eq_true, Bool.or_eq_true, Bool.not_eq_true'] at ht
      obtain ⟨⟨⟨h1, h2⟩, h3⟩, h4⟩ := ht
      rw [h4] at h3
      have hat := full_attack (full_bishop p.turn (h3.resolve_right (by decide)))
      exact tryMove_sound (kd := .bishop) (pro := false) h hf (by decide) (attack_of h (kd := .bishop) h2) ((isSet_moveTarget h t).mp h1).1 (proOK_false id)
        (fun e => by cases e) hat.1 hat.2 (covers_bishop (hat.1 _)) (fun e => by cases e) htry

omit h in
theorem dead_gold {c : Color} {kd : Kind} (hg : goldLike kd = true) {t : Square} : ¬ Dead c kd t := by
  intro hd; revert hg hd; cases kd <;> simp [goldLike, Dead]
omit h in
theorem gold_attack {c : Color} {kd : Kind} (hg : goldLike kd = true) {occ : Square → Bool} {f t : Square} (ht : (goldAttack c f).isSet t = true) :
    Attacks c kd occ f t := .inl (step_of_gold hg ht)

theorem isSet_goldsC (c : Color) (f : Square) : (p.goldsC c).isSet f = true ↔ ∃ kd, (absPos p).board f = some (c, kd) ∧ goldLike kd = true := by
  unfold goldsC
  rw [isSet_and, Bool.and_eq_true, h.cons.golds, h.cons.color]
  constructor
  · rintro ⟨⟨c', kd, e1, e2⟩, kd', e3⟩
    rw [e1] at e3; cases e3; exact ⟨kd, e1, e2⟩
  · rintro ⟨kd, e1, e2⟩; exact ⟨⟨c, kd, e1, e2⟩, kd, e1⟩

theorem mateGold_sound {m : Move} (hm : p.mateGold k = some m) : Found p m := by
  unfold mateGold at hm
  simp only at hm
  obtain ⟨f, hf, hm⟩ := mem_found hm
  obtain ⟨t, ht, htry⟩ := mem_found hm
  have hw : (p.goldsC p.turn &&& goldCheckTable p.turn k).WF := WF.and_left (WF.and_left h.cons.wfGolds)
  rw [hw.mem_toList, isSet_and, Bool.and_eq_true, isSet_goldsC h] at hf
  obtain ⟨⟨kd, hf, hg⟩, -⟩ := hf
  rw [(wf_moveTarget p k).and_left.and_left.mem_toList, isSet_and, isSet_and] at ht
  simp only [Bool.and_eq_true] at ht
  obtain ⟨⟨h1, h2⟩, h3⟩ := ht
  rw [pieceType_at h.cons hf] at htry
  have hkd : kd ≠ .king := by rintro rfl; revert hg; decide
  have hat := full_attack ((back_gold p.turn kd hg k t (fun _ => true)).mp h3)
  exact tryMove_sound (pro := false) h hf hkd (gold_attack hg h2) ((isSet_moveTarget h t).mp h1).1 (proOK_false (dead_gold hg))
    (knight := false) (support := true) (fun e => by cases e) hat.1 hat.2 (covers_gold hg) (fun e => by cases e) (by rw [hg]; exact htry)

theorem silver_pro {f t : Square} {m : Move} (hf : (absPos p).board f = some (p.turn, .silver)) (ht : (p.moveTarget k).isSet t = true)
    (ha : (silverAttack p.turn f).isSet t = true) (hz : zone p.turn f ∨ zone p.turn t) (hc : (goldAttack p.turn.opp k).isSet t = true)
    (htry : p.tryMove k PT.Silver f t true false true false (goldAttack p.turn t) = some m) : Found p m := by
  have hat := full_attack ((back_gold p.turn .proSilver rfl k t (fun _ => true)).mp hc)
  exact tryMove_sound (kd := .silver) (pro := true) h hf (by decide) (attack_of h (kd := .silver) ha) ((isSet_moveTarget h t).mp ht).1
    (proOK_true rfl hz) (fun e => by cases e) hat.1 hat.2 (covers_gold rfl) (fun e => by cases e) htry

theorem silver_non {f t : Square} {m : Move} (hf : (absPos p).board f = some (p.turn, .silver)) (ht : (p.moveTarget k).isSet t = true)
    (ha : (silverAttack p.turn f).isSet t = true) (hc : (silverAttack p.turn.opp k).isSet t = true)
    (htry : p.tryMove k PT.Silver f t false false true false (silverAttack p.turn t) = some m) : Found p m := by
  have hat := full_attack ((back_silver p.turn k t (fun _ => true)).mp hc)
  exact tryMove_sound (kd := .silver) (pro := false) h hf (by decide) (attack_of h (kd := .silver) ha) ((isSet_moveTarget h t).mp ht).1
    (proOK_false id) (fun e => by cases e) hat.1 hat.2 covers_silver (fun e => by cases e) htry

theorem mateSilver_sound {m : Move} (hm : p.mateSilver k = some m) : Found p m := by
  unfold mateSilver at hm
  simp only at hm
  have wc : (p.bbOf PT.Silver p.turn &&& silverCheckTable p.turn k).WF := (wf_bbOf h _ _).and_left
  have wt := fun f => (wf_moveTarget p k).and_left (b := silverAttack p.turn f)
  have hb := isSet_bbOf h .silver p.turn
  rcases orElse_found hm with hm | hm
  · obtain ⟨f, hf, hm⟩ := mem_found hm
    rw [wc.and_left.mem_toList, isSet_and, isSet_and] at hf
    simp only [Bool.and_eq_true] at hf
    have hz := (isSet_tRank123 _ _).mp hf.2
    have hf := (hb f).mp hf.1.1
    rcases orElse_found hm with hm | hm
    · obtain ⟨t, ht, htry⟩ := mem_found hm
      rw [(wt f).and_left.mem_toList, isSet_and, isSet_and] at ht
      simp only [Bool.and_eq_true] at ht
      exact silver_pro h hf ht.1.1 ht.1.2 (.inl hz) ht.2 htry
    · obtain ⟨t, ht, htry⟩ := mem_found hm
      rw [(wt f).and_left.andNot.mem_toList, isSet_andNot, isSet_and, isSet_and] at ht
      simp only [Bool.and_eq_true] at ht
      exact silver_non h hf ht.1.1.1 ht.1.1.2 ht.1.2 htry
  · rcases orElse_found hm with hm | hm
    · obtain ⟨f, hf, hm⟩ := mem_found hm
      rw [wc.andNot.and_left.mem_toList, isSet_and, isSet_andNot, isSet_and] at hf
      simp only [Bool.and_eq_true] at hf
      have hf := (hb f).mp hf.1.1.1
      obtain ⟨t, ht, htry⟩ := mem_found hm
      rw [(wt f).and_left.mem_toList, isSet_and, isSet_and] at ht
      simp only [Bool.and_eq_true] at ht
      exact silver_non h hf ht.1.1 ht.1.2 ht.2 htry
    · obtain ⟨f, hf, hm⟩ := mem_found hm
      rw [wc.andNot.andNot.mem_toList, isSet_andNot, isSet_andNot, isSet_and] at hf
      simp only [Bool.and_eq_true] at hf
      have hf := (hb f).mp hf.1.1.1
      rcases orElse_found hm with hm | hm
      · obtain ⟨t, ht, htry⟩ := mem_found hm
        rw [(wt f).and_left.and_left.mem_toList, isSet_and, isSet_and, isSet_and] at ht
        simp only [Bool.and_eq_true] at ht
        exact silver_pro h hf ht.1.1.1 ht.1.1.2 (.inr ((isSet_tRank123 _ _).mp ht.1.2)) ht.2 htry
      · obtain ⟨t, ht, htry⟩ := mem_found hm
        rw [(wt f).and_left.mem_toList, isSet_and, isSet_and] at ht
        simp only [Bool.and_eq_true] at ht
        exact silver_non h hf ht.1.1 ht.1.2 ht.2 htry

theorem mateKnight_sound {m : Move} (hm : p.mateKnight k = some m) : Found p m := by
  unfold mateKnight at hm
  simp only at hm
  obtain ⟨f, hf, hm⟩ := mem_found hm
  rw [(wf_bbOf h _ _).and_left.mem_toList, isSet_and, Bool.and_eq_true] at hf
  have hf := (isSet_bbOf h .knight p.turn f).mp hf.1
  have wt : ((p.byColor p.turn).notAnd (knightAttack p.turn f)).WF := (wf_knightAttack _ _).notAnd
  rcases orElse_found hm with hm | hm
  · obtain ⟨t, ht, htry⟩ := mem_found hm
    rw [wt.and_left.mem_toList, isSet_and, isSet_notAnd, isSet_and] at ht
    simp only [Bool.and_eq_true, Bool.not_eq_true'] at ht
    obtain ⟨⟨h1, h2⟩, h3, h4⟩ := ht
    have hat := full_attack ((back_gold p.turn .proKnight rfl k t (fun _ => true)).mp h3)
    exact tryMove_sound (kd := .knight) (pro := true) h hf (by decide) (attack_of h (kd := .knight) h2) ((not_own_iff h.cons t).mp h1)
      (proOK_true rfl (.inr ((isSet_tRank123 _ _).mp h4))) (fun _ => rfl) hat.1 hat.2 (covers_gold rfl) (fun e => by cases e) htry
  · obtain ⟨t, ht, htry⟩ := mem_found hm
    rw [wt.and_left.mem_toList, isSet_and, isSet_notAnd] at ht
    simp only [Bool.and_eq_true, Bool.not_eq_true'] at ht
    obtain ⟨⟨h1, h2⟩, h3⟩ := ht
    have ha := (back_knight p.turn k t (fun _ => true)).mp h3
    have hat := full_attack ha
    exact tryMove_sound (kd := .knight) (pro := false) h hf (by decide) (attack_of h (kd := .knight) h2) ((not_own_iff h.cons t).mp h1)
      (proOK_false fun hd => knight_dead hd ha) (fun _ => rfl) hat.1 hat.2 (covers_zero _) (fun _ => knight_not_adj ha) htry

theorem mateLance_sound {m : Move} (hm : p.mateLance k = some m) : Found p m := by
  unfold mateLance at hm
  simp only at hm
  obtain ⟨f, hf, hm⟩ := mem_found hm
  rw [(wf_bbOf h _ _).and_left.mem_toList, isSet_and, Bool.and_eq_true] at hf
  have hf := (isSet_bbOf h .lance p.turn f).mp hf.1
  have wt : (p.moveTarget k &&& lanceAttack p.turn f p.occupied).WF := (wf_moveTarget p k).and_left
  rcases orElse_found hm with hm | hm
  · obtain ⟨t, ht, htry⟩ := mem_found hm
    rw [wt.and_left.mem_toList, isSet_and, isSet_and, isSet_and] at ht
    simp only [Bool.and_eq_true] at ht
    obtain ⟨⟨h1, h2⟩, h3, h4⟩ := ht
    have hat := full_attack ((back_gold p.turn .proLance rfl k t (fun _ => true)).mp h3)
    exact tryMove_sound (kd := .lance) (pro := true) h hf (by decide) (attack_of h (kd := .lance) h2) ((isSet_moveTarget h t).mp h1).1
      (proOK_true rfl (.inr ((isSet_tRank123 _ _).mp h4))) (fun e => by cases e) hat.1 hat.2 (covers_gold rfl) (fun e => by cases e) htry
  · obtain ⟨hc, hm⟩ := if_found hm
    obtain ⟨t, ht⟩ := (wt.and_left.isAny_iff).mp hc
    rw [isSet_and, isSet_and, isSet_and] at ht
    simp only [Bool.and_eq_true] at ht
    obtain ⟨⟨h1, h2⟩, h3, h4⟩ := ht
    have ha := (back_pawn p.turn k t (absPos p).occ).mp h3
    have hbk : backSq p.turn k = t := backSq_attack ha
    rw [hbk] at hm
    have hat := full_attack (full_lance p.turn ha)
    have hd : ¬ Dead p.turn .lance t := by
      have := forward p.turn (.inl rfl) ha
      have hfr : 0 ≤ farRank p.turn k := by unfold farRank Y; cases p.turn <;> simp only <;> omega
      unfold Dead; simp only; omega
    exact tryMove_sound (kd := .lance) (pro := false) h hf (by decide) (attack_of h (kd := .lance) h2) ((isSet_moveTarget h t).mp h1).1
      (proOK_false hd) (fun e => by cases e) hat.1 hat.2 (covers_lance (hat.1 _)) (fun e => by cases e) hm

omit h in
theorem frontSq_eq {c : Color} {occ : Square → Bool} {s t : Square} (ha : Attacks c.opp .pawn occ t s) : frontSq c s = t := by
  unfold frontSq
  rw [pawn_attack_iff] at ha
  have : farRank c.opp t ≤ 8 := by unfold farRank Y; cases c <;> simp only [Color.opp] <;> omega
  exact (backSq_iff _ _ _ (by omega)).mpr ha

omit h in
theorem pawn_flip {c : Color} {occ occ' : Square → Bool} {s t : Square} (ha : Attacks c.opp .pawn occ t s) : Attacks c .pawn occ' s t := by
  rw [pawn_attack_iff] at ha ⊢
  unfold farRank at *
  cases c <;> simp only [Color.opp] at ha ⊢ <;> omega

theorem matePawn_sound {m : Move} (hm : p.matePawn k = some m) : Found p m := by
  unfold matePawn at hm
  simp only at hm
  split at hm
  · rename_i hk7
    rw [isInFrontOf_iff _ 7 (by decide)] at hk7
    rcases orElse_found hm with hm | hm
    · split at hm
      · obtain ⟨f, hf, htry⟩ := mem_found hm
        rw [(wf_bbOf h _ _).and_left.mem_toList, isSet_and, Bool.and_eq_true] at hf
        obtain ⟨hf, hs⟩ := hf
        have hf := (isSet_bbOf h .pawn p.turn f).mp hf
        have wt : (p.moveTarget k &&& goldAttack p.turn.opp k &&& tRank123 p.turn).WF := (wf_moveTarget p k).and_left.and_left
        have hset : ∀ s, (p.moveTarget k &&& goldAttack p.turn.opp k &&& tRank123 p.turn).isSet s = true →
            (p.moveTarget k).isSet s = true ∧ (goldAttack p.turn.opp k).isSet s = true ∧ zone p.turn s := by
          intro s hs
          rw [isSet_and, isSet_and] at hs
          simp only [Bool.and_eq_true] at hs
          exact ⟨hs.1.1, hs.1.2, (isSet_tRank123 _ _).mp hs.2⟩
        rw [(C13_pawn_board p.turn.opp _ wt (fun s hs => ?_) f).1] at hs
        · obtain ⟨t, ht, ha⟩ := hs
          obtain ⟨h1, h2, h3⟩ := hset t ht
          rw [frontSq_eq ha] at htry
          have hat := full_attack ((back_gold p.turn .proPawn rfl k t (fun _ => true)).mp h2)
          exact tryMove_sound (kd := .pawn) (pro := true) h hf (by decide) (pawn_flip ha) ((isSet_moveTarget h t).mp h1).1
            (proOK_true rfl (.inr h3)) (fun e => by cases e) hat.1 hat.2 (covers_gold rfl) (fun e => by cases e) htry
        · have := (hset s hs).2.2
          unfold zone farRank at this
          revert this
          cases p.turn <;> simp only [Color.opp] <;> omega
      · cases hm
    · split at hm
      · rename_i hc
        simp only [Bool.and_eq_true, Bool.not_eq_true'] at hc
        obtain ⟨⟨h1, h2⟩, h3⟩ := hc
        have hka := back_attack p.turn (fun _ => true) (show farRank p.turn k < 8 by omega)
        have hbk := (pawn_attack_iff ..).mp hka
        have hfa := back_attack p.turn (absPos p).occ (show farRank p.turn (backSq p.turn k) < 8 by omega)
        have hf := (isSet_bbOf h .pawn p.turn _).mp h1
        have hat := full_attack hka
        have hd : ¬ Dead p.turn .pawn (backSq p.turn k) := by
          have hfr : 0 ≤ farRank p.turn k := by unfold farRank Y; cases p.turn <;> simp only <;> omega
          unfold Dead; simp only; omega
        exact tryMove_sound (kd := .pawn) (pro := false) h hf (by decide) hfa ((not_own_iff h.cons _).mp h2)
          (proOK_false hd) (fun e => by cases e) hat.1 hat.2 (covers_zero _) (fun e => by cases e) hm
      · cases hm
  · cases hm

end

end Verif
