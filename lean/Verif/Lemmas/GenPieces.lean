import Verif.Model.Gen
import Verif.Lemmas.Regular
import Verif.Props.Attacks

namespace Verif
open Spec Bitboard Position

/-! ### Promotion zone and dead squares in terms of ranks -/

theorem rank_eq_Y (s : Square) : (rank s : Int) = Y s := by unfold rank Y; omega

theorem canPromote_iff (c : Color) (s : Square) : canPromote c s = true ↔ zone c s := by
  rw [C48_promotion_zone]
  unfold zone farRank Y
  cases c <;> simp only <;> omega

theorem forward (c : Color) {kd : Kind} (hk : kd = .pawn ∨ kd = .lance ∨ kd = .knight) {occ : Square → Bool} {f t : Square}
    (h : Attacks c kd occ f t) : farRank c t < farRank c f := by
  unfold farRank
  rcases h with ⟨d, hd, -, h2⟩ | ⟨d, hd, n, hn, ⟨-, h2⟩, -⟩
  · rcases hk with rfl | rfl | rfl <;> simp [Kind.steps] at hd
    · subst hd; cases c <;> simp [orient] at h2 ⊢ <;> omega
    · rcases hd with rfl | rfl <;> cases c <;> simp [orient] at h2 ⊢ <;> omega
  · rcases hk with rfl | rfl | rfl <;> simp [Kind.slides] at hd
    subst hd; cases c <;> simp [orient] at h2 ⊢ <;> omega

theorem zone_forward (c : Color) {kd : Kind} (hk : kd = .pawn ∨ kd = .lance ∨ kd = .knight) {occ : Square → Bool} {f t : Square}
    (h : Attacks c kd occ f t) : zone c f ∨ zone c t ↔ zone c t := by
  have := forward c hk h
  unfold zone
  constructor
  · rintro (h | h) <;> omega
  · exact Or.inr

/-! ### Moves of one kind of piece -/

/-- The moves of pieces of one kind to the target squares. -/
def GenOf (p : Position) (kd : Kind) (target : Bitboard) (m : Move) : Prop :=
  ∃ f t pro, m = boardMove p.piece f t pro ∧ (absPos p).board f = some (p.turn, kd) ∧
    Attacks p.turn kd (absPos p).occ f t ∧ target.isSet t = true ∧
    (pro = true → kd.promoted.isSome = true ∧ (zone p.turn f ∨ zone p.turn t)) ∧ (pro = false → ¬ Dead p.turn kd t)

theorem genMove_eq {p : Position} {f t : Square} {pt : Nat} (h : pieceType (p.piece f) = pt) :
    genMove p pt f t = boardMove p.piece f t false := by subst h; rfl

theorem genPro_eq {p : Position} {f t : Square} {pt : Nat} (h : pieceType (p.piece f) = pt) :
    genPro p pt f t = boardMove p.piece f t true := by subst h; rfl

theorem mem_bbOf {p : Position} (h : Consistent p) (kd : Kind) (c : Color) (f : Square) :
    f ∈ (p.bbOf kd.code c).toList ↔ (absPos p).board f = some (c, kd) := by
  have hw : (p.bbOf kd.code c).WF := (h.wfType _).and_left
  rw [hw.mem_toList, bbOf, isSet_and, Bool.and_eq_true]
  constructor
  · rintro ⟨h1, h2⟩
    obtain ⟨c', e1⟩ := (h.type kd f).mp h1
    obtain ⟨k', e2⟩ := (h.color c f).mp h2
    rw [e1] at e2; cases e2; exact e1
  · intro e; exact ⟨(h.type kd f).mpr ⟨c, e⟩, (h.color c f).mpr ⟨kd, e⟩⟩

theorem pieceType_at {p : Position} (h : Consistent p) {f : Square} {c : Color} {kd : Kind} (hf : (absPos p).board f = some (c, kd)) :
    pieceType (p.piece f) = kd.code := by rw [h.code, hf]; exact pieceType_mkPiece _ _

/-- The common double loop. -/
theorem mem_loop {p : Position} (h : Consistent p) (kd : Kind) (c : Color) (target : Bitboard) (mv : Square → Square → List Move) (m : Move) :
    m ∈ ((p.bbOf kd.code c).toList.flatMap fun f =>
      (attacksFrom kd.code c f p.occupied &&& target).toList.flatMap fun t => mv f t) ↔
    ∃ f t, (absPos p).board f = some (c, kd) ∧ Attacks c kd (absPos p).occ f t ∧ target.isSet t = true ∧ m ∈ mv f t := by
  simp only [List.mem_flatMap, mem_bbOf h]
  constructor
  · rintro ⟨f, hf, t, ht, hm⟩
    rw [((wf_attacksFrom kd c f p.occupied).and_left).mem_toList, isSet_and, Bool.and_eq_true, isSet_attacksFrom, h.occ_fun] at ht
    exact ⟨f, t, hf, ht.1, ht.2, hm⟩
  · rintro ⟨f, t, hf, ha, ht, hm⟩
    refine ⟨f, hf, t, ?_, hm⟩
    rw [((wf_attacksFrom kd c f p.occupied).and_left).mem_toList, isSet_and, Bool.and_eq_true, isSet_attacksFrom, h.occ_fun]
    exact ⟨ha, ht⟩

theorem src_eq (p : Position) (f t : Square) (pro : Bool) : (boardMove p.piece f t pro).src = f.val ∧
    (boardMove p.piece f t pro).dst = t.val ∧ (boardMove p.piece f t pro).isPromotion = pro := by
  have hf := C01_board_move_fields p.piece f t pro
  simp only [readBoardMove, Prod.mk.injEq] at hf
  exact ⟨hf.1, hf.2.1, hf.2.2.2.2.1⟩

theorem boardMove_inj (p : Position) {f t f' t' : Square} {pro pro' : Bool}
    (h : boardMove p.piece f t pro = boardMove p.piece f' t' pro') : f = f' ∧ t = t' ∧ pro = pro' := by
  have h1 := src_eq p f t pro
  have h2 := src_eq p f' t' pro'
  rw [h] at h1
  exact ⟨Fin.ext (h1.1.symm.trans h2.1), Fin.ext (h1.2.1.symm.trans h2.2.1), h1.2.2.symm.trans h2.2.2⟩

theorem GenOf.kind {p : Position} {kd kd' : Kind} {tg tg' : Bitboard} {m : Move} (h : GenOf p kd tg m) (h' : GenOf p kd' tg' m) : kd = kd' := by
  obtain ⟨f, t, pro, e, hf, -⟩ := h
  obtain ⟨f', t', pro', e', hf', -⟩ := h'
  obtain ⟨rfl, -, -⟩ := boardMove_inj p (e.symm.trans e')
  rw [hf] at hf'; cases hf'; rfl

/-- The choice of promotion for one displacement. -/
def ProOK (c : Color) (kd : Kind) (f t : Square) (pro : Bool) : Prop :=
  (pro = true → kd.promoted.isSome = true ∧ (zone c f ∨ zone c t)) ∧ (pro = false → ¬ Dead c kd t)

theorem mem_loop_genOf {p : Position} (h : Consistent p) (kd : Kind) (target : Bitboard) (mv : Square → Square → List Move) (m : Move)
    (hmv : ∀ f t, (absPos p).board f = some (p.turn, kd) → Attacks p.turn kd (absPos p).occ f t →
      (m ∈ mv f t ↔ ∃ pro, m = boardMove p.piece f t pro ∧ ProOK p.turn kd f t pro)) :
    m ∈ ((p.bbOf kd.code p.turn).toList.flatMap fun f =>
      (attacksFrom kd.code p.turn f p.occupied &&& target).toList.flatMap fun t => mv f t) ↔ GenOf p kd target m := by
  rw [mem_loop h]
  constructor
  · rintro ⟨f, t, hf, ha, ht, hm⟩
    obtain ⟨pro, e, hp⟩ := (hmv f t hf ha).mp hm
    exact ⟨f, t, pro, e, hf, ha, ht, hp⟩
  · rintro ⟨f, t, pro, e, hf, ha, ht, hp⟩
    exact ⟨f, t, hf, ha, ht, (hmv f t hf ha).mpr ⟨pro, e, hp⟩⟩

theorem isBehind_iff (c : Color) (n : Nat) (s : Square) : isBehind c n (8 - n) (rank s) = true ↔ n < farRank c s := by
  have := rank_eq_Y s
  have : rank s < 9 := by unfold rank; omega
  unfold isBehind farRank
  cases c <;> simp only [decide_eq_true_eq] <;> omega

theorem exists_bool {P : Bool → Prop} : (∃ b, P b) ↔ P true ∨ P false := by
  constructor
  · rintro ⟨b, h⟩; cases b
    · exact .inr h
    · exact .inl h
  · rintro (h | h) <;> exact ⟨_, h⟩

theorem mem_genLance {p : Position} (h : Consistent p) (target : Bitboard) (m : Move) :
    m ∈ genLance p p.turn true target ↔ GenOf p .lance target m := by
  unfold genLance
  rw [show PT.Lance = Kind.lance.code from rfl]
  refine mem_loop_genOf h .lance target _ m fun f t hf ha => ?_
  have hz := zone_forward p.turn (.inr (.inl rfl)) ha
  have hb := isBehind_iff p.turn 0 t
  have hfr : 0 ≤ farRank p.turn t := by unfold farRank Y; cases p.turn <;> simp only <;> omega
  rw [genPro_eq (pieceType_at h hf), genMove_eq (pieceType_at h hf)]
  rw [exists_bool]
  simp only [ProOK, hz, reduceCtorEq, false_imp_iff, and_true, true_and, true_imp_iff, Kind.promoted, Option.isSome_some, Dead]
  by_cases hc : canPromote p.turn t = true
  · have hc' := (canPromote_iff _ _).mp hc
    simp only [hc, if_true, List.mem_cons, hc', and_true]
    by_cases h0 : isBehind p.turn 0 8 (rank t) = true
    · have : farRank p.turn t ≠ 0 := by have := hb.mp h0; omega
      simp [h0, this]
    · have : farRank p.turn t = 0 := by
        by_contra hne; exact h0 (hb.mpr (by omega))
      simp [h0, this]
  · have hc' : ¬ zone p.turn t := fun e => hc ((canPromote_iff _ _).mpr e)
    have : farRank p.turn t ≠ 0 := by intro e; apply hc'; unfold zone; omega
    simp [hc, hc', this]

theorem mem_genKnight {p : Position} (h : Consistent p) (target : Bitboard) (m : Move) :
    m ∈ genKnight p p.turn target ↔ GenOf p .knight target m := by
  unfold genKnight
  rw [show PT.Knight = Kind.knight.code from rfl]
  refine mem_loop_genOf h .knight target _ m fun f t hf ha => ?_
  have hz := zone_forward p.turn (.inr (.inr rfl)) ha
  have hb := isBehind_iff p.turn 1 t
  rw [genPro_eq (pieceType_at h hf), genMove_eq (pieceType_at h hf)]
  rw [exists_bool]
  simp only [ProOK, hz, reduceCtorEq, false_imp_iff, and_true, true_and, true_imp_iff, Kind.promoted, Option.isSome_some, Dead]
  by_cases hc : canPromote p.turn t = true
  · have hc' := (canPromote_iff _ _).mp hc
    simp only [hc, if_true, List.mem_cons, hc', and_true]
    by_cases h0 : isBehind p.turn 1 7 (rank t) = true
    · have : ¬ farRank p.turn t ≤ 1 := by have := hb.mp h0; omega
      simp [h0, this]
    · have : farRank p.turn t ≤ 1 := by
        by_contra hne; exact h0 (hb.mpr (by omega))
      simp [h0, this]
  · have hc' : ¬ zone p.turn t := fun e => hc ((canPromote_iff _ _).mpr e)
    have : ¬ farRank p.turn t ≤ 1 := by intro e; apply hc'; unfold zone; omega
    simp [hc, hc', this]

theorem mem_genSilver {p : Position} (h : Consistent p) (target : Bitboard) (m : Move) :
    m ∈ genSilver p p.turn target ↔ GenOf p .silver target m := by
  unfold genSilver
  rw [show PT.Silver = Kind.silver.code from rfl]
  refine mem_loop_genOf h .silver target _ m fun f t hf ha => ?_
  rw [genPro_eq (pieceType_at h hf), genMove_eq (pieceType_at h hf)]
  rw [exists_bool]
  simp only [ProOK, reduceCtorEq, false_imp_iff, and_true, true_and, true_imp_iff, Kind.promoted, Option.isSome_some, Dead,
    ← canPromote_iff, Bool.or_eq_true, not_false_iff]
  by_cases hc : canPromote p.turn f = true ∨ canPromote p.turn t = true
  · simp [hc]
  · simp [hc]

theorem mem_genBishopOrRook {p : Position} (h : Consistent p) (kd : Kind) (hk : kd = .bishop ∨ kd = .rook) (target : Bitboard) (m : Move) :
    m ∈ genBishopOrRook p kd.code p.turn true target ↔ GenOf p kd target m := by
  unfold genBishopOrRook
  refine mem_loop_genOf h kd target _ m fun f t hf ha => ?_
  rw [genPro_eq (pieceType_at h hf), genMove_eq (pieceType_at h hf)]
  rw [exists_bool]
  have e1 : kd.promoted.isSome = true := by rcases hk with rfl | rfl <;> rfl
  have e2 : ¬ Dead p.turn kd t := by rcases hk with rfl | rfl <;> exact id
  simp only [ProOK, reduceCtorEq, false_imp_iff, and_true, true_and, true_imp_iff, e1, e2,
    ← canPromote_iff, Bool.or_eq_true, not_false_iff]
  by_cases hc : canPromote p.turn f = true ∨ canPromote p.turn t = true
  · simp [hc]
  · simp [hc]

theorem mem_goldHorseDragon {p : Position} (h : Consistent p) (c : Color) (f : Square) :
    f ∈ ((p.golds ||| p.bbOf2 PT.Horse PT.Dragon) &&& p.byColor c).toList ↔
      ∃ kd, (absPos p).board f = some (c, kd) ∧ (goldLike kd = true ∨ kd = .horse ∨ kd = .dragon) := by
  have hw : ((p.golds ||| p.bbOf2 PT.Horse PT.Dragon) &&& p.byColor c).WF := (h.wfColor c).and_right
  rw [hw.mem_toList, isSet_and, isSet_or, bbOf2, isSet_or, Bool.and_eq_true, Bool.or_eq_true, Bool.or_eq_true, h.golds, h.color,
    show PT.Horse = Kind.horse.code from rfl, show PT.Dragon = Kind.dragon.code from rfl, h.type, h.type]
  constructor
  · rintro ⟨h1, kd, hk⟩
    refine ⟨kd, hk, ?_⟩
    rcases h1 with ⟨c', k', e, hg⟩ | ⟨c', e⟩ | ⟨c', e⟩ <;> rw [hk] at e <;> cases e
    · exact .inl hg
    · exact .inr (.inl rfl)
    · exact .inr (.inr rfl)
  · rintro ⟨kd, hk, hh⟩
    refine ⟨?_, kd, hk⟩
    rcases hh with hg | rfl | rfl
    · exact .inl ⟨c, kd, hk, hg⟩
    · exact .inr (.inl ⟨c, hk⟩)
    · exact .inr (.inr ⟨c, hk⟩)

theorem mem_genGHD {p : Position} (h : Consistent p) (target : Bitboard) (m : Move) :
    m ∈ genGoldHorseDragon p p.turn target ↔ ∃ kd, (goldLike kd = true ∨ kd = .horse ∨ kd = .dragon) ∧ GenOf p kd target m := by
  unfold genGoldHorseDragon
  rw [List.mem_flatMap]
  simp only [mem_goldHorseDragon h, List.mem_map]
  constructor
  · rintro ⟨f, ⟨kd, hk, hg⟩, t, ht, e⟩
    rw [pieceType_at h hk, ((wf_attacksFrom kd p.turn f p.occupied).and_left).mem_toList, isSet_and, Bool.and_eq_true,
      isSet_attacksFrom, h.occ_fun] at ht
    refine ⟨kd, hg, f, t, false, ?_, hk, ht.1, ht.2, (fun e => by cases e), ?_⟩
    · rw [← e, genMove_eq rfl]
    · intro _; cases kd <;> simp [goldLike, Dead] at hg ⊢
  · rintro ⟨kd, hg, f, t, pro, e, hk, ha, ht, h1, h2⟩
    refine ⟨f, ⟨kd, hk, hg⟩, t, ?_, ?_⟩
    · rw [pieceType_at h hk, ((wf_attacksFrom kd p.turn f p.occupied).and_left).mem_toList, isSet_and, Bool.and_eq_true,
        isSet_attacksFrom, h.occ_fun]
      exact ⟨ha, ht⟩
    · rw [genMove_eq rfl, e]
      cases pro
      · rfl
      · have := (h1 rfl).1
        cases kd <;> simp [goldLike, Kind.promoted] at hg this

theorem mem_genKing {p : Position} (h : Consistent p) (target : Bitboard) {k : Square} (hk : p.kingSquare p.turn = some k)
    (hu : ∀ s, (absPos p).board s = some (p.turn, .king) ↔ s = k) (m : Move) :
    m ∈ ((kingAttack k &&& target).toList.map fun t => genMove p PT.King k t) ↔ GenOf p .king target m := by
  have hkb := (h.king _ _).mp hk
  have hw : (kingAttack k &&& target).WF := (wf_attacksFrom .king p.turn k p.occupied).and_left
  rw [List.mem_map]
  constructor
  · rintro ⟨t, ht, e⟩
    rw [hw.mem_toList, isSet_and, Bool.and_eq_true, show kingAttack k = attacksFrom Kind.king.code p.turn k p.occupied from rfl,
      isSet_attacksFrom, h.occ_fun] at ht
    refine ⟨k, t, false, ?_, hkb, ht.1, ht.2, (fun e => by cases e), fun _ => id⟩
    rw [← e, genMove_eq (pt := PT.King) (pieceType_at h hkb)]
  · rintro ⟨f, t, pro, e, hf, ha, ht, h1, h2⟩
    obtain rfl := (hu f).mp hf
    refine ⟨t, ?_, ?_⟩
    · rw [hw.mem_toList, isSet_and, Bool.and_eq_true, show kingAttack f = attacksFrom Kind.king.code p.turn f p.occupied from rfl,
        isSet_attacksFrom, h.occ_fun]
      exact ⟨ha, ht⟩
    · rw [genMove_eq (pt := PT.King) (pieceType_at h hkb), e]
      cases pro
      · rfl
      · have := (h1 rfl).1
        simp [Kind.promoted] at this

/-! ### Pawns -/

theorem pawn_attack_iff (c : Color) (occ : Square → Bool) (s t : Square) :
    Attacks c .pawn occ s t ↔ X t = X s ∧ farRank c t + 1 = farRank c s := by
  unfold farRank
  constructor
  · rintro (⟨d, hd, h1, h2⟩ | ⟨d, hd, -⟩)
    · simp [Kind.steps] at hd
      subst hd
      cases c <;> simp [orient] at h1 h2 ⊢ <;> omega
    · simp [Kind.slides] at hd
  · rintro ⟨h1, h2⟩
    refine .inl ⟨(0, -1), by simp [Kind.steps], ?_, ?_⟩ <;> cases c <;> simp [orient] at h1 h2 ⊢ <;> omega

theorem backSq_iff (c : Color) (s t : Square) (ht : farRank c t < 8) : backSq c t = s ↔ X t = X s ∧ farRank c t + 1 = farRank c s := by
  unfold farRank X Y at *
  have := t.isLt
  have := s.isLt
  unfold backSq
  rw [Fin.ext_iff]
  cases c <;> simp only [sqN, Fin.ofNat] at ht ⊢ <;> omega

/-- No pawn on its last rank. -/
theorem mem_pawnAttack {p : Position} (h : Consistent p) (halive : ∀ s, (absPos p).board s = some (p.turn, .pawn) → ¬ Dead p.turn .pawn s)
    (t : Square) : (pawnAttackBB p.turn (p.bbOf PT.Pawn p.turn)).isSet t = true ↔
      ∃ s, (absPos p).board s = some (p.turn, .pawn) ∧ Attacks p.turn .pawn (absPos p).occ s t := by
  have hw : (p.bbOf PT.Pawn p.turn).WF := (h.wfType _).and_left
  have hb : ∀ s, (p.bbOf PT.Pawn p.turn).isSet s = true ↔ (absPos p).board s = some (p.turn, .pawn) := by
    intro s; rw [← hw.mem_toList]; exact mem_bbOf h .pawn p.turn s
  rw [(C13_pawn_board p.turn _ hw ?_ t).1]
  · simp only [hb, pawn_attack_iff]
  · intro s hs
    have := halive s ((hb s).mp hs)
    unfold Dead farRank Y at this
    unfold Y
    split <;> rename_i hc <;> rw [hc] at this <;> simp only at this <;> omega

theorem wf_pawnStep {p : Position} (h : Consistent p) (halive : ∀ s, (absPos p).board s = some (p.turn, .pawn) → ¬ Dead p.turn .pawn s) :
    (pawnAttackBB p.turn (p.bbOf PT.Pawn p.turn)).WF := by
  have hw : (p.bbOf PT.Pawn p.turn).WF := (h.wfType _).and_left
  have hb : ∀ s, (p.bbOf PT.Pawn p.turn).isSet s = true ↔ (absPos p).board s = some (p.turn, .pawn) := by
    intro s; rw [← hw.mem_toList]; exact mem_bbOf h .pawn p.turn s
  refine (C13_pawn_board p.turn _ hw ?_ 0).2
  intro s hs
  have := halive s ((hb s).mp hs)
  unfold Dead farRank Y at this
  unfold Y
  split <;> rename_i hc <;> rw [hc] at this <;> simp only at this <;> omega

theorem isSet_zone123 (c : Color) (t : Square) :
    (inFrontMask c (match c with | .black => 3 | .white => 5)).isSet t = true ↔ zone c t := by
  rw [isSet_inFront c _ (by cases c <;> decide)]
  unfold zone farRank Y rank
  cases c <;> simp only <;> omega

theorem wf_zone123 (c : Color) : (inFrontMask c (match c with | .black => 3 | .white => 5)).WF :=
  wf_inFront c _ (by cases c <;> decide)

theorem rank1_iff (c : Color) (t : Square) :
    (rank t != (match c with | .black => 0 | .white => 8)) = true ↔ farRank c t ≠ 0 := by
  rw [bne_iff_ne]
  unfold farRank Y rank
  cases c <;> simp only <;> omega

/-- The parts of the pawn generator. -/
def pawnOn (p : Position) (us : Color) (target : Bitboard) : Bitboard :=
  (pawnAttackBB us (p.bbOf PT.Pawn us) &&& target) &&& inFrontMask us (match us with | .black => 3 | .white => 5)
def pawnRest (p : Position) (us : Color) (target : Bitboard) : Bitboard :=
  if (pawnOn p us target).isAny then
    (pawnAttackBB us (p.bbOf PT.Pawn us) &&& target).andNot (inFrontMask us (match us with | .black => 3 | .white => 5))
  else pawnAttackBB us (p.bbOf PT.Pawn us) &&& target

theorem genPawn_eq (p : Position) (us : Color) (all : Bool) (target : Bitboard) : genPawn p us all target =
    ((pawnOn p us target).toList.flatMap fun t =>
      genPro p PT.Pawn (backSq us t) t ::
        (if all && rank t != (match us with | .black => 0 | .white => 8) then [genMove p PT.Pawn (backSq us t) t] else [])) ++
    (pawnRest p us target).toList.map fun t => genMove p PT.Pawn (backSq us t) t := rfl

section pawn
variable {p : Position} (h : Consistent p) (halive : ∀ s, (absPos p).board s = some (p.turn, .pawn) → ¬ Dead p.turn .pawn s)
include h halive

theorem pawnOn_iff (target : Bitboard) (t : Square) : t ∈ (pawnOn p p.turn target).toList ↔
    (∃ s, (absPos p).board s = some (p.turn, .pawn) ∧ Attacks p.turn .pawn (absPos p).occ s t) ∧ target.isSet t = true ∧ zone p.turn t := by
  unfold pawnOn
  rw [((wf_pawnStep h halive).and_left.and_left).mem_toList, isSet_and, isSet_and, Bool.and_eq_true, Bool.and_eq_true,
    mem_pawnAttack h halive, isSet_zone123, and_assoc]

theorem pawnRest_wf (target : Bitboard) : (pawnRest p p.turn target).WF := by
  unfold pawnRest
  split
  · exact ((wf_pawnStep h halive).and_left).andNot
  · exact (wf_pawnStep h halive).and_left

theorem pawnRest_iff (target : Bitboard) (t : Square) : t ∈ (pawnRest p p.turn target).toList ↔
    (∃ s, (absPos p).board s = some (p.turn, .pawn) ∧ Attacks p.turn .pawn (absPos p).occ s t) ∧ target.isSet t = true ∧ ¬ zone p.turn t := by
  rw [(pawnRest_wf h halive target).mem_toList]
  unfold pawnRest
  split
  · rw [isSet_andNot, isSet_and, Bool.and_eq_true, Bool.and_eq_true, mem_pawnAttack h halive, and_assoc, Bool.not_eq_true',
      ← Bool.not_eq_true, isSet_zone123]
  · rename_i hn
    rw [isSet_and, Bool.and_eq_true, mem_pawnAttack h halive]
    constructor
    · rintro ⟨h1, h2⟩
      refine ⟨h1, h2, fun hz => hn ?_⟩
      have : t ∈ (pawnOn p p.turn target).toList := (pawnOn_iff h halive target t).mpr ⟨h1, h2, hz⟩
      have hw : (pawnOn p p.turn target).WF := (wf_pawnStep h halive).and_left.and_left
      rw [hw.mem_toList] at this
      exact hw.isAny_iff.mpr ⟨t, this⟩
    · rintro ⟨h1, h2, -⟩; exact ⟨h1, h2⟩

omit h halive in
theorem backSq_attack {s t : Square} (ha : Attacks p.turn .pawn (absPos p).occ s t) : backSq p.turn t = s := by
  rw [pawn_attack_iff] at ha
  have : farRank p.turn s ≤ 8 := by unfold farRank Y; cases p.turn <;> simp only <;> omega
  exact (backSq_iff _ _ _ (by omega)).mpr ha

theorem mem_genPawn (target : Bitboard) (m : Move) : m ∈ genPawn p p.turn true target ↔ GenOf p .pawn target m := by
  rw [genPawn_eq, List.mem_append, List.mem_flatMap, List.mem_map]
  simp only [pawnOn_iff h halive, pawnRest_iff h halive, List.mem_cons, Bool.true_and, List.mem_ite_nil_right, List.not_mem_nil, or_false,
    rank1_iff]
  constructor
  · rintro (⟨t, ⟨⟨s, hs, ha⟩, ht, hz⟩, hm⟩ | ⟨t, ⟨⟨s, hs, ha⟩, ht, hz⟩, hm⟩)
    · rw [backSq_attack ha, genPro_eq (pt := PT.Pawn) (pieceType_at h hs), genMove_eq (pt := PT.Pawn) (pieceType_at h hs)] at hm
      rcases hm with e | ⟨h0, e⟩
      · exact ⟨s, t, true, e, hs, ha, ht, fun _ => ⟨rfl, .inr hz⟩, fun e => by cases e⟩
      · exact ⟨s, t, false, e, hs, ha, ht, (fun e => by cases e), fun _ => h0⟩
    · rw [backSq_attack ha, genMove_eq (pt := PT.Pawn) (pieceType_at h hs)] at hm
      refine ⟨s, t, false, hm.symm, hs, ha, ht, (fun e => by cases e), fun _ hd => hz ?_⟩
      unfold Dead at hd; unfold zone; simp only at hd; omega
  · rintro ⟨s, t, pro, e, hs, ha, ht, h1, h2⟩
    have hzf := zone_forward p.turn (.inl rfl) ha
    by_cases hz : zone p.turn t
    · refine .inl ⟨t, ⟨⟨s, hs, ha⟩, ht, hz⟩, ?_⟩
      rw [backSq_attack ha, genPro_eq (pt := PT.Pawn) (pieceType_at h hs), genMove_eq (pt := PT.Pawn) (pieceType_at h hs)]
      cases pro
      · exact .inr ⟨h2 rfl, e⟩
      · exact .inl e
    · refine .inr ⟨t, ⟨⟨s, hs, ha⟩, ht, hz⟩, ?_⟩
      rw [backSq_attack ha, genMove_eq (pt := PT.Pawn) (pieceType_at h hs), e]
      cases pro
      · rfl
      · exact absurd (hzf.mp (h1 rfl).2) hz

/-- The generator for all pieces other than the king. -/
theorem mem_genPieces (target : Bitboard) (m : Move) :
    m ∈ genPieces p p.turn true target ↔ ∃ kd, kd ≠ .king ∧ GenOf p kd target m := by
  unfold genPieces
  simp only [List.mem_append]
  rw [mem_genPawn h halive, mem_genLance h, mem_genKnight h, mem_genSilver h,
    show PT.Bishop = Kind.bishop.code from rfl, show PT.Rook = Kind.rook.code from rfl,
    mem_genBishopOrRook h .bishop (.inl rfl), mem_genBishopOrRook h .rook (.inr rfl), mem_genGHD h]
  constructor
  · rintro ((((((hm | hm) | hm) | hm) | hm) | hm) | ⟨kd, hg, hm⟩)
    · exact ⟨_, (by decide), hm⟩
    · exact ⟨_, (by decide), hm⟩
    · exact ⟨_, (by decide), hm⟩
    · exact ⟨_, (by decide), hm⟩
    · exact ⟨_, (by decide), hm⟩
    · exact ⟨_, (by decide), hm⟩
    · refine ⟨kd, ?_, hm⟩
      rintro rfl; simp [goldLike] at hg
  · rintro ⟨kd, hk, hm⟩
    cases kd
    case king => exact absurd rfl hk
    case pawn => exact .inl (.inl (.inl (.inl (.inl (.inl hm)))))
    case lance => exact .inl (.inl (.inl (.inl (.inl (.inr hm)))))
    case knight => exact .inl (.inl (.inl (.inl (.inr hm))))
    case silver => exact .inl (.inl (.inl (.inr hm)))
    case bishop => exact .inl (.inl (.inr hm))
    case rook => exact .inl (.inr hm)
    all_goals exact .inr ⟨_, (by simp [goldLike]), hm⟩

end pawn

/-! ### No move is generated twice -/

theorem nodup_two (p : Position) (f t : Square) (b : Bool) :
    (boardMove p.piece f t true :: (if b then [boardMove p.piece f t false] else [])).Nodup := by
  cases b
  · simp
  · simp only [if_true, List.nodup_cons, List.mem_singleton, List.not_mem_nil, not_false_iff, List.nodup_nil, and_true]
    intro e
    exact Bool.noConfusion (boardMove_inj p e).2.2

theorem nodup_loop {p : Position} (L : List Square) (B : Square → Bitboard) (mv : Square → Square → List Move) (hL : L.Nodup)
    (hB : ∀ f ∈ L, (B f).WF)
    (h1 : ∀ f ∈ L, ∀ t, (mv f t).Nodup) (h2 : ∀ f ∈ L, ∀ t, ∀ m ∈ mv f t, ∃ pro, m = boardMove p.piece f t pro) :
    (L.flatMap fun f => (B f).toList.flatMap fun t => mv f t).Nodup := by
  rw [List.nodup_flatMap]
  constructor
  · intro f hf
    rw [List.nodup_flatMap]
    refine ⟨fun t _ => h1 f hf t, (hB f hf).nodup_toList.imp_of_mem ?_⟩
    intro t t' _ _ hne m hm hm'
    obtain ⟨pro, e⟩ := h2 f hf t m hm
    obtain ⟨pro', e'⟩ := h2 f hf t' m hm'
    exact hne (boardMove_inj p (e.symm.trans e')).2.1
  · refine hL.imp_of_mem ?_
    intro f f' hf hf' hne m hm hm'
    rw [List.mem_flatMap] at hm hm'
    obtain ⟨t, -, hm⟩ := hm
    obtain ⟨t', -, hm'⟩ := hm'
    obtain ⟨pro, e⟩ := h2 f hf t m hm
    obtain ⟨pro', e'⟩ := h2 f' hf' t' m hm'
    exact hne (boardMove_inj p (e.symm.trans e')).1

section nodup
variable {p : Position} (h : Consistent p)
include h

theorem nodup_kind_loop (kd : Kind) (target : Bitboard) (mv : Square → Square → List Move)
    (h1 : ∀ f, (absPos p).board f = some (p.turn, kd) → ∀ t, (mv f t).Nodup ∧ ∀ m ∈ mv f t, ∃ pro, m = boardMove p.piece f t pro) :
    ((p.bbOf kd.code p.turn).toList.flatMap fun f =>
      (attacksFrom kd.code p.turn f p.occupied &&& target).toList.flatMap fun t => mv f t).Nodup := by
  have hw : (p.bbOf kd.code p.turn).WF := (h.wfType _).and_left
  refine nodup_loop (p := p) _ _ _ hw.nodup_toList (fun f _ => (wf_attacksFrom kd p.turn f p.occupied).and_left) ?_ ?_
  · intro f hf; exact fun t => (h1 f ((mem_bbOf h kd _ _).mp hf) t).1
  · intro f hf; exact fun t => (h1 f ((mem_bbOf h kd _ _).mp hf) t).2

theorem nodup_genLance (all : Bool) (target : Bitboard) : (genLance p p.turn all target).Nodup := by
  unfold genLance
  rw [show PT.Lance = Kind.lance.code from rfl]
  refine nodup_kind_loop h .lance target _ fun f hf t => ?_
  rw [genPro_eq (pieceType_at h hf), genMove_eq (pieceType_at h hf)]
  have a := nodup_two p f t true
  simp only [if_true] at a
  constructor
  · repeat' split
    all_goals first | exact List.nodup_singleton _ | exact a
  · intro m hm
    have : m = boardMove p.piece f t true ∨ m = boardMove p.piece f t false := by
      revert hm
      obtain ⟨x, hx⟩ : ∃ x, x = boardMove p.piece f t true := ⟨_, rfl⟩
      obtain ⟨y, hy⟩ : ∃ y, y = boardMove p.piece f t false := ⟨_, rfl⟩
      rw [← hx, ← hy]
      repeat' split
      all_goals simp only [List.mem_cons, List.not_mem_nil, or_false]
      all_goals first | exact id | exact .inl | exact .inr
    rcases this with e | e <;> exact ⟨_, e⟩

theorem nodup_genKnight (target : Bitboard) : (genKnight p p.turn target).Nodup := by
  unfold genKnight
  rw [show PT.Knight = Kind.knight.code from rfl]
  refine nodup_kind_loop h .knight target _ fun f hf t => ?_
  rw [genPro_eq (pieceType_at h hf), genMove_eq (pieceType_at h hf)]
  have a := nodup_two p f t true
  simp only [if_true] at a
  constructor
  · repeat' split
    all_goals first | exact List.nodup_singleton _ | exact a
  · intro m hm
    have : m = boardMove p.piece f t true ∨ m = boardMove p.piece f t false := by
      revert hm
      obtain ⟨x, hx⟩ : ∃ x, x = boardMove p.piece f t true := ⟨_, rfl⟩
      obtain ⟨y, hy⟩ : ∃ y, y = boardMove p.piece f t false := ⟨_, rfl⟩
      rw [← hx, ← hy]
      repeat' split
      all_goals simp only [List.mem_cons, List.not_mem_nil, or_false]
      all_goals first | exact id | exact .inl | exact .inr
    rcases this with e | e <;> exact ⟨_, e⟩

theorem nodup_genSilver (target : Bitboard) : (genSilver p p.turn target).Nodup := by
  unfold genSilver
  rw [show PT.Silver = Kind.silver.code from rfl]
  refine nodup_kind_loop h .silver target _ fun f hf t => ?_
  rw [genPro_eq (pieceType_at h hf), genMove_eq (pieceType_at h hf)]
  have a := nodup_two p f t true
  simp only [if_true] at a
  constructor
  · repeat' split
    · exact a
    · simp
  · intro m hm
    have : m = boardMove p.piece f t true ∨ m = boardMove p.piece f t false := by
      revert hm
      split
      all_goals simp
      all_goals exact .inr
    rcases this with e | e <;> exact ⟨_, e⟩

theorem nodup_genBishopOrRook (kd : Kind) (all : Bool) (target : Bitboard) : (genBishopOrRook p kd.code p.turn all target).Nodup := by
  unfold genBishopOrRook
  refine nodup_kind_loop h kd target _ fun f hf t => ?_
  rw [genPro_eq (pieceType_at h hf), genMove_eq (pieceType_at h hf)]
  have a := nodup_two p f t true
  simp only [if_true] at a
  constructor
  · repeat' split
    all_goals first | exact List.nodup_singleton _ | exact a
  · intro m hm
    have : m = boardMove p.piece f t true ∨ m = boardMove p.piece f t false := by
      revert hm
      obtain ⟨x, hx⟩ : ∃ x, x = boardMove p.piece f t true := ⟨_, rfl⟩
      obtain ⟨y, hy⟩ : ∃ y, y = boardMove p.piece f t false := ⟨_, rfl⟩
      rw [← hx, ← hy]
      repeat' split
      all_goals simp only [List.mem_cons, List.not_mem_nil, or_false]
      all_goals first | exact id | exact .inl | exact .inr
    rcases this with e | e <;> exact ⟨_, e⟩

theorem nodup_genGHD (target : Bitboard) : (genGoldHorseDragon p p.turn target).Nodup := by
  have hw : ((p.golds ||| p.bbOf2 PT.Horse PT.Dragon) &&& p.byColor p.turn).WF := (h.wfColor _).and_right
  unfold genGoldHorseDragon
  have hm : ∀ f (b : Bitboard), b.toList.map (fun t => genMove p (pieceType (p.piece f)) f t) =
      b.toList.flatMap fun t => [genMove p (pieceType (p.piece f)) f t] := by
    intro f b; rw [List.map_eq_flatMap]
  simp only [hm]
  refine nodup_loop (p := p) _ _ _ hw.nodup_toList ?_ ?_ ?_
  · intro f hf
    obtain ⟨kd, hk, -⟩ := (mem_goldHorseDragon h _ _).mp hf
    rw [pieceType_at h hk]
    exact (wf_attacksFrom kd p.turn f p.occupied).and_left
  · intro f _ t; simp
  · intro f _ t m hm
    rw [List.mem_singleton, genMove_eq rfl] at hm
    exact ⟨_, hm⟩

theorem nodup_genKing (b : Bitboard) (hb : b.WF) {k : Square} (hk : (absPos p).board k = some (p.turn, .king)) :
    (b.toList.map fun t => genMove p PT.King k t).Nodup := by
  refine hb.nodup_toList.map ?_
  intro t t' e
  simp only at e
  rw [genMove_eq (pt := PT.King) (pieceType_at h hk), genMove_eq (pt := PT.King) (pieceType_at h hk)] at e
  exact (boardMove_inj p e).2.1

theorem nodup_genPawn (halive : ∀ s, (absPos p).board s = some (p.turn, .pawn) → ¬ Dead p.turn .pawn s) (all : Bool)
    (target : Bitboard) : (genPawn p p.turn all target).Nodup := by
  have hw : (pawnOn p p.turn target).WF := (wf_pawnStep h halive).and_left.and_left
  have hw' := pawnRest_wf h halive target
  rw [genPawn_eq, List.nodup_append]
  have key : ∀ t : Square, (∃ s, (absPos p).board s = some (p.turn, .pawn) ∧ Attacks p.turn .pawn (absPos p).occ s t) →
      genPro p PT.Pawn (backSq p.turn t) t = boardMove p.piece (backSq p.turn t) t true ∧
      genMove p PT.Pawn (backSq p.turn t) t = boardMove p.piece (backSq p.turn t) t false := by
    rintro t ⟨s, hs, ha⟩
    rw [backSq_attack ha]
    exact ⟨genPro_eq (pt := PT.Pawn) (pieceType_at h hs), genMove_eq (pt := PT.Pawn) (pieceType_at h hs)⟩
  have dst : ∀ t ∈ (pawnOn p p.turn target).toList, ∀ m, m ∈ (genPro p PT.Pawn (backSq p.turn t) t ::
        (if all && rank t != (match p.turn with | .black => 0 | .white => 8) then [genMove p PT.Pawn (backSq p.turn t) t] else [])) →
      m.dst = t.val := by
    intro t ht m hm
    obtain ⟨k1, k2⟩ := key t ((pawnOn_iff h halive target t).mp ht).1
    rw [k1, k2, List.mem_cons, List.mem_ite_nil_right, List.mem_singleton] at hm
    rcases hm with e | ⟨-, e⟩ <;> rw [e] <;> exact (src_eq p _ _ _).2.1
  refine ⟨?_, ?_, ?_⟩
  · rw [List.nodup_flatMap]
    refine ⟨?_, hw.nodup_toList.imp_of_mem ?_⟩
    · intro t ht
      obtain ⟨k1, k2⟩ := key t ((pawnOn_iff h halive target t).mp ht).1
      rw [k1, k2]
      exact nodup_two p _ t _
    · intro t t' ht ht' hne m hm hm'
      have e1 := dst t ht m hm
      have e2 := dst t' ht' m hm'
      exact hne (Fin.ext (e1.symm.trans e2))
  · refine hw'.nodup_toList.map_on ?_
    intro t ht t' ht' e
    have a := (key t ((pawnRest_iff h halive target t).mp ht).1).2
    have b := (key t' ((pawnRest_iff h halive target t').mp ht').1).2
    rw [a, b] at e
    exact (boardMove_inj p e).2.1
  · intro m hm m' hm' e
    subst e
    rw [List.mem_flatMap] at hm
    rw [List.mem_map] at hm'
    obtain ⟨t, ht, hm⟩ := hm
    obtain ⟨t', ht', hm'⟩ := hm'
    have e1 := dst t ht m hm
    have b := (key t' ((pawnRest_iff h halive target t').mp ht').1).2
    rw [b] at hm'
    have e2 : m.dst = t'.val := by rw [← hm']; exact (src_eq p _ _ _).2.1
    obtain rfl : t = t' := Fin.ext (e1.symm.trans e2)
    exact ((pawnRest_iff h halive target t).mp ht').2.2 ((pawnOn_iff h halive target t).mp ht).2.2

theorem nodup_genPieces (halive : ∀ s, (absPos p).board s = some (p.turn, .pawn) → ¬ Dead p.turn .pawn s)
    (target : Bitboard) : (genPieces p p.turn true target).Nodup := by
  unfold genPieces
  simp only [List.nodup_append]
  have n1 := nodup_genPawn h halive true target
  have n2 := nodup_genLance h true target
  have n3 := nodup_genKnight h target
  have n4 := nodup_genSilver h target
  have n5 := nodup_genBishopOrRook h .bishop true target
  have n6 := nodup_genBishopOrRook h .rook true target
  have n7 := nodup_genGHD h target
  simp only [List.mem_append]
  rw [show PT.Bishop = Kind.bishop.code from rfl, show PT.Rook = Kind.rook.code from rfl]
  simp only [mem_genPawn h halive, mem_genLance h, mem_genKnight h, mem_genSilver h,
    mem_genBishopOrRook h .bishop (.inl rfl), mem_genBishopOrRook h .rook (.inr rfl), mem_genGHD h]
  have dj : ∀ {k k' : Kind}, k ≠ k' → ∀ {m m' : Move}, GenOf p k target m → GenOf p k' target m' → m ≠ m' := by
    intro k k' hne m m' g g' e
    subst e
    exact hne (g.kind g')
  refine ⟨⟨⟨⟨⟨⟨n1, n2, ?_⟩, n3, ?_⟩, n4, ?_⟩, n5, ?_⟩, n6, ?_⟩, n7, ?_⟩
  · intro m hm m' hm'; exact dj (by decide) hm hm'
  · rintro m (hm | hm) m' hm' <;> exact dj (by decide) hm hm'
  · rintro m ((hm | hm) | hm) m' hm' <;> exact dj (by decide) hm hm'
  · rintro m (((hm | hm) | hm) | hm) m' hm' <;> exact dj (by decide) hm hm'
  · rintro m ((((hm | hm) | hm) | hm) | hm) m' hm' <;> exact dj (by decide) hm hm'
  · rintro m (((((hm | hm) | hm) | hm) | hm) | hm) m' ⟨kd, hg, hm'⟩ <;>
      exact dj (by rintro rfl; simp [goldLike] at hg) hm hm'

end nodup

end Verif
