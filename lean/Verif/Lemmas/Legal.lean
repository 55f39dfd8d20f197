import Verif.Lemmas.Evasion

/-!
The generators against the rules.
-/

namespace Verif
open Spec Bitboard Position

theorem isSet_emptyBB {p : Position} (h : Consistent p) (t : Square) : p.emptyBB.isSet t = true ↔ (absPos p).board t = none := by
  unfold emptyBB
  rw [isSet_xor, isSet_allOne, h.occ]
  unfold Pos.occ
  cases (absPos p).board t <;> simp

theorem wf_emptyBB {p : Position} (h : Consistent p) : p.emptyBB.WF := h.wfOcc.xor WF.allOne

theorem not_own {p : Position} (h : Consistent p) (t : Square) :
    (p.emptyBB ||| p.byColor p.turn.opp).isSet t = true ↔ ∀ k', (absPos p).board t ≠ some (p.turn, k') := by
  rw [isSet_or, Bool.or_eq_true, isSet_emptyBB h, h.color]
  constructor
  · rintro (e | ⟨k, e⟩) k' e' <;> rw [e] at e'
    · cases e'
    · simp only [Option.some.injEq, Prod.mk.injEq] at e'
      exact opp_ne _ e'.1
  · intro hn
    rcases e : (absPos p).board t with _ | ⟨c, k⟩
    · exact .inl rfl
    · rcases eq_or_opp p.turn c with rfl | rfl
      · exact absurd e (hn k)
      · exact .inr ⟨k, rfl⟩

theorem genOf_pseudo {p : Position} {kd : Kind} {target : Bitboard} {m : Move}
    (ht : ∀ t, target.isSet t = true → ∀ k', (absPos p).board t ≠ some (p.turn, k')) :
    GenOf p kd target m ↔ ∃ f t pro, m = encode p (.move f t pro) ∧ (absPos p).Pseudo (.move f t pro) ∧
      (absPos p).board f = some (p.turn, kd) ∧ target.isSet t = true := by
  constructor
  · rintro ⟨f, t, pro, e, hf, ha, hs, h1, h2⟩
    exact ⟨f, t, pro, e, ⟨kd, hf, ha, ht t hs, h1, h2⟩, hf, hs⟩
  · rintro ⟨f, t, pro, e, ⟨kd', hf', ha, -, h1, h2⟩, hf, hs⟩
    rw [show (absPos p).turn = p.turn from rfl] at *
    rw [hf] at hf'; cases hf'
    exact ⟨f, t, pro, e, hf, ha, hs, h1, h2⟩

theorem encode_isDrop (p : Position) (f t : Square) (pro : Bool) : (encode p (.move f t pro)).isDrop = false := by
  have hf := C01_board_move_fields p.piece f t pro
  simp only [readBoardMove, Prod.mk.injEq] at hf
  exact hf.2.2.2.2.2

theorem encode_inj (p : Position) {a b : Mv} (h : encode p a = encode p b) : a = b := by
  cases a with
  | move f t pro =>
    cases b with
    | move f' t' pro' => obtain ⟨rfl, rfl, rfl⟩ := boardMove_inj p h; rfl
    | drop hp t' =>
      have h1 := encode_isDrop p f t pro
      rw [h] at h1
      have h2 : (encode p (.drop hp t')).isDrop = true := (drop_fields hp t').2.2.1
      rw [h1] at h2; cases h2
  | drop hp t =>
    cases b with
    | move f' t' pro' =>
      have h1 := encode_isDrop p f' t' pro'
      rw [← h] at h1
      have h2 : (encode p (.drop hp t)).isDrop = true := (drop_fields hp t).2.2.1
      rw [h1] at h2; cases h2
    | drop hp' t' => obtain ⟨rfl, rfl⟩ := drop_inj h; rfl

/-! ### The final test -/

section
variable {p : Position}

theorem isLegal_drop (hp : HKind) (t : Square) (bb : Bitboard) : p.pseudoLegalMoveIsLegal (encode p (.drop hp t)) bb = true := by
  unfold pseudoLegalMoveIsLegal
  rw [show (encode p (.drop hp t)).isDrop = true from (drop_fields hp t).2.2.1]; rfl

theorem sqN_fields (f t : Square) (pro : Bool) : sqN (encode p (.move f t pro)).src = f ∧ sqN (encode p (.move f t pro)).dst = t := by
  obtain ⟨h1, h2, -⟩ := src_eq p f t pro
  constructor
  · show sqN (boardMove p.piece f t pro).src = f; rw [h1, sqN_val]
  · show sqN (boardMove p.piece f t pro).dst = t; rw [h2, sqN_val]

theorem isLegal_king (h : Consistent p) {f t : Square} {pro : Bool} (hf : (absPos p).board f = some (p.turn, .king)) (bb : Bitboard) :
    p.pseudoLegalMoveIsLegal (encode p (.move f t pro)) bb = true ↔
      ¬ ∃ u kd, (absPos p).board u = some (p.turn.opp, kd) ∧ Attacks p.turn.opp kd (absPos p).occ u t := by
  unfold pseudoLegalMoveIsLegal
  obtain ⟨h1, h2⟩ := sqN_fields (p := p) f t pro
  rw [encode_isDrop, h1, h2]
  simp only [Bool.false_eq_true, if_false]
  rw [if_pos (show pieceType (p.piece f) = PT.King from pieceType_at h hf), Bool.not_eq_true', ← Bool.not_eq_true, attackersIsAny_iff h, h.occ_fun]

theorem isLegal_other (h : Consistent p) {f t k : Square} {pro : Bool} {kd : Kind} (hf : (absPos p).board f = some (p.turn, kd))
    (hkd : kd ≠ .king) (hk : p.kingSquare p.turn = some k) (ha : Attacks p.turn kd (absPos p).occ f t)
    (ht : ∀ k', (absPos p).board t ≠ some (p.turn, k')) :
    p.pseudoLegalMoveIsLegal (encode p (.move f t pro)) p.pinnedBB = true ↔
      ¬ ∃ s, PinLine (absPos p) p.turn.opp k f s ∧ s ≠ t ∧ ¬ Between s t k := by
  have hK := h.kingAt hk
  have htk : t ≠ k := by rintro rfl; exact ht _ hK.at
  unfold pseudoLegalMoveIsLegal
  obtain ⟨h1, h2⟩ := sqN_fields (p := p) f t pro
  rw [encode_isDrop, h1, h2]
  simp only [Bool.false_eq_true, if_false]
  rw [if_neg, Bool.not_eq_true', ← Bool.not_eq_true, hk,
    leavesLine_iff (a := p.turn.opp) (b := p.turn) ?_ ⟨kd, hf⟩ hK.occ (fun u hu => Attacks.path ha u hu) htk (attacks_ne ha).symm]
  · rw [isSet_pinnedBB h, hk]; simp
  · rw [pieceType_at h hf]
    intro e
    apply hkd
    cases kd <;> first | rfl | exact absurd e (by decide)

/-- Kinds of pseudo-legal moves. -/
theorem pseudo_cases {m : Mv} (hm : (absPos p).Pseudo m) :
    (∃ hp t, m = .drop hp t ∧ (absPos p).board t = none) ∨
    (∃ f t pro kd, m = .move f t pro ∧ (absPos p).board f = some (p.turn, kd) ∧ Attacks p.turn kd (absPos p).occ f t ∧
      (∀ k', (absPos p).board t ≠ some (p.turn, k'))) := by
  cases m with
  | drop hp t => exact .inl ⟨hp, t, rfl, hm.2.1⟩
  | move f t pro =>
    obtain ⟨kd, hf, ha, ht, -⟩ := hm
    exact .inr ⟨f, t, pro, kd, rfl, hf, ha, ht⟩

theorem kings_of (h : Consistent p) (hq : (absPos p).Regular) (c : Color) : ∃ k, p.kingSquare c = some k := by
  obtain ⟨k, hk⟩ := hq.kings c
  exact ⟨k, (h.king c k).mpr ((hk k).mpr rfl)⟩

/-- When the mover is not in check, the final test decides the safety of the king. -/
theorem isLegal_quiet (h : Consistent p) (hq : (absPos p).Regular) (hnc : ¬ (absPos p).InCheck p.turn) {m : Mv} (hm : (absPos p).Pseudo m) :
    p.pseudoLegalMoveIsLegal (encode p m) p.pinnedBB = true ↔ ¬ ((absPos p).play m).InCheck p.turn := by
  obtain ⟨k, hk⟩ := kings_of h hq p.turn
  have hK := h.kingAt hk
  have hnc' : ∀ s, ¬ Checker (absPos p) k s := fun s hs => hnc (hK.inCheck.mpr ⟨s, hs⟩)
  rcases pseudo_cases hm with ⟨hp, t, rfl, ht⟩ | ⟨f, t, pro, kd, rfl, hf, ha, ht⟩
  · have := drop_inCheck (q := absPos p) hK (h := hp) ht
    rw [show (absPos p).turn = p.turn from rfl] at this
    rw [this]
    exact iff_of_true (isLegal_drop hp t _) fun ⟨s, hs, _⟩ => hnc' s hs
  · by_cases hkd : kd = .king
    · subst hkd
      obtain rfl := (hK f).mp hf
      have := king_inCheck (q := absPos p) hK (pro := pro) (attacks_ne ha).symm
      rw [show (absPos p).turn = p.turn from rfl] at this
      rw [isLegal_king h hf, this]
      refine not_congr (exists_congr fun s => exists_congr fun kd => and_congr_right fun hs => ?_)
      rw [attacks_without]
      constructor
      · exact .inl
      · rintro (e | ⟨e, -⟩)
        · exact e
        · exact absurd ⟨kd, hs, e⟩ (hnc' s)
    · have := move_inCheck (q := absPos p) hK (pro := pro) hf hkd ht
      rw [show (absPos p).turn = p.turn from rfl] at this
      rw [isLegal_other h hf hkd hk ha ht, this]
      refine not_congr (exists_congr fun s => and_congr_left fun _ => ?_)
      exact ⟨.inr, fun e => e.resolve_left (hnc' s)⟩

/-! ### Not in check -/

theorem genNonEvasion_spec (h : Consistent p) (hq : (absPos p).Regular) :
    ∃ l, genNonEvasion p = some l ∧ l.Nodup ∧
      ∀ m, m ∈ l ↔ ∃ mv, m = encode p mv ∧ (absPos p).Pseudo mv ∧ ¬ (absPos p).PawnDropMate mv := by
  obtain ⟨k, hk⟩ := kings_of h hq p.turn
  obtain ⟨k', hk'⟩ := kings_of h hq p.turn.opp
  have hK := h.kingAt hk
  have hu : ∀ s, (absPos p).board s = some (p.turn, .king) ↔ s = k := hK
  have halive : ∀ s, (absPos p).board s = some (p.turn, .pawn) → ¬ Dead p.turn .pawn s := fun s hs => hq.alive s _ _ hs
  obtain ⟨drops, hd, ndd, hmd⟩ := genDrops_spec h (wf_emptyBB h) (fun t => (isSet_emptyBB h t).mp) hk'
  have hw : (p.emptyBB ||| p.byColor p.turn.opp).WF := (wf_emptyBB h).or (h.wfColor _)
  have hmp := mem_genPieces h halive (p.emptyBB ||| p.byColor p.turn.opp)
  have hmk := mem_genKing h (p.emptyBB ||| p.byColor p.turn.opp) hk hu
  have ndp := nodup_genPieces h halive (p.emptyBB ||| p.byColor p.turn.opp)
  have ndk := nodup_genKing h (kingAttack k &&& (p.emptyBB ||| p.byColor p.turn.opp)) (wf_attacksFrom .king p.turn k p.occupied).and_left hK.at
  have hown : ∀ t, (p.emptyBB ||| p.byColor p.turn.opp).isSet t = true → ∀ k', (absPos p).board t ≠ some (p.turn, k') :=
    fun t => (not_own h t).mp
  unfold genNonEvasion genKing
  simp only [hd, hk, Option.bind_some, Option.map_some]
  refine ⟨_, rfl, ?_, ?_⟩
  · simp only [List.nodup_append, List.mem_append]
    refine ⟨⟨ndd, ndp, ?_⟩, ndk, ?_⟩
    · intro m hm m' hm' e
      subst e
      obtain ⟨hp, t, e, -⟩ := (hmd m).mp hm
      obtain ⟨kd, -, hg⟩ := (hmp m).mp hm'
      obtain ⟨f', t', pro', e', -⟩ := (genOf_pseudo hown).mp hg
      have := encode_inj p (show encode p (.drop hp t) = encode p (.move f' t' pro') from e.symm.trans e')
      cases this
    · intro m hm m' hm' e
      subst e
      have hg := (hmk m).mp hm'
      rcases hm with hm | hm
      · obtain ⟨hp, t, e, -⟩ := (hmd m).mp hm
        obtain ⟨f', t', pro', e', -⟩ := (genOf_pseudo hown).mp hg
        have := encode_inj p (show encode p (.drop hp t) = encode p (.move f' t' pro') from e.symm.trans e')
        cases this
      · obtain ⟨kd, hkd, hg'⟩ := (hmp m).mp hm
        exact hkd (hg'.kind hg)
  · intro m
    rw [List.mem_append, List.mem_append, hmd, hmp, hmk]
    constructor
    · rintro ((⟨hp, t, e, hps, ht, hmate⟩ | ⟨kd, hkd, hg⟩) | hg)
      · exact ⟨.drop hp t, e, hps, (pawnDrop_iff h hk' hq.waiting hp hps.2.1).mp hmate⟩
      · obtain ⟨f, t, pro, e, hps, -⟩ := (genOf_pseudo hown).mp hg
        exact ⟨_, e, hps, by rintro ⟨t', e', -⟩; cases e'⟩
      · obtain ⟨f, t, pro, e, hps, -⟩ := (genOf_pseudo hown).mp hg
        exact ⟨_, e, hps, by rintro ⟨t', e', -⟩; cases e'⟩
    · rintro ⟨mv, e, hps, hmate⟩
      cases mv with
      | drop hp t =>
        exact .inl (.inl ⟨hp, t, e, hps, (isSet_emptyBB h t).mpr hps.2.1, (pawnDrop_iff h hk' hq.waiting hp hps.2.1).mpr hmate⟩)
      | move f t pro =>
        have hps' := hps
        obtain ⟨kd, hf, -, ht, -⟩ := hps'
        have hg : GenOf p kd (p.emptyBB ||| p.byColor p.turn.opp) m := (genOf_pseudo hown).mpr ⟨f, t, pro, e, hps, hf, (not_own h t).mpr ht⟩
        by_cases hkd : kd = .king
        · subst hkd; exact .inr hg
        · exact .inl (.inr ⟨kd, hkd, hg⟩)

/-! ### In check -/

theorem king_evasion (h : Consistent p) {k t : Square} {pro : Bool} (hK : KingAt (absPos p) p.turn k) (htk : t ≠ k) {b : Bitboard}
    (hst : StepAt p.turn .king k t)
    (hb : ∀ u, StepAt p.turn .king k u → u ≠ k →
      (b.isSet u = true → zero.isSet u = true ∨ ∃ s kd, (absPos p).board s = some (p.turn.opp, kd) ∧ Attacks p.turn.opp kd (occWithout (absPos p).occ k) s u) ∧
      ((zero.isSet u = true ∨ ∃ s, Checker (absPos p) k s ∧ ∃ kd, (absPos p).board s = some (p.turn.opp, kd) ∧ SlideLine p.turn.opp kd s k ∧ Between s k u) →
        b.isSet u = true)) :
    (b.isSet t = false ∧ p.pseudoLegalMoveIsLegal (encode p (.move k t pro)) p.pinnedBB = true) ↔
      ¬ ((absPos p).play (.move k t pro)).InCheck p.turn := by
  have := king_inCheck (q := absPos p) hK (pro := pro) htk
  rw [show (absPos p).turn = p.turn from rfl] at this
  rw [this, isLegal_king h hK.at]
  obtain ⟨b1, b2⟩ := hb t hst htk
  constructor
  · rintro ⟨h1, h2⟩ ⟨s, kd, hs, ha⟩
    rcases attacks_without.mp ha with ha | ⟨ha, hsl, hbt, -⟩
    · exact h2 ⟨s, kd, hs, ha⟩
    · rw [b2 (.inr ⟨s, ⟨kd, hs, ha⟩, kd, hs, hsl, hbt⟩)] at h1; cases h1
  · intro hn
    constructor
    · rw [Bool.eq_false_iff]
      intro e
      rcases b1 e with e | e
      · simp at e
      · exact hn e
    · rintro ⟨s, kd, hs, ha⟩
      exact hn ⟨s, kd, hs, attacks_without.mpr (.inl ha)⟩

theorem genEvasion_spec (h : Consistent p) (hc : CheckOK p) (hq : (absPos p).Regular) (hin : (absPos p).InCheck p.turn) :
    ∃ l, genEvasion p true = some l ∧ l.Nodup ∧
      (∀ m ∈ l, ∃ mv, m = encode p mv ∧ (absPos p).Pseudo mv) ∧
      ∀ m, (m ∈ l ∧ p.pseudoLegalMoveIsLegal m p.pinnedBB = true) ↔ ∃ mv, m = encode p mv ∧ (absPos p).Legal mv := by
  obtain ⟨k, hk⟩ := kings_of h hq p.turn
  obtain ⟨k', hk'⟩ := kings_of h hq p.turn.opp
  have hK := h.kingAt hk
  have hu : ∀ s, (absPos p).board s = some (p.turn, .king) ↔ s = k := hK
  have halive : ∀ s, (absPos p).board s = some (p.turn, .pawn) → ¬ Dead p.turn .pawn s := fun s hs => hq.alive s _ _ hs
  -- the checkers
  have hchk : ∀ s, s ∈ p.st.checkersBB.toList ↔ Checker (absPos p) k s := by
    intro s
    rw [hc.wf.mem_toList, hc.iff]
    constructor
    · rintro ⟨k2, e, ha⟩; rw [(hK k2).mp e] at ha; exact ha
    · intro ha; exact ⟨k, hK.at, ha⟩
  have hnk : ∀ s ∈ p.st.checkersBB.toList, ∃ kd, (absPos p).board s = some (p.turn.opp, kd) ∧ kd ≠ .king ∧
      Attacks p.turn.opp kd (absPos p).occ s k := by
    intro s hs
    obtain ⟨kd, e, ha⟩ := (hchk s).mp hs
    refine ⟨kd, e, ?_, ha⟩
    rintro rfl
    exact kings_apart hq.waiting hK.at e ha
  obtain ⟨banned, hban, wban, hbspec⟩ := bannedLoop_spec h (c' := p.turn) p.st.checkersBB.toList zero WF.zero hnk
  have hb : ∀ u, StepAt p.turn .king k u → u ≠ k →
      (banned.isSet u = true → zero.isSet u = true ∨ ∃ s kd, (absPos p).board s = some (p.turn.opp, kd) ∧ Attacks p.turn.opp kd (occWithout (absPos p).occ k) s u) ∧
      ((zero.isSet u = true ∨ ∃ s, Checker (absPos p) k s ∧ ∃ kd, (absPos p).board s = some (p.turn.opp, kd) ∧ SlideLine p.turn.opp kd s k ∧ Between s k u) →
        banned.isSet u = true) := by
    intro u hst hne
    refine ⟨(hbspec u hst hne).1, fun e => (hbspec u hst hne).2 ?_⟩
    rcases e with e | ⟨s, hs, hx⟩
    · exact .inl e
    · exact .inr ⟨s, (hchk s).mpr hs, hx⟩
  -- the king's moves
  have wkb : (banned.notAnd ((p.byColor p.turn).notAnd (kingAttack k))).WF := ((wf_attacksFrom .king p.turn k p.occupied).notAnd).notAnd
  obtain ⟨kingL, hkL⟩ : ∃ L, L = (banned.notAnd ((p.byColor p.turn).notAnd (kingAttack k))).toList.map fun t => genMove p PT.King k t := ⟨_, rfl⟩
  have ndk : kingL.Nodup := by rw [hkL]; exact nodup_genKing h _ wkb hK.at
  have hmk : ∀ m, m ∈ kingL ↔ ∃ t, m = encode p (.move k t false) ∧ (absPos p).Pseudo (.move k t false) ∧ banned.isSet t = false := by
    intro m
    rw [hkL, List.mem_map]
    have hset : ∀ t, t ∈ (banned.notAnd ((p.byColor p.turn).notAnd (kingAttack k))).toList ↔
        banned.isSet t = false ∧ (∀ kd, (absPos p).board t ≠ some (p.turn, kd)) ∧ Attacks p.turn .king (absPos p).occ k t := by
      intro t
      rw [wkb.mem_toList, isSet_notAnd, isSet_notAnd, Bool.and_eq_true, Bool.and_eq_true, Bool.not_eq_true', Bool.not_eq_true',
        ← Bool.not_eq_true ((p.byColor p.turn).isSet t), h.color,
        show kingAttack k = attacksFrom Kind.king.code p.turn k p.occupied from rfl, isSet_attacksFrom, h.occ_fun]
      simp only [not_exists, ne_eq]
    constructor
    · rintro ⟨t, ht, e⟩
      obtain ⟨h1, h2, h3⟩ := (hset t).mp ht
      exact ⟨t, by rw [← e, genMove_eq (pt := PT.King) (pieceType_at h hK.at)]; rfl,
        ⟨.king, hK.at, h3, h2, (fun e => by cases e), fun _ => id⟩, h1⟩
    · rintro ⟨t, e, ⟨kd, hf, ha, ht, -⟩, h1⟩
      rw [show (absPos p).turn = p.turn from rfl] at hf ha ht
      rw [hK.at] at hf; cases hf
      exact ⟨t, (hset t).mpr ⟨h1, ht, ha⟩, by rw [e, genMove_eq (pt := PT.King) (pieceType_at h hK.at)]; rfl⟩
  have hkfin : ∀ m, (m ∈ kingL ∧ p.pseudoLegalMoveIsLegal m p.pinnedBB = true) ↔
      ∃ t pro, m = encode p (.move k t pro) ∧ (absPos p).Legal (.move k t pro) := by
    intro m
    rw [hmk]
    constructor
    · rintro ⟨⟨t, e, hps, h1⟩, h2⟩
      have hps' := hps
      obtain ⟨kd, hf, ha, -⟩ := hps'
      rw [hK.at] at hf; cases hf
      have := (king_evasion h (pro := false) hK (attacks_ne ha).symm (king_step ha) hb).mp ⟨h1, by rw [← e]; exact h2⟩
      exact ⟨t, false, e, ⟨hps, this⟩, by rintro ⟨t', e', -⟩; cases e'⟩
    · rintro ⟨t, pro, e, ⟨hps, hs⟩, -⟩
      have hps' := hps
      obtain ⟨kd, hf, ha, -, h1, -⟩ := hps'
      rw [hK.at] at hf; cases hf
      have hpro : pro = false := by
        cases pro
        · rfl
        · have := (h1 rfl).1; cases this
      subst hpro
      obtain ⟨h2, h3⟩ := (king_evasion h (pro := false) hK (attacks_ne ha).symm (king_step ha) hb).mpr hs
      exact ⟨⟨t, e, hps, h2⟩, by rw [e]; exact h3⟩
  -- other moves
  have hother : ∀ mv, (absPos p).Safe mv → (∀ t pro, mv ≠ .move k t pro) →
      ∃ t, (∀ s, Checker (absPos p) k s → s = t ∨ Between s t k) := by
    rintro mv ⟨hps, hs⟩ hne
    rcases pseudo_cases hps with ⟨hp, t, rfl, ht⟩ | ⟨f, t, pro, kd, rfl, hf, ha, ht⟩
    · refine ⟨t, fun s hsc => .inr ?_⟩
      by_contra hb
      exact hs ((drop_inCheck (q := absPos p) hK (h := hp) ht).mpr ⟨s, hsc, hb⟩)
    · refine ⟨t, fun s hsc => ?_⟩
      by_contra hb
      push Not at hb
      have hkd : kd ≠ .king := by rintro rfl; rw [(hK f).mp hf] at hne; exact hne t pro rfl
      exact hs ((move_inCheck (q := absPos p) hK hf hkd ht).mpr ⟨s, .inl hsc, hb.1, hb.2⟩)
  have hpsK : ∀ m ∈ kingL, ∃ mv, m = encode p mv ∧ (absPos p).Pseudo mv := by
    intro m hm
    obtain ⟨t, e, hps, -⟩ := (hmk m).mp hm
    exact ⟨_, e, hps⟩
  have hnd := hc.wf.nodup_toList
  unfold genEvasion
  simp only [hk, hban, ← hkL]
  rcases hrev : p.st.checkersBB.toList.reverse with _ | ⟨c, others⟩
  · exfalso
    obtain ⟨s, hs⟩ := hK.inCheck.mp hin
    have := (hchk s).mpr hs
    rw [List.reverse_eq_nil_iff.mp hrev] at this; cases this
  · have hmemc : ∀ s, Checker (absPos p) k s ↔ s = c ∨ s ∈ others := by
      intro s
      rw [← hchk, ← List.mem_reverse, hrev, List.mem_cons]
    simp only []
    cases others with
    | cons c2 others =>
      refine ⟨kingL, rfl, ndk, hpsK, fun m => ?_⟩
      rw [hkfin]
      constructor
      · rintro ⟨t, pro, e, hl⟩; exact ⟨_, e, hl⟩
      · rintro ⟨mv, e, hl⟩
        by_cases hkm : ∃ t pro, mv = .move k t pro
        · obtain ⟨t, pro, rfl⟩ := hkm; exact ⟨t, pro, e, hl⟩
        · exfalso
          push Not at hkm
          obtain ⟨t, ht⟩ := hother mv hl.1 hkm
          have n : (c :: c2 :: others).Nodup := by rw [← hrev]; exact List.nodup_reverse.mpr hnd
          have hne : c ≠ c2 := by
            rintro rfl; simp at n
          have m1 : Checker (absPos p) k c := (hmemc c).mpr (.inl rfl)
          have m2 : Checker (absPos p) k c2 := (hmemc c2).mpr (.inr (List.mem_cons_self ..))
          exact two_checkers m1 m2 hne (ht c m1) (ht c2 m2)
    | nil =>
      have hone : ∀ s, Checker (absPos p) k s ↔ s = c := fun s => by rw [hmemc]; simp
      obtain ⟨kc, hcb, hca⟩ := (hone c).mpr rfl
      have t1 : ∀ t, (betweenBB c k).isSet t = true ↔ Between c t k := fun t => isSet_betweenBB c k t
      have w1 : (betweenBB c k).WF := wf_betweenBB c k
      have hempty : ∀ t, (betweenBB c k).isSet t = true → (absPos p).board t = none := by
        intro t ht
        have := Attacks.path hca t ((t1 t).mp ht)
        unfold Pos.occ at this
        exact Option.isNone_iff_eq_none.mp (by rw [← Option.not_isSome, this]; rfl)
      have t2 : ∀ t, (betweenBB c k ||| p.st.checkersBB).isSet t = true ↔ c = t ∨ Between c t k := by
        intro t
        rw [isSet_or, Bool.or_eq_true, t1, ← hc.wf.mem_toList, hchk, hone, or_comm, eq_comm]
      have hown : ∀ t, (betweenBB c k ||| p.st.checkersBB).isSet t = true → ∀ k', (absPos p).board t ≠ some (p.turn, k') := by
        intro t ht k' e
        rcases (t2 t).mp ht with rfl | hbt
        · rw [show (absPos p).turn = p.turn from rfl, e] at hcb
          simp only [Option.some.injEq, Prod.mk.injEq] at hcb
          exact opp_ne p.turn hcb.1.symm
        · rw [hempty t ((t1 t).mpr hbt)] at e; cases e
      obtain ⟨pieces, hpL⟩ : ∃ L, L = genPieces p p.turn true (betweenBB c k ||| p.st.checkersBB) := ⟨_, rfl⟩
      have ndp : pieces.Nodup := by rw [hpL]; exact nodup_genPieces h halive _
      have hmp : ∀ m, m ∈ pieces ↔ ∃ kd, kd ≠ .king ∧ ∃ f t pro, m = encode p (.move f t pro) ∧ (absPos p).Pseudo (.move f t pro) ∧
          (absPos p).board f = some (p.turn, kd) ∧ (c = t ∨ Between c t k) := by
        intro m
        rw [hpL, mem_genPieces h halive]
        refine exists_congr fun kd => and_congr_right fun _ => ?_
        rw [genOf_pseudo hown]
        simp only [t2]
      have hpfin : ∀ m, (m ∈ pieces ∧ p.pseudoLegalMoveIsLegal m p.pinnedBB = true) ↔
          ∃ f t pro, f ≠ k ∧ m = encode p (.move f t pro) ∧ (absPos p).Legal (.move f t pro) := by
        intro m
        rw [hmp]
        constructor
        · rintro ⟨⟨kd, hkd, f, t, pro, e, hps, hf, htt⟩, hl⟩
          have hps' := hps
          obtain ⟨kd', hf', ha, ht, -⟩ := hps'
          rw [show (absPos p).turn = p.turn from rfl] at hf' ha ht
          rw [hf] at hf'; cases hf'
          have hfk : f ≠ k := by rintro rfl; rw [hK.at] at hf; cases hf; exact hkd rfl
          refine ⟨f, t, pro, hfk, e, ⟨hps, ?_⟩, by rintro ⟨t', e', -⟩; cases e'⟩
          rw [e, isLegal_other h hf hkd hk ha ht] at hl
          rintro hin'
          obtain ⟨s, h1, h2, h3⟩ := (move_inCheck (q := absPos p) hK hf hkd ht).mp hin'
          rcases h1 with h1 | h1
          · have := (hone s).mp h1
            subst this
            exact htt.elim h2 h3
          · exact hl ⟨s, h1, h2, h3⟩
        · rintro ⟨f, t, pro, hfk, e, ⟨hps, hs⟩, -⟩
          have hps' := hps
          obtain ⟨kd, hf, ha, ht, -⟩ := hps'
          rw [show (absPos p).turn = p.turn from rfl] at hf ha ht
          have hkd : kd ≠ .king := by rintro rfl; exact hfk ((hK f).mp hf)
          have hmi := move_inCheck (q := absPos p) hK (pro := pro) hf hkd ht
          have hs' := (not_congr hmi).mp hs
          push Not at hs'
          refine ⟨⟨kd, hkd, f, t, pro, e, hps, hf, ?_⟩, ?_⟩
          · by_cases hct : c = t
            · exact .inl hct
            · exact .inr (hs' c (.inl ((hone c).mpr rfl)) hct)
          · rw [e, isLegal_other h hf hkd hk ha ht]
            rintro ⟨s, h1, h2, h3⟩
            exact h3 (hs' s (.inr h1) h2)
      -- drops
      have hdfin : ∀ (l : List Move), (∀ m, m ∈ l ↔ ∃ (hp : HKind) (t : Square),
            m = makeDropMove hp.kind.code t.val ∧ (absPos p).Pseudo (.drop hp t) ∧ (betweenBB c k).isSet t = true ∧
            (hp = .pawn → Attacks p.turn .pawn (absPos p).occ t k' → p.isPawnDropCheckMate p.turn t = some false)) →
          ∀ m, m ∈ l ↔ ∃ hp t, m = encode p (.drop hp t) ∧ (absPos p).Legal (.drop hp t) := by
        intro l hl m
        rw [hl]
        refine exists_congr fun hp => exists_congr fun t => and_congr_right fun _ => ?_
        rw [t1]
        constructor
        · rintro ⟨hps, hbt, hm⟩
          refine ⟨⟨hps, ?_⟩, (pawnDrop_iff h hk' hq.waiting hp hps.2.1).mp hm⟩
          intro hin'
          obtain ⟨s, hs, hb⟩ := (drop_inCheck (q := absPos p) hK (h := hp) hps.2.1).mp hin'
          rw [(hone s).mp hs] at hb
          exact hb hbt
        · rintro ⟨⟨hps, hs⟩, hm⟩
          refine ⟨hps, ?_, (pawnDrop_iff h hk' hq.waiting hp hps.2.1).mpr hm⟩
          by_contra hb
          exact hs ((drop_inCheck (q := absPos p) hK (h := hp) hps.2.1).mpr ⟨c, (hone c).mpr rfl, hb⟩)
      have ndkp : (kingL ++ pieces).Nodup := by
        rw [List.nodup_append]
        refine ⟨ndk, ndp, ?_⟩
        intro m hm m' hm' e
        subst e
        obtain ⟨t, e, -⟩ := (hmk m).mp hm
        obtain ⟨kd, hkd, f, t', pro, e', -, hf, -⟩ := (hmp m).mp hm'
        have := encode_inj p (e.symm.trans e')
        cases this
        rw [hK.at] at hf; cases hf; exact hkd rfl
      have hpskp : ∀ m ∈ kingL ++ pieces, ∃ mv, m = encode p mv ∧ (absPos p).Pseudo mv := by
        intro m hm
        rcases List.mem_append.mp hm with hm | hm
        · exact hpsK m hm
        · obtain ⟨kd, hkd, f, t', pro, e', hps, -⟩ := (hmp m).mp hm
          exact ⟨_, e', hps⟩
      have hfin : ∀ m, (m ∈ kingL ++ pieces ∧ p.pseudoLegalMoveIsLegal m p.pinnedBB = true) ↔
          ∃ f t pro, m = encode p (.move f t pro) ∧ (absPos p).Legal (.move f t pro) := by
        intro m
        rw [List.mem_append, or_and_right, hkfin, hpfin]
        constructor
        · rintro (⟨t, pro, e, hl⟩ | ⟨f, t, pro, -, e, hl⟩) <;> exact ⟨_, _, _, e, hl⟩
        · rintro ⟨f, t, pro, e, hl⟩
          by_cases hfk : f = k
          · subst hfk; exact .inl ⟨t, pro, e, hl⟩
          · exact .inr ⟨f, t, pro, hfk, e, hl⟩
      simp only [List.isEmpty_nil, Bool.not_true, Bool.false_eq_true, if_false, ← hpL]
      by_cases hany : (betweenBB c k).isAny = true
      · rw [if_pos hany]
        obtain ⟨drops, hd, ndd, hmd⟩ := genDrops_spec h w1 hempty hk'
        rw [hd]
        have hdm := hdfin drops hmd
        refine ⟨_, rfl, ?_, ?_, ?_⟩
        · rw [List.nodup_append]
          refine ⟨ndkp, ndd, ?_⟩
          intro m hm m' hm' e
          subst e
          obtain ⟨hp, t, e, -⟩ := (hmd m).mp hm'
          have hno : ∀ f t' pro, m = encode p (.move f t' pro) → False := by
            intro f t' pro e'
            have := encode_inj p (show encode p (.drop hp t) = encode p (.move f t' pro) from e.symm.trans e')
            cases this
          rcases List.mem_append.mp hm with hm | hm
          · obtain ⟨t, e, -⟩ := (hmk m).mp hm; exact hno _ _ _ e
          · obtain ⟨kd, hkd, f, t', pro, e', -⟩ := (hmp m).mp hm; exact hno _ _ _ e'
        · intro m hm
          rcases List.mem_append.mp hm with hm | hm
          · exact hpskp m hm
          · obtain ⟨hp, t, e, hps, -⟩ := (hmd m).mp hm
            exact ⟨.drop hp t, e, hps⟩
        · intro m
          rw [List.mem_append, or_and_right, hfin, hdm]
          constructor
          · rintro (⟨f, t, pro, e, hl⟩ | ⟨⟨hp, t, e, hl⟩, -⟩) <;> exact ⟨_, e, hl⟩
          · rintro ⟨mv, e, hl⟩
            cases mv with
            | move f t pro => exact .inl ⟨f, t, pro, e, hl⟩
            | drop hp t => exact .inr ⟨⟨hp, t, e, hl⟩, by rw [e]; exact isLegal_drop hp t _⟩
      · rw [if_neg hany]
        refine ⟨_, rfl, ndkp, hpskp, ?_⟩
        intro m
        rw [hfin]
        constructor
        · rintro ⟨f, t, pro, e, hl⟩; exact ⟨_, e, hl⟩
        · rintro ⟨mv, e, hl⟩
          cases mv with
          | move f t pro => exact ⟨f, t, pro, e, hl⟩
          | drop hp t =>
            exfalso
            apply hany
            rw [w1.isAny_iff]
            refine ⟨t, (t1 t).mpr ?_⟩
            by_contra hb
            exact hl.1.2 ((drop_inCheck (q := absPos p) hK (h := hp) hl.1.1.2.1).mpr ⟨c, (hone c).mpr rfl, hb⟩)

/-! ### All together -/

theorem genPseudo_spec (h : Consistent p) (hc : CheckOK p) (hq : (absPos p).Regular) :
    ∃ l, genPseudo p true = some l ∧ l.Nodup ∧ (∀ m ∈ l, ∃ mv, m = encode p mv ∧ (absPos p).Pseudo mv) ∧
      ∀ m, (m ∈ l ∧ p.pseudoLegalMoveIsLegal m p.pinnedBB = true) ↔ ∃ mv, m = encode p mv ∧ (absPos p).Legal mv := by
  unfold genPseudo
  by_cases hin : p.inCheck = true
  · rw [if_pos hin]
    exact genEvasion_spec h hc hq (hc.inCheck.mp hin)
  · rw [if_neg hin]
    have hnc : ¬ (absPos p).InCheck p.turn := fun e => hin (hc.inCheck.mpr e)
    obtain ⟨l, e, nd, hm⟩ := genNonEvasion_spec h hq
    refine ⟨l, e, nd, fun m hml => ?_, fun m => ?_⟩
    · obtain ⟨mv, e, hps, -⟩ := (hm m).mp hml; exact ⟨mv, e, hps⟩
    · rw [hm]
      constructor
      · rintro ⟨⟨mv, e, hps, hmate⟩, hl⟩
        rw [e, isLegal_quiet h hq hnc hps] at hl
        exact ⟨mv, e, ⟨hps, hl⟩, hmate⟩
      · rintro ⟨mv, e, ⟨hps, hs⟩, hmate⟩
        exact ⟨⟨mv, e, hps, hmate⟩, by rw [e, isLegal_quiet h hq hnc hps]; exact hs⟩

theorem genLegal_spec (h : Consistent p) (hc : CheckOK p) (hq : (absPos p).Regular) :
    ∃ l, genLegal p true = some l ∧ l.Nodup ∧ ∀ m, m ∈ l ↔ ∃ mv, m = encode p mv ∧ (absPos p).Legal mv := by
  obtain ⟨l, e, nd, -, hm⟩ := genPseudo_spec h hc hq
  unfold genLegal
  rw [e]
  have hperm := filterSwap_perm (fun m => p.pseudoLegalMoveIsLegal m p.pinnedBB) l.length l (le_refl _)
  refine ⟨_, rfl, ?_, fun m => ?_⟩
  · exact hperm.nodup_iff.mpr (nd.filter _)
  · rw [hperm.mem_iff, List.mem_filter]; exact hm m

end

end Verif
