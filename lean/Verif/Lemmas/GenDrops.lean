import Verif.Lemmas.GenPieces

namespace Verif
open Spec Bitboard Position

/-! ### Files, ranks and hands -/

theorem fileMask_p0 : ∀ s : Square, 62 < s.val → (squareFileMask s).p0 = 0#64 := by decide +kernel
theorem fileMask_p1 : ∀ s : Square, ¬ 62 < s.val → (squareFileMask s).p1 = 0#64 := by decide +kernel

theorem clearFile_eq (b : Bitboard) (s : Square) : clearFile b s = b &&& ~~~(squareFileMask s) := by
  unfold clearFile
  split
  · rename_i h
    show _ = (⟨b.p0 &&& ~~~(squareFileMask s).p0, b.p1 &&& ~~~(squareFileMask s).p1⟩ : Bitboard)
    rw [fileMask_p0 s h, BitVec.not_zero, BitVec.and_allOnes]
  · rename_i h
    show _ = (⟨b.p0 &&& ~~~(squareFileMask s).p0, b.p1 &&& ~~~(squareFileMask s).p1⟩ : Bitboard)
    rw [fileMask_p1 s h, BitVec.not_zero, BitVec.and_allOnes]

theorem isSet_clearFile (b : Bitboard) (s t : Square) : (clearFile b s).isSet t = true ↔ b.isSet t = true ∧ X t ≠ X s := by
  rw [clearFile_eq, isSet_and, isSet_not, squareFileMask, isSet_fileMask ⟨file s, file_lt s⟩ t, Bool.and_eq_true, Bool.not_eq_true',
    decide_eq_false_iff_not]
  unfold X file
  simp only [ne_eq]
  constructor <;> rintro ⟨h1, h2⟩ <;> refine ⟨h1, ?_⟩ <;> omega

theorem WF.clearFile {b : Bitboard} (hb : b.WF) (s : Square) : (clearFile b s).WF := by
  rw [clearFile_eq]; exact hb.and_left

theorem isSet_foldl_clearFile (L : List Square) (b : Bitboard) (t : Square) :
    (L.foldl clearFile b).isSet t = true ↔ b.isSet t = true ∧ ∀ s ∈ L, X t ≠ X s := by
  induction L generalizing b with
  | nil => simp
  | cons a L ih =>
    rw [List.foldl_cons, ih, isSet_clearFile]
    simp only [List.mem_cons, forall_eq_or_imp, and_assoc]

theorem wf_foldl_clearFile (L : List Square) {b : Bitboard} (hb : b.WF) : (L.foldl clearFile b).WF := by
  induction L generalizing b with
  | nil => exact hb
  | cons a L ih => exact ih (WF.clearFile hb a)

theorem isSet_rank1 (c : Color) (t : Square) :
    (rankMask (match c with | .black => 0 | .white => 8)).isSet t = true ↔ farRank c t = 0 := by
  cases c
  · show (rankMask 0).isSet t = true ↔ _
    rw [show (rankMask 0).isSet t = _ from isSet_rankMask (0 : Fin 9) t, decide_eq_true_iff]; unfold farRank Y rank; show _ = 0 ↔ _; simp only; omega
  · show (rankMask 8).isSet t = true ↔ _
    rw [show (rankMask 8).isSet t = _ from isSet_rankMask (8 : Fin 9) t, decide_eq_true_iff]; unfold farRank Y rank; show _ = 8 ↔ _; simp only; omega

theorem isSet_rank2 (c : Color) (t : Square) :
    (rankMask (match c with | .black => 1 | .white => 7)).isSet t = true ↔ farRank c t = 1 := by
  cases c
  · show (rankMask 1).isSet t = true ↔ _
    rw [show (rankMask 1).isSet t = _ from isSet_rankMask (1 : Fin 9) t, decide_eq_true_iff]; unfold farRank Y rank; show _ = 1 ↔ _; simp only; omega
  · show (rankMask 7).isSet t = true ↔ _
    rw [show (rankMask 7).isSet t = _ from isSet_rankMask (7 : Fin 9) t, decide_eq_true_iff]; unfold farRank Y rank; show _ = 7 ↔ _; simp only; omega

theorem has_iff {p : Position} (h : Consistent p) (c : Color) (hk : HKind) : (p.hand c).has hk.code = true ↔ 1 ≤ (absPos p).hand c hk :=
  C09_has (p.hand c) _ (hand_is h c) hk.code (hcode_lt hk)

/-! ### Pawns -/

/-- The destinations of pawn drops. -/
def pawnDropBB (p : Position) (us : Color) (target : Bitboard) : Bitboard :=
  (p.bbOf PT.Pawn us).toList.foldl clearFile (target.andNot (rankMask (match us with | .black => 0 | .white => 8)))

theorem isSet_pawnDropBB {p : Position} (h : Consistent p) (us : Color) (target : Bitboard) (t : Square) :
    (pawnDropBB p us target).isSet t = true ↔ target.isSet t = true ∧ ¬ Dead us .pawn t ∧
      ∀ u, X u = X t → (absPos p).board u ≠ some (us, .pawn) := by
  unfold pawnDropBB
  rw [isSet_foldl_clearFile, isSet_andNot, Bool.and_eq_true, Bool.not_eq_true', ← Bool.not_eq_true, isSet_rank1, and_assoc]
  show _ ↔ _ ∧ ¬ (farRank us t = 0) ∧ _
  refine and_congr_right fun _ => and_congr_right fun _ => ?_
  constructor
  · intro hx u hu hb
    exact hx u ((mem_bbOf h .pawn us u).mpr hb) hu.symm
  · intro hx u hu e
    exact hx u e.symm ((mem_bbOf h .pawn us u).mp hu)

theorem wf_pawnDropBB (p : Position) (us : Color) {target : Bitboard} (hw : target.WF) : (pawnDropBB p us target).WF :=
  wf_foldl_clearFile _ hw.andNot

theorem dropPawns_eq (p : Position) (us : Color) (target : Bitboard) : dropPawns p us target =
  match p.kingSquare us.opp with
  | none => none
  | some ksq =>
    if rank ksq ≠ (match us with | .black => 8 | .white => 0) then
      if (pawnDropBB p us target).isSet (backSq us ksq) && p.piece (backSq us ksq) == 0 then
        match p.isPawnDropCheckMate us (backSq us ksq) with
        | none => none
        | some mate => some ((if !mate then [makeDropMove PT.Pawn (backSq us ksq).val] else []) ++
            ((pawnDropBB p us target).xorBit (backSq us ksq)).toList.map fun t => makeDropMove PT.Pawn t.val)
      else some ((pawnDropBB p us target).toList.map fun t => makeDropMove PT.Pawn t.val)
    else some ((pawnDropBB p us target).toList.map fun t => makeDropMove PT.Pawn t.val) := rfl

theorem rank9_iff (c : Color) (s : Square) : rank s ≠ (match c with | .black => 8 | .white => 0) ↔ farRank c s < 8 := by
  unfold farRank Y rank
  cases c <;> simp only <;> omega

theorem drop_inj {h h' : HKind} {t t' : Square} (e : makeDropMove h.kind.code t.val = makeDropMove h'.kind.code t'.val) : h = h' ∧ t = t' := by
  obtain ⟨-, a1, -, a2, -⟩ := drop_fields h t
  obtain ⟨-, b1, -, b2, -⟩ := drop_fields h' t'
  rw [e] at a1 a2
  have e1 := a1.symm.trans b1
  have e2 := a2.symm.trans b2
  refine ⟨?_, Fin.ext e1⟩
  cases h <;> cases h' <;> first | rfl | exact absurd e2 (by decide)

theorem isMate_isSome {p : Position} {us : Color} {k : Square} (hk : p.kingSquare us.opp = some k) (t : Square) :
    ∃ b, p.isPawnDropCheckMate us t = some b := by
  unfold isPawnDropCheckMate
  simp only [hk]
  split
  · exact ⟨_, rfl⟩
  · exact ⟨_, rfl⟩

theorem dropPawns_spec {p : Position} (h : Consistent p) (us : Color) {target : Bitboard} (hw : target.WF)
    (ht : ∀ t, target.isSet t = true → (absPos p).board t = none) {k : Square} (hk : p.kingSquare us.opp = some k) :
    ∃ l, dropPawns p us target = some l ∧ l.Nodup ∧ ∀ m, m ∈ l ↔ ∃ t, m = makeDropMove HKind.pawn.kind.code t.val ∧
      target.isSet t = true ∧ ¬ Dead us .pawn t ∧ (∀ u, X u = X t → (absPos p).board u ≠ some (us, .pawn)) ∧
      (Attacks us .pawn (absPos p).occ t k → p.isPawnDropCheckMate us t = some false) := by
  have hbb := isSet_pawnDropBB h us target
  have hwb := wf_pawnDropBB p us hw
  have hinj : ∀ t t' : Square, makeDropMove PT.Pawn t.val = makeDropMove PT.Pawn t'.val → t = t' :=
    fun t t' e => (drop_inj (h := .pawn) (h' := .pawn) e).2
  have hnd : ∀ b : Bitboard, b.WF → (b.toList.map fun t => makeDropMove PT.Pawn t.val).Nodup :=
    fun b hb => hb.nodup_toList.map hinj
  -- the plain list
  have plain : (∀ t, (pawnDropBB p us target).isSet t = true → ¬ Attacks us .pawn (absPos p).occ t k) →
      ∀ m, m ∈ ((pawnDropBB p us target).toList.map fun t => makeDropMove PT.Pawn t.val) ↔
        ∃ t, m = makeDropMove HKind.pawn.kind.code t.val ∧
      target.isSet t = true ∧ ¬ Dead us .pawn t ∧ (∀ u, X u = X t → (absPos p).board u ≠ some (us, .pawn)) ∧
      (Attacks us .pawn (absPos p).occ t k → p.isPawnDropCheckMate us t = some false) := by
    intro hno m
    rw [List.mem_map]
    constructor
    · rintro ⟨t, ht, rfl⟩
      rw [hwb.mem_toList] at ht
      obtain ⟨h1, h2, h3⟩ := (hbb t).mp ht
      exact ⟨t, rfl, h1, h2, h3, fun ha => absurd ha (hno t ht)⟩
    · rintro ⟨t, rfl, h1, h2, h3, -⟩
      exact ⟨t, hwb.mem_toList t |>.mpr ((hbb t).mpr ⟨h1, h2, h3⟩), rfl⟩
  rw [dropPawns_eq]
  simp only [hk]
  by_cases hr : rank k ≠ (match us with | .black => 8 | .white => 0)
  · rw [if_pos hr]
    rw [rank9_iff] at hr
    have hatt : ∀ t, Attacks us .pawn (absPos p).occ t k ↔ backSq us k = t := by
      intro t; rw [pawn_attack_iff, backSq_iff us t k hr]
    split
    · rename_i hs
      rw [Bool.and_eq_true] at hs
      obtain ⟨b, hb⟩ := isMate_isSome hk (backSq us k)
      simp only [hb]
      refine ⟨_, rfl, ?_, ?_⟩
      · rw [List.nodup_append]
        refine ⟨by split <;> simp, hnd _ (hwb.xorBit _), ?_⟩
        intro m hm m' hm' e
        subst e
        rw [List.mem_ite_nil_right, List.mem_singleton] at hm
        rw [List.mem_map] at hm'
        obtain ⟨t, ht, e⟩ := hm'
        have e1 := hinj _ _ (e.trans hm.2)
        rw [(hwb.xorBit _).mem_toList, e1, isSet_xorBit, hs.1] at ht
        simp at ht
      · intro m
        rw [List.mem_append, List.mem_ite_nil_right, List.mem_singleton, List.mem_map]
        constructor
        · rintro (⟨h0, e⟩ | ⟨t, ht, e⟩)
          · obtain ⟨h1, h2, h3⟩ := (hbb _).mp hs.1
            refine ⟨_, e, h1, h2, h3, fun _ => ?_⟩
            rw [hb]; simpa using h0
          · rw [(hwb.xorBit _).mem_toList, isSet_xorBit] at ht
            by_cases hts : backSq us k = t
            · subst hts; rw [hs.1] at ht; simp at ht
            · have hts' : ¬ t = backSq us k := fun e => hts e.symm
              simp only [hts', decide_false, Bool.xor_false] at ht
              obtain ⟨h1, h2, h3⟩ := (hbb t).mp ht
              exact ⟨t, e.symm, h1, h2, h3, fun ha => absurd ((hatt t).mp ha) hts⟩
        · rintro ⟨t, e, h1, h2, h3, h4⟩
          by_cases hts : backSq us k = t
          · subst hts
            have := h4 ((hatt _).mpr rfl)
            rw [hb] at this
            refine .inl ⟨?_, e⟩
            simp only [Option.some.injEq] at this
            rw [this]; rfl
          · have hts' : ¬ t = backSq us k := fun e => hts e.symm
            refine .inr ⟨t, ?_, e.symm⟩
            rw [(hwb.xorBit _).mem_toList, isSet_xorBit]
            simp only [hts', decide_false, Bool.xor_false]
            exact (hbb t).mpr ⟨h1, h2, h3⟩
    · rename_i hs
      refine ⟨_, rfl, hnd _ hwb, plain ?_⟩
      intro t htt ha
      have e := (hatt t).mp ha
      subst e
      apply hs
      rw [htt, Bool.true_and, beq_iff_eq, h.code, ht _ ((hbb _).mp htt).1]
      rfl
  · rw [if_neg hr]
    rw [not_ne_iff] at hr
    refine ⟨_, rfl, hnd _ hwb, plain ?_⟩
    intro t htt ha
    rw [pawn_attack_iff] at ha
    have h8 : ¬ farRank us k < 8 := fun hlt => (rank9_iff us k).mpr hlt hr
    have : farRank us t ≤ 8 := by unfold farRank Y; cases us <;> simp only <;> omega
    omega

/-! ### The other pieces -/

theorem exceptPawn_iff (h : Hand) : h.exceptPawnExists = true ↔ ∃ i, 1 ≤ i ∧ i ≤ 6 ∧ h.has i = true := by
  unfold Hand.exceptPawnExists Hand.has
  simp only [bne_iff_ne, ne_eq, BitVec.and_or_distrib_left, BitVec.or_eq_zero_iff]
  constructor
  · intro hne
    by_contra hc
    push Not at hc
    apply hne
    refine ⟨⟨⟨⟨⟨?_, ?_⟩, ?_⟩, ?_⟩, ?_⟩, ?_⟩
    · exact hc 1 (by omega) (by omega)
    · exact hc 2 (by omega) (by omega)
    · exact hc 3 (by omega) (by omega)
    · exact hc 4 (by omega) (by omega)
    · exact hc 5 (by omega) (by omega)
    · exact hc 6 (by omega) (by omega)
  · rintro ⟨i, h1, h6, hi⟩ ⟨⟨⟨⟨⟨e1, e2⟩, e3⟩, e4⟩, e5⟩, e6⟩
    have : i = 1 ∨ i = 2 ∨ i = 3 ∨ i = 4 ∨ i = 5 ∨ i = 6 := by omega
    rcases this with rfl | rfl | rfl | rfl | rfl | rfl <;> contradiction

theorem dropLoop_nil (b : Bitboard) : dropLoop [] b = [] := by
  unfold dropLoop; simp

/-- The last and the last but one rank. -/
def rk1 (us : Color) : Nat := match us with | .black => 0 | .white => 8
def rk2 (us : Color) : Nat := match us with | .black => 1 | .white => 7
theorem isSet_rk1 (c : Color) (t : Square) : (rankMask (rk1 c)).isSet t = true ↔ farRank c t = 0 := isSet_rank1 c t
theorem isSet_rk2 (c : Color) (t : Square) : (rankMask (rk2 c)).isSet t = true ↔ farRank c t = 1 := isSet_rank2 c t

theorem dropOthers_eq (p : Position) (us : Color) (target : Bitboard) : dropOthers p us target =
    dropLoop (handRest (p.hand us)) (target &&& rankMask (rk1 us)) ++
    dropLoop (handNoKnight (p.hand us)) (target &&& rankMask (rk2 us)) ++
    dropLoop (handAll (p.hand us)) (target &&& ~~~(rankMask (rk2 us) |||
      rankMask (rk1 us))) := by
  have aux : ∀ (L : List Nat) (b : Bitboard), (if L.isEmpty = true then [] else dropLoop L b) = dropLoop L b := by
    intro L b
    cases L
    · rw [dropLoop_nil]; rfl
    · rfl
  unfold dropOthers
  simp only [aux]
  split
  · rfl
  · rename_i hn
    have hh : ∀ i, 1 ≤ i → i ≤ 6 → (p.hand us).has i = false := by
      intro i h1 h6
      by_contra h0
      exact hn ((exceptPawn_iff _).mpr ⟨i, h1, h6, by simpa using h0⟩)
    have e : handAll (p.hand us) = [] := by
      simp [handAll, handNoKnight, handRest, hh]
    have e' : handNoKnight (p.hand us) = [] := by
      simp [handNoKnight, handRest, hh]
    have e'' : handRest (p.hand us) = [] := by
      simp [handRest, hh]
    rw [e, e', e'', dropLoop_nil, dropLoop_nil, dropLoop_nil]; rfl

theorem mem_handAll {p : Position} (h : Consistent p) (us : Color) (pt : Nat) :
    (pt ∈ handRest (p.hand us) ↔ ∃ hk : HKind, pt = hk.kind.code ∧ hk ≠ .pawn ∧ hk ≠ .lance ∧ hk ≠ .knight ∧ 1 ≤ (absPos p).hand us hk) ∧
    (pt ∈ handNoKnight (p.hand us) ↔ ∃ hk : HKind, pt = hk.kind.code ∧ hk ≠ .pawn ∧ hk ≠ .knight ∧ 1 ≤ (absPos p).hand us hk) ∧
    (pt ∈ handAll (p.hand us) ↔ ∃ hk : HKind, pt = hk.kind.code ∧ hk ≠ .pawn ∧ 1 ≤ (absPos p).hand us hk) := by
  have hs := has_iff h us .silver
  have hg := has_iff h us .gold
  have hb := has_iff h us .bishop
  have hr := has_iff h us .rook
  have hl := has_iff h us .lance
  have hn := has_iff h us .knight
  simp only [HKind.code] at hs hg hb hr hl hn
  have rest : pt ∈ handRest (p.hand us) ↔
      ∃ hk : HKind, pt = hk.kind.code ∧ hk ≠ .pawn ∧ hk ≠ .lance ∧ hk ≠ .knight ∧ 1 ≤ (absPos p).hand us hk := by
    unfold handRest
    simp only [List.mem_append, List.mem_ite_nil_right, List.mem_singleton, hs, hg, hb, hr]
    constructor
    · rintro (((⟨h1, e⟩ | ⟨h1, e⟩) | ⟨h1, e⟩) | ⟨h1, e⟩)
      · exact ⟨.silver, e, by decide, by decide, by decide, h1⟩
      · exact ⟨.gold, e, by decide, by decide, by decide, h1⟩
      · exact ⟨.bishop, e, by decide, by decide, by decide, h1⟩
      · exact ⟨.rook, e, by decide, by decide, by decide, h1⟩
    · rintro ⟨hk, e, n1, n2, n3, h1⟩
      cases hk
      case pawn => exact absurd rfl n1
      case lance => exact absurd rfl n2
      case knight => exact absurd rfl n3
      case silver => exact .inl (.inl (.inl ⟨h1, e⟩))
      case gold => exact .inl (.inl (.inr ⟨h1, e⟩))
      case bishop => exact .inl (.inr ⟨h1, e⟩)
      case rook => exact .inr ⟨h1, e⟩
  have noKn : pt ∈ handNoKnight (p.hand us) ↔ ∃ hk : HKind, pt = hk.kind.code ∧ hk ≠ .pawn ∧ hk ≠ .knight ∧ 1 ≤ (absPos p).hand us hk := by
    unfold handNoKnight
    rw [List.mem_append, rest, List.mem_ite_nil_right, List.mem_singleton, hl]
    constructor
    · rintro (⟨h1, e⟩ | ⟨hk, e, n1, n2, n3, h1⟩)
      · exact ⟨.lance, e, by decide, by decide, h1⟩
      · exact ⟨hk, e, n1, n3, h1⟩
    · rintro ⟨hk, e, n1, n3, h1⟩
      by_cases n2 : hk = .lance
      · subst n2; exact .inl ⟨h1, e⟩
      · exact .inr ⟨hk, e, n1, n2, n3, h1⟩
  refine ⟨rest, noKn, ?_⟩
  unfold handAll
  rw [List.mem_append, noKn, List.mem_ite_nil_right, List.mem_singleton, hn]
  constructor
  · rintro (⟨h1, e⟩ | ⟨hk, e, n1, n3, h1⟩)
    · exact ⟨.knight, e, by decide, h1⟩
    · exact ⟨hk, e, n1, h1⟩
  · rintro ⟨hk, e, n1, h1⟩
    by_cases n2 : hk = .knight
    · subst n2; exact .inl ⟨h1, e⟩
    · exact .inr ⟨hk, e, n1, n2, h1⟩

theorem nodup_hands (h : Hand) : (handRest h).Nodup ∧ (handNoKnight h).Nodup ∧ (handAll h).Nodup := by
  unfold handAll handNoKnight handRest
  generalize h.has 1 = a
  generalize h.has 2 = b
  generalize h.has 3 = c
  generalize h.has 4 = d
  generalize h.has 5 = e
  generalize h.has 6 = f
  cases a <;> cases b <;> cases c <;> cases d <;> cases e <;> cases f <;> decide

theorem mem_dropLoop {L : List Nat} {b : Bitboard} (hb : b.WF) {m : Move} :
    m ∈ dropLoop L b ↔ ∃ t pt, m = makeDropMove pt t.val ∧ b.isSet t = true ∧ pt ∈ L := by
  unfold dropLoop
  simp only [List.mem_flatMap, List.mem_map, hb.mem_toList]
  constructor
  · rintro ⟨t, ht, pt, hp, e⟩; exact ⟨t, pt, e.symm, ht, hp⟩
  · rintro ⟨t, pt, e, ht, hp⟩; exact ⟨t, ht, pt, hp, e.symm⟩

theorem nodup_dropLoop {L : List Nat} {b : Bitboard} (hb : b.WF) (hL : L.Nodup) (hh : ∀ pt ∈ L, ∃ hk : HKind, pt = hk.kind.code) :
    (dropLoop L b).Nodup := by
  unfold dropLoop
  rw [List.nodup_flatMap]
  constructor
  · intro t _
    refine hL.map_on ?_
    intro pt hpt pt' hpt' e
    obtain ⟨a, rfl⟩ := hh pt hpt
    obtain ⟨b, rfl⟩ := hh pt' hpt'
    rw [(drop_inj e).1]
  · refine hb.nodup_toList.imp_of_mem ?_
    intro t t' _ _ hne m hm hm'
    rw [List.mem_map] at hm hm'
    obtain ⟨pt, hpt, e⟩ := hm
    obtain ⟨pt', hpt', e'⟩ := hm'
    obtain ⟨a, rfl⟩ := hh pt hpt
    obtain ⟨b, rfl⟩ := hh pt' hpt'
    exact hne (drop_inj (e.trans e'.symm)).2

theorem dropOthers_spec {p : Position} (h : Consistent p) (us : Color) {target : Bitboard} (hw : target.WF) :
    (dropOthers p us target).Nodup ∧ ∀ m, m ∈ dropOthers p us target ↔ ∃ (hk : HKind) (t : Square),
      m = makeDropMove hk.kind.code t.val ∧ hk ≠ .pawn ∧ 1 ≤ (absPos p).hand us hk ∧ target.isSet t = true ∧ ¬ Dead us hk.kind t := by
  rw [dropOthers_eq]
  have w1 : (target &&& rankMask (rk1 us)).WF := hw.and_left
  have w2 : (target &&& rankMask (rk2 us)).WF := hw.and_left
  have w3 : (target &&& ~~~(rankMask (rk2 us) |||
      rankMask (rk1 us))).WF := hw.and_left
  have m1 : ∀ m : Move, m ∈ dropLoop (handRest (p.hand us)) (target &&& rankMask (rk1 us)) ↔
      ∃ (hk : HKind) (t : Square), m = makeDropMove hk.kind.code t.val ∧ hk ≠ .pawn ∧ 1 ≤ (absPos p).hand us hk ∧
        target.isSet t = true ∧ ¬ Dead us hk.kind t ∧ farRank us t = 0 := by
    intro m
    rw [mem_dropLoop w1]
    constructor
    · rintro ⟨t, pt, e, ht, hp⟩
      rw [isSet_and, Bool.and_eq_true, isSet_rk1] at ht
      obtain ⟨hk, rfl, n1, n2, n3, h1⟩ := ((mem_handAll h us pt).1).mp hp
      refine ⟨hk, t, e, n1, h1, ht.1, ?_, ht.2⟩
      cases hk <;> first | exact absurd rfl n1 | exact absurd rfl n2 | exact absurd rfl n3 | exact id
    · rintro ⟨hk, t, e, n1, h1, ht, hd, hr⟩
      refine ⟨t, _, e, by rw [isSet_and, Bool.and_eq_true, isSet_rk1]; exact ⟨ht, hr⟩, ((mem_handAll h us _).1).mpr ⟨hk, rfl, n1, ?_, ?_, h1⟩⟩
      · rintro rfl; exact hd hr
      · rintro rfl; apply hd; show farRank us t ≤ 1; omega
  have m2 : ∀ m : Move, m ∈ dropLoop (handNoKnight (p.hand us)) (target &&& rankMask (rk2 us)) ↔
      ∃ (hk : HKind) (t : Square), m = makeDropMove hk.kind.code t.val ∧ hk ≠ .pawn ∧ 1 ≤ (absPos p).hand us hk ∧
        target.isSet t = true ∧ ¬ Dead us hk.kind t ∧ farRank us t = 1 := by
    intro m
    rw [mem_dropLoop w2]
    constructor
    · rintro ⟨t, pt, e, ht, hp⟩
      rw [isSet_and, Bool.and_eq_true, isSet_rk2] at ht
      obtain ⟨hk, rfl, n1, n3, h1⟩ := ((mem_handAll h us pt).2.1).mp hp
      refine ⟨hk, t, e, n1, h1, ht.1, ?_, ht.2⟩
      have hfr := ht.2
      cases hk
      case pawn => exact absurd rfl n1
      case knight => exact absurd rfl n3
      case lance => show ¬ farRank us t = 0; omega
      all_goals exact id
    · rintro ⟨hk, t, e, n1, h1, ht, hd, hr⟩
      refine ⟨t, _, e, by rw [isSet_and, Bool.and_eq_true, isSet_rk2]; exact ⟨ht, hr⟩, ((mem_handAll h us _).2.1).mpr ⟨hk, rfl, n1, ?_, h1⟩⟩
      rintro rfl; apply hd; show farRank us t ≤ 1; omega
  have m3 : ∀ m : Move, m ∈ dropLoop (handAll (p.hand us)) (target &&& ~~~(rankMask (rk2 us) |||
      rankMask (rk1 us))) ↔
      ∃ (hk : HKind) (t : Square), m = makeDropMove hk.kind.code t.val ∧ hk ≠ .pawn ∧ 1 ≤ (absPos p).hand us hk ∧
        target.isSet t = true ∧ ¬ Dead us hk.kind t ∧ 2 ≤ farRank us t := by
    intro m
    rw [mem_dropLoop w3]
    have hfr : ∀ t, 0 ≤ farRank us t := by intro t; unfold farRank Y; cases us <;> simp only <;> omega
    have hset : ∀ t, (target &&& ~~~(rankMask (rk2 us) |||
      rankMask (rk1 us))).isSet t = true ↔ target.isSet t = true ∧ 2 ≤ farRank us t := by
      intro t
      rw [isSet_and, Bool.and_eq_true, isSet_not, isSet_or, Bool.not_eq_true', Bool.or_eq_false_iff, ← Bool.not_eq_true,
        ← Bool.not_eq_true, isSet_rk1, isSet_rk2]
      have := hfr t
      constructor
      · rintro ⟨h1, h2, h3⟩; exact ⟨h1, by omega⟩
      · rintro ⟨h1, h2⟩; exact ⟨h1, by omega, by omega⟩
    constructor
    · rintro ⟨t, pt, e, ht, hp⟩
      rw [hset] at ht
      obtain ⟨hk, rfl, n1, h1⟩ := ((mem_handAll h us pt).2.2).mp hp
      refine ⟨hk, t, e, n1, h1, ht.1, ?_, ht.2⟩
      have hfr := ht.2
      cases hk
      case pawn => exact absurd rfl n1
      case knight => show ¬ farRank us t ≤ 1; omega
      case lance => show ¬ farRank us t = 0; omega
      all_goals exact id
    · rintro ⟨hk, t, e, n1, h1, ht, hd, hr⟩
      exact ⟨t, _, e, (hset t).mpr ⟨ht, hr⟩, ((mem_handAll h us _).2.2).mpr ⟨hk, rfl, n1, h1⟩⟩
  obtain ⟨nd1, nd2, nd3⟩ := nodup_hands (p.hand us)
  constructor
  · simp only [List.nodup_append, List.mem_append]
    refine ⟨⟨nodup_dropLoop w1 nd1 ?_, nodup_dropLoop w2 nd2 ?_, ?_⟩, nodup_dropLoop w3 nd3 ?_, ?_⟩
    · intro pt hp; obtain ⟨hk, e, -⟩ := ((mem_handAll h us pt).1).mp hp; exact ⟨hk, e⟩
    · intro pt hp; obtain ⟨hk, e, -⟩ := ((mem_handAll h us pt).2.1).mp hp; exact ⟨hk, e⟩
    · intro m hm m' hm' e
      subst e
      obtain ⟨hk, t, e, -, -, -, -, hr⟩ := (m1 m).mp hm
      obtain ⟨hk', t', e', -, -, -, -, hr'⟩ := (m2 m).mp hm'
      obtain ⟨-, rfl⟩ := drop_inj (e.symm.trans e')
      omega
    · intro pt hp; obtain ⟨hk, e, -⟩ := ((mem_handAll h us pt).2.2).mp hp; exact ⟨hk, e⟩
    · intro m hm m' hm' e
      subst e
      obtain ⟨hk', t', e', -, -, -, -, hr'⟩ := (m3 m).mp hm'
      rcases hm with hm | hm
      · obtain ⟨hk, t, e, -, -, -, -, hr⟩ := (m1 m).mp hm
        obtain ⟨-, rfl⟩ := drop_inj (e.symm.trans e')
        omega
      · obtain ⟨hk, t, e, -, -, -, -, hr⟩ := (m2 m).mp hm
        obtain ⟨-, rfl⟩ := drop_inj (e.symm.trans e')
        omega
  · intro m
    rw [List.mem_append, List.mem_append, m1, m2, m3]
    constructor
    · rintro ((⟨hk, t, h1, h2, h3, h4, h5, -⟩ | ⟨hk, t, h1, h2, h3, h4, h5, -⟩) | ⟨hk, t, h1, h2, h3, h4, h5, -⟩) <;>
        exact ⟨hk, t, h1, h2, h3, h4, h5⟩
    · rintro ⟨hk, t, h1, h2, h3, h4, h5⟩
      have hfr : 0 ≤ farRank us t := by unfold farRank Y; cases us <;> simp only <;> omega
      rcases (by omega : farRank us t = 0 ∨ farRank us t = 1 ∨ 2 ≤ farRank us t) with h0 | h0 | h0
      · exact .inl (.inl ⟨hk, t, h1, h2, h3, h4, h5, h0⟩)
      · exact .inl (.inr ⟨hk, t, h1, h2, h3, h4, h5, h0⟩)
      · exact .inr ⟨hk, t, h1, h2, h3, h4, h5, h0⟩

/-- All drops onto the (empty) target squares. -/
theorem genDrops_spec {p : Position} (h : Consistent p) {target : Bitboard} (hw : target.WF)
    (ht : ∀ t, target.isSet t = true → (absPos p).board t = none) {k : Square} (hk : p.kingSquare p.turn.opp = some k) :
    ∃ l, genDrops p p.turn target = some l ∧ l.Nodup ∧ ∀ m, m ∈ l ↔ ∃ (hp : HKind) (t : Square),
      m = makeDropMove hp.kind.code t.val ∧ (absPos p).Pseudo (.drop hp t) ∧ target.isSet t = true ∧
      (hp = .pawn → Attacks p.turn .pawn (absPos p).occ t k → p.isPawnDropCheckMate p.turn t = some false) := by
  obtain ⟨nd, hm⟩ := dropOthers_spec h p.turn hw
  unfold genDrops
  by_cases h0 : (p.hand p.turn).has 0 = true
  · have h1 : 1 ≤ (absPos p).hand p.turn .pawn := (has_iff h p.turn .pawn).mp h0
    obtain ⟨l, e, nd', hm'⟩ := dropPawns_spec h p.turn hw ht hk
    rw [if_pos h0, e]
    refine ⟨_, rfl, ?_, ?_⟩
    · rw [List.nodup_append]
      refine ⟨nd', nd, ?_⟩
      intro m a m' b e
      subst e
      obtain ⟨t, e, -⟩ := (hm' m).mp a
      obtain ⟨hp, t', e', hne, -⟩ := (hm m).mp b
      exact hne (drop_inj (e'.symm.trans e)).1
    · intro m
      rw [List.mem_append, hm, hm']
      constructor
      · rintro (⟨t, e, a, b, c, d⟩ | ⟨hp, t, e, a, b, c, d⟩)
        · exact ⟨.pawn, t, e, ⟨h1, ht t a, b, fun _ => c⟩, a, fun _ => d⟩
        · exact ⟨hp, t, e, ⟨b, ht t c, d, fun e => absurd e a⟩, c, fun e => absurd e a⟩
      · rintro ⟨hp, t, e, ⟨a, b, c, d⟩, f, g⟩
        by_cases hpn : hp = .pawn
        · subst hpn; exact .inl ⟨t, e, f, c, d rfl, g rfl⟩
        · exact .inr ⟨hp, t, e, hpn, a, f, c⟩
  · have h1 : ¬ 1 ≤ (absPos p).hand p.turn .pawn := fun e => h0 ((has_iff h p.turn .pawn).mpr e)
    rw [if_neg h0]
    refine ⟨_, rfl, nd, ?_⟩
    intro m
    rw [hm]
    constructor
    · rintro ⟨hp, t, e, a, b, c, d⟩
      exact ⟨hp, t, e, ⟨b, ht t c, d, fun e => absurd e a⟩, c, fun e => absurd e a⟩
    · rintro ⟨hp, t, e, ⟨a, b, c, d⟩, f, g⟩
      by_cases hpn : hp = .pawn
      · subst hpn; exact absurd a h1
      · exact ⟨hp, t, e, hpn, a, f, c⟩

/-! ### The removal loop -/

theorem filterSwap_perm (ok : Move → Bool) (n : Nat) (l : List Move) (hl : l.length ≤ n) : (filterSwap ok n l).Perm (l.filter ok) := by
  induction n generalizing l with
  | zero =>
    have : l = [] := List.length_eq_zero_iff.mp (by omega)
    subst this; exact .nil
  | succ n ih =>
    cases l with
    | nil => exact .nil
    | cons m l =>
      rw [filterSwap]
      have hl' : l.length ≤ n := by simpa using hl
      by_cases hm : ok m = true
      · rw [if_pos hm, List.filter_cons_of_pos hm]
        exact (ih l hl').cons m
      · rw [if_neg hm, List.filter_cons_of_neg hm]
        rcases List.eq_nil_or_concat l with rfl | ⟨l', b, rfl⟩
        · simp
        · simp only [List.concat_eq_append, List.getLast?_append, List.getLast?_singleton, Option.some_or, List.dropLast_concat]
          simp only [List.concat_eq_append, List.length_append, List.length_singleton] at hl'
          refine (ih (b :: l') (by simpa using hl')).trans ?_
          exact ((List.perm_append_singleton b l').symm).filter ok

end Verif
