import Verif.Lemmas.Query
import Verif.Lemmas.Hidden
import Verif.Props.Repetition

/-!
# C74: `is_ok`
-/

namespace Verif
open Spec Bitboard Position

/-! ### Counting -/

theorem countP_le_one {α : Type} (P : α → Bool) (l : List α) (hl : l.Nodup) :
    l.countP P ≤ 1 ↔ ∀ a ∈ l, ∀ b ∈ l, P a = true → P b = true → a = b := by
  induction l with
  | nil => simp
  | cons x l ih =>
    rw [List.nodup_cons] at hl
    rw [List.countP_cons]
    by_cases hx : P x = true
    · rw [if_pos hx]
      have h0 : l.countP P + 1 ≤ 1 ↔ ∀ a ∈ l, ¬ P a = true := by
        rw [← List.countP_eq_zero]; omega
      rw [h0]
      constructor
      · intro h a ha b hb pa pb
        rcases List.mem_cons.mp ha with rfl | ha
        · rcases List.mem_cons.mp hb with rfl | hb
          · rfl
          · exact absurd pb (h b hb)
        · exact absurd pa (h a ha)
      · intro h a ha pa
        have := h a (List.mem_cons_of_mem _ ha) x (List.mem_cons_self ..) pa hx
        subst this
        exact hl.1 ha
    · rw [if_neg hx, Nat.add_zero, ih hl.2]
      constructor
      · intro h a ha b hb pa pb
        rcases List.mem_cons.mp ha with rfl | ha
        · exact absurd pa hx
        · rcases List.mem_cons.mp hb with rfl | hb
          · exact absurd pb hx
          · exact h a ha b hb pa pb
      · intro h a ha b hb
        exact h a (List.mem_cons_of_mem _ ha) b (List.mem_cons_of_mem _ hb)

theorem countP_le_two {α : Type} (P : α → Bool) (a b : α) (l : List α) (hl : l.Nodup) (h : ∀ x, P x = true → x = a ∨ x = b) :
    l.countP P ≤ 2 := by
  classical
  have h1 : l.countP P ≤ l.countP (fun x => decide (x = a)) + l.countP (fun x => decide (x = b)) := by
    clear hl
    induction l with
    | nil => simp
    | cons x l ih =>
      simp only [List.countP_cons]
      by_cases hx : P x = true
      · rcases h x hx with rfl | rfl
        · simp only [hx, if_true, decide_true]; split <;> omega
        · simp only [hx, if_true, decide_true]; split <;> omega
      · simp only [hx]
        simp only [Bool.false_eq_true, if_false, Nat.add_zero]
        exact ih.trans (Nat.add_le_add (Nat.le_add_right _ _) (Nat.le_add_right _ _))
  have ha := (countP_le_one (fun x => decide (x = a)) l hl).mpr (by simp +contextual)
  have hb := (countP_le_one (fun x => decide (x = b)) l hl).mpr (by simp +contextual)
  omega

theorem popCount_isSet {b : Bitboard} (hb : b.WF) : b.popCount = (List.finRange 81).countP (fun s => b.isSet s) := by
  rw [hb.popCount_eq, List.countP_eq_length_filter]

/-- The number of kings of one colour. -/
def kingsOf (b : Square → Option (Color × Kind)) (c : Color) : Nat := (List.finRange 81).countP fun s => decide (b s = some (c, .king))

theorem kingsOf_le_one (b : Square → Option (Color × Kind)) : (∀ c, kingsOf b c ≤ 1) ↔ OneKing b := by
  unfold kingsOf OneKing
  constructor
  · intro h c s t h1 h2
    exact (countP_le_one _ _ (List.nodup_finRange 81)).mp (h c) s (List.mem_finRange s) t (List.mem_finRange t) (by simpa using h1) (by simpa using h2)
  · intro h c
    refine (countP_le_one _ _ (List.nodup_finRange 81)).mpr fun s _ t _ h1 h2 => ?_
    exact h c s t (by simpa using h1) (by simpa using h2)

theorem kingsOf_pos (b : Square → Option (Color × Kind)) (c : Color) : 0 < kingsOf b c ↔ ∃ s, b s = some (c, .king) := by
  unfold kingsOf
  rw [List.countP_pos_iff]
  constructor
  · rintro ⟨s, -, h⟩; exact ⟨s, by simpa using h⟩
  · rintro ⟨s, h⟩; exact ⟨s, List.mem_finRange s, by simpa using h⟩

theorem countP_either {α : Type} (P Q R : α → Bool) (l : List α) (h : ∀ x, (P x = true ↔ Q x = true ∨ R x = true) ∧ ¬ (Q x = true ∧ R x = true)) :
    l.countP P = l.countP Q + l.countP R := by
  induction l with
  | nil => rfl
  | cons x l ih =>
    simp only [List.countP_cons, ih]
    obtain ⟨h1, h2⟩ := h x
    rcases hq : Q x <;> rcases hr : R x <;> rcases hp : P x <;> simp_all <;> omega

theorem Raw.bbOf {p : Position} {b : Square → Option (Color × Kind)} (h : Raw p b) (c : Color) (k : Kind) (s : Square) :
    (p.bbOf k.code c).isSet s = true ↔ b s = some (c, k) := by
  unfold Position.bbOf
  rw [isSet_and, Bool.and_eq_true, h.type, h.color]
  constructor
  · rintro ⟨⟨c', e⟩, k', e'⟩
    rw [e] at e'; cases e'; exact e
  · intro e; exact ⟨⟨c, e⟩, k, e⟩

theorem okKings_iff {p : Position} {b : Square → Option (Color × Kind)} (h : Raw p b) :
    p.okKings = true ↔ OneKing b ∧ ∃ c s, b s = some (c, .king) := by
  have e1 : ∀ c, (p.bbOf PT.King c).popCount = kingsOf b c := by
    intro c
    have hw : (p.bbOf PT.King c).WF := (h.wfType PT.King).and_left
    rw [popCount_isSet hw]
    unfold kingsOf
    refine List.countP_congr fun s _ => ?_
    rw [decide_eq_true_iff]
    exact h.bbOf c .king s
  have e2 : (p.byType PT.King).popCount = kingsOf b .black + kingsOf b .white := by
    rw [popCount_isSet (h.wfType _)]
    unfold kingsOf
    refine countP_either _ _ _ _ fun s => ?_
    simp only [decide_eq_true_iff]
    refine ⟨?_, fun e => by rw [e.1] at e; cases e.2⟩
    have := h.type .king s
    rw [show PT.King = Kind.king.code from rfl, this]
    constructor
    · rintro ⟨c, e⟩; cases c; exacts [Or.inl e, Or.inr e]
    · rintro (e | e); exacts [⟨_, e⟩, ⟨_, e⟩]
  have e3 : ∀ c, (List.finRange 81).countP (fun s => p.piece s = mkPiece c 8) = kingsOf b c := by
    intro c
    unfold kingsOf
    refine List.countP_congr fun s _ => ?_
    rw [decide_eq_true_iff, decide_eq_true_iff, h.code]
    constructor
    · intro e
      have := congrArg decodePiece e
      rw [decode_pieceCode] at this
      rw [this]; cases c <;> rfl
    · intro e; rw [e]; rfl
  have e4 := e3 .black
  have e5 := e3 .white
  rw [← kingsOf_le_one]
  have hex : (∃ c s, b s = some (c, .king)) ↔ 0 < kingsOf b .black + kingsOf b .white := by
    constructor
    · rintro ⟨c, s, e⟩
      have := (kingsOf_pos b c).mpr ⟨s, e⟩
      cases c <;> omega
    · intro hp
      rcases Nat.eq_zero_or_pos (kingsOf b .black) with h0 | h0
      · obtain ⟨s, e⟩ := (kingsOf_pos b .white).mp (by omega); exact ⟨_, s, e⟩
      · obtain ⟨s, e⟩ := (kingsOf_pos b .black).mp h0; exact ⟨_, s, e⟩
  have hall : (∀ c, kingsOf b c ≤ 1) ↔ kingsOf b .black ≤ 1 ∧ kingsOf b .white ≤ 1 :=
    ⟨fun h => ⟨h _, h _⟩, fun h c => by cases c; exacts [h.1, h.2]⟩
  rw [hex, hall]
  unfold okKings
  rw [e1, e1, e2, show (List.finRange 81).countP (fun s => p.piece s = 8) = kingsOf b .black from e4,
    show (List.finRange 81).countP (fun s => p.piece s = 24) = kingsOf b .white from e5]
  simp only [Bool.and_eq_true, Bool.not_eq_true', Bool.or_eq_false_iff, decide_eq_false_iff_not, decide_true, and_true]
  omega

/-! ### Bitboards and array -/

theorem and_isAny_iff {a b : Bitboard} (ha : a.WF) : (a &&& b).isAny = false ↔ ∀ s, ¬ (a.isSet s = true ∧ b.isSet s = true) := by
  rw [← Bool.not_eq_true, (WF.and_left ha : (a &&& b).WF).isAny_iff, not_exists]
  refine forall_congr' fun s => not_congr ?_
  rw [isSet_and, Bool.and_eq_true]

/-- The exclusive or of all piece types (src/position.cpp:3121-3125). -/
def xorTypes (p : Position) : Bitboard :=
  p.byType 1 ^^^ p.byType 2 ^^^ p.byType 3 ^^^ p.byType 4 ^^^ p.byType 5 ^^^ p.byType 6 ^^^ p.byType 7 ^^^ p.byType 8 ^^^
    p.byType 9 ^^^ p.byType 10 ^^^ p.byType 11 ^^^ p.byType 12 ^^^ p.byType 13 ^^^ p.byType 14

theorem wf_xorTypes {p : Position} (h : ∀ n : Nat, (p.byType n).WF) : (xorTypes p).WF := by
  unfold xorTypes
  exact (((((((((((((h 1).xor (h 2)).xor (h 3)).xor (h 4)).xor (h 5)).xor (h 6)).xor (h 7)).xor (h 8)).xor (h 9)).xor (h 10)).xor (h 11)).xor (h 12)).xor (h 13)).xor (h 14)

theorem xorTypes_one {p : Position} {s : Square} {k : Kind} (h : ∀ k' : Kind, (p.byType k'.code).isSet s = decide (k' = k)) :
    (xorTypes p).isSet s = true := by
  unfold xorTypes
  have h1 := h .pawn; have h2 := h .lance; have h3 := h .knight; have h4 := h .silver; have h5 := h .bishop; have h6 := h .rook
  have h7 := h .gold; have h8 := h .king; have h9 := h .proPawn; have h10 := h .proLance; have h11 := h .proKnight
  have h12 := h .proSilver; have h13 := h .horse; have h14 := h .dragon
  simp only [Kind.code] at h1 h2 h3 h4 h5 h6 h7 h8 h9 h10 h11 h12 h13 h14
  simp only [isSet_xor, h1, h2, h3, h4, h5, h6, h7, h8, h9, h10, h11, h12, h13, h14]
  cases k <;> rfl

theorem xorTypes_none {p : Position} {s : Square} (h : ∀ k' : Kind, (p.byType k'.code).isSet s = false) :
    (xorTypes p).isSet s = false := by
  unfold xorTypes
  have h1 := h .pawn; have h2 := h .lance; have h3 := h .knight; have h4 := h .silver; have h5 := h .bishop; have h6 := h .rook
  have h7 := h .gold; have h8 := h .king; have h9 := h .proPawn; have h10 := h .proLance; have h11 := h .proKnight
  have h12 := h .proSilver; have h13 := h .horse; have h14 := h .dragon
  simp only [Kind.code] at h1 h2 h3 h4 h5 h6 h7 h8 h9 h10 h11 h12 h13 h14
  simp only [isSet_xor, h1, h2, h3, h4, h5, h6, h7, h8, h9, h10, h11, h12, h13, h14]
  rfl

theorem mem_allTypes (k : Kind) : k.code ∈ allTypes := by cases k <;> decide

theorem allTypes_kind : ∀ a ∈ allTypes, ∃ k : Kind, a = k.code := by
  intro a ha
  simp only [allTypes, List.mem_cons, List.not_mem_nil, or_false] at ha
  rcases ha with h | h | h | h | h | h | h | h | h | h | h | h | h | h
  all_goals subst h
  exacts [⟨.pawn, rfl⟩, ⟨.lance, rfl⟩, ⟨.knight, rfl⟩, ⟨.silver, rfl⟩, ⟨.bishop, rfl⟩, ⟨.rook, rfl⟩, ⟨.gold, rfl⟩, ⟨.king, rfl⟩,
    ⟨.proPawn, rfl⟩, ⟨.proLance, rfl⟩, ⟨.proKnight, rfl⟩, ⟨.proSilver, rfl⟩, ⟨.horse, rfl⟩, ⟨.dragon, rfl⟩]

theorem okBitboards_iff {p : Position} (hw : ∀ n : Nat, (p.byType n).WF) (hc : ∀ c, (p.byColor c).WF) : p.okBitboards = true ↔
    (∀ s, ¬ ((p.byColor .black).isSet s = true ∧ (p.byColor .white).isSet s = true)) ∧
    (∀ s, p.occupied.isSet s = true ↔ ∃ c, (p.byColor c).isSet s = true) ∧ (∀ s, (xorTypes p).isSet s = p.occupied.isSet s) ∧
    ∀ s, ∀ k k' : Kind, (p.byType k.code).isSet s = true → (p.byType k'.code).isSet s = true → k = k' := by
  unfold okBitboards
  simp only [Bool.and_eq_true, Bool.not_eq_true', decide_eq_true_iff, and_isAny_iff (hc .black)]
  rw [and_assoc, and_assoc]
  refine and_congr_right fun _ => and_congr ?_ (and_congr ?_ ?_)
  · constructor
    · intro e s
      rw [← e, isSet_or, Bool.or_eq_true]
      constructor
      · rintro (h | h); exacts [⟨_, h⟩, ⟨_, h⟩]
      · rintro ⟨c, h⟩; cases c; exacts [Or.inl h, Or.inr h]
    · intro h
      refine ((hc _).or (hc _)).ext (hw 0) fun s => ?_
      rw [Bool.eq_iff_iff, isSet_or, Bool.or_eq_true]
      rw [h]
      constructor
      · rintro (h | h); exacts [⟨_, h⟩, ⟨_, h⟩]
      · rintro ⟨c, h⟩; cases c; exacts [Or.inl h, Or.inr h]
  · constructor
    · intro e s; rw [← e]; rfl
    · intro h; exact (wf_xorTypes hw).ext (hw 0) h
  · simp only [List.all_eq_true, Bool.not_eq_true', Bool.and_eq_false_iff, decide_eq_false_iff_not]
    constructor
    · intro h s k k' h1 h2
      by_contra hne
      have hx : ∀ k k' : Kind, k.code < k'.code → (p.byType k.code).isSet s = true → (p.byType k'.code).isSet s = true → False := by
        intro k k' hlt h1 h2
        rcases h k.code (mem_allTypes k) k'.code (mem_allTypes k') with h3 | h3
        · exact h3 hlt
        · exact (and_isAny_iff (hw _)).mp h3 s ⟨h1, h2⟩
      rcases Nat.lt_trichotomy k.code k'.code with hlt | he | hlt
      · exact hx k k' hlt h1 h2
      · exact hne (code_inj.mp he)
      · exact hx k' k hlt h2 h1
    · intro h a ha b hb
      by_cases hlt : a < b
      · right
        obtain ⟨k, rfl⟩ := allTypes_kind a ha
        obtain ⟨k', rfl⟩ := allTypes_kind b hb
        rw [and_isAny_iff (hw _)]
        rintro s ⟨h1, h2⟩
        rw [h s k k' h1 h2] at hlt
        exact Nat.lt_irrefl _ hlt
      · exact Or.inl hlt

theorem okArray_iff {p : Position} (hcode : ∀ s, p.piece s = pieceCode ((absPos p).board s)) : p.okArray = true ↔
    ∀ s, match (absPos p).board s with
      | none => p.occupied.isSet s = false
      | some (c, k) => (p.bbOf k.code c).isSet s = true := by
  unfold okArray
  rw [List.all_eq_true]
  constructor
  · intro h s
    have := h s (List.mem_finRange s)
    rw [hcode s] at this
    rcases hb : (absPos p).board s with _ | ⟨c, k⟩
    · rw [hb] at this
      simpa [pieceCode] using this
    · rw [hb] at this
      simp only [pieceCode, mkPiece_ne_zero, if_false, pieceType_mkPiece, pieceColor_mkPiece] at this
      exact this
  · intro h s _
    have := h s
    rw [hcode s]
    rcases hb : (absPos p).board s with _ | ⟨c, k⟩
    · rw [hb] at this
      simpa [pieceCode] using this
    · rw [hb] at this
      simp only [pieceCode, mkPiece_ne_zero, if_false, pieceType_mkPiece, pieceColor_mkPiece]
      exact this

/-- The tests of the bitboards and of the array together say that they show the same board. -/
theorem ok_raw {p : Position} (hw : ∀ n : Nat, (p.byType n).WF) (hc : ∀ c, (p.byColor c).WF)
    (hcode : ∀ s, p.piece s = pieceCode ((absPos p).board s)) :
    (p.okBitboards = true ∧ p.okArray = true) ↔ Raw p (absPos p).board := by
  rw [okBitboards_iff hw hc, okArray_iff hcode]
  constructor
  · rintro ⟨⟨h1, h2, h3, h4⟩, h5⟩
    have hocc : ∀ s, p.occupied.isSet s = true ↔ ∃ k : Kind, (p.byType k.code).isSet s = true := by
      intro s
      rw [← h3 s]
      by_cases he : ∃ k : Kind, (p.byType k.code).isSet s = true
      · obtain ⟨k, hk⟩ := he
        refine iff_of_true (xorTypes_one (k := k) fun k' => ?_) ⟨k, hk⟩
        rw [Bool.eq_iff_iff, decide_eq_true_iff]
        exact ⟨fun h => h4 s k' k h hk, fun h => h ▸ hk⟩
      · refine iff_of_false ?_ he
        rw [xorTypes_none fun k' => ?_]
        · exact Bool.false_ne_true
        · exact Bool.eq_false_iff.mpr fun h => he ⟨k', h⟩
    have hnone : ∀ s, (absPos p).board s = none → p.occupied.isSet s = false := by
      intro s hs; have := h5 s; rw [hs] at this; exact this
    have hsome : ∀ s c k, (absPos p).board s = some (c, k) → (p.byType k.code).isSet s = true ∧ (p.byColor c).isSet s = true := by
      intro s c k hs
      have := h5 s
      rw [hs] at this
      unfold Position.bbOf at this
      simpa [isSet_and] using this
    have hcol : ∀ s c c', (p.byColor c).isSet s = true → (p.byColor c').isSet s = true → c = c' := by
      intro s c c' a b
      cases c <;> cases c'
      · rfl
      · exact absurd ⟨a, b⟩ (h1 s)
      · exact absurd ⟨b, a⟩ (h1 s)
      · rfl
    refine ⟨hcode, fun k s => ?_, fun c s => ?_, fun s => ?_, hw, hc⟩
    · constructor
      · intro hk
        rcases hb : (absPos p).board s with _ | ⟨c, k'⟩
        · have := hnone s hb
          rw [(hocc s).mpr ⟨k, hk⟩] at this; cases this
        · rw [h4 s k k' hk (hsome s c k' hb).1]; exact ⟨c, rfl⟩
      · rintro ⟨c, hb⟩; exact (hsome s c k hb).1
    · constructor
      · intro hk
        rcases hb : (absPos p).board s with _ | ⟨c', k'⟩
        · have := hnone s hb
          rw [(h2 s).mpr ⟨c, hk⟩] at this; cases this
        · rw [hcol s c c' hk (hsome s c' k' hb).2]; exact ⟨k', rfl⟩
      · rintro ⟨k, hb⟩; exact (hsome s c k hb).2
    · rcases hb : (absPos p).board s with _ | ⟨c, k⟩
      · exact hnone s hb
      · exact (hocc s).mpr ⟨k, (hsome s c k hb).1⟩
  · intro h
    refine ⟨⟨fun s e => ?_, fun s => ?_, fun s => ?_, fun s k k' h1 h2 => ?_⟩, fun s => ?_⟩
    · obtain ⟨k, e1⟩ := (h.color _ s).mp e.1
      obtain ⟨k', e2⟩ := (h.color _ s).mp e.2
      rw [e1] at e2; cases e2
    · rw [h.occ]
      simp only [h.color]
      rcases (absPos p).board s with _ | ⟨c, k⟩
      · simp
      · simp
    · rw [h.occ]
      rcases hb : (absPos p).board s with _ | ⟨c, k⟩
      · refine xorTypes_none fun k' => ?_
        rw [Bool.eq_false_iff]
        intro e
        obtain ⟨c', e⟩ := (h.type _ _).mp e
        rw [hb] at e; cases e
      · refine xorTypes_one (k := k) fun k' => ?_
        rw [Bool.eq_iff_iff, h.type, decide_eq_true_iff, hb]
        constructor
        · rintro ⟨c', e⟩; cases e; rfl
        · rintro rfl; exact ⟨c, rfl⟩
    · obtain ⟨c, e1⟩ := (h.type k s).mp h1
      obtain ⟨c', e2⟩ := (h.type k' s).mp h2
      rw [e1] at e2; cases e2; rfl
    · rcases hb : (absPos p).board s with _ | ⟨c, k⟩
      · have := h.occ s; rw [hb] at this; exact this
      · exact (h.bbOf c k s).mpr hb

theorem isOK_iff (Z : Zobrist) (p : Position) : p.isOK Z = true ↔ (p.okBitboards = true ∧ p.okArray = true) ∧ p.okKings = true ∧ p.okCapture = true ∧
    p.st.checkersBB.popCount ≤ 2 ∧ p.getKey = p.computeBoardKey Z + p.computeHandKey Z ∧ p.st.hand = p.hand p.turn := by
  unfold isOK
  simp only [Bool.and_eq_true, Bool.not_eq_true', decide_eq_false_iff_not, decide_eq_true_iff, Nat.not_lt]
  tauto

theorem okCapture_iff {p : Position} (h : Consistent p) : p.okCapture = true ↔
    ((∃ s, (absPos p).board s = some (p.turn, .king)) → ¬ (absPos p).InCheck p.turn.opp) := by
  unfold okCapture
  rcases h1 : p.kingSquare p.turn with _ | k1
  · refine iff_of_true rfl ?_
    rintro ⟨s, e⟩
    exact absurd e (h.king_none h1 s)
  · have e1 : ∃ s, (absPos p).board s = some (p.turn, .king) := ⟨k1, (h.king _ _).mp h1⟩
    rcases h2 : p.kingSquare p.turn.opp with _ | k
    · refine iff_of_true rfl ?_
      rintro - ⟨s, e, -⟩
      exact absurd e (h.king_none h2 s)
    · have hx := inCheckB_iff h p.turn.opp
      unfold inCheckB at hx
      rw [h2] at hx
      simp only [attackersToIsAny, opp_opp] at hx
      simp only [e1, true_implies, ← hx, Bool.not_eq_true, Bool.not_eq_true']

/-- The key of a position, from its board and hands. -/
theorem computeKey_spec (Z : Zobrist) {p : Position} (h : ∀ s, p.piece s = pieceCode ((absPos p).board s)) :
    p.computeBoardKey Z + p.computeHandKey Z = specKey Z (absPos p) := by
  have := getKey_spec Z { p with st := { p.st with boardKey := p.computeBoardKey Z, handKey := p.computeHandKey Z, hand := p.hand p.turn } }
    h ⟨rfl, rfl, rfl⟩
  exact this

/-- **C74**: what a true answer of `is_ok` means when the array holds piece codes only: array and bitboards show the same board,
there is a king, nobody has two, the stored key is that of the board, the stored hand that of the side to move, and at most two
pieces are recorded as giving check. -/
theorem C74_true (Z : Zobrist) {p : Position} (hw : ∀ n : Nat, (p.byType n).WF) (hc : ∀ c, (p.byColor c).WF)
    (hcode : ∀ s, p.piece s = pieceCode ((absPos p).board s)) (h : p.isOK Z = true) :
    Raw p (absPos p).board ∧ OneKing (absPos p).board ∧ (∃ c s, (absPos p).board s = some (c, .king)) ∧
    p.getKey = specKey Z (absPos p) ∧ p.st.hand = p.hand p.turn ∧ p.st.checkersBB.popCount ≤ 2 := by
  obtain ⟨h1, h2, -, h4, h5, h6⟩ := (isOK_iff Z p).mp h
  have hr := (ok_raw hw hc hcode).mp h1
  obtain ⟨k1, k2⟩ := (okKings_iff hr).mp h2
  exact ⟨hr, k1, k2, by rw [h5, computeKey_spec Z hcode], h6, h4⟩

/-- **C74**: for a position whose views agree, `is_ok` is true exactly if there is a king, the side to move (if it has a king)
cannot take the other king, at most two pieces are recorded as giving check, and key and hand of the side to move are right. -/
theorem C74_iff (Z : Zobrist) {p : Position} (h : Consistent p) : p.isOK Z = true ↔
    (∃ c s, (absPos p).board s = some (c, .king)) ∧
    ((∃ s, (absPos p).board s = some (p.turn, .king)) → ¬ (absPos p).InCheck p.turn.opp) ∧
    p.st.checkersBB.popCount ≤ 2 ∧ p.getKey = specKey Z (absPos p) ∧ p.st.hand = p.hand p.turn := by
  have h1 : OneKing (absPos p).board := by
    intro c s t h1 h2
    have a := (h.king c s).mpr h1
    have b := (h.king c t).mpr h2
    rw [a] at b; exact Option.some.inj b
  rw [isOK_iff, ok_raw h.wfType h.wfColor h.code, okKings_iff h.raw, okCapture_iff h, computeKey_spec Z h.code]
  have := h.raw
  tauto

/-! ### Checks after a move -/

/-- A safe move gives check with the piece moved and at most one other. -/
theorem checkers_after {q : Pos} (hw : ¬ q.InCheck q.turn.opp) (h1 : OneKing q.board) {m : Mv} (hm : q.Safe m) :
    ∃ a b, ∀ s, (∃ k, (q.play m).board k = some (q.turn.opp, .king) ∧ (q.play m).AttacksSq q.turn s k) → s = a ∨ s = b := by
  classical
  by_cases hk : ∃ k, q.board k = some (q.turn.opp, .king)
  · obtain ⟨k, hk⟩ := hk
    have hK : KingAt q q.turn.opp k := fun s => ⟨fun e => h1 _ _ _ e hk, fun e => e ▸ hk⟩
    have hking := king_after (pseudo_playable hm.1 hw)
    cases m with
    | move f t pro =>
      obtain ⟨kd, hf, hat, ht, -⟩ := hm.1
      have hg := move_gives (pro := pro) hK hw hf hat ht
      by_cases hp : ∃ s, PinLine q q.turn k f s
      · obtain ⟨s0, hs0⟩ := hp
        refine ⟨t, s0, ?_⟩
        rintro s ⟨k', e, ha⟩
        rw [(hK k').mp ((hking k').mp e)] at ha
        rcases (hg s).mp ha with h | h
        · exact Or.inl h.1
        · exact Or.inr (h.1.unique hs0)
      · refine ⟨t, t, ?_⟩
        rintro s ⟨k', e, ha⟩
        rw [(hK k').mp ((hking k').mp e)] at ha
        rcases (hg s).mp ha with h | h
        · exact Or.inl h.1
        · exact absurd ⟨s, h.1⟩ hp
    | drop h t =>
      refine ⟨t, t, ?_⟩
      rintro s ⟨k', e, ha⟩
      rw [(hK k').mp ((hking k').mp e)] at ha
      exact Or.inl ((drop_gives hK hw hm.1.2.1 s).mp ha).1
  · refine ⟨0, 0, ?_⟩
    rintro s ⟨k, e, -⟩
    exact absurd ⟨k, (king_after (pseudo_playable hm.1 hw) k).mp e⟩ hk

theorem popCount_le_two {b : Bitboard} (hw : b.WF) {x y : Square} (h : ∀ s, b.isSet s = true → s = x ∨ s = y) : b.popCount ≤ 2 := by
  rw [popCount_isSet hw]
  exact countP_le_two _ x y _ (List.nodup_finRange 81) h

theorem LChain.checkers {Z : Zobrist} {p0 : Position} {b : Board} (h : LChain Z p0 b) (h0 : p0.st.checkersBB.popCount ≤ 2) :
    b.pos.st.checkersBB.popCount ≤ 2 := by
  cases h with
  | base cc => exact h0
  | push b m p' cc hb hm he =>
    obtain ⟨i1, -, i3⟩ := hb.good
    obtain ⟨p'', e, -, hc, -, ha, -⟩ := doMove_safe Z i1 i3 hm
    rw [he] at e; cases e
    show p'.st.checkersBB.popCount ≤ 2
    have h1 : OneKing (absPos b.pos).board := by
      intro c s t h1 h2
      have a := (i1.views.king c s).mpr h1
      have b := (i1.views.king c t).mpr h2
      rw [a] at b; exact Option.some.inj b
    obtain ⟨x, y, hxy⟩ := checkers_after i3 h1 hm
    have ht : p'.turn = b.pos.turn.opp := by
      have : (absPos p').turn = b.pos.turn.opp := by rw [ha]; exact play_turn m
      exact this
    refine popCount_le_two hc.wf (x := x) (y := y) fun s hs => ?_
    have := (hc.iff s).mp hs
    rw [ht, opp_opp, ha] at this
    exact hxy s this
  | pass b cc hb hn =>
    have hg := (LChain.pass b cc hb hn).good.2.1
    have e : (Verif.withCC (doNull b.pos).1 cc).st.checkersBB = b.pos.st.checkersBB := by
      rfl
    show (Verif.withCC (doNull b.pos).1 cc).st.checkersBB.popCount ≤ 2
    rw [e]
    refine popCount_le_two hb.good.2.1.wf (x := 0) (y := 0) fun s hs => ?_
    have := (hb.good.2.1.wf.isAny_iff).mpr ⟨s, hs⟩
    have hn' : b.pos.st.checkersBB.isAny = false := hn
    rw [hn'] at this; cases this

/-- **C74**: `is_ok` is true at every moment of every game of legal moves, passes and their taking back, of any length, that starts
from a regular position in which at most two pieces give check. -/
theorem C74_game (Z : Zobrist) (p : Position) (hp : Inv Z p) (hc : CheckOK p) (hr : (absPos p).Regular) (h2 : p.st.checkersBB.popCount ≤ 2)
    (ops : List Op) (ho : Always LegalOp Z ⟨p, []⟩ ops) : ∃ b, Board.run Z ⟨p, []⟩ ops = some b ∧ b.pos.isOK Z = true := by
  have hch := LChain.base (p0 := p) p.st.continuousCheck hp hc hr.waiting
  rw [withCC_self] at hch
  obtain ⟨b, e, hb⟩ := hch.run ops ho
  refine ⟨b, e, ?_⟩
  obtain ⟨g1, g2, g3⟩ := hb.good
  have g4 := hb.regular hr
  rw [C74_iff Z g1.views]
  obtain ⟨k, hk⟩ := g4.kings .black
  exact ⟨⟨.black, k, (hk k).mpr rfl⟩, fun _ => g3, hb.checkers h2, getKey_spec Z _ g1.views.code g1.keys, g1.keys.stHand⟩

/-- 7g7f, pass, take both back. -/
def okOps : List Op := [.push (makeMove PT.Pawn 60 59), .pushPass, .popPass, .pop]

example : Inv zeroKeys (startModel zeroKeys) ∧ CheckOK (startModel zeroKeys) ∧ (absPos (startModel zeroKeys)).Regular ∧
    (startModel zeroKeys).st.checkersBB.popCount ≤ 2 ∧ Always LegalOp zeroKeys ⟨startModel zeroKeys, []⟩ okOps := by
  obtain ⟨h1, h2, h3⟩ := startModel_ok zeroKeys
  refine ⟨h1, h2, h3, by decide +kernel, ?_⟩
  have hch := LChain.base (p0 := startModel zeroKeys) (startModel zeroKeys).st.continuousCheck h1 h2 h3.waiting
  rw [withCC_self] at hch
  have hb : playB zeroKeys ⟨startModel zeroKeys, []⟩ okOps = true := by decide +kernel
  exact (playB_legal h3 hch _ hb).mono fun _ _ h => h.1

/-- The start position with the pawn on 7g moved in the array only: `is_ok` notices. -/
example : ({ startModel zeroKeys with piece := upd (upd (startModel zeroKeys).piece 60 0) 59 1 } : Position).isOK zeroKeys = false := by
  decide +kernel

/-- The start position with only the side to move changed: the key no longer fits, `is_ok` notices. -/
example : ({ startModel zeroKeys with turn := .white } : Position).isOK zeroKeys = false := by decide +kernel

/-- The start position without its set of golds and without the squares of its kings. -/
def blindModel : Position := { startModel zeroKeys with golds := zero, kingSquare := fun _ => none }

/-- **C74**: the set of golds and promoted pieces and the squares of the kings are not looked at: with both emptied the start
position still passes, although it does not know any more where its kings stand. -/
theorem C74_blind : blindModel.isOK zeroKeys = true ∧ ¬ Consistent blindModel := by
  refine ⟨by decide +kernel, fun h => ?_⟩
  have e : (absPos blindModel).board 44 = some (.black, .king) := by decide +kernel
  have h2 : blindModel.kingSquare .black = none := rfl
  have := (h.king .black 44).mpr e
  rw [h2] at this
  cases this

end Verif
