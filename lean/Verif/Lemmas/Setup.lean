import Verif.Model.Setup
import Verif.Lemmas.Attackers
import Verif.Props.Hands

namespace Verif
open Spec Bitboard Position

theorem upd_same {α β : Type} [DecidableEq α] (f : α → β) (a : α) (v : β) : upd f a v a = v := by simp [upd]
theorem upd_ne {α β : Type} [DecidableEq α] (f : α → β) {a x : α} (v : β) (h : x ≠ a) : upd f a v x = f x := by
  simp [upd, h]

theorem isSet_upd_setBit {α : Type} [DecidableEq α] (f : α → Bitboard) (a x : α) (s t : Square) :
    (upd f a ((f a).setBit s) x).isSet t = ((f x).isSet t || (decide (x = a) && decide (t = s))) := by
  unfold upd
  split
  · next h => subst h; simp
  · next h => simp [h]

theorem isSet_upd_xorBit {α : Type} [DecidableEq α] (f : α → Bitboard) (a x : α) (s t : Square) :
    (upd f a ((f a).xorBit s) x).isSet t = ((f x).isSet t ^^ (decide (x = a) && decide (t = s))) := by
  unfold upd
  split
  · next h => subst h; simp
  · next h => simp [h]

theorem wf_upd {α : Type} [DecidableEq α] {f : α → Bitboard} {a : α} {v : Bitboard} (hf : ∀ x, (f x).WF) (hv : v.WF) (x : α) :
    (upd f a v x).WF := by
  unfold upd; split
  · exact hv
  · exact hf x

/-- The placement part of a position (board array and bitboards) shows the board `b`. -/
structure Raw (p : Position) (b : Square → Option (Color × Kind)) : Prop where
  code : ∀ s, p.piece s = pieceCode (b s)
  type : ∀ k s, (p.byType k.code).isSet s = true ↔ ∃ c, b s = some (c, k)
  color : ∀ c s, (p.byColor c).isSet s = true ↔ ∃ k, b s = some (c, k)
  occ : ∀ s, p.occupied.isSet s = (b s).isSome
  wfType : ∀ n, (p.byType n).WF
  wfColor : ∀ c, (p.byColor c).WF

theorem Raw.clear : Raw Position.clear (fun _ => none) where
  code _ := rfl
  type k s := by simp [Position.clear]
  color c s := by simp [Position.clear]
  occ s := by simp [Position.clear, Position.occupied]
  wfType _ := WF.zero
  wfColor _ := WF.zero

theorem Raw.setPiece {p : Position} {b : Square → Option (Color × Kind)} (h : Raw p b) {s : Square} (hs : b s = none)
    (c : Color) (k : Kind) : Raw (p.setPiece (mkPiece c k.code) s) (Pos.set b s (some (c, k))) := by
  have hpt := pieceType_mkPiece c k
  have hpc := pieceColor_mkPiece c k
  constructor
  · intro t
    simp only [Position.setPiece, upd, Pos.set]
    split
    · rfl
    · exact h.code t
  · intro k' t
    simp only [Position.setPiece, hpt, isSet_upd_setBit, code_ne_zero, decide_false, Bool.false_and, Bool.or_false,
      PT.Occupied, Bool.or_eq_true, h.type, Bool.and_eq_true, decide_eq_true_iff, code_inj]
    unfold Pos.set
    by_cases ht : t = s
    · subst ht; simp [hs]; exact eq_comm
    · simp [ht]
  · intro c' t
    simp only [Position.setPiece, hpc, isSet_upd_setBit, Bool.or_eq_true, h.color, Bool.and_eq_true, decide_eq_true_iff]
    unfold Pos.set
    by_cases ht : t = s
    · subst ht; simp [hs]; exact eq_comm
    · simp [ht]
  · intro t
    simp only [Position.setPiece, hpt, Position.occupied, isSet_upd_setBit, decide_true, Bool.true_and, PT.Occupied]
    have h0 : decide ((0 : Nat) = k.code) = false := decide_eq_false (fun e => code_ne_zero k e.symm)
    rw [h0, Bool.false_and, Bool.or_false, show (p.byType 0).isSet t = (b t).isSome from h.occ t]
    unfold Pos.set
    by_cases ht : t = s <;> simp [ht]
  · intro n
    exact wf_upd (wf_upd h.wfType ((h.wfType _).setBit s)) ((wf_upd h.wfType ((h.wfType _).setBit s) _).setBit s) n
  · intro c'
    exact wf_upd h.wfColor ((h.wfColor _).setBit s) c'

theorem Raw.abs {p : Position} {b : Square → Option (Color × Kind)} (h : Raw p b) : (absPos p).board = b := by
  funext s
  show decodePiece (p.piece s) = b s
  rw [h.code, decode_pieceCode]

/-- Placing pieces on distinct empty squares. -/
theorem Raw.place (l : List Square) (hnd : l.Nodup) (b : Square → Option (Color × Kind)) (p : Position)
    (b0 : Square → Option (Color × Kind)) (h : Raw p b0) (h0 : ∀ s ∈ l, b0 s = none) :
    Raw (l.foldl (fun q s => if pieceCode (b s) ≠ 0 then q.setPiece (pieceCode (b s)) s else q) p)
      (fun s => if s ∈ l then b s else b0 s) := by
  induction l generalizing p b0 with
  | nil => simpa using h
  | cons a l ih =>
    have hnd' := List.nodup_cons.mp hnd
    simp only [List.foldl_cons]
    have e : (fun s => if s ∈ a :: l then b s else b0 s) =
        (fun s => if s ∈ l then b s else (Pos.set b0 a (b a)) s) := by
      funext s
      unfold Pos.set
      by_cases h1 : s ∈ l
      · simp [h1]
      · by_cases h2 : s = a
        · subst h2; simp [h1]
        · simp [h1, h2]
    rw [e]
    apply ih hnd'.2
    · split
      · next hne =>
        rcases hb : b a with _ | ⟨c, k⟩
        · rw [hb] at hne; simp [pieceCode] at hne
        · exact h.setPiece (h0 a (by simp)) c k
      · next hne =>
        have hb : b a = none := pieceCode_eq_zero.mp (by simpa using hne)
        have : Pos.set b0 a (b a) = b0 := by
          funext t; unfold Pos.set
          split
          · next ht => rw [ht, hb, h0 a (by simp)]
          · rfl
        rw [this]; exact h
    · intro s hs
      unfold Pos.set
      have : s ≠ a := by rintro rfl; exact hnd'.1 hs
      rw [if_neg this]; exact h0 s (by simp [hs])

theorem Raw.congr {p q : Position} {b : Square → Option (Color × Kind)} (h : Raw p b) (h1 : q.piece = p.piece)
    (h2 : q.byType = p.byType) (h3 : q.byColor = p.byColor) : Raw q b where
  code s := by rw [h1]; exact h.code s
  type k s := by rw [h2]; exact h.type k s
  color c s := by rw [h3]; exact h.color c s
  occ s := by unfold Position.occupied; rw [h2]; exact h.occ s
  wfType n := by rw [h2]; exact h.wfType n
  wfColor c := by rw [h3]; exact h.wfColor c

/-- At most one king of each colour. -/
def OneKing (b : Square → Option (Color × Kind)) : Prop :=
  ∀ c s t, b s = some (c, .king) → b t = some (c, .king) → s = t

theorem isSet_computeGolds {p : Position} {b : Square → Option (Color × Kind)} (h : Raw p b) (s : Square) :
    p.computeGolds.isSet s = true ↔ ∃ c k, b s = some (c, k) ∧ goldLike k = true := by
  have h7 := h.type .gold s
  have h9 := h.type .proPawn s
  have h10 := h.type .proLance s
  have h11 := h.type .proKnight s
  have h12 := h.type .proSilver s
  simp only [Kind.code] at h7 h9 h10 h11 h12
  simp only [computeGolds, bbOf5, bbOf4, bbOf3, bbOf2, isSet_or, Bool.or_eq_true, h7, h9, h10, h11, h12]
  constructor
  · rintro ((((⟨c, e⟩ | ⟨c, e⟩) | ⟨c, e⟩) | ⟨c, e⟩) | ⟨c, e⟩) <;> exact ⟨c, _, e, rfl⟩
  · rintro ⟨c, k, e, hk⟩
    cases k <;> simp [goldLike] at hk <;> simp [e]

theorem wf_computeGolds {p : Position} {b : Square → Option (Color × Kind)} (h : Raw p b) : p.computeGolds.WF :=
  ((((h.wfType _).or (h.wfType _)).or (h.wfType _)).or (h.wfType _)).or (h.wfType _)

theorem kingSquareOrNone_iff {p : Position} {b : Square → Option (Color × Kind)} (h : Raw p b) (h1 : OneKing b) (c : Color)
    (s : Square) : kingSquareOrNone (p.bbOf PT.King c) = some s ↔ b s = some (c, .king) := by
  have hk : ∀ t, (p.bbOf PT.King c).isSet t = true ↔ b t = some (c, .king) := by
    intro t
    have := h.type .king t
    simp only [Kind.code] at this
    rw [bbOf, isSet_and, Bool.and_eq_true, this, h.color]
    constructor
    · rintro ⟨⟨c1, e1⟩, ⟨k1, e2⟩⟩
      rw [e1] at e2; cases e2; exact e1
    · intro e; exact ⟨⟨c, e⟩, ⟨_, e⟩⟩
  have hw : (p.bbOf PT.King c).WF := (h.wfColor c).and_right
  unfold kingSquareOrNone
  split
  · next ha =>
    obtain ⟨t, ht⟩ := hw.isAny_iff.mp ha
    have hf : (p.bbOf PT.King c).first = t.val := by
      refine hw.first_eq t ht ?_
      intro u hu
      have := h1 c u t ((hk u).mp hu) ((hk t).mp ht)
      subst this; exact le_refl _
    have hsq : sqN (p.bbOf PT.King c).first = t := by rw [hf]; ext; simp [sqN, Fin.ofNat, Nat.mod_eq_of_lt t.isLt]
    rw [hsq, Option.some.injEq]
    constructor
    · rintro rfl; exact (hk t).mp ht
    · intro hs; exact h1 c t s ((hk t).mp ht) hs
  · next ha =>
    have : ¬ b s = some (c, .king) := by
      intro hs
      exact ha (hw.isAny_iff.mpr ⟨s, (hk s).mpr hs⟩)
    simp [this]

/-- The set-up functions leave all views consistent. -/
theorem Raw.consistent {p : Position} {b : Square → Option (Color × Kind)} (h : Raw p b)
    (hk : ∀ c s, p.kingSquare c = some s ↔ b s = some (c, .king))
    (hg : ∀ s, p.golds.isSet s = true ↔ ∃ c k, b s = some (c, k) ∧ goldLike k = true) (hgw : p.golds.WF)
    (hh : ∀ c, (p.hand c).WF) : Consistent p where
  code s := by rw [h.abs]; exact h.code s
  type := by rw [h.abs]; exact h.type
  color := by rw [h.abs]; exact h.color
  occ s := by rw [h.occ]; unfold Pos.occ; rw [h.abs]
  golds := by rw [h.abs]; exact hg
  king := by rw [h.abs]; exact hk
  wfType := h.wfType
  wfColor := h.wfColor
  wfOcc := h.wfType _
  wfGolds := hgw
  hand := hh

theorem Consistent.raw {p : Position} (h : Consistent p) : Raw p (absPos p).board where
  code := h.code
  type := h.type
  color := h.color
  occ := h.occ
  wfType := h.wfType
  wfColor := h.wfColor

theorem finish_consistent (Z : Zobrist) {p : Position} {b : Square → Option (Color × Kind)} (h : Raw p b) (h1 : OneKing b)
    (hh : ∀ c, (p.hand c).WF) : Consistent (finish Z p) := by
  have hr : Raw (finish Z p) b := h.congr rfl rfl rfl
  exact hr.consistent (fun c s => kingSquareOrNone_iff h h1 c s) (isSet_computeGolds h) (wf_computeGolds h) hh

end Verif
