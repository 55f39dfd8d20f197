import Verif.Model.Abs
import Verif.Lemmas.Rays
import Verif.Lemmas.Hand

namespace Verif
open Spec Bitboard

/-! ### Codes -/

theorem kindOf_code (k : Kind) : kindOf k.code = some k := by cases k <;> rfl

theorem code_pos (k : Kind) : 1 ≤ k.code := by cases k <;> decide
theorem code_le (k : Kind) : k.code ≤ 14 := by cases k <;> decide
theorem code_ne_zero (k : Kind) : k.code ≠ 0 := by cases k <;> decide

theorem kindOf_eq_some {n : Nat} {k : Kind} : kindOf n = some k ↔ n = k.code := by
  constructor
  · intro h
    unfold kindOf at h
    split at h <;> first | (cases h; rfl) | simp at h
  · rintro rfl; exact kindOf_code k

theorem code_inj {k k' : Kind} : k.code = k'.code ↔ k = k' := by
  constructor
  · intro h
    have h1 := kindOf_code k
    rw [h, kindOf_code] at h1
    exact (Option.some.inj h1).symm
  · rintro rfl; rfl

/-- The piece code of an optional piece. -/
def pieceCode : Option (Color × Kind) → Piece
  | none => 0
  | some (c, k) => mkPiece c k.code

theorem idx_eq (c : Color) : c.idx = if c = .black then 0 else 1 := by cases c <;> rfl

theorem decode_mkPiece (c : Color) (k : Kind) : decodePiece (mkPiece c k.code) = some (c, k) := by
  cases c <;> cases k <;> rfl

theorem decode_pieceCode (v : Option (Color × Kind)) : decodePiece (pieceCode v) = v := by
  rcases v with _ | ⟨c, k⟩
  · rfl
  · exact decode_mkPiece c k

theorem pieceType_mkPiece (c : Color) (k : Kind) : pieceType (mkPiece c k.code) = k.code := by
  cases c <;> cases k <;> rfl
theorem pieceColor_mkPiece (c : Color) (k : Kind) : pieceColor (mkPiece c k.code) = c := by
  cases c <;> cases k <;> rfl
theorem mkPiece_ne_zero (c : Color) (k : Kind) : mkPiece c k.code ≠ 0 := by
  cases c <;> cases k <;> decide
theorem pieceCode_eq_zero {v : Option (Color × Kind)} : pieceCode v = 0 ↔ v = none := by
  rcases v with _ | ⟨c, k⟩
  · simp [pieceCode]
  · simp [pieceCode, mkPiece_ne_zero]

theorem opp_opp (c : Color) : c.opp.opp = c := by cases c <;> rfl
theorem opp_ne (c : Color) : c.opp ≠ c := by cases c <;> decide
theorem ne_opp (c : Color) : c ≠ c.opp := by cases c <;> decide
theorem eq_or_opp (c d : Color) : d = c ∨ d = c.opp := by cases c <;> cases d <;> simp [Color.opp]

/-- The kinds that move like a gold and are not horse, dragon or king. -/
def goldLike : Kind → Bool
  | .gold | .proPawn | .proLance | .proKnight | .proSilver => true
  | _ => false

/-! ### Consistency of the views -/

/-- All views of the position agree with the board shown by `absPos`, and no bitboard or hand carries stray bits. -/
structure Consistent (p : Position) : Prop where
  code : ∀ s, p.piece s = pieceCode ((absPos p).board s)
  type : ∀ k s, (p.byType k.code).isSet s = true ↔ ∃ c, (absPos p).board s = some (c, k)
  color : ∀ c s, (p.byColor c).isSet s = true ↔ ∃ k, (absPos p).board s = some (c, k)
  occ : ∀ s, p.occupied.isSet s = (absPos p).occ s
  golds : ∀ s, p.golds.isSet s = true ↔ ∃ c k, (absPos p).board s = some (c, k) ∧ goldLike k = true
  king : ∀ c s, p.kingSquare c = some s ↔ (absPos p).board s = some (c, .king)
  wfType : ∀ n : Nat, (p.byType n).WF
  wfColor : ∀ c, (p.byColor c).WF
  wfOcc : p.occupied.WF
  wfGolds : p.golds.WF
  hand : ∀ c, (p.hand c).WF

namespace Consistent
variable {p : Position} (h : Consistent p)
include h

theorem type_some {s : Square} {c : Color} {k : Kind} (hb : (absPos p).board s = some (c, k)) (k' : Kind) :
    (p.byType k'.code).isSet s = decide (k' = k) := by
  rw [Bool.eq_iff_iff, h.type, decide_eq_true_iff, hb]
  constructor
  · rintro ⟨c', e⟩; cases e; rfl
  · rintro rfl; exact ⟨c, rfl⟩

theorem type_none {s : Square} (hb : (absPos p).board s = none) (k' : Kind) :
    (p.byType k'.code).isSet s = false := by
  rw [Bool.eq_false_iff, ne_eq, h.type, hb]; simp

theorem color_some {s : Square} {c : Color} {k : Kind} (hb : (absPos p).board s = some (c, k)) (c' : Color) :
    (p.byColor c').isSet s = decide (c' = c) := by
  rw [Bool.eq_iff_iff, h.color, decide_eq_true_iff, hb]
  constructor
  · rintro ⟨c', e⟩; cases e; rfl
  · rintro rfl; exact ⟨k, rfl⟩

theorem color_none {s : Square} (hb : (absPos p).board s = none) (c' : Color) :
    (p.byColor c').isSet s = false := by
  rw [Bool.eq_false_iff, ne_eq, h.color, hb]; simp

theorem golds_some {s : Square} {c : Color} {k : Kind} (hb : (absPos p).board s = some (c, k)) :
    p.golds.isSet s = goldLike k := by
  rw [Bool.eq_iff_iff, h.golds, hb]
  constructor
  · rintro ⟨c', k', e, hk⟩; cases e; exact hk
  · intro hk; exact ⟨c, k, rfl, hk⟩

theorem golds_none {s : Square} (hb : (absPos p).board s = none) : p.golds.isSet s = false := by
  rw [Bool.eq_false_iff, ne_eq, h.golds, hb]; simp

theorem occ_fun : p.occupied.isSet = (absPos p).occ := funext h.occ

theorem piece_some {s : Square} {c : Color} {k : Kind} (hb : (absPos p).board s = some (c, k)) :
    p.piece s = mkPiece c k.code := by rw [h.code, hb]; rfl
theorem piece_none {s : Square} (hb : (absPos p).board s = none) : p.piece s = 0 := by rw [h.code, hb]; rfl

theorem king_none {c : Color} (hk : p.kingSquare c = none) (s : Square) : (absPos p).board s ≠ some (c, .king) := by
  rw [ne_eq, ← h.king, hk]; simp

/-- One king at most. -/
theorem king_unique {c : Color} {s t : Square} (hs : (absPos p).board s = some (c, .king))
    (ht : (absPos p).board t = some (c, .king)) : s = t := by
  have h1 := (h.king c s).mpr hs
  have h2 := (h.king c t).mpr ht
  rw [h1] at h2; exact Option.some.inj h2

end Consistent

/-! ### Attacks seen from the other end -/

theorem isDir_slides (k : Kind) : ∀ d ∈ k.slides, IsDir d := by
  intro d hd
  cases k <;> simp only [Kind.slides, List.not_mem_nil] at hd
  · simp only [List.mem_singleton] at hd; subst hd; exact ⟨Or.inl rfl, Or.inr (Or.inr rfl), by simp⟩
  · exact isDir_diag hd
  · exact isDir_orth hd
  · exact isDir_diag hd
  · exact isDir_orth hd

theorem isDir_orient {c : Color} {d : Dir} (h : IsDir d) : IsDir (orient c d) := h.orient c

/-- `c`'s piece on `t` attacks `s` exactly when a piece of the same kind but the other colour on `s` attacks `t`. -/
theorem attacks_symm (c : Color) (k : Kind) (occ : Square → Bool) (s t : Square) :
    Attacks c.opp k occ s t ↔ Attacks c k occ t s := by
  unfold Attacks
  apply or_congr
  · apply exists_congr; intro d
    apply and_congr_right; intro _
    rw [at_symm, orient_opp, neg_neg']
  · apply exists_congr; intro d
    apply and_congr_right; intro hd
    rw [orient_opp, ← reach_symm (isDir_orient (isDir_slides k d hd))]

end Verif
