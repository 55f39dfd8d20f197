import Verif.Model.MoveText
import Verif.Props.Legal

/-!
# Moves as text: C05, C06, C07
-/

namespace Verif
open Spec Bitboard Position

theorem squareOf_usi : ∀ s : Square, squareOf 97 (Char.ofNat (49 + s.val / 9)) (Char.ofNat (97 + s.val % 9)) = some s := by
  decide +kernel

theorem squareOf_csa : ∀ s : Square, squareOf 49 (Char.ofNat (49 + s.val / 9)) (Char.ofNat (49 + s.val % 9)) = some s := by
  decide +kernel

theorem charToPiece_file : ∀ s : Square, charToPiece (Char.ofNat (49 + s.val / 9)) = none := by decide +kernel

theorem file_ne_zero : ∀ s : Square, Char.ofNat (49 + s.val / 9) ≠ '0' := by decide +kernel

theorem encode_ne_zero {p : Position} {mv : Mv} (h : (absPos p).Pseudo mv) : encode p mv ≠ 0#32 := by
  intro h0
  cases mv with
  | move f t pro =>
    obtain ⟨h1, h2, -⟩ := src_eq p f t pro
    rw [show boardMove p.piece f t pro = 0#32 from h0] at h1 h2
    have e1 : f = t := by
      apply Fin.ext
      rw [← h1, ← h2]; rfl
    subst e1
    obtain ⟨kd, hf, -, hne, -⟩ := h
    exact hne kd hf
  | drop k t =>
    obtain ⟨-, -, hd, -⟩ := drop_fields k t
    rw [show makeDropMove k.kind.code t.val = 0#32 from h0] at hd
    exact absurd hd (by decide)

/-! ### C05 -/

/-- The text of a rule move in USI. -/
def usiText : Mv → List Char
  | .move f t pro => [Char.ofNat (49 + f.val / 9), Char.ofNat (97 + f.val % 9), Char.ofNat (49 + t.val / 9),
      Char.ofNat (97 + t.val % 9)] ++ (if pro then ['+'] else [])
  | .drop h t => [match h with
      | .pawn => 'P' | .lance => 'L' | .knight => 'N' | .silver => 'S' | .gold => 'G' | .bishop => 'B' | .rook => 'R', '*',
      Char.ofNat (49 + t.val / 9), Char.ofNat (97 + t.val % 9)]

theorem toUSI_encode {p : Position} {mv : Mv} (h : (absPos p).Pseudo mv) : (encode p mv).toUSI = some (usiText mv) := by
  unfold Move.toUSI
  rw [if_neg (encode_ne_zero h)]
  cases mv with
  | move f t pro =>
    obtain ⟨h1, h2, h3⟩ := src_eq p f t pro
    have hd : (boardMove p.piece f t pro).isDrop = false := by
      unfold Move.isDrop; rw [h1]; simp
    simp only [encode, hd, h1, h2, h3, squareUSI, f.isLt, t.isLt, if_true, Option.bind_some, Option.map_some]
    rfl
  | drop k t =>
    obtain ⟨-, h1, hd, h2, -⟩ := drop_fields k t
    simp only [encode, hd, h1, Move.handPieceDropped, h2, squareUSI, t.isLt, if_true, Option.map_some]
    cases k <;> rfl

theorem checked_legal {p : Position} {m : Move} (h : p.isLegal m = some true) : p.checked m = some m := by
  unfold checked; rw [h]; rfl

theorem usi_plain (p : Position) {a b c d : Char} {f t : Square} (e1 : charToPiece a = none) (e2 : squareOf 97 a b = some f)
    (e3 : squareOf 97 c d = some t) : p.usiToMove [a, b, c, d] = p.checked (boardMove p.piece f t false) := by
  simp [usiToMove, charAt, e1, usiBoard, squareAt, e2, e3]

theorem usi_promote (p : Position) {a b c d : Char} {f t : Square} (e1 : charToPiece a = none) (e2 : squareOf 97 a b = some f)
    (e3 : squareOf 97 c d = some t) : p.usiToMove [a, b, c, d, '+'] = p.checked (boardMove p.piece f t true) := by
  simp [usiToMove, charAt, e1, usiBoard, squareAt, e2, e3]

theorem usi_drop (p : Position) {a c d : Char} {pc : Piece} {t : Square} (e1 : charToPiece a = some pc)
    (e3 : squareOf 97 c d = some t) (l : List Char) :
    p.usiToMove (a :: '*' :: c :: d :: l) = p.checked (makeDropMove (pieceType pc) t.val) := by
  have h0 : charAt (a :: '*' :: c :: d :: l) 0 = some a := rfl
  have h1 : charAt (a :: '*' :: c :: d :: l) 1 = some '*' := by simp [charAt]
  have h2 : charAt (a :: '*' :: c :: d :: l) 2 = some c := by simp [charAt]
  have h3 : charAt (a :: '*' :: c :: d :: l) 3 = some d := by simp [charAt]
  simp [usiToMove, h0, h1, e1, usiDrop, squareAt, h2, h3, e3]

theorem usi_text {p : Position} {mv : Mv} (h : p.isLegal (encode p mv) = some true) :
    p.usiToMove (usiText mv) = some (encode p mv) := by
  have hc := checked_legal h
  cases mv with
  | move f t pro =>
    cases pro
    · exact (usi_plain p (charToPiece_file f) (squareOf_usi f) (squareOf_usi t)).trans hc
    · exact (usi_promote p (charToPiece_file f) (squareOf_usi f) (squareOf_usi t)).trans hc
  | drop k t =>
    obtain ⟨a, pc, h1, h2, h3⟩ : ∃ a pc, usiText (.drop k t) = a :: '*' :: Char.ofNat (49 + t.val / 9) :: Char.ofNat (97 + t.val % 9) :: [] ∧
        charToPiece a = some pc ∧ pieceType pc = k.kind.code := by
      cases k
      · exact ⟨'P', 1, rfl, rfl, rfl⟩
      · exact ⟨'L', 2, rfl, rfl, rfl⟩
      · exact ⟨'N', 3, rfl, rfl, rfl⟩
      · exact ⟨'S', 4, rfl, rfl, rfl⟩
      · exact ⟨'G', 7, rfl, rfl, rfl⟩
      · exact ⟨'B', 5, rfl, rfl, rfl⟩
      · exact ⟨'R', 6, rfl, rfl, rfl⟩
    rw [h1, usi_drop p h2 (squareOf_usi t), h3]
    exact hc

/-- **C05**: every legal move is read back from its USI text. -/
theorem C05_round_trip (p : Position) (hp : Consistent p) (hc : CheckOK p) (hr : (absPos p).Regular) :
    ∃ l, genLegal p true = some l ∧ ∀ m ∈ l, ∃ s, m.toUSI = some s ∧ p.usiToMove s = some m := by
  obtain ⟨l, e, hl⟩ := C27_listed_partial p hp hc hr
  obtain ⟨l', e', -, hm⟩ := genLegal_spec hp hc hr
  rw [e] at e'; cases e'
  refine ⟨l, e, fun m hml => ?_⟩
  obtain ⟨mv, rfl, hlm⟩ := (hm m).mp hml
  exact ⟨_, toUSI_encode hlm.1.1, usi_text (hl _ hml)⟩

/-- **C05**: different legal moves have different USI texts. -/
theorem C05_injective (p : Position) (hp : Consistent p) (hc : CheckOK p) (hr : (absPos p).Regular) :
    ∃ l, genLegal p true = some l ∧ ∀ m ∈ l, ∀ m' ∈ l, m.toUSI = m'.toUSI → m = m' := by
  obtain ⟨l, e, hl⟩ := C05_round_trip p hp hc hr
  refine ⟨l, e, fun m hm m' hm' heq => ?_⟩
  obtain ⟨s, h1, h2⟩ := hl m hm
  obtain ⟨s', h1', h2'⟩ := hl m' hm'
  rw [heq, h1'] at h1
  cases h1
  rw [h2] at h2'
  exact Option.some.inj h2'

/-- In the start position, with P7g-7f. -/
example : Consistent (startModel zeroKeys) ∧ CheckOK (startModel zeroKeys) ∧ (absPos (startModel zeroKeys)).Regular ∧
    (encode (startModel zeroKeys) (.move 60 59 false)).toUSI = some "7g7f".toList ∧
    (startModel zeroKeys).usiToMove "7g7f".toList = some (encode (startModel zeroKeys) (.move 60 59 false)) ∧
    (startModel zeroKeys).usiToMove "7g7e".toList = some 0#32 := by
  obtain ⟨h1, h2, h3⟩ := startModel_ok zeroKeys
  exact ⟨h1.views, h2, h3, by decide +kernel, by decide +kernel, by decide +kernel⟩

/-! ### C06 -/

/-- The text of a rule move in CSA, given the kind that arrives. -/
def csaText (k : Kind) : Mv → List Char
  | .move f t _ => [Char.ofNat (49 + f.val / 9), Char.ofNat (49 + f.val % 9), Char.ofNat (49 + t.val / 9),
      Char.ofNat (49 + t.val % 9)] ++ (pieceTypeChars k.code).getD []
  | .drop _ t => ['0', '0', Char.ofNat (49 + t.val / 9), Char.ofNat (49 + t.val % 9)] ++ (pieceTypeChars k.code).getD []

theorem csa_kind (k : Kind) : ∃ a b, pieceTypeChars k.code = some [a, b] ∧ csaPieceType [a, b] = some k.code := by
  cases k <;> exact ⟨_, _, rfl, by decide⟩

/-- **C06**: every legal move is read back from its CSA text. -/
theorem C06_round_trip (p : Position) (hp : Consistent p) (hc : CheckOK p) (hr : (absPos p).Regular) :
    ∃ l, genLegal p true = some l ∧ ∀ m ∈ l, ∃ s, m.toCSA = some s ∧ p.csaToMove s = some m := by
  obtain ⟨l, e, hl⟩ := C27_listed_partial p hp hc hr
  obtain ⟨l', e', -, hm⟩ := genLegal_spec hp hc hr
  rw [e] at e'; cases e'
  refine ⟨l, e, fun m hml => ?_⟩
  obtain ⟨mv, rfl, hlm⟩ := (hm m).mp hml
  have hch := checked_legal (hl _ hml)
  have hne := encode_ne_zero hlm.1.1
  unfold Move.toCSA
  rw [if_neg hne]
  cases mv with
  | move f t pro =>
    obtain ⟨⟨⟨kd, hf, -, -, hpro, -⟩, -⟩, -⟩ := hlm
    have hpt : pieceType (p.piece f) = kd.code := by rw [hp.code f, hf]; exact pieceType_mkPiece _ _
    obtain ⟨-, -, h2, h1, hd, h4, h5, -⟩ := board_fields p f t pro kd hpt (fun h => (hpro h).1)
    obtain ⟨a, b, k1, k2⟩ := csa_kind (Pos.arriving kd pro)
    have hto : (boardMove p.piece f t pro).pieceTypeTo = (Pos.arriving kd pro).code := by
      unfold Move.pieceTypeTo; rw [hd, h4]; exact h5
    simp only [encode, hd, h1, h2, squareCSA, f.isLt, t.isLt, if_true, hto, k1, Option.bind_some, Option.map_some]
    refine ⟨_, rfl, ?_⟩
    have e1 := squareOf_csa f
    have e2 := squareOf_csa t
    have e3 := file_ne_zero f
    generalize Char.ofNat (49 + f.val / 9) = c1 at *
    generalize Char.ofNat (49 + f.val % 9) = c2 at *
    generalize Char.ofNat (49 + t.val / 9) = c3 at *
    generalize Char.ofNat (49 + t.val % 9) = c4 at *
    show p.csaToMove [c1, c2, c3, c4, a, b] = _
    simp only [csaToMove, e2, k2, csaBoard, e1]
    rw [if_neg (fun h => e3 h.1), hpt]
    cases pro with
    | false => rw [show Pos.arriving kd false = kd from rfl, if_pos rfl]; exact hch
    | true =>
      have harr : kd.code + 8 = (Pos.arriving kd true).code ∧ kd.code ≠ (Pos.arriving kd true).code := by
        have := (hpro rfl).1
        revert this
        cases kd <;> decide
      rw [if_neg harr.2, if_pos harr.1]; exact hch
  | drop k t =>
    obtain ⟨-, h1, hd, h2, -⟩ := drop_fields k t
    obtain ⟨a, b, k1, k2⟩ := csa_kind k.kind
    have hto : (makeDropMove k.kind.code t.val).pieceTypeTo = k.kind.code := by
      unfold Move.pieceTypeTo; rw [hd, if_pos rfl]; exact h2
    simp only [encode, hd, h1, squareCSA, t.isLt, if_true, hto, k1, Option.bind_some, Option.map_some]
    refine ⟨_, rfl, ?_⟩
    have e2 := squareOf_csa t
    generalize Char.ofNat (49 + t.val / 9) = c3 at *
    generalize Char.ofNat (49 + t.val % 9) = c4 at *
    show p.csaToMove ['0', '0', c3, c4, a, b] = _
    simp only [csaToMove, e2, k2, csaBoard]
    exact hch

/-- In the start position, with P7g-7f. -/
example : (encode (startModel zeroKeys) (.move 60 59 false)).toCSA = some "7776FU".toList ∧
    (startModel zeroKeys).csaToMove "7776FU".toList = some (encode (startModel zeroKeys) (.move 60 59 false)) ∧
    (startModel zeroKeys).csaToMove "7776KI".toList = some 0#32 := by
  exact ⟨by decide +kernel, by decide +kernel, by decide +kernel⟩

/-- **C06**: and so different legal moves have different CSA texts. -/
theorem C06_injective (p : Position) (hp : Consistent p) (hc : CheckOK p) (hr : (absPos p).Regular) :
    ∃ l, genLegal p true = some l ∧ ∀ m ∈ l, ∀ m' ∈ l, m.toCSA = m'.toCSA → m = m' := by
  obtain ⟨l, e, hl⟩ := C06_round_trip p hp hc hr
  refine ⟨l, e, fun m hm m' hm' heq => ?_⟩
  obtain ⟨s, h1, h2⟩ := hl m hm
  obtain ⟨s', h1', h2'⟩ := hl m' hm'
  rw [heq, h1'] at h1
  cases h1
  rw [h2] at h2'
  exact Option.some.inj h2'

/-! ### C07 -/

theorem isLegal_defined {p : Position} (h : Consistent p) (hr : (absPos p).Regular) {m : Move} (hd : m.dst < 81)
    (h1 : m.isDrop = true → m.pieceTypeDropped ≤ 15 ∧ ptToHand m.pieceTypeDropped < 7)
    (h2 : m.isDrop = false → m.pieceTypeFrom ≤ 14) : ∃ b, p.isLegal m = some b := by
  obtain ⟨k, hk⟩ := kings_of h hr p.turn
  obtain ⟨k', hk'⟩ := kings_of h hr p.turn.opp
  suffices hs : ∃ b, p.moveIsPseudoLegal m = some b by
    obtain ⟨b, hb⟩ := hs
    exact ⟨_, by unfold isLegal; rw [hb]; rfl⟩
  unfold moveIsPseudoLegal
  simp only [hd, dif_pos]
  have hda : ∃ b, p.dropAnswersCheck ⟨m.dst, hd⟩ = some b := by
    unfold dropAnswersCheck
    simp only [hk]
    repeat' split
    all_goals exact ⟨_, rfl⟩
  have hpm : ∃ b, p.isPawnDropCheckMate p.turn ⟨m.dst, hd⟩ = some b := by
    unfold isPawnDropCheckMate
    simp only [hk']
    repeat' split
    all_goals exact ⟨_, rfl⟩
  obtain ⟨b1, hda⟩ := hda
  obtain ⟨b2, hpm⟩ := hpm
  cases hdrop : m.isDrop
  · simp only [hdrop, Bool.false_eq_true, if_false, hk]
    simp only [show ¬ 14 < m.pieceTypeFrom by have := h2 hdrop; omega, if_false]
    repeat' split
    all_goals exact ⟨_, rfl⟩
  · simp only [hdrop, if_true, hda, hpm, h1 hdrop, and_self, Option.map_some]
    cases b1
    · simp only
      repeat' split
      all_goals exact ⟨_, rfl⟩
    · simp only
      repeat' split
      all_goals exact ⟨_, rfl⟩

theorem checked_outcome {p : Position} (hp : Consistent p) (hc : CheckOK p) (hr : (absPos p).Regular) {l : List Move}
    (e : genLegal p true = some l) (mv : Mv) :
    ∃ m, p.checked (encode p mv) = some m ∧ (m = 0#32 ∨ (m = encode p mv ∧ (PromotionOK (absPos p) mv → m ∈ l))) := by
  have hdef : ∃ b, p.isLegal (encode p mv) = some b := by
    cases mv with
    | move f t pro =>
      have hf := C01_board_move_fields p.piece f t pro
      simp only [readBoardMove, Prod.mk.injEq] at hf
      obtain ⟨f1, f2, f3, f4, f5, f6⟩ := hf
      refine isLegal_defined hp hr (by rw [show (encode p (.move f t pro)).dst = t.val from f2]; exact t.isLt)
        (fun h => ?_) (fun _ => ?_)
      · rw [show (encode p (.move f t pro)).isDrop = false from f6] at h; cases h
      · rw [show (encode p (.move f t pro)).pieceTypeFrom = _ from f3, hp.code f]
        rcases (absPos p).board f with _ | ⟨c, k⟩
        · decide
        · cases c <;> cases k <;> decide
    | drop k t =>
      obtain ⟨-, h1, hd, h2, -⟩ := drop_fields k t
      refine isLegal_defined hp hr (by rw [show (encode p (.drop k t)).dst = t.val from h1]; exact t.isLt)
        (fun _ => ?_) (fun h => ?_)
      · rw [show (encode p (.drop k t)).pieceTypeDropped = _ from h2]
        cases k <;> decide
      · rw [show (encode p (.drop k t)).isDrop = true from hd] at h; cases h
  obtain ⟨b, hb⟩ := hdef
  unfold checked
  rw [hb]
  cases b
  · exact ⟨_, rfl, .inl rfl⟩
  · refine ⟨_, rfl, .inr ⟨rfl, fun hok => ?_⟩⟩
    obtain ⟨b', l', h1, h2, h3, -⟩ := C27_is_legal_partial p hp hc hr mv hok
    rw [e] at h2; cases h2
    rw [hb] at h1; cases h1
    exact h3.mp rfl

theorem charAt_some {s : List Char} {i : Nat} (h : i ≤ s.length) : ∃ c, charAt s i = some c := by
  unfold charAt
  split
  · exact ⟨_, rfl⟩
  · exact ⟨_, List.getElem?_eq_getElem (by omega)⟩

theorem charAt_lt {s : List Char} {i : Nat} {c : Char} (h : charAt s i = some c) (hc : c ≠ '\x00') : i < s.length := by
  unfold charAt at h
  split at h
  · cases h; exact absurd rfl hc
  · exact (List.getElem?_eq_some_iff.mp h).1

theorem squareOf_rank {base : Nat} {a b : Char} {t : Square} (hb : 0 < base) (h : squareOf base a b = some t) : b ≠ '\x00' := by
  rintro rfl
  unfold squareOf at h
  split at h
  · rename_i h'
    have : ('\x00' : Char).toNat = 0 := rfl
    omega
  · cases h

/-- A piece letter other than K and k is that of a hand kind. -/
theorem charToPiece_hand {c : Char} {pc : Piece} (h : charToPiece c = some pc) (h1 : c ≠ 'K') (h2 : c ≠ 'k') :
    ∃ k : HKind, pieceType pc = k.kind.code := by
  unfold charToPiece at h
  split at h
  all_goals first
    | (cases h; done)
    | (exfalso; exact h1 rfl)
    | (exfalso; exact h2 rfl)
    | (cases h; exact ⟨.pawn, rfl⟩)
    | (cases h; exact ⟨.lance, rfl⟩)
    | (cases h; exact ⟨.knight, rfl⟩)
    | (cases h; exact ⟨.silver, rfl⟩)
    | (cases h; exact ⟨.gold, rfl⟩)
    | (cases h; exact ⟨.bishop, rfl⟩)
    | (cases h; exact ⟨.rook, rfl⟩)

/-- **C07** (partial): for every string other than the empty one, those of two characters and those beginning with `K*` or
`k*`, `move_from_usi` is defined and returns 0 or a move of the position which is in `legal_moves` if its promotion flag and
destination obey the promotion and dead-square rules.

Missing: see `C07_fails`. -/
theorem C07_usi_partial (p : Position) (hp : Consistent p) (hc : CheckOK p) (hr : (absPos p).Regular) (s : List Char)
    (h0 : s.length ≠ 0) (h2 : s.length ≠ 2) (hK : ∀ t, s ≠ 'K' :: '*' :: t) (hk : ∀ t, s ≠ 'k' :: '*' :: t) :
    ∃ m l, p.usiToMove s = some m ∧ genLegal p true = some l ∧
      (m = 0#32 ∨ ∃ mv, m = encode p mv ∧ (PromotionOK (absPos p) mv → m ∈ l)) := by
  obtain ⟨l, e, -, -⟩ := genLegal_spec hp hc hr
  suffices hs : ∃ m, p.usiToMove s = some m ∧ (m = 0#32 ∨ ∃ mv, m = encode p mv ∧ (PromotionOK (absPos p) mv → m ∈ l)) by
    obtain ⟨m, h1, h2⟩ := hs
    exact ⟨m, l, h1, e, h2⟩
  have hfin : ∀ mv, ∃ m, p.checked (encode p mv) = some m ∧
      (m = 0#32 ∨ ∃ mv, m = encode p mv ∧ (PromotionOK (absPos p) mv → m ∈ l)) := by
    intro mv
    obtain ⟨m, h1, h2⟩ := checked_outcome hp hc hr e mv
    exact ⟨m, h1, h2.imp_right fun h => ⟨mv, h⟩⟩
  obtain ⟨c0, hc0⟩ := charAt_some (s := s) (i := 0) (by omega)
  obtain ⟨c1, hc1⟩ := charAt_some (s := s) (i := 1) (by omega)
  unfold usiToMove
  simp only [hc0, Option.bind_some]
  rcases hpc : charToPiece c0 with _ | pc
  · simp only [usiBoard, squareAt, hc0, hc1, Option.bind_some, Option.map_some]
    rcases hf : squareOf 97 c0 c1 with _ | f
    · exact ⟨_, rfl, .inl rfl⟩
    · have hl1 := charAt_lt hc1 (squareOf_rank (by decide) hf)
      obtain ⟨c2, hc2⟩ := charAt_some (s := s) (i := 2) (by omega)
      obtain ⟨c3, hc3⟩ := charAt_some (s := s) (i := 3) (by omega)
      simp only [hc2, hc3, Option.bind_some, Option.map_some]
      rcases ht : squareOf 97 c2 c3 with _ | t
      · exact ⟨_, rfl, .inl rfl⟩
      · have hl3 := charAt_lt hc3 (squareOf_rank (by decide) ht)
        obtain ⟨c4, hc4⟩ := charAt_some (s := s) (i := 4) (by omega)
        simp only [hc4, Option.bind_some]
        by_cases h4 : c4 = '\x00'
        · rw [if_pos h4]
          exact hfin (.move f t false)
        · rw [if_neg h4]
          by_cases h5 : c4 = '+'
          · rw [if_pos h5]
            have hl4 := charAt_lt hc4 h4
            obtain ⟨c5, hc5⟩ := charAt_some (s := s) (i := 5) (by omega)
            simp only [hc5, Option.bind_some]
            by_cases h6 : c5 ≠ '\x00'
            · rw [if_pos h6]; exact ⟨_, rfl, .inl rfl⟩
            · rw [if_neg h6]; exact hfin (.move f t true)
          · rw [if_neg h5]; exact ⟨_, rfl, .inl rfl⟩
  · simp only [usiDrop, hc1, Option.bind_some]
    by_cases h1 : c1 ≠ '*'
    · rw [if_pos h1]; exact ⟨_, rfl, .inl rfl⟩
    · rw [if_neg h1]
      have h1 : c1 = '*' := not_not.mp h1
      subst h1
      have hl1 := charAt_lt hc1 (by decide)
      obtain ⟨c2, hc2⟩ := charAt_some (s := s) (i := 2) (by omega)
      obtain ⟨c3, hc3⟩ := charAt_some (s := s) (i := 3) (by omega)
      simp only [squareAt, hc2, hc3, Option.bind_some, Option.map_some]
      rcases ht : squareOf 97 c2 c3 with _ | t
      · exact ⟨_, rfl, .inl rfl⟩
      · have hs : ∃ r, s = c0 :: '*' :: r := by
          match s, hl1 with
          | a :: b :: r, _ =>
            have e0 : charAt (a :: b :: r) 0 = some a := rfl
            have e1 : charAt (a :: b :: r) 1 = some b := by simp [charAt]
            rw [e0] at hc0; rw [e1] at hc1
            cases hc0; cases hc1
            exact ⟨r, rfl⟩
        obtain ⟨r, rfl⟩ := hs
        obtain ⟨k, hkk⟩ := charToPiece_hand hpc (fun h => hK r (by rw [h])) (fun h => hk r (by rw [h]))
        rw [hkk]
        exact hfin (.drop k t)

theorem csaPieceType_pos {k : List Char} {pt : PieceType} (h : csaPieceType k = some pt) : 1 ≤ pt := by
  have step : ∀ {c : Prop} [Decidable c] {n : Nat} {o : Option Nat}, 1 ≤ n → (o = some pt → 1 ≤ pt) →
      (if c then some n else o) = some pt → 1 ≤ pt := by
    intro c _ n o hn ho h
    by_cases hc : c
    · rw [if_pos hc] at h; cases h; exact hn
    · rw [if_neg hc] at h; exact ho h
  unfold csaPieceType at h
  revert h
  iterate 14 refine step (by decide) ?_
  intro h
  cases h

/-- **C07** (partial): for every string whose last two characters do not name a king or a promoted piece after `00`,
`move_from_csa` is defined and returns 0 or a move of the position which is in `legal_moves` if its promotion flag and
destination obey the promotion and dead-square rules.

Missing: see `C07_fails`. -/
theorem C07_csa_partial (p : Position) (hp : Consistent p) (hc : CheckOK p) (hr : (absPos p).Regular) (s : List Char)
    (hk : ∀ a b k pt, s = ['0', '0', a, b] ++ k → csaPieceType k = some pt → pt ≤ 7) :
    ∃ m l, p.csaToMove s = some m ∧ genLegal p true = some l ∧
      (m = 0#32 ∨ ∃ mv, m = encode p mv ∧ (PromotionOK (absPos p) mv → m ∈ l)) := by
  obtain ⟨l, e, -, -⟩ := genLegal_spec hp hc hr
  suffices hs : ∃ m, p.csaToMove s = some m ∧ (m = 0#32 ∨ ∃ mv, m = encode p mv ∧ (PromotionOK (absPos p) mv → m ∈ l)) by
    obtain ⟨m, h1, h2⟩ := hs
    exact ⟨m, l, h1, e, h2⟩
  have hfin : ∀ mv, ∃ m, p.checked (encode p mv) = some m ∧
      (m = 0#32 ∨ ∃ mv, m = encode p mv ∧ (PromotionOK (absPos p) mv → m ∈ l)) := by
    intro mv
    obtain ⟨m, h1, h2⟩ := checked_outcome hp hc hr e mv
    exact ⟨m, h1, h2.imp_right fun h => ⟨mv, h⟩⟩
  unfold csaToMove
  split
  · rename_i f0 f1 t0 t1 k0 k1
    rcases ht : squareOf 49 t0 t1 with _ | t
    · exact ⟨_, rfl, .inl rfl⟩
    · simp only
      rcases hpt : csaPieceType [k0, k1] with _ | pt
      · exact ⟨_, rfl, .inl rfl⟩
      · simp only [csaBoard]
        by_cases h00 : f0 = '0' ∧ f1 = '0'
        · rw [if_pos h00]
          obtain ⟨rfl, rfl⟩ := h00
          have h7 := hk t0 t1 [k0, k1] pt rfl hpt
          have hkind : ∃ k : HKind, pt = k.kind.code := by
            have h1 : 1 ≤ pt := csaPieceType_pos hpt
            interval_cases pt
            · exact ⟨.pawn, rfl⟩
            · exact ⟨.lance, rfl⟩
            · exact ⟨.knight, rfl⟩
            · exact ⟨.silver, rfl⟩
            · exact ⟨.bishop, rfl⟩
            · exact ⟨.rook, rfl⟩
            · exact ⟨.gold, rfl⟩
          obtain ⟨k, rfl⟩ := hkind
          exact hfin (.drop k t)
        · rw [if_neg h00]
          rcases hf : squareOf 49 f0 f1 with _ | f
          · exact ⟨_, rfl, .inl rfl⟩
          · simp only
            split
            · exact hfin (.move f t false)
            · split
              · exact hfin (.move f t true)
              · exact ⟨_, rfl, .inl rfl⟩
  · exact ⟨_, rfl, .inl rfl⟩

/-- The strings of the test are not among the excluded ones. -/
example : (startModel zeroKeys).usiToMove "7g7f".toList = some (encode (startModel zeroKeys) (.move 60 59 false)) ∧
    "7g7f".toList.length ≠ 0 ∧ "7g7f".toList.length ≠ 2 ∧ (∀ t, "7g7f".toList ≠ 'K' :: '*' :: t) ∧ (∀ t, "7g7f".toList ≠ 'k' :: '*' :: t) := by
  refine ⟨by decide +kernel, by decide, by decide, fun t h => ?_, fun t h => ?_⟩
  · exact absurd (List.cons.inj h).1 (by decide)
  · exact absurd (List.cons.inj h).1 (by decide)

/-- A listed move is not this one. -/
theorem not_listed {p : Position} {m : Move} (h : (genLegal p true).map (fun l => decide (m ∈ l)) = some false) :
    ∀ l, genLegal p true = some l → m ∉ l := by
  intro l e hm
  rw [e] at h
  simp [hm] at h

/-- **C07** fails. In the start position `7g7f+` and `7776TO` are taken as P7g-7f with promotion. In a position with a pawn in
hand `0015TO` drops a promoted pawn. None of these is in `legal_moves`, and none is 0. -/
theorem C07_fails : Consistent (startModel zeroKeys) ∧ CheckOK (startModel zeroKeys) ∧ (absPos (startModel zeroKeys)).Regular ∧
    (∃ m, (startModel zeroKeys).usiToMove "7g7f+".toList = some m ∧ (startModel zeroKeys).csaToMove "7776TO".toList = some m ∧
      m ≠ 0#32 ∧ ∀ l, genLegal (startModel zeroKeys) true = some l → m ∉ l) ∧
    Consistent evModel ∧ CheckOK evModel ∧ (absPos evModel).Regular ∧
    ∃ m, evModel.csaToMove "0015TO".toList = some m ∧ m ≠ 0#32 ∧ ∀ l, genLegal evModel true = some l → m ∉ l := by
  obtain ⟨h1, h2, h3⟩ := startModel_ok zeroKeys
  refine ⟨h1.views, h2, h3, ⟨encode (startModel zeroKeys) (.move 60 59 true), by decide +kernel, by decide +kernel,
    by decide +kernel, not_listed (by decide +kernel)⟩, evModel_spec.1.views, evModel_ok.1, evModel_ok.2.1,
    makeDropMove 9 4, by decide +kernel, by decide, not_listed (by decide +kernel)⟩

/-- **C07** fails: the empty string and a lone square or drop prefix are read beyond the terminator, and a king drop indexes
the hand masks out of range, in every position. -/
theorem C07_fails_reads (p : Position) : p.usiToMove [] = none ∧ p.usiToMove "7g".toList = none ∧ p.usiToMove "P*".toList = none ∧
    p.usiToMove "K*5e".toList = none ∧ p.csaToMove "0055OU".toList = none := by
  refine ⟨rfl, rfl, rfl, ?_, ?_⟩
  · have := usi_drop p (a := 'K') (c := '5') (d := 'e') (pc := 8) (t := 40) rfl (by decide) []
    rw [show "K*5e".toList = ['K', '*', '5', 'e'] from rfl, this]
    rfl
  · rfl

end Verif
