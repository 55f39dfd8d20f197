import Verif.Lemmas.Bits

/-!
# C01 – C04, C48: move integers, 16-bit moves, rotation, promotion zone
-/

namespace Verif

/-- What a move integer is supposed to carry (specification side). -/
structure BoardMoveFields where
  src : Square
  dst : Square
  moving : Fin 16
  captured : Fin 16
  promote : Bool
  deriving DecidableEq

/-- Read all fields back with the public accessors. -/
def readBoardMove (m : Move) : Nat × Nat × Nat × Nat × Bool × Bool :=
  (m.src, m.dst, m.pieceTypeFrom, m.cap, m.isPromotion, m.isDrop)

/-- A position in which `F.src` holds the moving type and `F.dst` the captured type. -/
def FieldsOnBoard (piece : Square → Piece) (F : BoardMoveFields) : Prop :=
  pieceType (piece F.src) = F.moving ∧ pieceType (piece F.dst) = F.captured

theorem boardMove_toNat (piece : Square → Piece) (f t : Square) (pro : Bool) :
    (boardMove piece f t pro).toNat = pieceType (piece t) * 2^20 +
      (pieceType (piece f) * 2^16 + f.val * 2^7 + t.val) + (if pro then 2^14 else 0) := by
  have h1 : pieceType (piece t) < 16 := Nat.mod_lt _ (by decide)
  have h2 : pieceType (piece f) < 16 := Nat.mod_lt _ (by decide)
  unfold boardMove
  split
  · rw [makeCapturePromoteMove_toNat _ _ _ _ h1 h2 (by omega) (by omega)]
  · rw [makeCaptureMove_toNat _ _ _ _ h1 h2 (by omega) (by omega)]
    exact (Nat.add_zero _).symm

/-- **C01** (board moves): the accessors return exactly the fields the move was built from. -/
theorem C01_board_move_fields (piece : Square → Piece) (f t : Square) (pro : Bool) :
    readBoardMove (boardMove piece f t pro) =
      (f.val, t.val, pieceType (piece f), pieceType (piece t), pro, false) := by
  have h1 : pieceType (piece t) < 16 := Nat.mod_lt _ (by decide)
  have h2 : pieceType (piece f) < 16 := Nat.mod_lt _ (by decide)
  have := boardMove_toNat piece f t pro
  simp only [readBoardMove, Move.src_eq, Move.dst_eq, Move.pieceTypeFrom_eq, Move.cap_eq, Move.isPromotion_eq,
    Move.isDrop_eq, this, Prod.mk.injEq]
  have := f.isLt
  have := t.isLt
  cases pro
  · simp only [reduceCtorEq, if_false, decide_eq_false_iff_not]; omega
  · simp only [if_true, decide_eq_true_eq, decide_eq_false_iff_not]; omega

/-- **C01** (drops): destination, drop flag and hand piece are recovered; a drop never looks like a promotion
or a capture. `pt` ranges over the seven droppable piece types. -/
theorem C01_drop_move_fields (pt : Nat) (h1 : 1 ≤ pt) (h7 : pt ≤ 7) (t : Square) :
    let m := makeDropMove pt t.val
    m.dst = t.val ∧ m.isDrop = true ∧ m.pieceTypeDropped = pt ∧ m.handPieceDropped = ptToHand pt ∧
      m.isPromotion = false ∧ m.cap = 0 := by
  have := t.isLt
  have e := makeDropMove_toNat pt t.val (by omega) (by omega)
  intro m
  have hd : m.pieceTypeDropped = pt := by
    simp only [m, Move.pieceTypeDropped, Move.src_eq, e]; omega
  refine ⟨?_, ?_, hd, by rw [Move.handPieceDropped, hd], ?_, ?_⟩
  · simp only [m, Move.dst_eq, e]; omega
  · simp only [m, Move.isDrop_eq, e, decide_eq_true_eq]; omega
  · simp only [m, Move.isPromotion_eq, e, decide_eq_false_iff_not]; omega
  · simp only [m, Move.cap_eq, e]; omega

/-- **C01** (injectivity): different field tuples give different integers, board moves and drops never collide. -/
theorem C01_distinct_board (p₁ p₂ : Square → Piece) (F G : BoardMoveFields) (hF : FieldsOnBoard p₁ F)
    (hG : FieldsOnBoard p₂ G)
    (h : boardMove p₁ F.src F.dst F.promote = boardMove p₂ G.src G.dst G.promote) : F = G := by
  have a := C01_board_move_fields p₁ F.src F.dst F.promote
  have b := C01_board_move_fields p₂ G.src G.dst G.promote
  rw [h, b] at a
  simp only [Prod.mk.injEq, hF.1, hF.2, hG.1, hG.2] at a
  obtain ⟨a1, a2, a3, a4, a5, -⟩ := a
  cases F; cases G
  simp only [BoardMoveFields.mk.injEq]
  exact ⟨Fin.ext a1.symm, Fin.ext a2.symm, Fin.ext a3.symm, Fin.ext a4.symm, a5.symm⟩

/-- **C01** (injectivity of drops). -/
theorem C01_distinct_drop (p q : Nat) (hp1 : 1 ≤ p) (hp : p ≤ 7) (hq1 : 1 ≤ q) (hq : q ≤ 7) (s t : Square)
    (h : makeDropMove p s.val = makeDropMove q t.val) : p = q ∧ s = t := by
  have a := C01_drop_move_fields p hp1 hp s
  have b := C01_drop_move_fields q hq1 hq t
  simp only [h] at a b
  exact ⟨a.2.2.1.symm.trans b.2.2.1, Fin.ext (a.1.symm.trans b.1)⟩

/-- **C01** (a drop is never a board move). -/
theorem C01_drop_ne_board (piece : Square → Piece) (f t s : Square) (pro : Bool) (p : Nat) (hp1 : 1 ≤ p)
    (hp : p ≤ 7) : makeDropMove p s.val ≠ boardMove piece f t pro := by
  intro h
  have a := (C01_drop_move_fields p hp1 hp s).2.1
  have b := C01_board_move_fields piece f t pro
  simp only [readBoardMove, Prod.mk.injEq] at b
  rw [h, b.2.2.2.2.2] at a
  cases a

-- 7g7f on the initial square set-up: source 60, destination 59, black pawn (1), nothing captured
example : readBoardMove (boardMove (fun s => if s = 60 then 1 else 0) 60 59 false) = (60, 59, 1, 0, false, false) :=
  C01_board_move_fields _ _ _ _
example : FieldsOnBoard (fun s => if s = 10 then 6 else if s = 12 then 17 else 0) ⟨10, 12, 6, 1, true⟩ := by
  constructor <;> decide

/-! ## C02 -/

theorem bit16 (v : BitVec 16) (i : Nat) (hi : i < 16) :
    ((v &&& (1#16 <<< i)) != 0#16) = decide (v.toNat / 2^i % 2 = 1) := by
  rw [← BitVec.twoPow_eq, BitVec.and_twoPow, ← Nat.testBit_eq_decide_div_mod_eq]
  show _ = v.getLsbD i
  have : (BitVec.twoPow 16 i != 0#16) = true := by
    interval_cases i <;> decide
  cases v.getLsbD i <;> simp [this]

theorem lo7 (v : BitVec 16) : (v &&& 0x7f#16).toNat = v.toNat % 128 := by
  simp [Nat.and_two_pow_sub_one_eq_mod _ 7]

theorem mid7 (v : BitVec 16) : ((v >>> 7) &&& 0x7f#16).toNat = v.toNat / 128 % 128 := by
  simp [Nat.shiftRight_eq_div_pow, Nat.and_two_pow_sub_one_eq_mod _ 7]

theorem or3 (a b c : Nat) (ha : a < 128) (hb : b < 128) (hc : c = 0 ∨ c = 2^14) :
    a ||| (b * 2^7) ||| c = a + b * 2^7 + c := by
  rw [or_eq_add' a (b * 2^7) 7 (by omega) (by omega)]
  rcases hc with rfl | rfl
  · simp
  · rw [or_eq_add' _ (2^14) 14 (by omega) (by omega)]

theorem or4 (a b c d : Nat) (ha : a < 128) (hb : b < 128) (hc : c = 0 ∨ c = 2^14) (hd : d = 0 ∨ d = 2^15) :
    a ||| (b * 2^7) ||| c ||| d = a + b * 2^7 + c + d := by
  rw [or3 a b c ha hb hc]
  rcases hd with rfl | rfl
  · simp
  · rw [or_eq_add' _ (2^15) 15 (by omega) (by omega)]

theorem move16FromPsv_toNat (v : BitVec 16) (h : v.toNat / 2^14 % 2 = 1 → v.toNat / 128 % 128 ≤ 47) :
    (move16FromPsv v).toNat = v.toNat % 128 +
      (v.toNat / 128 % 128 + (if v.toNat / 2^14 % 2 = 1 then 80 else 0)) * 2^7 +
      (if v.toNat / 2^15 % 2 = 1 then 2^14 else 0) := by
  unfold move16FromPsv
  simp only [bit16 v 14 (by decide), bit16 v 15 (by decide), BitVec.toNat_or, lo7, BitVec.toNat_shiftLeft,
    Nat.shiftLeft_eq, decide_eq_true_eq]
  have e1 : (if v.toNat / 2^14 % 2 = 1 then (v >>> 7 &&& 0x7f#16) + 80#16 else (v >>> 7 &&& 0x7f#16)).toNat
      = v.toNat / 128 % 128 + (if v.toNat / 2^14 % 2 = 1 then 80 else 0) := by
    split
    · next hh =>
      have := h hh
      rw [BitVec.toNat_add, mid7]; simp; omega
    · rw [mid7]; simp
  rw [e1]
  have e2 : (if v.toNat / 2^15 % 2 = 1 then 1#16 <<< 14 else 0#16).toNat
      = if v.toNat / 2^15 % 2 = 1 then 2^14 else 0 := by split <;> rfl
  rw [e2]
  have hb : v.toNat / 128 % 128 + (if v.toNat / 2^14 % 2 = 1 then 80 else 0) < 128 := by
    split
    · next hh => have := h hh; omega
    · omega
  generalize v.toNat / 128 % 128 + (if v.toNat / 2^14 % 2 = 1 then 80 else 0) = x at hb ⊢
  rw [Nat.mod_eq_of_lt (a := x * 2^7) (by omega)]
  exact or3 _ _ _ (by omega) hb (by split <;> simp)

theorem move16ToPsv_toNat (v : BitVec 16) :
    (move16ToPsv v).toNat = v.toNat % 128 +
      (v.toNat / 128 % 128 - (if 81 ≤ v.toNat / 128 % 128 then 80 else 0)) * 2^7 +
      (if 81 ≤ v.toNat / 128 % 128 then 2^14 else 0) +
      (if v.toNat / 2^14 % 2 = 1 then 2^15 else 0) := by
  unfold move16ToPsv
  simp only [bit16 v 14 (by decide), BitVec.toNat_or, mid7, decide_eq_true_eq]
  simp only [lo7, BitVec.toNat_shiftLeft, Nat.shiftLeft_eq]
  have e1 : (if 81 ≤ v.toNat / 128 % 128 then (v >>> 7 &&& 0x7f#16) - 80#16 else (v >>> 7 &&& 0x7f#16)).toNat
      = v.toNat / 128 % 128 - (if 81 ≤ v.toNat / 128 % 128 then 80 else 0) := by
    split
    · next hh => rw [BitVec.toNat_sub, mid7]; simp; omega
    · rw [mid7]; simp
  rw [e1]
  have e2 : (if v.toNat / 2^14 % 2 = 1 then 1#16 <<< 15 else 0#16).toNat
      = if v.toNat / 2^14 % 2 = 1 then 2^15 else 0 := by split <;> rfl
  have e3 : (if 81 ≤ v.toNat / 128 % 128 then 1#16 <<< 14 else 0#16).toNat
      = if 81 ≤ v.toNat / 128 % 128 then 2^14 else 0 := by split <;> rfl
  rw [e2, e3, Nat.mod_eq_of_lt (a := _ * 2^7) (by omega)]
  exact or4 _ _ _ _ (by omega) (by omega) (by split <;> simp) (by split <;> simp)

/-- A 16-bit cshogi move that denotes a board move (source a square) or a drop (source 80 + kind, kind 1..7):
destination in bits 0-6, source in bits 7-13, promotion in bit 14, bit 15 unused. -/
def IsMove16 (m : BitVec 16) : Prop :=
  m.toNat % 128 < 81 ∧ m.toNat / 2^15 = 0 ∧
    (m.toNat / 128 % 128 < 81 ∨
      (81 ≤ m.toNat / 128 % 128 ∧ m.toNat / 128 % 128 ≤ 87 ∧ m.toNat / 2^14 % 2 = 0))

/-- A YaneuraOu PSV move: destination in bits 0-6, source square or dropped kind in bits 7-13, drop in bit 14,
promotion in bit 15. -/
def IsPsvMove (v : BitVec 16) : Prop :=
  v.toNat % 128 < 81 ∧
    ((v.toNat / 2^14 % 2 = 0 ∧ v.toNat / 128 % 128 < 81) ∨
      (v.toNat / 2^14 % 2 = 1 ∧ v.toNat / 2^15 = 0 ∧ 1 ≤ v.toNat / 128 % 128 ∧ v.toNat / 128 % 128 ≤ 7))

/-- **C02**: cshogi move16 → PSV → move16 is the identity. -/
theorem C02_psv_roundtrip (m : BitVec 16) (h : IsMove16 m) : move16FromPsv (move16ToPsv m) = m := by
  obtain ⟨h1, h2, h3⟩ := h
  have e := move16ToPsv_toNat m
  apply BitVec.eq_of_toNat_eq
  by_cases hd : 81 ≤ m.toNat / 128 % 128
  · by_cases hp : m.toNat / 2^14 % 2 = 1
    · omega
    · simp only [hd, hp, if_true, if_false] at e
      rw [move16FromPsv_toNat _ (by omega)]
      rw [if_pos (by omega), if_neg (by omega)]
      omega
  · by_cases hp : m.toNat / 2^14 % 2 = 1 <;>
    · simp only [hd, hp, if_true, if_false] at e
      rw [move16FromPsv_toNat _ (by omega), if_neg (by omega)]
      first
        | rw [if_pos (by omega)]; omega
        | rw [if_neg (by omega)]; omega

/-- **C02**: PSV → cshogi move16 → PSV is the identity. -/
theorem C02_psv_roundtrip' (v : BitVec 16) (h : IsPsvMove v) : move16ToPsv (move16FromPsv v) = v := by
  obtain ⟨h1, h2⟩ := h
  have hv := v.isLt
  apply BitVec.eq_of_toNat_eq
  have e := move16FromPsv_toNat v (by omega)
  rw [move16ToPsv_toNat]
  rcases h2 with ⟨h2, h3⟩ | ⟨h2, h3, h4, h5⟩
  · rw [if_neg (by omega)] at e
    by_cases hp : v.toNat / 2^15 % 2 = 1
    · rw [if_pos hp] at e
      rw [if_neg (by omega), if_neg (by omega), if_pos (by omega)]; omega
    · rw [if_neg hp] at e
      rw [if_neg (by omega), if_neg (by omega), if_neg (by omega)]; omega
  · rw [if_pos h2, if_neg (by omega)] at e
    rw [if_pos (by omega), if_pos (by omega), if_neg (by omega)]; omega

/-- **C02**: the conversion maps moves to moves, keeping destination, drop-ness, dropped kind / source square,
and the promotion flag. -/
theorem C02_to_psv_fields (m : BitVec 16) (h : IsMove16 m) :
    IsPsvMove (move16ToPsv m) ∧
    (move16ToPsv m).toNat % 128 = m.toNat % 128 ∧
    ((move16ToPsv m).toNat / 2^14 % 2 = 1 ↔ 81 ≤ m.toNat / 128 % 128) ∧
    ((move16ToPsv m).toNat / 2^15 % 2 = 1 ↔ m.toNat / 2^14 % 2 = 1) ∧
    (m.toNat / 128 % 128 < 81 → (move16ToPsv m).toNat / 128 % 128 = m.toNat / 128 % 128) ∧
    (81 ≤ m.toNat / 128 % 128 → (move16ToPsv m).toNat / 128 % 128 = m.toNat / 128 % 128 - 80) := by
  obtain ⟨h1, h2, h3⟩ := h
  have e := move16ToPsv_toNat m
  unfold IsPsvMove
  by_cases hd : 81 ≤ m.toNat / 128 % 128 <;> by_cases hp : m.toNat / 2^14 % 2 = 1 <;>
    simp only [hd, hp, if_true, if_false] at e <;> rw [e] <;> omega

/-- **C02**: and back. -/
theorem C02_from_psv_fields (v : BitVec 16) (h : IsPsvMove v) : IsMove16 (move16FromPsv v) := by
  obtain ⟨h1, h2⟩ := h
  have e := move16FromPsv_toNat v (by omega)
  have hv := v.isLt
  unfold IsMove16
  by_cases hd : v.toNat / 2^14 % 2 = 1 <;> by_cases hp : v.toNat / 2^15 % 2 = 1 <;>
    simp only [hd, hp, if_true, if_false] at e <;> rw [e] <;> omega

-- P*5e (drop): destination 40, source 81; and 8h2b+ : 64+7=70 → 10
example : IsMove16 (BitVec.ofNat 16 (40 + 81 * 128)) ∧ IsMove16 (BitVec.ofNat 16 (10 + 70 * 128 + 16384)) := by
  unfold IsMove16; decide
example : IsPsvMove (BitVec.ofNat 16 (40 + 1 * 128 + 16384)) ∧ IsPsvMove (BitVec.ofNat 16 (10 + 70 * 128 + 32768)) := by
  unfold IsPsvMove; decide

/-! ## C03 -/

/-- A full move agrees with a board: board moves go between two different squares and record the types found
there, drops record none. -/
def MoveAgrees (piece : Square → Piece) (m : Move) : Prop :=
  (∃ f t pro, m = boardMove piece f t pro ∧ f ≠ t) ∨
  (∃ pt t, 1 ≤ pt ∧ pt ≤ 7 ∧ m = makeDropMove pt (t : Square).val)

theorem widen_move16_toNat (m : Move) : (widen16 (move16 m)).toNat = m.toNat % 2^16 := by
  simp [widen16, move16]; omega

theorem widen_or_toNat (w : Move) (p c : Nat) (hw : w.toNat < 2^15) (hp : p < 16) (hc : c < 16) :
    (w ||| pieceType2Move p ||| captured2Move c).toNat = w.toNat + p * 2^16 + c * 2^20 := by
  unfold pieceType2Move captured2Move
  rw [BitVec.toNat_or, BitVec.toNat_or, ofNat_shl_toNat _ _ (by omega), ofNat_shl_toNat _ _ (by omega),
    or_eq_add' _ (p * 2^16) 16 (by omega) (by omega), or_eq_add' _ (c * 2^20) 20 (by omega) (by omega)]

/-- The full move recovered from the low 16 bits. -/
theorem move16toMove_widen (piece : Square → Piece) (m : Move) (h : MoveAgrees piece m) (w : Move)
    (hw : w.toNat = m.toNat % 2^16) : move16toMove piece w = some m := by
  rcases h with ⟨f, t, pro, rfl, hne⟩ | ⟨pt, t, h1, h7, rfl⟩
  · have e := boardMove_toNat piece f t pro
    have g1 : pieceType (piece t) < 16 := Nat.mod_lt _ (by decide)
    have g2 : pieceType (piece f) < 16 := Nat.mod_lt _ (by decide)
    have hf := f.isLt
    have ht := t.isLt
    have ew : w.toNat = f.val * 2^7 + t.val + (if pro = true then 2^14 else 0) := by
      rw [hw, e]; cases pro <;> simp <;> omega
    have ew' : w.toNat < 2^15 ∧ w.toNat % 128 = t.val ∧ w.toNat / 128 % 128 = f.val := by
      rw [ew]; cases pro <;> simp <;> omega
    by_cases h0 : w = 0#32
    · have : w.toNat = 0 := by rw [h0]; rfl
      exact absurd (Fin.ext (by omega)) hne
    have hs : w.src = f.val := by rw [Move.src_eq]; exact ew'.2.2
    have hd : w.dst = t.val := by rw [Move.dst_eq]; exact ew'.2.1
    have hnd : w.isDrop = false := by
      rw [Move.isDrop, hs]; simp
    have hlt : w.src < 81 := by omega
    have hlt' : w.dst < 81 := by omega
    have es : (⟨w.src, hlt⟩ : Square) = f := Fin.ext hs
    have ed : (⟨w.dst, hlt'⟩ : Square) = t := Fin.ext hd
    rw [move16toMove, if_neg h0, hnd]
    simp only [reduceCtorEq, if_false, dif_pos hlt, dif_pos hlt', es, ed, Option.some.injEq]
    apply BitVec.eq_of_toNat_eq
    rw [widen_or_toNat _ _ _ ew'.1 g2 g1, e, ew]
    omega
  · have e := makeDropMove_toNat pt t.val (by omega) (by omega)
    have ht := t.isLt
    have hwm : w = makeDropMove pt t.val := by
      apply BitVec.eq_of_toNat_eq; rw [hw, e]; omega
    have hd := (C01_drop_move_fields pt h1 h7 t).2.1
    have h0 : makeDropMove pt t.val ≠ 0#32 := by
      intro h; rw [h] at e; simp at e; omega
    rw [hwm, move16toMove, if_neg h0, if_pos hd]

/-- **C03**: `move_from_move16(move16(m)) = m` for every move consistent with the board. -/
theorem C03_move16_recovers (piece : Square → Piece) (m : Move) (h : MoveAgrees piece m) :
    move16toMove piece (widen16 (move16 m)) = some m :=
  move16toMove_widen piece m h _ (widen_move16_toNat m)

/-- **C03**: `move_from_psv(move16_to_psv(move16(m))) = m`. -/
theorem C03_psv_recovers (piece : Square → Piece) (m : Move) (h : MoveAgrees piece m) :
    move16toMove piece (widen16 (move16FromPsv (move16ToPsv (move16 m)))) = some m := by
  rw [C02_psv_roundtrip]
  · exact C03_move16_recovers piece m h
  · have e16 : (move16 m).toNat = m.toNat % 2^16 := by simp [move16]
    unfold IsMove16
    rw [e16]
    rcases h with ⟨f, t, pro, rfl, -⟩ | ⟨pt, t, h1, h7, rfl⟩
    · have e := boardMove_toNat piece f t pro
      have hf := f.isLt
      have ht := t.isLt
      have em : (boardMove piece f t pro).toNat % 2^16 = f.val * 2^7 + t.val + (if pro = true then 2^14 else 0) := by
        rw [e]; cases pro <;> simp <;> omega
      rw [em]
      cases pro <;> simp <;> omega
    · rw [makeDropMove_toNat pt t.val (by omega) (by omega)]
      have ht := t.isLt
      omega

-- a rook on 2h (16) captures a pawn on 2c (11) with promotion
example : MoveAgrees (fun s => if s = 16 then 6 else if s = 11 then 17 else 0)
    (boardMove (fun s => if s = 16 then 6 else if s = 11 then 17 else 0) 16 11 true) :=
  Or.inl ⟨16, 11, true, rfl, by decide⟩

/-! ## C04 -/

/-- A 32-bit move whose squares are on the board: a board move with source and destination below 81, or a drop
with one of the seven kinds. -/
def OnBoardMove (m : Move) : Prop := m.dst < 81 ∧ m.src ≤ 87

theorem high18 (m : Move) : (m &&& 0xffffC000#32).toNat = m.toNat / 2^14 * 2^14 := by
  have : m &&& 0xffffC000#32 = (m >>> 14) <<< 14 := by
    apply BitVec.eq_of_getLsbD_eq
    intro i hi
    rw [BitVec.getLsbD_and, BitVec.getLsbD_shiftLeft, BitVec.getLsbD_ushiftRight]
    by_cases h : i < 14
    · have : (0xffffC000#32).getLsbD i = false := by interval_cases i <;> decide
      simp [h, this]
    · have h2 : (0xffffC000#32).getLsbD i = true := by
        interval_cases i <;> decide
      have : 14 + (i - 14) = i := by omega
      simp [h, h2, hi, this]
  have hm := m.isLt
  rw [this]
  simp only [BitVec.toNat_shiftLeft, BitVec.toNat_ushiftRight, Nat.shiftLeft_eq, Nat.shiftRight_eq_div_pow]
  omega

theorem moveRotate_toNat (m : Move) (h : OnBoardMove m) :
    (moveRotate m).toNat = m.toNat / 2^14 * 2^14 +
      (if m.isDrop then m.src else 80 - m.src) * 2^7 + (80 - m.dst) := by
  obtain ⟨h1, h2⟩ := h
  have e1 : (80#32 - (m >>> 0 &&& 0x7f#32)).toNat = 80 - m.dst := by
    rw [BitVec.toNat_sub]
    change (2^32 - m.dst + (80#32).toNat) % 2^32 = _
    simp; omega
  have e2 : ((if m.isDrop = true then (m >>> 7 &&& 0x7f#32) else 80#32 - (m >>> 7 &&& 0x7f#32)) <<< 7).toNat
      = (if m.isDrop = true then m.src else 80 - m.src) * 2^7 := by
    rw [BitVec.toNat_shiftLeft, Nat.shiftLeft_eq]
    by_cases hd : m.isDrop = true
    · simp only [hd, if_true]
      change m.src * 2^7 % 2^32 = _
      omega
    · have : m.src < 81 := by
        simp [Move.isDrop] at hd; omega
      rw [if_neg hd, if_neg hd]
      rw [BitVec.toNat_sub]
      change (2^32 - m.src + (80#32).toNat) % 2^32 * 2^7 % 2^32 = _
      simp; omega
  unfold moveRotate
  simp only [BitVec.toNat_or, high18]
  rw [e1]
  rw [e2]
  have hx : (if m.isDrop = true then m.src else 80 - m.src) < 128 := by split <;> omega
  generalize (if m.isDrop = true then m.src else 80 - m.src) = x at hx ⊢
  rw [or_eq_add _ (80 - m.dst) 7 (by omega) (by omega)]
  have : m.toNat / 2^14 * 2^14 + (80 - m.dst) ||| x * 2^7
      = m.toNat / 2^14 * 2^14 ||| (80 - m.dst ||| x * 2^7) := by
    rw [← or_eq_add _ (80 - m.dst) 7 (by omega) (by omega), Nat.or_assoc]
  rw [this, or_eq_add' (80 - m.dst) (x * 2^7) 7 (by omega) (by omega), or_eq_add _ _ 14 (by omega) (by omega)]
  omega

/-- **C04**: rotation sends squares `s` to `80 - s`, and keeps drop kind, promotion flag, moving and captured
types. -/
theorem C04_rotate_fields (m : Move) (h : OnBoardMove m) :
    (moveRotate m).dst = 80 - m.dst ∧
    (moveRotate m).isDrop = m.isDrop ∧
    (m.isDrop = false → (moveRotate m).src = 80 - m.src) ∧
    (m.isDrop = true → (moveRotate m).src = m.src) ∧
    (moveRotate m).isPromotion = m.isPromotion ∧
    (moveRotate m).pieceTypeFrom = m.pieceTypeFrom ∧
    (moveRotate m).cap = m.cap := by
  have e := moveRotate_toNat m h
  obtain ⟨h1, h2⟩ := h
  have hs : (moveRotate m).src = if m.isDrop = true then m.src else 80 - m.src := by
    have hx : (if m.isDrop = true then m.src else 80 - m.src) < 128 := by split <;> omega
    generalize (if m.isDrop = true then m.src else 80 - m.src) = x at hx e ⊢
    rw [Move.src_eq, e]; omega
  have hsrc : m.isDrop = decide (81 ≤ m.src) := rfl
  have hlt : (if m.isDrop = true then m.src else 80 - m.src) < 128 := by split <;> omega
  have hdst : (moveRotate m).dst = 80 - m.dst := by rw [Move.dst_eq, e]; omega
  refine ⟨hdst, ?_, ?_, ?_, ?_, ?_, ?_⟩
  · rw [Move.isDrop, hs, hsrc]
    by_cases hd : 81 ≤ m.src <;> simp [hd]; omega
  · intro hd; rw [hs, hd]; rfl
  · intro hd; rw [hs, hd]; rfl
  · generalize (if m.isDrop = true then m.src else 80 - m.src) = x at hlt e
    rw [Move.isPromotion_eq, Move.isPromotion_eq, e]; congr 1; apply propext; omega
  · generalize (if m.isDrop = true then m.src else 80 - m.src) = x at hlt e
    rw [Move.pieceTypeFrom_eq, Move.pieceTypeFrom_eq, e]; omega
  · generalize (if m.isDrop = true then m.src else 80 - m.src) = x at hlt e
    rw [Move.cap_eq, Move.cap_eq, e]; omega

/-- **C04**: rotating twice gives the move back, all 32 bits. -/
theorem C04_rotate_involutive (m : Move) (h : OnBoardMove m) : moveRotate (moveRotate m) = m := by
  have f := C04_rotate_fields m h
  have h' : OnBoardMove (moveRotate m) := by
    refine ⟨by rw [f.1]; omega, ?_⟩
    by_cases hd : m.isDrop = true
    · rw [f.2.2.2.1 hd]; exact h.2
    · rw [f.2.2.1 (by simpa using hd)]; omega
  have e := moveRotate_toNat m h
  have e' := moveRotate_toNat _ h'
  obtain ⟨h1, h2⟩ := h
  apply BitVec.eq_of_toNat_eq
  have s1 := Move.src_eq m
  have s2 := Move.dst_eq m
  by_cases hd : m.isDrop = true
  · rw [e', f.1, f.2.1, f.2.2.2.1 hd, if_pos hd]
    rw [if_pos hd] at e
    omega
  · have hs : m.src < 81 := by simp [Move.isDrop] at hd; omega
    rw [e', f.1, f.2.1, f.2.2.1 (by simpa using hd), if_neg hd]
    rw [if_neg hd] at e
    omega

-- 8h2b+ capturing a bishop; and a rook drop
example : OnBoardMove (makeCapturePromoteMove 5 5 70 10) ∧ OnBoardMove (makeDropMove 6 40) := by
  unfold OnBoardMove; decide

/-! ## C48 -/

/-- **C48**: the mask test is exactly "one of the three farthest ranks" (ranks a-c for Black, g-i for White). -/
theorem C48_promotion_zone (c : Color) (s : Square) :
    canPromote c s = true ↔ (match c with | .black => s.val % 9 ≤ 2 | .white => 6 ≤ s.val % 9) := by
  have key : ∀ r : Fin 9, ∀ c : Color, canPromoteRank c r.val =
      (match c with | .black => decide (r.val ≤ 2) | .white => decide (6 ≤ r.val)) := by
    intro r c; cases c <;> revert r <;> decide
  have := key ⟨s.val % 9, Nat.mod_lt _ (by decide)⟩ c
  unfold canPromote rank
  rw [this]
  cases c <;> simp

example : canPromote .black 2 = true ∧ canPromote .black 3 = false ∧ canPromote .white 6 = true := by decide

end Verif
