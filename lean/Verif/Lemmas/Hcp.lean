import Verif.Model.Hcp
import Verif.Lemmas.Game
import Verif.Props.Hands

namespace Verif
open Spec Bitboard Position

/-! ### Streams as lists of bits -/

/-- The low `n` bits, least significant first. -/
def bitsOf (v : BitVec 8) : Nat → List Bool
  | 0 => []
  | n + 1 => v.getLsbD 0 :: bitsOf (v >>> 1) n

theorem bitsOf_length (v : BitVec 8) (n : Nat) : (bitsOf v n).length = n := by
  induction n generalizing v with
  | zero => rfl
  | succ n ih => simp [bitsOf, ih]

/-- The stream has written `bits` and nothing else. -/
structure Wrote (bs : BitStream) (bits : List Bool) : Prop where
  lt : bs.curr < 8
  pos : 8 * bs.data + bs.curr = bits.length
  bit : ∀ (i : Fin 32) (j : Nat), j < 8 → (bs.buf i).getLsbD j = (bits[8 * i.val + j]?).getD false

/-- The stream will read `rest`, which ends with the buffer. -/
structure Rd (bs : BitStream) (rest : List Bool) : Prop where
  lt : bs.curr < 8
  pos : 8 * bs.data + bs.curr + rest.length = 256
  bit : ∀ (i : Fin 32) (j k : Nat), j < 8 → 8 * i.val + j = 8 * bs.data + bs.curr + k → (bs.buf i).getLsbD j = (rest[k]?).getD false

theorem advance_pos (bs : BitStream) (h : bs.curr < 8) : bs.advance.curr < 8 ∧ bs.advance.buf = bs.buf ∧
    8 * bs.advance.data + bs.advance.curr = 8 * bs.data + bs.curr + 1 := by
  unfold BitStream.advance
  split
  · exact ⟨by simp, rfl, by simp; omega⟩
  · exact ⟨by simp; omega, rfl, by simp; omega⟩

theorem Wrote.start : Wrote (BitStream.start fun _ => 0#8) [] := ⟨by decide, rfl, by intro i j _; simp [BitStream.start]⟩

theorem Wrote.putBit {bs : BitStream} {bits : List Bool} (h : Wrote bs bits) (hl : bits.length < 256) (v : BitVec 8)
    (hv : ∀ j, 0 < j → v.getLsbD j = false) : ∃ bs', bs.putBit v = .ok bs' ∧ Wrote bs' (bits ++ [v.getLsbD 0]) := by
  have hd : bs.data < 32 := by have := h.pos; have := h.lt; omega
  unfold BitStream.putBit
  rw [dif_pos hd]
  refine ⟨_, rfl, ?_⟩
  obtain ⟨a, b, c⟩ := advance_pos { bs with buf := fun i => if i = ⟨bs.data, hd⟩ then bs.buf i ||| (v <<< bs.curr) else bs.buf i } h.lt
  refine ⟨a, by rw [c, List.length_append, ← h.pos]; rfl, ?_⟩
  intro i j hj
  rw [b]
  have hp := h.pos
  have hlt := h.lt
  have hb := h.bit i j hj
  simp only
  split
  · next hi =>
    subst hi
    simp only [BitVec.getLsbD_or, hb, BitVec.getLsbD_shiftLeft, hj, decide_true, Bool.true_and] at *
    by_cases h1 : j < bs.curr
    · simp [h1, List.getElem?_append_left (show 8 * bs.data + j < bits.length by omega)]
    · by_cases h2 : j = bs.curr
      · subst h2
        rw [List.getElem?_append_right (by omega), List.getElem?_eq_none (by omega)]
        simp [hp]
      · rw [hv (j - bs.curr) (by omega), List.getElem?_eq_none (by omega), List.getElem?_eq_none (by simp; omega)]
        simp
  · next hi =>
    rw [hb]
    have : i.val ≠ bs.data := fun e => hi (Fin.ext e)
    by_cases h1 : 8 * i.val + j < bits.length
    · rw [List.getElem?_append_left h1]
    · rw [List.getElem?_eq_none (by omega), List.getElem?_eq_none (by simp; omega)]

theorem Wrote.putBits {bs : BitStream} {bits : List Bool} (h : Wrote bs bits) (n : Nat) (v : BitVec 8)
    (hl : bits.length + n ≤ 256) : ∃ bs', bs.putBits v n = .ok bs' ∧ Wrote bs' (bits ++ bitsOf v n) := by
  induction n generalizing bs bits v with
  | zero => exact ⟨bs, rfl, by simpa [bitsOf] using h⟩
  | succ n ih =>
    obtain ⟨bs1, h1, h2⟩ := h.putBit (by omega) (v &&& 1#8) (by
      intro j hj
      rw [BitVec.getLsbD_and]
      simp; omega)
    obtain ⟨bs2, h3, h4⟩ := ih h2 (v >>> 1) (by simp; omega)
    refine ⟨bs2, by unfold BitStream.putBits; rw [h1]; exact h3, ?_⟩
    have : (v &&& 1#8).getLsbD 0 = v.getLsbD 0 := by simp
    rw [this, List.append_assoc] at h4
    exact h4

theorem Wrote.read {bs : BitStream} {bits : List Bool} (h : Wrote bs bits) (hl : bits.length = 256) :
    Rd (BitStream.start bs.buf) bits :=
  ⟨(by decide : 0 < 8), by simp [BitStream.start, hl], fun i j k hj e => by
    have := h.bit i j hj
    simp only [BitStream.start, Nat.mul_zero, Nat.zero_add] at e
    rw [e] at this; exact this⟩

theorem Rd.getBit {bs : BitStream} {b : Bool} {rest : List Bool} (h : Rd bs (b :: rest)) :
    bs.getBit = .ok (b, bs.advance) ∧ Rd bs.advance rest := by
  have hp := h.pos
  have hlt := h.lt
  simp only [List.length_cons] at hp
  have hd : bs.data < 32 := by omega
  obtain ⟨a, b', c⟩ := advance_pos bs h.lt
  constructor
  · unfold BitStream.getBit
    rw [dif_pos hd]
    have hb := h.bit ⟨bs.data, hd⟩ bs.curr 0 hlt (by simp)
    simp only [List.getElem?_cons_zero, Option.getD_some] at hb
    congr 2
    rw [← hb]
    generalize bs.buf ⟨bs.data, hd⟩ = v
    have hx : ∀ c < 8, ∀ v : BitVec 8, (v &&& (1#8 <<< c) != 0#8) = v.getLsbD c := by
      intro c hc v
      rcases (show c = 0 ∨ c = 1 ∨ c = 2 ∨ c = 3 ∨ c = 4 ∨ c = 5 ∨ c = 6 ∨ c = 7 by omega) with
        rfl|rfl|rfl|rfl|rfl|rfl|rfl|rfl <;> (revert v; decide +kernel)
    exact hx _ hlt v
  · refine ⟨a, by rw [c]; omega, ?_⟩
    intro i j k hj e
    rw [b']
    rw [h.bit i j (k+1) hj (by omega)]
    rfl

/-- What `getBitsLoop` computes from the bits read. -/
def accum : List Bool → Nat → BitVec 8 → BitVec 8
  | [], _, r => r
  | b :: l, i, r => accum l (i + 1) (r ||| ((if b then 1#8 else 0#8) <<< i))

theorem Rd.getBitsLoop {bs : BitStream} (l : List Bool) {rest : List Bool} (i : Nat) (r : BitVec 8) (h : Rd bs (l ++ rest)) :
    ∃ bs', BitStream.getBitsLoop l.length i r bs = .ok (accum l i r, bs') ∧ Rd bs' rest := by
  induction l generalizing bs i r with
  | nil => exact ⟨bs, rfl, h⟩
  | cons b l ih =>
    obtain ⟨h1, h2⟩ := Rd.getBit h
    obtain ⟨bs', h3, h4⟩ := ih (i+1) _ h2
    refine ⟨bs', ?_, h4⟩
    simp only [List.length_cons, BitStream.getBitsLoop, h1, Out.bind_ok]
    exact h3

theorem accum_bitsOf : ∀ v < 128, accum (bitsOf (BitVec.ofNat 8 v) 7) 0 0#8 = BitVec.ofNat 8 v := by decide +kernel

theorem Rd.getBits {bs : BitStream} {rest : List Bool} {v : Nat} (hv : v < 128) (h : Rd bs (bitsOf (BitVec.ofNat 8 v) 7 ++ rest)) :
    ∃ bs', bs.getBits 7 = .ok (BitVec.ofNat 8 v, bs') ∧ Rd bs' rest := by
  have := Rd.getBitsLoop _ 0 0#8 h
  rw [bitsOf_length, accum_bitsOf v hv] at this
  exact this

/-! ### Reading one code -/

/-- `readCode` on a list of bits. -/
def readList (hash : List (HuffmanCode × Piece)) : Nat → HuffmanCode → List Bool → Option (Piece × List Bool)
  | 0, _, _ => none
  | _, _, [] => none
  | n + 1, hc, b :: l =>
    let hc : HuffmanCode := ⟨hc.code ||| ((if b then 1#8 else 0#8) <<< hc.numOfBits), hc.numOfBits + 1⟩
    match hashValue hash hc with
    | some pc => some (pc, l)
    | none => readList hash n hc l

theorem readList_append (hash : List (HuffmanCode × Piece)) (n : Nat) (hc : HuffmanCode) (l rest r : List Bool) (pc : Piece)
    (h : readList hash n hc l = some (pc, r)) : readList hash n hc (l ++ rest) = some (pc, r ++ rest) := by
  induction n generalizing hc l with
  | zero => simp [readList] at h
  | succ n ih =>
    cases l with
    | nil => simp [readList] at h
    | cons b l =>
      simp only [readList, List.cons_append] at h ⊢
      generalize hashValue hash _ = x at h ⊢
      cases x with
      | some pc' => simp only [Option.some.injEq, Prod.mk.injEq] at h ⊢; exact ⟨h.1, by rw [h.2]⟩
      | none => exact ih _ _ h

theorem Rd.readCode {bs : BitStream} (hash : List (HuffmanCode × Piece)) (n : Nat) (hc : HuffmanCode) (l r : List Bool)
    (pc : Piece) (hr : readList hash n hc l = some (pc, r)) (h : Rd bs l) :
    ∃ bs', Position.readCode hash n hc bs = .ok (pc, bs') ∧ Rd bs' r := by
  induction n generalizing bs hc l with
  | zero => simp [readList] at hr
  | succ n ih =>
    cases l with
    | nil => simp [readList] at hr
    | cons b l =>
      obtain ⟨h1, h2⟩ := Rd.getBit h
      simp only [readList] at hr
      simp only [Position.readCode, h1, Out.bind_ok]
      generalize hashValue hash _ = x at hr ⊢
      cases x with
      | some pc' =>
        simp only [Option.some.injEq, Prod.mk.injEq] at hr
        exact ⟨bs.advance, by rw [← hr.1], hr.2 ▸ h2⟩
      | none => exact ih _ _ hr h2

/-! ### Tables -/

/-- The bits of a code. -/
def HuffmanCode.bits (hc : HuffmanCode) : List Bool := bitsOf hc.code hc.numOfBits

/-- Length of a board code. -/
def codeLen : HKind → Nat
  | .pawn => 4 | .bishop => 8 | .rook => 8 | _ => 6

/-- What makes a set of tables decodable in 256 bits. -/
structure Good (T : CodeTables) : Prop where
  empty : readList T.boardHash 9 ⟨0, 0⟩ (T.board 0).bits = some (0, [])
  board : ∀ c k, k ≠ Kind.king → readList T.boardHash 9 ⟨0, 0⟩ (T.board (mkPiece c k.code)).bits = some (mkPiece c k.code, [])
  hand : ∀ c h, readList T.handHash 9 ⟨0, 0⟩ (T.hand (HKind.code h) c).bits = some (mkPiece c h.kind.code, [])
  box : ∀ h, readList T.handHash 9 ⟨0, 0⟩ (T.box (HKind.code h)).bits = some (0, [])
  lenEmpty : (T.board 0).numOfBits = 1
  lenBoard : ∀ c k h, Kind.hand k = some h → (T.board (mkPiece c k.code)).numOfBits = codeLen h
  lenHand : ∀ c h, (T.hand (HKind.code h) c).numOfBits + 1 = codeLen h
  lenBox : ∀ h, (T.box (HKind.code h)).numOfBits + 1 = codeLen h

theorem good_hcp : Good hcpTables where
  empty := by decide +kernel
  board c k hk := by cases c <;> cases k <;> first | exact absurd rfl hk | decide +kernel
  hand c h := by cases c <;> cases h <;> decide +kernel
  box h := by cases h <;> decide +kernel
  lenEmpty := rfl
  lenBoard c k h e := by cases c <;> cases k <;> cases e <;> rfl
  lenHand c h := by cases c <;> cases h <;> rfl
  lenBox h := by cases h <;> rfl

theorem good_psfen : Good psfenTables where
  empty := by decide +kernel
  board c k hk := by cases c <;> cases k <;> first | exact absurd rfl hk | decide +kernel
  hand c h := by cases c <;> cases h <;> decide +kernel
  box h := by cases h <;> decide +kernel
  lenEmpty := rfl
  lenBoard c k h e := by cases c <;> cases k <;> cases e <;> rfl
  lenHand c h := by cases c <;> cases h <;> rfl
  lenBox h := by cases h <;> rfl

/-! ### The board part -/

/-- The code bits of a board piece; kings have none. -/
def cellBits (T : CodeTables) (pc : Piece) : List Bool := if pieceType pc = PT.King then [] else (T.board pc).bits

/-- The bits of the board. -/
def boardBits (T : CodeTables) (b : Square → Piece) (l : List Square) : List Bool := l.flatMap fun s => cellBits T (b s)

/-- Squares of `l` whose piece is counted under hand index `i`. -/
def boxCount (b : Square → Piece) (l : List Square) (i : Nat) : Nat :=
  l.countP fun s => decide (pieceType (b s) ≠ PT.King ∧ ptToHand (pieceType (b s)) = i)

theorem Wrote.encBoard {T : CodeTables} {p : Position} (l : List Square) {bs : BitStream} {bits : List Bool} (cnt : Nat → Int)
    (h : Wrote bs bits) (hl : bits.length + (boardBits T p.piece l).length ≤ 256) :
    ∃ bs', Position.encBoard T p l bs cnt = .ok (bs', fun i => cnt i - boxCount p.piece l i) ∧
      Wrote bs' (bits ++ boardBits T p.piece l) := by
  induction l generalizing bs bits cnt with
  | nil => exact ⟨bs, by simp [Position.encBoard, boxCount], by simpa [boardBits] using h⟩
  | cons s l ih =>
    simp only [boardBits, List.flatMap_cons] at hl ⊢
    unfold Position.encBoard
    by_cases hk : pieceType (p.piece s) = PT.King
    · simp only [hk, if_true]
      have e : cellBits T (p.piece s) = [] := by unfold cellBits; rw [if_pos hk]
      rw [e, List.nil_append] at hl ⊢
      obtain ⟨bs', h1, h2⟩ := ih cnt h hl
      refine ⟨bs', ?_, h2⟩
      rw [h1]
      congr 2
      funext i
      simp [boxCount, List.countP_cons, hk]
    · simp only [hk, if_false]
      have e : cellBits T (p.piece s) = bitsOf (T.board (p.piece s)).code (T.board (p.piece s)).numOfBits := by
        unfold cellBits; rw [if_neg hk]; rfl
      rw [e] at hl ⊢
      simp only [List.length_append, bitsOf_length] at hl
      obtain ⟨bs1, h1, h2⟩ := h.putBits (T.board (p.piece s)).numOfBits (T.board (p.piece s)).code (by omega)
      obtain ⟨bs', h3, h4⟩ := ih (upd cnt (ptToHand (pieceType (p.piece s))) (cnt (ptToHand (pieceType (p.piece s))) - 1)) h2
        (by simp only [List.length_append, bitsOf_length, boardBits]; omega)
      refine ⟨bs', ?_, by rw [List.append_assoc] at h4; exact h4⟩
      rw [h1]
      simp only [Out.bind_ok]
      rw [h3]
      congr 2
      funext i
      simp only [boxCount, List.countP_cons, upd]
      by_cases hi : i = ptToHand (pieceType (p.piece s))
      · subst hi; simp [hk]; omega
      · have : ¬ ptToHand (pieceType (p.piece s)) = i := fun e => hi e.symm
        simp [hi, this]

/-! ### The hands -/

theorem Wrote.encRepeat (hc : HuffmanCode) (n : Nat) {bs : BitStream} {bits : List Bool}
    (h : Wrote bs bits) (hl : bits.length + n * hc.numOfBits ≤ 256) :
    ∃ bs', Position.encRepeat hc n bs = .ok bs' ∧ Wrote bs' (bits ++ (List.replicate n hc.bits).flatten) := by
  induction n generalizing bs bits with
  | zero => exact ⟨bs, rfl, by simpa using h⟩
  | succ n ih =>
    rw [Nat.succ_mul] at hl
    obtain ⟨bs1, h1, h2⟩ := h.putBits hc.numOfBits hc.code (by omega)
    obtain ⟨bs', h3, h4⟩ := ih h2 (by simp only [List.length_append, bitsOf_length]; omega)
    refine ⟨bs', by unfold Position.encRepeat; rw [h1]; exact h3, ?_⟩
    rw [List.append_assoc] at h4
    rw [List.replicate_succ, List.flatten_cons]
    exact h4

theorem replicate_length (hc : HuffmanCode) (n : Nat) : ((List.replicate n hc.bits).flatten).length = n * hc.numOfBits := by
  simp [HuffmanCode.bits, bitsOf_length]

/-- The bits of some hands. -/
def handBits (T : CodeTables) (num : Color → Nat → Nat) (l : List (Color × HandPiece)) : List Bool :=
  l.flatMap fun x => (List.replicate (num x.1 x.2) (T.hand x.2 x.1).bits).flatten

theorem Wrote.encHands {T : CodeTables} {p : Position} (l : List (Color × HandPiece)) {bs : BitStream} {bits : List Bool}
    (cnt : Nat → Int) (h : Wrote bs bits) (hl : bits.length + (handBits T (fun c => (p.hand c).numOf) l).length ≤ 256) :
    ∃ bs', Position.encHands T p l bs cnt =
        .ok (bs', l.foldl (fun cnt x => upd cnt x.2 (cnt x.2 - ((p.hand x.1).numOf x.2 : Int))) cnt) ∧
      Wrote bs' (bits ++ handBits T (fun c => (p.hand c).numOf) l) := by
  induction l generalizing bs bits cnt with
  | nil => exact ⟨bs, rfl, by simpa [handBits] using h⟩
  | cons x l ih =>
    obtain ⟨c, hp⟩ := x
    simp only [handBits, List.flatMap_cons, List.length_append, replicate_length] at hl ⊢
    obtain ⟨bs1, h1, h2⟩ := h.encRepeat (T.hand hp c) ((p.hand c).numOf hp) (by omega)
    obtain ⟨bs', h3, h4⟩ := ih (upd cnt hp (cnt hp - ((p.hand c).numOf hp : Int))) h2
      (by simp only [List.length_append, replicate_length, handBits]; omega)
    refine ⟨bs', ?_, by rw [List.append_assoc] at h4; exact h4⟩
    unfold Position.encHands
    rw [h1]
    simp only [Out.bind_ok, List.foldl_cons]
    exact h3

/-- The bits of the piece box. -/
def boxBits (T : CodeTables) (num : Nat → Nat) (l : List HandPiece) : List Bool :=
  l.flatMap fun hp => (List.replicate (num hp) (T.box hp).bits).flatten

theorem Wrote.encBox {T : CodeTables} (l : List HandPiece) {bs : BitStream} {bits : List Bool}
    (cnt : Nat → Int) (h : Wrote bs bits) (hl : bits.length + (boxBits T (fun i => (cnt i).toNat) l).length ≤ 256) :
    ∃ bs', Position.encBox T cnt l bs = .ok bs' ∧ Wrote bs' (bits ++ boxBits T (fun i => (cnt i).toNat) l) := by
  induction l generalizing bs bits with
  | nil => exact ⟨bs, rfl, by simpa [boxBits] using h⟩
  | cons hp l ih =>
    simp only [boxBits, List.flatMap_cons, List.length_append, replicate_length] at hl ⊢
    obtain ⟨bs1, h1, h2⟩ := h.encRepeat (T.box hp) (cnt hp).toNat (by omega)
    obtain ⟨bs', h3, h4⟩ := ih h2 (by simp only [List.length_append, replicate_length, boxBits]; omega)
    refine ⟨bs', ?_, by rw [List.append_assoc] at h4; exact h4⟩
    unfold Position.encBox
    rw [h1]
    exact h3

end Verif
