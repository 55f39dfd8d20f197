import Verif.Model.Outcome
import Verif.Model.Setup

/-!
# Huffman-coded positions and packed sfens (position.hpp, position.cpp)

The two formats differ only in their tables; the functions are written once over a `CodeTables`.
-/

namespace Verif

/-! ### BitStream -/

/-- `class BitStream` (src/position.hpp:73-121) over a 32-byte buffer: the byte pointed to and the bit in it. -/
structure BitStream where
  buf : Fin 32 → BitVec 8
  data : Nat
  curr : Nat

namespace BitStream

/-- `BitStream(d)` (src/position.hpp:76). -/
def start (buf : Fin 32 → BitVec 8) : BitStream := ⟨buf, 0, 0⟩

/-- The end of `getBit` and `putBit` (src/position.hpp:85-88, 103-106). -/
def advance (bs : BitStream) : BitStream :=
  if bs.curr + 1 = 8 then { bs with data := bs.data + 1, curr := 0 } else { bs with curr := bs.curr + 1 }

/-- `getBit` (src/position.hpp:83-90). -/
def getBit (bs : BitStream) : Out (Bool × BitStream) :=
  if h : bs.data < 32 then .ok ((bs.buf ⟨bs.data, h⟩ &&& (1#8 <<< bs.curr)) != 0#8, bs.advance)
  else .ub

/-- The loop of `getBits` (src/position.hpp:92-98), from bit `i` on. -/
def getBitsLoop : Nat → Nat → BitVec 8 → BitStream → Out (BitVec 8 × BitStream)
  | 0, _, result, bs => .ok (result, bs)
  | n + 1, i, result, bs =>
    bs.getBit.bind fun (b, bs) => getBitsLoop n (i + 1) (result ||| ((if b then 1#8 else 0#8) <<< i)) bs

/-- `getBits(numOfBits)` (src/position.hpp:92-98). -/
def getBits (bs : BitStream) (numOfBits : Nat) : Out (BitVec 8 × BitStream) := getBitsLoop numOfBits 0 0#8 bs

/-- `putBit(bit)` (src/position.hpp:100-107). -/
def putBit (bs : BitStream) (bit : BitVec 8) : Out BitStream :=
  if h : bs.data < 32 then
    .ok (advance { bs with buf := fun i => if i = ⟨bs.data, h⟩ then bs.buf i ||| (bit <<< bs.curr) else bs.buf i })
  else .ub

/-- `putBits(val, numOfBits)` (src/position.hpp:109-116). -/
def putBits (bs : BitStream) (val : BitVec 8) : Nat → Out BitStream
  | 0 => .ok bs
  | n + 1 => (bs.putBit (val &&& 1#8)).bind fun bs => putBits bs (val >>> 1) n

end BitStream

/-! ### Tables -/

/-- `union HuffmanCode` (src/position.hpp:123-129): the code, least significant bit first, and its length. -/
structure HuffmanCode where
  code : BitVec 8
  numOfBits : Nat
deriving DecidableEq

/-- The three tables of a format. -/
structure CodeTables where
  board : Piece → HuffmanCode
  hand : HandPiece → Color → HuffmanCode
  box : HandPiece → HuffmanCode

/-- `HuffmanCodedPos::{boardCodeTable, handCodeTable, pieceBoxCodeTable}` (src/position.cpp:36-91). -/
def hcpTables : CodeTables where
  board
    | 0 => ⟨0b0, 1⟩ | 1 => ⟨0b1, 4⟩ | 2 => ⟨0b11, 6⟩ | 3 => ⟨0b111, 6⟩ | 4 => ⟨0b1011, 6⟩ | 5 => ⟨0b11111, 8⟩
    | 6 => ⟨0b111111, 8⟩ | 7 => ⟨0b1111, 6⟩ | 9 => ⟨0b1001, 4⟩ | 10 => ⟨0b100011, 6⟩ | 11 => ⟨0b100111, 6⟩
    | 12 => ⟨0b101011, 6⟩ | 13 => ⟨0b10011111, 8⟩ | 14 => ⟨0b10111111, 8⟩
    | 17 => ⟨0b101, 4⟩ | 18 => ⟨0b10011, 6⟩ | 19 => ⟨0b10111, 6⟩ | 20 => ⟨0b11011, 6⟩ | 21 => ⟨0b1011111, 8⟩
    | 22 => ⟨0b1111111, 8⟩ | 23 => ⟨0b101111, 6⟩ | 25 => ⟨0b1101, 4⟩ | 26 => ⟨0b110011, 6⟩ | 27 => ⟨0b110111, 6⟩
    | 28 => ⟨0b111011, 6⟩ | 29 => ⟨0b11011111, 8⟩ | 30 => ⟨0b11111111, 8⟩
    | _ => ⟨0, 0⟩
  hand
    | 0, .black => ⟨0b0, 3⟩ | 0, .white => ⟨0b100, 3⟩
    | 1, .black => ⟨0b1, 5⟩ | 1, .white => ⟨0b10001, 5⟩
    | 2, .black => ⟨0b11, 5⟩ | 2, .white => ⟨0b10011, 5⟩
    | 3, .black => ⟨0b101, 5⟩ | 3, .white => ⟨0b10101, 5⟩
    | 4, .black => ⟨0b111, 5⟩ | 4, .white => ⟨0b10111, 5⟩
    | 5, .black => ⟨0b11111, 7⟩ | 5, .white => ⟨0b1011111, 7⟩
    | _, .black => ⟨0b111111, 7⟩ | _, .white => ⟨0b1111111, 7⟩
  box
    | 0 => ⟨0b10, 3⟩ | 1 => ⟨0b1001, 5⟩ | 2 => ⟨0b1011, 5⟩ | 3 => ⟨0b1101, 5⟩ | 4 => ⟨0b11101, 5⟩ | 5 => ⟨0b1111, 7⟩
    | _ => ⟨0b101111, 7⟩

/-- `PackedSfen::{boardCodeTable, handCodeTable, pieceBoxCodeTable}` (src/position.cpp:128-183). -/
def psfenTables : CodeTables where
  board
    | 0 => ⟨0b0, 1⟩ | 1 => ⟨0b1, 4⟩ | 2 => ⟨0b11, 6⟩ | 3 => ⟨0b1011, 6⟩ | 4 => ⟨0b111, 6⟩ | 5 => ⟨0b11111, 8⟩
    | 6 => ⟨0b111111, 8⟩ | 7 => ⟨0b1111, 6⟩ | 9 => ⟨0b101, 4⟩ | 10 => ⟨0b10011, 6⟩ | 11 => ⟨0b11011, 6⟩
    | 12 => ⟨0b10111, 6⟩ | 13 => ⟨0b1011111, 8⟩ | 14 => ⟨0b1111111, 8⟩
    | 17 => ⟨0b1001, 4⟩ | 18 => ⟨0b100011, 6⟩ | 19 => ⟨0b101011, 6⟩ | 20 => ⟨0b100111, 6⟩ | 21 => ⟨0b10011111, 8⟩
    | 22 => ⟨0b10111111, 8⟩ | 23 => ⟨0b101111, 6⟩ | 25 => ⟨0b1101, 4⟩ | 26 => ⟨0b110011, 6⟩ | 27 => ⟨0b111011, 6⟩
    | 28 => ⟨0b110111, 6⟩ | 29 => ⟨0b11011111, 8⟩ | 30 => ⟨0b11111111, 8⟩
    | _ => ⟨0, 0⟩
  hand
    | 0, .black => ⟨0b0, 3⟩ | 0, .white => ⟨0b100, 3⟩
    | 1, .black => ⟨0b1, 5⟩ | 1, .white => ⟨0b10001, 5⟩
    | 2, .black => ⟨0b101, 5⟩ | 2, .white => ⟨0b10101, 5⟩
    | 3, .black => ⟨0b11, 5⟩ | 3, .white => ⟨0b10011, 5⟩
    | 4, .black => ⟨0b111, 5⟩ | 4, .white => ⟨0b10111, 5⟩
    | 5, .black => ⟨0b1111, 7⟩ | 5, .white => ⟨0b1001111, 7⟩
    | _, .black => ⟨0b11111, 7⟩ | _, .white => ⟨0b1011111, 7⟩
  box
    | 0 => ⟨0b10, 3⟩ | 1 => ⟨0b1001, 5⟩ | 2 => ⟨0b1101, 5⟩ | 3 => ⟨0b1011, 5⟩ | 4 => ⟨0b11011, 5⟩ | 5 => ⟨0b101111, 7⟩
    | _ => ⟨0b111111, 7⟩

/-- `std::unordered_map<u16, Piece>` filled by assignments, newest first (src/position.hpp:131-138); the key of a code is
the pair of its fields. `none` stands for `PieceNone`. -/
def hashValue (h : List (HuffmanCode × Piece)) (key : HuffmanCode) : Option Piece := (h.find? fun e => e.1 = key).map (·.2)

namespace CodeTables

/-- `boardCodeToPieceHash` after `init` (src/position.hpp:149-154, 190-195). -/
def boardHash (T : CodeTables) : List (HuffmanCode × Piece) :=
  (((List.range 15) ++ (List.range' 17 14)).filter fun pc => pieceType pc ≠ PT.King).reverse.map fun pc => (T.board pc, pc)

/-- `handCodeToPieceHash` after `init` (src/position.hpp:155-159, 196-200). -/
def handHash (T : CodeTables) : List (HuffmanCode × Piece) :=
  ((List.range 7).flatMap fun hp =>
    [(T.hand hp .black, mkPiece .black (handToPt hp)), (T.hand hp .white, mkPiece .white (handToPt hp)), (T.box hp, 0)]).reverse

end CodeTables

/-! ### Encoding -/

namespace Position
open BitStream

/-- `kingSquare(c)` as a number, 81 when there is no king. -/
def kingNo (p : Position) (c : Color) : Nat := match p.kingSquare c with | none => 81 | some k => k.val

/-- The board part of the encoder: stream and `hp_count` (src/position.cpp:3027-3037, 3070-3080). -/
def encBoard (T : CodeTables) (p : Position) : List Square → BitStream → (Nat → Int) → Out (BitStream × (Nat → Int))
  | [], bs, cnt => .ok (bs, cnt)
  | s :: l, bs, cnt =>
    let pc := p.piece s
    if pieceType pc = PT.King then encBoard T p l bs cnt
    else (bs.putBits (T.board pc).code (T.board pc).numOfBits).bind fun bs =>
      encBoard T p l bs (upd cnt (ptToHand (pieceType pc)) (cnt (ptToHand (pieceType pc)) - 1))

/-- `for (n = 0; n < k; ++n) bs.putBits(hc.code, hc.numOfBits)` (src/position.cpp:3044-3045, 3053-3054). -/
def encRepeat (hc : HuffmanCode) : Nat → BitStream → Out BitStream
  | 0, bs => .ok bs
  | n + 1, bs => (bs.putBits hc.code hc.numOfBits).bind fun bs => encRepeat hc n bs

/-- The hands (src/position.cpp:3039-3048). -/
def encHands (T : CodeTables) (p : Position) : List (Color × HandPiece) → BitStream → (Nat → Int) → Out (BitStream × (Nat → Int))
  | [], bs, cnt => .ok (bs, cnt)
  | (c, hp) :: l, bs, cnt =>
    (encRepeat (T.hand hp c) ((p.hand c).numOf hp) bs).bind fun bs =>
      encHands T p l bs (upd cnt hp (cnt hp - ((p.hand c).numOf hp : Int)))

/-- The piece box (src/position.cpp:3050-3055). -/
def encBox (T : CodeTables) (cnt : Nat → Int) : List HandPiece → BitStream → Out BitStream
  | [], bs => .ok bs
  | hp :: l, bs => (encRepeat (T.box hp) (cnt hp).toNat bs).bind fun bs => encBox T cnt l bs

/-- `hp_count` at the start (src/position.cpp:3025, 3068). -/
def boxStart : Nat → Int
  | 0 => 18 | 1 => 4 | 2 => 4 | 3 => 4 | 4 => 4 | 5 => 2 | 6 => 2 | _ => 0

/-- The order of the two nested loops over the hands. -/
def handOrder : List (Color × HandPiece) :=
  [Color.black, Color.white].flatMap fun c => (List.range 7).map fun hp => (c, hp)

/-- `toHuffmanCodedPos(data)` and `toPackedSfen(data)`, Python `to_hcp`, `to_psfen` (src/position.cpp:3017-3058,
3060-3101). The buffer is zeroed first. -/
def encodePos (T : CodeTables) (p : Position) : Out BitStream :=
  let bs := BitStream.start fun _ => 0#8
  (bs.putBit (BitVec.ofNat 8 p.turn.idx)).bind fun bs =>
  (bs.putBits (BitVec.ofNat 8 (p.kingNo .black)) 7).bind fun bs =>
  (bs.putBits (BitVec.ofNat 8 (p.kingNo .white)) 7).bind fun bs =>
  (encBoard T p (List.finRange 81) bs boxStart).bind fun (bs, cnt) =>
  (encHands T p handOrder bs cnt).bind fun (bs, cnt) =>
  encBox T cnt (List.range 7) bs

/-! ### Decoding -/

/-- `while (hc.numOfBits <= 8) { hc.code |= bs.getBit() << hc.numOfBits++; if (found) break; }` and the test for
`PieceNone` after it (src/position.cpp:3459-3471, 3473-3486). `fuel` counts the remaining rounds; the loop makes at most
nine. -/
def readCode (hash : List (HuffmanCode × Piece)) : Nat → HuffmanCode → BitStream → Out (Piece × BitStream)
  | 0, _, _ => .error
  | n + 1, hc, bs =>
    bs.getBit.bind fun (b, bs) =>
      let hc : HuffmanCode := ⟨hc.code ||| ((if b then 1#8 else 0#8) <<< hc.numOfBits), hc.numOfBits + 1⟩
      match hashValue hash hc with
      | some pc => .ok (pc, bs)
      | none => readCode hash n hc bs

/-- The board part of the decoder (src/position.cpp:3455-3471, 3521-3537). -/
def decBoard (T : CodeTables) : List Square → Position → BitStream → Out (Position × BitStream)
  | [], p, bs => .ok (p, bs)
  | s :: l, p, bs =>
    if pieceType (p.piece s) = PT.King then decBoard T l p bs
    else (readCode T.boardHash 9 ⟨0, 0⟩ bs).bind fun (pc, bs) =>
      decBoard T l (if pc ≠ 0 then p.setPiece pc s else p) bs

/-- `while (bs.data() != std::end(tmp.data))`, one code per round (src/position.cpp:3472-3486, 3538-3552). `fuel` bounds the
number of rounds in the model: every round reads at least one bit, so one round more than there are bits left reaches the
end or leaves the buffer. -/
def decHands (T : CodeTables) : Nat → Position → BitStream → Out Position
  | 0, _, _ => .ub
  | n + 1, p, bs =>
    if bs.data = 32 then .ok p
    else (readCode T.handHash 9 ⟨0, 0⟩ bs).bind fun (pc, bs) =>
      if pc = 0 then decHands T n p bs
      else
        let c := pieceColor pc
        decHands T n { p with hand := upd p.hand c ((p.hand c).plusOne (ptToHand (pieceType pc))) } bs

/-- `set_hcp(data)` and `set_psfen(data)` up to the hands (src/position.cpp:3437-3486, 3503-3552). `setPiece` of a king
indexes arrays of 81 squares. -/
def decodeBody (T : CodeTables) (buf : Fin 32 → BitVec 8) : Out Position :=
  (BitStream.start buf).getBit.bind fun (t, bs) =>
  (bs.getBits 7).bind fun (sq0, bs) =>
  (bs.getBits 7).bind fun (sq1, bs) =>
  if h0 : sq0.toNat < 81 then
    if h1 : sq1.toNat < 81 then
      let p := { clear with turn := if t then .white else .black }
      let p := p.setPiece (mkPiece .black PT.King) ⟨sq0.toNat, h0⟩
      let p := p.setPiece (mkPiece .white PT.King) ⟨sq1.toNat, h1⟩
      (decBoard T (List.finRange 81) p bs).bind fun (p, bs) => decHands T (257 - (8 * bs.data + bs.curr)) p bs
    else .ub
  else .ub

/-- `set_hcp(data)` and `set_psfen(data)` (src/position.cpp:3437-3501, 3503-3568). -/
def decodePos (Z : Zobrist) (T : CodeTables) (buf : Fin 32 → BitVec 8) : Out Position :=
  (decodeBody T buf).bind fun p => .ok (finish Z { p with gamePly := 1 })

end Position
end Verif
