import Verif.Model.Board

/-!
# The board object with explicit state records and pointers (cshogi.h, `class __Board`)

`Verif.Board` keeps the chain of state records as a list. Here the records live in a heap, boards hold addresses, and copying
a board relinks the `previous` pointers as `relinkStateInfo` does. The choice of the addresses of new records is left to the
allocator: it is an argument.
-/

namespace Verif
namespace Mem
open Position

/-- Address of a `StateInfo` record. -/
abbrev Addr := Nat

/-- `struct StateInfo` with its `previous` pointer (src/position.hpp:53-70). -/
structure Rec where
  info : StateInfo
  previous : Option Addr

/-- Allocated records. Reading an address without record is undefined behaviour. -/
abbrev Heap := Addr → Option Rec

/-- Members of `Position` other than `st_` and `startState_` (src/position.hpp:529-546). -/
structure Body where
  byType : PieceType → Bitboard
  byColor : Color → Bitboard
  golds : Bitboard
  piece : Square → Piece
  kingSquare : Color → Option Square
  hand : Color → Hand
  turn : Color
  gamePly : Int

/-- The members of a position other than the state records. -/
def bodyOf (p : Position) : Body :=
  ⟨p.byType, p.byColor, p.golds, p.piece, p.kingSquare, p.hand, p.turn, p.gamePly⟩

/-- What the functions of `Position` see: the members and the record `*st_`. Neither `doMove` nor `doNullMove` looks at older
records, `undoMove` only takes over the pointer. -/
def Body.see (b : Body) (s : StateInfo) (prev : List StateInfo) : Position :=
  ⟨b.byType, b.byColor, b.golds, b.piece, b.kingSquare, b.hand, b.turn, s, prev, b.gamePly⟩

/-- One element of `history` (src/cshogi.h:475): the move, or the null move for a pass, and the address of the record. -/
inductive Entry where
  | move (m : Move) (a : Addr)
  | pass (a : Addr)

/-- The address of the record of an entry. -/
def Entry.addr : Entry → Addr
  | .move _ a => a
  | .pass a => a

/-- `class __Board` (src/cshogi.h:86-510): `start` is the address of `pos.startState_`, `st` the pointer `pos.st_`, `hist` the
deque `history` with the newest element first. Elements of a deque keep their addresses when others are added or removed at
its ends. -/
structure HBoard where
  body : Body
  start : Addr
  st : Addr
  hist : List Entry

/-- The records that belong to a board object. -/
def HBoard.own (b : HBoard) : List Addr := b.start :: b.hist.map Entry.addr

/-- `push` (src/cshogi.h:159-162) with `doMove` (src/position.cpp:476-594): `history.emplace_back` puts a new record at `a`,
`doMove` reads `*st_`, fills the new record, links it to `st_` and moves `st_`. `none`: undefined behaviour. -/
def push (Z : Zobrist) (h : Heap) (b : HBoard) (m : Move) (a : Addr) : Option (Heap × HBoard) :=
  match h b.st with
  | none => none
  | some r =>
    match doMove Z (b.body.see r.info []) m with
    | none => none
    | some p => some (upd h a (some ⟨p.st, some b.st⟩), ⟨bodyOf p, b.start, a, .move m a :: b.hist⟩)

/-- `pop` (src/cshogi.h:164-169) with `undoMove` (src/position.cpp:596-654): `st_ = st_->previous`, and `history.pop_back()`
frees the record of the last element. -/
def pop (h : Heap) (b : HBoard) : Option (Heap × HBoard) :=
  match b.hist with
  | .move m a :: hist =>
    match h b.st with
    | none => none
    | some r =>
      match r.previous with
      | none => none
      | some pr =>
        match undoMove (b.body.see r.info [r.info]) m with
        | none => none
        | some p => some (upd h a none, ⟨bodyOf p, b.start, pr, hist⟩)
  | _ => none

/-- The record `StateInfo()` of `emplace_back`, all zero, with the values `doNullMove<true>` saves in it
(src/position.cpp:659-665). -/
def backupRec (k : NullBackup) : Rec :=
  ⟨⟨k.pliesFromNull, fun _ => 0, k.boardKey, k.handKey, Bitboard.zero, k.hand⟩, none⟩

/-- The values `doNullMove<false>` takes from the record (src/position.cpp:659-665). -/
def backupOf (r : Rec) : NullBackup := ⟨r.info.boardKey, r.info.handKey, r.info.pliesFromNull, r.info.hand⟩

/-- `push_pass` (src/cshogi.h:178-181) with `doNullMove<true>` (src/position.cpp:656-676): the new record at `a` is a backup,
`*st_` is changed in place. -/
def pushPass (h : Heap) (b : HBoard) (a : Addr) : Option (Heap × HBoard) :=
  match h b.st with
  | none => none
  | some r =>
    let p := b.body.see r.info []
    if p.inCheck then none
    else
      some (upd (upd h a (some (backupRec (doNull p).2))) b.st (some ⟨(doNull p).1.st, r.previous⟩),
        ⟨bodyOf (doNull p).1, b.start, b.st, .pass a :: b.hist⟩)

/-- `pop_pass` (src/cshogi.h:182-185) with `doNullMove<false>` (src/position.cpp:656-676). -/
def popPass (h : Heap) (b : HBoard) : Option (Heap × HBoard) :=
  match b.hist with
  | .pass a :: hist =>
    match h b.st, h a with
    | some r, some k =>
      let p := undoNull (b.body.see r.info []) (backupOf k)
      some (upd (upd h b.st (some ⟨p.st, r.previous⟩)) a none, ⟨bodyOf p, b.start, b.st, hist⟩)
    | _, _ => none
  | _ => none

/-- One operation; `a` is the address the allocator would give to a new record. -/
def step (Z : Zobrist) (h : Heap) (b : HBoard) (a : Addr) : Op → Option (Heap × HBoard)
  | .push m => push Z h b m a
  | .pop => pop h b
  | .pushPass => pushPass h b a
  | .popPass => popPass h b

/-! ### Copying -/

/-- `history.clear()`: the records are freed. -/
def freeAll (h : Heap) (as : List Addr) : Heap := fun x => if x ∈ as then none else h x

/-- Copying the elements of a deque: the records `src` are copied to `dst`, with their pointers. `none`: a source record does
not exist. -/
def copyRecs (h : Heap) : List Addr → List Addr → Option Heap
  | s :: ss, d :: ds =>
    match h s with
    | none => none
    | some r => copyRecs (upd h d (some r)) ss ds
  | [], [] => some h
  | _, _ => none

/-- `copiedStates`: `emplace` does not replace, so the first pair counts (src/cshogi.h:480-488). -/
def remapAddr (m : List (Addr × Addr)) (a : Addr) : Option Addr := m.lookup a

/-- `remap` (src/cshogi.h:490-492): `none` is the exception of `copiedStates.at`. -/
def remapPtr (m : List (Addr × Addr)) : Option Addr → Option (Option Addr)
  | none => some none
  | some a => (remapAddr m a).map some

/-- `destination->second.previous = remap(source->second.previous)` for a list of pairs (src/cshogi.h:494-499). -/
def relink (m : List (Addr × Addr)) (h : Heap) : List (Addr × Addr) → Option Heap
  | [] => some h
  | (s, d) :: l =>
    match h s, h d with
    | some r, some t =>
      match remapPtr m r.previous with
      | none => none
      | some q => relink m (upd h d (some ⟨t.info, q⟩)) l
    | _, _ => none

/-- An entry with the address of its copy. -/
def Entry.at : Entry → Addr → Entry
  | .move m _, a => .move m a
  | .pass _, a => .pass a

/-- Copy construction (src/cshogi.h:91-93) of `other` into an object whose `startState_` is at `start`, with the elements of
the new deque at `as` (newest first): `Position::operator=` reads `*other.st_` (src/position.cpp:3322-3329), then the deque is
copied, then `relinkStateInfo` (src/cshogi.h:477-501). The loops run from the oldest element to the newest. -/
def copyTo (h : Heap) (other : HBoard) (start : Addr) (as : List Addr) : Option (Heap × HBoard) :=
  match h other.st, h other.start with
  | some r, some s =>
    -- pos(other.pos): startState_ = *st_
    let h := upd h start (some r)
    match copyRecs h (other.hist.map Entry.addr).reverse as.reverse with
    | none => none
    | some h =>
      -- pos.startState_ = other.pos.startState_
      let h := upd h start (some s)
      let pairs := (other.start, start) :: (other.hist.map Entry.addr).reverse.zip as.reverse
      match relink pairs h pairs with
      | none => none
      | some h =>
        match remapAddr pairs other.st with
        | none => none
        | some st => some (h, ⟨other.body, start, st, List.zipWith Entry.at other.hist as⟩)
  | _, _ => none

/-- Copy assignment `dst = other` of two different objects (src/cshogi.h:94-101): the old elements of `dst.history` go, the new
ones may reuse their memory. -/
def assign (h : Heap) (dst other : HBoard) (as : List Addr) : Option (Heap × HBoard) :=
  copyTo (freeAll h (dst.hist.map Entry.addr)) other dst.start as

/-- `set_position` with a text that is neither `startpos` nor `sfen` (src/cshogi.h:109-125): the history is cleared, then the
exception leaves the function; `pos.st_` is unchanged. -/
def setPositionThrow (h : Heap) (b : HBoard) : Heap × HBoard :=
  (freeAll h (b.hist.map Entry.addr), ⟨b.body, b.start, b.st, []⟩)

/-- `is_check()` (src/position.hpp:317, src/cshogi.h): reads `st_->checkersBB`. -/
def isCheck (h : Heap) (b : HBoard) : Option Bool := (h b.st).map fun r => (b.body.see r.info []).inCheck

end Mem
end Verif
