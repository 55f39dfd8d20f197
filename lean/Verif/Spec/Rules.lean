import Verif.Spec.Geometry

/-!
# Specification: positions and the rules of shogi

A position is a board of optional pieces, a count of every kind of captured piece for each player, and the side to
move. Nothing here mentions bitboards, piece codes, packed words or keys.
-/

namespace Verif.Spec

/-- Kinds of pieces that can be held in hand. -/
inductive HKind where
  | pawn | lance | knight | silver | gold | bishop | rook
  deriving DecidableEq, Repr, Inhabited

/-- The piece put on the board by a drop. -/
def HKind.kind : HKind → Kind
  | pawn => .pawn | lance => .lance | knight => .knight | silver => .silver | gold => .gold
  | bishop => .bishop | rook => .rook

/-- What a captured piece becomes in the captor's hand (a king is never captured). -/
def Kind.hand : Kind → Option HKind
  | .pawn => some .pawn | .lance => some .lance | .knight => some .knight | .silver => some .silver
  | .bishop => some .bishop | .rook => some .rook | .gold => some .gold | .king => none
  | .proPawn => some .pawn | .proLance => some .lance | .proKnight => some .knight | .proSilver => some .silver
  | .horse => some .bishop | .dragon => some .rook

/-- Promotion. -/
def Kind.promoted : Kind → Option Kind
  | .pawn => some .proPawn | .lance => some .proLance | .knight => some .proKnight | .silver => some .proSilver
  | .bishop => some .horse | .rook => some .dragon
  | _ => none

/-- A position. -/
structure Pos where
  board : Square → Option (Color × Kind)
  hand : Color → HKind → Nat
  turn : Color

/-- A move: a piece on the board moves, possibly promoting, or a piece is dropped from hand. -/
inductive Mv where
  | move (src dst : Square) (promote : Bool)
  | drop (k : HKind) (dst : Square)
  deriving DecidableEq

/-- Rank counted from the far side of the board for a player: 0 is the last rank. -/
def farRank (c : Color) (s : Square) : Int :=
  match c with
  | .black => Y s
  | .white => 8 - Y s

/-- The promotion zone: the three ranks furthest from the player. -/
def zone (c : Color) (s : Square) : Prop := farRank c s ≤ 2

instance (c : Color) (s : Square) : Decidable (zone c s) := inferInstanceAs (Decidable (_ ≤ _))

/-- A piece that could never move again from `s`. -/
def Dead (c : Color) (k : Kind) (s : Square) : Prop :=
  match k with
  | .pawn => farRank c s = 0
  | .lance => farRank c s = 0
  | .knight => farRank c s ≤ 1
  | _ => False

instance (c : Color) (k : Kind) (s : Square) : Decidable (Dead c k s) := by cases k <;> unfold Dead <;> infer_instance

namespace Pos

/-- Occupied squares. -/
def occ (q : Pos) (s : Square) : Bool := (q.board s).isSome

/-- Some piece of colour `c` on `s` attacks `t`. -/
def AttacksSq (q : Pos) (c : Color) (s t : Square) : Prop := ∃ k, q.board s = some (c, k) ∧ Attacks c k q.occ s t

/-- `t` is attacked by a piece of colour `c`. -/
def Attacked (q : Pos) (c : Color) (t : Square) : Prop := ∃ s, q.AttacksSq c s t

/-- The king of colour `c` stands on an attacked square. -/
def InCheck (q : Pos) (c : Color) : Prop := ∃ s, q.board s = some (c, .king) ∧ q.Attacked c.opp s

/-- Overwrite one square. -/
def set (b : Square → Option (Color × Kind)) (s : Square) (v : Option (Color × Kind)) : Square → Option (Color × Kind) :=
  fun t => if t = s then v else b t

/-- The kind of piece that stands on the destination after a board move. -/
def arriving (k : Kind) (promote : Bool) : Kind := if promote then k.promoted.getD k else k

/-- Play a move. Meaningful for moves satisfying `Pseudo`; anything else leaves the board unchanged except the turn. -/
def play (q : Pos) : Mv → Pos
  | .move s t promote =>
    match q.board s with
    | none => { q with turn := q.turn.opp }
    | some (c, k) =>
      { board := set (set q.board s none) t (some (c, arriving k promote))
        hand := fun c' h =>
          if c' = q.turn ∧ (∃ k', (q.board t).map Prod.snd = some k' ∧ k'.hand = some h) then q.hand c' h + 1
          else q.hand c' h
        turn := q.turn.opp }
  | .drop h t =>
    { board := set q.board t (some (q.turn, h.kind))
      hand := fun c' h' => if c' = q.turn ∧ h' = h then q.hand c' h' - 1 else q.hand c' h'
      turn := q.turn.opp }

/-- Movement, promotion, dropping and two-pawns rules, without regard to checks. -/
def Pseudo (q : Pos) : Mv → Prop
  | .move s t promote => ∃ k, q.board s = some (q.turn, k) ∧ Attacks q.turn k q.occ s t ∧
      (∀ k', q.board t ≠ some (q.turn, k')) ∧
      (promote = true → k.promoted.isSome = true ∧ (zone q.turn s ∨ zone q.turn t)) ∧
      (promote = false → ¬ Dead q.turn k t)
  | .drop h t => 1 ≤ q.hand q.turn h ∧ q.board t = none ∧ ¬ Dead q.turn h.kind t ∧
      (h = .pawn → ∀ u, X u = X t → q.board u ≠ some (q.turn, .pawn))

/-- A pseudo-legal move after which the mover's king is not attacked. -/
def Safe (q : Pos) (m : Mv) : Prop := q.Pseudo m ∧ ¬ (q.play m).InCheck q.turn

/-- The side to move is in check and has no way out. -/
def Mated (q : Pos) : Prop := q.InCheck q.turn ∧ ∀ m, ¬ q.Safe m

/-- Giving mate by dropping a pawn. (A pawn gives check from the adjacent square, so no drop can answer it; it makes
no difference whether replies by pawn drops are themselves restricted.) -/
def PawnDropMate (q : Pos) (m : Mv) : Prop := ∃ t, m = .drop .pawn t ∧ (q.play m).Mated

/-- The rules, except repetition. -/
def Legal (q : Pos) (m : Mv) : Prop := q.Safe m ∧ ¬ q.PawnDropMate m

end Pos
end Verif.Spec
