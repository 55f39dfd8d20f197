import Verif.Model.Types

/-!
# Specification: board geometry and piece movement

Independent of the code: squares have a file and a rank as integers, a piece kind is a list of single steps and a
list of sliding directions, written for Black (who moves towards smaller ranks); White's are the same turned by 180
degrees. A slide reaches `k` steps away when none of the squares passed over is occupied.
-/

namespace Verif.Spec

/-- File of a square, 0 for file 1 .. 8 for file 9. -/
def X (s : Square) : Int := s.val / 9
/-- Rank of a square, 0 for rank a .. 8 for rank i. -/
def Y (s : Square) : Int := s.val % 9

/-- A displacement: (files, ranks). -/
abbrev Dir := Int × Int

/-- `t` lies `k` steps of `d` away from `s`. -/
def At (s : Square) (d : Dir) (k : Nat) (t : Square) : Prop := X t = X s + k * d.1 ∧ Y t = Y s + k * d.2

instance (s : Square) (d : Dir) (k : Nat) (t : Square) : Decidable (At s d k t) := inferInstanceAs (Decidable (_ ∧ _))

/-- Sliding from `s` in direction `d` over unoccupied squares one arrives at `t` (which itself may be occupied). -/
def Reach (occ : Square → Bool) (s : Square) (d : Dir) (t : Square) : Prop :=
  ∃ k : Nat, 1 ≤ k ∧ At s d k t ∧ ∀ j : Nat, 1 ≤ j → j < k → ∀ u, At s d j u → occ u = false

/-- The fourteen kinds of pieces. -/
inductive Kind where
  | pawn | lance | knight | silver | bishop | rook | gold | king
  | proPawn | proLance | proKnight | proSilver | horse | dragon
  deriving DecidableEq, Repr, Inhabited

/-- The four orthogonal neighbours. -/
def orth : List Dir := [(0, -1), (0, 1), (-1, 0), (1, 0)]
/-- The four diagonal neighbours. -/
def diag : List Dir := [(-1, -1), (1, -1), (-1, 1), (1, 1)]

namespace Kind
/-- Gold general's steps for Black. -/
def goldSteps : List Dir := [(-1, -1), (0, -1), (1, -1), (-1, 0), (1, 0), (0, 1)]

/-- Single steps of a kind, for Black. -/
def steps : Kind → List Dir
  | pawn => [(0, -1)]
  | lance => []
  | knight => [(-1, -2), (1, -2)]
  | silver => [(-1, -1), (0, -1), (1, -1), (-1, 1), (1, 1)]
  | bishop => []
  | rook => []
  | gold => goldSteps
  | king => orth ++ diag
  | proPawn => goldSteps
  | proLance => goldSteps
  | proKnight => goldSteps
  | proSilver => goldSteps
  | horse => orth
  | dragon => diag

/-- Sliding directions of a kind, for Black. -/
def slides : Kind → List Dir
  | lance => [(0, -1)]
  | bishop => diag
  | rook => orth
  | horse => diag
  | dragon => orth
  | _ => []
end Kind

/-- Turn a direction to the player's point of view. -/
def orient : Color → Dir → Dir
  | .black, d => d
  | .white, d => (-d.1, -d.2)

/-- A piece of colour `c` and kind `k` on `s` attacks `t` when the squares of `occ` are occupied. -/
def Attacks (c : Color) (k : Kind) (occ : Square → Bool) (s t : Square) : Prop :=
  (∃ d ∈ k.steps, At s (orient c d) 1 t) ∨ (∃ d ∈ k.slides, Reach occ s (orient c d) t)

/-- `u` lies strictly between `s` and `t` on a common file, rank or diagonal. -/
def Between (s u t : Square) : Prop :=
  ∃ d ∈ orth ++ diag, ∃ j k : Nat, 1 ≤ j ∧ j < k ∧ At s d j u ∧ At s d k t

/-- Two different squares on a common file, rank or diagonal. -/
def Aligned2 (s t : Square) : Prop := ∃ d ∈ orth ++ diag, ∃ k : Nat, 1 ≤ k ∧ At s d k t

end Verif.Spec
