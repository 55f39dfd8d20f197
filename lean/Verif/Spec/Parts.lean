import Verif.Spec.Game

/-!
# The numbers under which Python shows pieces (cshogi/_cshogi.pyx: BPAWN = 1 … WPROM_ROOK = 30)
-/

namespace Verif.Spec

/-- `PAWN` … `PROM_ROOK`. -/
def Kind.number : Kind → Nat
  | .pawn => 1 | .lance => 2 | .knight => 3 | .silver => 4 | .bishop => 5 | .rook => 6 | .gold => 7 | .king => 8
  | .proPawn => 9 | .proLance => 10 | .proKnight => 11 | .proSilver => 12 | .horse => 13 | .dragon => 14

/-- `NONE`, `BPAWN` … `WPROM_ROOK`. -/
def pieceNumber : Option (Color × Kind) → Nat
  | none => 0
  | some (.black, k) => k.number
  | some (.white, k) => 16 + k.number

/-- The kinds in the order of the lists of pieces in hand (`HPAWN` … `HROOK`). -/
def handKinds : List HKind := [.pawn, .lance, .knight, .silver, .gold, .bishop, .rook]

end Verif.Spec
