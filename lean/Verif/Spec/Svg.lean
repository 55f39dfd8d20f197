import Verif.Spec.Rules
import Verif.Model.Svg

/-!
# Looking at a drawing of a board

A piece or a coloured square stands on the square of the board whose file is written above it and whose rank is written beside it. The
pieces in hand stand in a column: the mark of the player, two characters for "first" or "second player", then kinds of pieces, each with
its number if there are several. A turned text is read with the drawing upside down.
-/

namespace Verif.Spec.Svg
open Verif.Svg

/-- The file written in the drawing above something 20 wide with the left edge `x`. -/
def file (pic : List Item) (x : Rat) : Option Nat :=
  pic.findSome? fun
    | .text _ lx _ false [c] => if x < lx ∧ lx < x + 20 then
        [('1', 0), ('2', 1), ('3', 2), ('4', 3), ('5', 4), ('6', 5), ('7', 6), ('8', 7), ('9', 8)].lookup c else none
    | _ => none

/-- The rank written beside something 20 high with the upper edge `y`, right of the board. -/
def rank (pic : List Item) (y : Rat) : Option Nat :=
  pic.findSome? fun
    | .text _ lx ly false [c] => if lx < 210 ∧ y < ly ∧ ly < y + 20 then
        [('一', 0), ('二', 1), ('三', 2), ('四', 3), ('五', 4), ('六', 5), ('七', 6), ('八', 7), ('九', 8)].lookup c else none
    | _ => none

/-- The square at which something is drawn, as its number. -/
def place (pic : List Item) (x y : Rat) : Option Nat := (file pic x).bind fun f => (rank pic y).map fun r => 9 * f + r

/-- What a reference shows: characters, and whether they are upside down. -/
def shows (id : List Char) : Option (List Char × Bool) :=
  (defs.find? fun d => decide ('#' :: d.id = id)).map fun d => (d.chars, d.turned)

/-- What an element draws on a square: number of the square, characters, upside down or not. Something in no square, or without shape, is
`some none`. -/
def piece (pic : List Item) : Item → Option (Option (Nat × List Char × Bool))
  | .ref id x y => some ((place pic x y).bind fun s => (shows id).map fun d => (s, d))
  | _ => none

/-- What is drawn on the squares. -/
def pieces (pic : List Item) : List (Option (Nat × List Char × Bool)) := pic.filterMap (piece pic)

/-- The square an element colours. -/
def mark (pic : List Item) : Item → Option (Option Nat × List Char)
  | .rect x y f => some (place pic x y, f)
  | _ => none

/-- The coloured squares. -/
def marked (pic : List Item) : List (Option Nat × List Char) := pic.filterMap (mark pic)

/-- The names of the pieces. -/
def name : Kind → List Char
  | .pawn => ['歩'] | .lance => ['香'] | .knight => ['桂'] | .silver => ['銀'] | .gold => ['金'] | .bishop => ['角'] | .rook => ['飛'] | .king => ['王']
  | .proPawn => ['と'] | .proLance => ['成', '香'] | .proKnight => ['成', '桂'] | .proSilver => ['成', '銀'] | .horse => ['馬'] | .dragon => ['龍']

/-- The kind a character in a column stands for. -/
def kindOf (c : Char) : Option HKind :=
  [('歩', HKind.pawn), ('香', .lance), ('桂', .knight), ('銀', .silver), ('金', .gold), ('角', .bishop), ('飛', .rook)].lookup c

/-- The value of a digit. -/
def digit (c : Char) : Option Nat :=
  [('一', 1), ('二', 2), ('三', 3), ('四', 4), ('五', 5), ('六', 6), ('七', 7), ('八', 8), ('九', 9), ('十', 10)].lookup c

/-- A kind without a number counts once. -/
def once : Option (HKind × Nat) → List (HKind × Nat)
  | none => []
  | some (h, n) => [(h, if n = 0 then 1 else n)]

/-- A digit belongs to the kind above it. -/
def added : Option (HKind × Nat) → Option Nat → Option (HKind × Nat)
  | some (h, n), some d => some (h, n + d)
  | _, _ => none

/-- Reading the kinds from the top: a kind ends the number of the kind before, digits are added. -/
def counts : Option (HKind × Nat) → List Char → Option (List (HKind × Nat))
  | cur, [] => some (once cur)
  | cur, c :: l => match kindOf c with
    | some h => (counts (some (h, 0)) l).map (once cur ++ ·)
    | none => (added cur (digit c)).bind fun x => counts (some x) l

/-- Reading a column. -/
def column : List Char → Option (Color × List (HKind × Nat))
  | '☗' :: '先' :: '手' :: l => (counts none l).map fun r => (.black, r)
  | '☖' :: '後' :: '手' :: l => (counts none l).map fun r => (.white, r)
  | _ => none

/-- A text beside the board: left of it (`false`) or right of it, upright or turned, seen on the page. -/
def beside (right turned : Bool) : Item → Bool
  | .text _ x _ t _ => (t == turned) && (if right then decide (210 ≤ (if t then -x else x)) else decide ((if t then -x else x) ≤ 20))
  | _ => false

/-- The characters of a text. -/
def charsOf : Item → List Char
  | .text _ _ _ _ l => l
  | _ => []

/-- Above another text, as the reader of these texts sees it. -/
def above : Item → Item → Prop
  | .text _ _ y _ _, .text size _ y' _ _ => y ≤ y' - size
  | _, _ => False

/-- A text of one character, taken as a square above its base line, lies on the page and beside the board (columns 20 to 201). -/
def fits : Item → Prop
  | .text size x y false l => l.length = 1 ∧ 0 < size ∧ 201 ≤ x ∧ x + size ≤ 230 ∧ 0 ≤ y - size ∧ y ≤ 192
  | .text size x y true l => l.length = 1 ∧ 0 < size ∧ 0 ≤ -(x + size) ∧ -x ≤ 20 ∧ 0 ≤ -y ∧ -(y - size) ≤ 192
  | _ => False

end Verif.Spec.Svg
