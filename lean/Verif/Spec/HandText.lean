import Verif.Spec.Bod
import Verif.Spec.Parts

/-!
# Pieces in hand as text

The items of the text with spaces between, before and behind them, in any order; no kind twice.
-/

namespace Verif.Spec

/-- The text tells these kinds with these numbers. -/
def TellsHand (l : List Char) (xs : List (HKind × Nat)) : Prop :=
  ((Bod.splitAt '　' l).filter fun i => decide (i ≠ [])).map Bod.item = xs.map some ∧ (xs.map (·.1)).Nodup

/-- A dictionary with the numbers of the kinds that are there, under the number of their piece type, and nothing else. -/
def HandDict (d : Nat → Option Nat) (hand : HKind → Nat) : Prop :=
  (∀ h, d h.kind.number = if hand h = 0 then none else some (hand h)) ∧ ∀ k, (∀ h : HKind, k ≠ h.kind.number) → d k = none

end Verif.Spec
