import Verif.Spec.Mate

/-!
# Variations that start with a check
-/

namespace Verif.Spec

/-- A line of legal moves from `q`, in which the attacker, who is to move if `att = true`, gives check by each of its moves. `W` holds
after each check among the first `n` plies. -/
inductive Variation (W : Pos → Prop) : Nat → Bool → Pos → List Mv → Prop
  | stop (n : Nat) (att : Bool) (q : Pos) : Variation W n att q []
  | check {n : Nat} {q : Pos} {m : Mv} {l : List Mv} (h : q.Legal m) (hc : (q.play m).InCheck q.turn.opp) (hw : 0 < n → W (q.play m))
      (hl : Variation W (n - 1) false (q.play m) l) : Variation W n true q (m :: l)
  | reply {n : Nat} {q : Pos} {m : Mv} {l : List Mv} (h : q.Legal m) (hl : Variation W (n - 1) true (q.play m) l) :
      Variation W n false q (m :: l)

end Verif.Spec
