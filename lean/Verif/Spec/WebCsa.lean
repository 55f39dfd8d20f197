import Verif.Spec.Replay
import Verif.Spec.MatchCsa

/-!
# What the page says about a game, and what it says when the record is opened again
-/

namespace Verif.Spec.Web

/-- The result, from the side to move and the name of the end in CSA records. -/
def endResult (x : Color × String) : Option Result :=
  [("%TORYO", Result.wins x.1.opp), ("%TIME_UP", .wins x.1.opp), ("%ILLEGAL_MOVE", .wins x.1.opp), ("%KACHI", .wins x.1), ("%SENNICHITE", .draw),
    ("%JISHOGI", .draw)].lookup x.2

end Verif.Spec.Web
