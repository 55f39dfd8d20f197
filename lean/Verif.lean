import Verif.Props.Moves
import Verif.Props.Hands
import Verif.Props.Bitboards
import Verif.Props.Attacks
import Verif.Props.Views
import Verif.Props.Checks
import Verif.Props.Legal
import Verif.Props.Hcp
import Verif.Props.Sfen
import Verif.Props.Repetition
import Verif.Props.MoveText
import Verif.Props.Label
import Verif.Props.Features
import Verif.Props.Rotate
import Verif.Props.Copy
import Verif.Props.Csa
import Verif.Props.Capacity
import Verif.Model.Mate1
import Verif.Model.CheckGen
import Verif.Lemmas.Mated
import Verif.Lemmas.MateContact
import Verif.Lemmas.MateNear
import Verif.Lemmas.MateLines
import Verif.Lemmas.MateFar
import Verif.Lemmas.MateFarFind
import Verif.Lemmas.MateFarMove
import Verif.Lemmas.MateDouble
import Verif.Lemmas.MateDisc
import Verif.Props.Mate
import Verif.Lemmas.MateTests
import Verif.Lemmas.MateFound
import Verif.Lemmas.MateGroups
import Verif.Lemmas.MateSteps
import Verif.Lemmas.MateRuns
import Verif.Props.MateComplete
import Verif.Lemmas.CheckGen
import Verif.Lemmas.CheckMoves
import Verif.Props.MateSearch
import Verif.Lemmas.Through
import Verif.Lemmas.CheckAll
import Verif.Lemmas.CheckAllLines
import Verif.Lemmas.CheckAllGen
import Verif.Lemmas.MateKeen
import Verif.Lemmas.MateFind
import Verif.Props.MateFind
import Verif.Model.Dfpn
import Verif.Spec.Variation
import Verif.Lemmas.HandDom
import Verif.Lemmas.HandOps
import Verif.Lemmas.DfpnTable
import Verif.Lemmas.DfpnBase
import Verif.Lemmas.DfpnMate
import Verif.Lemmas.DfpnScan
import Verif.Lemmas.DfpnSearch
import Verif.Lemmas.DfpnLine
import Verif.Lemmas.DfpnSame
import Verif.Lemmas.DfpnPv
import Verif.Lemmas.DfpnClean
import Verif.Props.Dfpn
import Verif.Props.DfpnCases
import Verif.Model.Planes
import Verif.Spec.Planes
import Verif.Props.Planes
import Verif.Model.Kif
import Verif.Spec.Kif
import Verif.Lemmas.Kif
import Verif.Lemmas.KifGame
import Verif.Lemmas.KifMoves
import Verif.Props.Kif
import Verif.Model.Ki2
import Verif.Spec.Ki2
import Verif.Lemmas.Ki2
import Verif.Lemmas.Ki2Text
import Verif.Lemmas.Ki2Moves
import Verif.Lemmas.Ki2Game
import Verif.Props.Ki2
import Verif.Model.Pgn
import Verif.Spec.Pgn
import Verif.Props.Pgn
import Verif.Model.Query
import Verif.Lemmas.Query
import Verif.Spec.Parts
import Verif.Spec.Line
import Verif.Props.Parts
import Verif.Props.IsOk
import Verif.Props.PositionText
import Verif.Spec.Match
import Verif.Model.Env
import Verif.Model.Match
import Verif.Lemmas.Match
import Verif.Lemmas.MatchRun
import Verif.Props.Env
import Verif.Props.Match
import Verif.Props.MatchCases
import Verif.Props.MatchUsual
import Verif.Props.MatchRecord
import Verif.Props.Tally
import Verif.Props.PseudoLegal
import Verif.Props.IsLegalAny
import Verif.Spec.Usi
import Verif.Model.Usi
import Verif.Lemmas.Usi
import Verif.Props.UsiCommands
import Verif.Props.UsiInfo
import Verif.Props.UsiComment
import Verif.Props.CsaFile
import Verif.Props.CsaServer
import Verif.Props.Bod
import Verif.Props.Svg
import Verif.Props.VecEnv
import Verif.Model.Elo
import Verif.Spec.Elo
import Verif.Lemmas.Elo
import Verif.Props.Elo
import Verif.Model.MoveIter
import Verif.Props.MoveIter
import Verif.Model.MultiPv
import Verif.Props.MultiPv
import Verif.Model.Web
import Verif.Spec.Web
import Verif.Lemmas.Web
import Verif.Props.Web
import Verif.Model.Replay
import Verif.Spec.Replay
import Verif.Lemmas.Replay
import Verif.Props.Replay
import Verif.Model.History
import Verif.Spec.History
import Verif.Props.History
import Verif.Model.Push
import Verif.Spec.Push
import Verif.Props.Push
import Verif.Model.UsiSession
import Verif.Spec.UsiSession
import Verif.Props.UsiSession
import Verif.Model.KifInfo
import Verif.Spec.KifRemark
import Verif.Props.KifRemark
import Verif.Model.Opening
import Verif.Spec.Opening
import Verif.Props.Opening
import Verif.Model.PgnFile
import Verif.Spec.PgnFile
import Verif.Props.PgnFile
import Verif.Model.Human
import Verif.Spec.Human
import Verif.Props.Human
import Verif.Model.League
import Verif.Spec.League
import Verif.Props.League
import Verif.Model.MatchCsa
import Verif.Spec.MatchCsa
import Verif.Lemmas.MatchCsa
import Verif.Lemmas.MatchCsaRecord
import Verif.Props.MatchCsa
import Verif.Model.WebCsa
import Verif.Spec.WebCsa
import Verif.Lemmas.WebCsa
import Verif.Props.WebCsa
import Verif.Model.Duel
import Verif.Spec.Duel
import Verif.Lemmas.Duel
import Verif.Props.Duel
import Verif.Model.Ponder
import Verif.Spec.Ponder
import Verif.Lemmas.Ponder
import Verif.Props.Ponder
import Verif.Model.Series
import Verif.Spec.Series
import Verif.Lemmas.Series
import Verif.Props.Series
import Verif.Props.SeriesRules
import Verif.Model.HandText
import Verif.Spec.HandText
import Verif.Props.HandText
import Verif.Model.Names
import Verif.Spec.Names
import Verif.Props.Names
import Verif.Model.Print
import Verif.Spec.Print
import Verif.Props.Print
import Verif.Model.Switch
import Verif.Props.Switch
