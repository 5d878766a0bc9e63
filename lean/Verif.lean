import Verif.Prelude
import Verif.Backgammon.Model
import Verif.Backgammon.Encoding
import Verif.Backgammon.Spec
import Verif.Backgammon.Basic
import Verif.Backgammon.Step
import Verif.Backgammon.Gen
import Verif.Backgammon.Plays
import Verif.Backgammon.History
import Verif.Backgammon.Facts
import Verif.Backgammon.Facts2
import Verif.Props.Rules
import Verif.Props.Codes
import Verif.Tensor
import Verif.Backgammon.Tensor
import Verif.Props.TensorBG
import Verif.Props.NoPanic
import Verif.Props.Symmetry
import Verif.TicTacToe.Model
import Verif.Props.TicTacToe
import Verif.Props.TicTacToeInput
import Verif.Game
import Verif.Mcts.Model
import Verif.Mcts.Spec
import Verif.Mcts.Facts
import Verif.Mcts.Search
import Verif.Props.Mcts
import Verif.Mcts.Alpha
import Verif.Mcts.AlphaFacts
import Verif.Mcts.Batch
import Verif.Mcts.BatchSafe
import Verif.Mcts.BatchVisits
import Verif.Mcts.Probs
import Verif.Mcts.ProbsFacts
import Verif.Mcts.PriorFacts
import Verif.Props.Alpha
import Verif.Train.SelfPlay
import Verif.Train.Spec
import Verif.Train.SelfPlayFacts
import Verif.Train.SelfPlayLoop
import Verif.Props.SelfPlay
import Verif.TensorFacts
import Verif.Train.Data
import Verif.Train.DataSpec
import Verif.Train.DataFacts
import Verif.Props.Data
import Verif.Versus.Model
import Verif.Versus.Spec
import Verif.Versus.Facts
import Verif.Versus.Players
import Verif.Versus.Progress
import Verif.Versus.Endless
import Verif.Versus.Games
import Verif.Versus.Stuck
import Verif.Props.Versus
import Verif.Net.Model
import Verif.Net.Vars
import Verif.Net.Layers
import Verif.Config
import Verif.Props.Net
import Verif.Props.NetReal
import Verif.Props.Config
import Verif.Text.Json
import Verif.Text.JsonFacts
import Verif.Text.JsonPrefix
import Verif.Versus.Saved
import Verif.Versus.SavedFacts
import Verif.Props.Saved
import Verif.Props.IsValid
import Verif.Backgammon.Script
import Verif.Props.InPlay
import Verif.Mcts.Values
import Verif.Mcts.Select
import Verif.Mcts.Win
import Verif.Props.Values
import Verif.Props.Single
import Verif.Props.Win
import Verif.Props.Underflow
import Verif.Train.Loss
import Verif.Props.Loss
import Verif.Train.Learn
import Verif.Train.LearnSpec
import Verif.Props.Learn
import Verif.Text.Pretty
import Verif.Text.PrettySpec
import Verif.Props.Pretty
import Verif.Train.NextMove
import Verif.Props.NextMove
import Verif.Cli.Model
import Verif.Cli.Spec
import Verif.Props.Cli
import Verif.Backgammon.Alive
import Verif.Versus.Sure
import Verif.Versus.Thrift
import Verif.Luck
import Verif.Props.Sure
import Verif.Train.Tail
import Verif.Props.LearnSure
import Verif.Props.Exact
import Verif.Props.SymmetryExact
import Verif.Mcts.Draw
import Verif.Props.Draw
import Verif.Props.Explore
import Verif.Fp.Round
import Verif.Fp.Num
import Verif.Props.Single32
import Verif.Text.Float
import Verif.Versus.Report
import Verif.Versus.ReportSpec
import Verif.Props.Report
import Verif.App.Main
import Verif.App.Spec
import Verif.Props.App
import Verif.Mcts.BatchKept
import Verif.Props.Puct
import Verif.Props.Puct32
import Verif.Mcts.Path
import Verif.Props.Calc
import Verif.Props.CalcScore
import Verif.Props.Blunder
import Verif.Props.Ieee
import Verif.Text.FloatSpec
import Verif.Text.FloatFacts
import Verif.Props.Shortest
import Verif.Mcts.Line
import Verif.Mcts.Free
import Verif.Props.FrozenRace
import Verif.Props.FrozenDice
import Verif.Props.Frozen
import Verif.Fp.Draw
import Verif.Props.Draw64Facts
import Verif.Props.Draw64
import Verif.Train.Adam
import Verif.Props.Adam
import Verif.Props.Trained
import Verif.Props.TrainedRun
import Verif.Mcts.Copy
import Verif.Mcts.CopyBatch
import Verif.Mcts.CopyRun
import Verif.Props.Apart
import Verif.Props.ApartDice
import Verif.Mcts.RootPriors
import Verif.Props.Noise
import Verif.Net.Textbook
import Verif.Props.NetSpec
import Verif.Prob
import Verif.Props.Rollout
import Verif.Mcts.BatchWon
import Verif.Props.Grab
import Verif.Props.GrabLost
import Verif.Mcts.Print
import Verif.Text.TreeSpec
import Verif.Props.Print
import Verif.Props.PrintActions
import Verif.Props.PrintSearch
import Verif.Net.BookLoss
import Verif.Props.Smooth
import Verif.Props.Descent
import Verif.Props.DescentNet
import Verif.Props.DescentEx
import Verif.Props.Doubles
import Verif.Versus.Tail
import Verif.Props.Tail
import Verif.Schedule
import Verif.Versus.Short
import Verif.Props.Parallel
import Verif.Props.TailExact
import Verif.Train.Disk
import Verif.Props.Disk
import Verif.Joint
import Verif.Versus.Solo
import Verif.Props.Independent
import Verif.TicTacToe.Count
import Verif.Props.Chances
import Verif.Mcts.Room
import Verif.Props.Memory
import Verif.Rand
import Verif.Props.Fair
import Verif.Mcts.Twin
import Verif.Props.Equal
import Verif.Props.Copies
import Verif.Mcts.Even
import Verif.Props.First
import Verif.Train.Output
import Verif.Train.OutputSpec
import Verif.Props.Output
import Verif.Props.RunId
import Verif.Props.Close
import Verif.App.ReplaySpec
import Verif.Props.Replay
import Verif.App.Session
import Verif.App.SessionSpec
import Verif.Props.Session
import Verif.Props.Decay
import Verif.Fp.Shares
import Verif.Props.Shares32
import Verif.Props.Noise32
import Verif.Fp.Softmax
import Verif.Mcts.LastChild
import Verif.Props.Softmax32
import Verif.Props.VisitRows
import Verif.Props.Played
import Verif.Coupling
import Verif.Mcts.CopyLaw
import Verif.Props.ApartLaw
import Verif.Props.Length
import Verif.Props.Labels
import Verif.Props.Openings
import Verif.Props.LabelsTtt
import Verif.Props.Amount
import Verif.Props.AmountTrain
import Verif.Props.Resave
import Verif.Tests.Repo
