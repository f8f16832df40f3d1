import Verif.Props.Expr
import Verif.Props.Numbers
import Verif.Props.Compile
import Verif.Props.Model
import Verif.Props.Solver
import Verif.Props.Limits
import Verif.Props.Reuse
import Verif.Props.Optimize
import Verif.Props.Graph
import Verif.Props.Queens
import Verif.Props.Sudoku
import Verif.Props.OptimizeRaise
import Verif.Props.Knapsack
import Verif.Props.Nonogram
import Verif.Props.Einstein
import Verif.Props.Image
import Verif.Props.Map
import Verif.Props.Cryptarithm
import Verif.Props.Order
import Verif.Props.Demo
import Verif.Props.Repeat
import Verif.Props.Shared
import Verif.Props.Prune
import Verif.Props.Timely
import Verif.Props.Pareto
import Verif.Props.Source
import Verif.Props.Boards
import Verif.Props.Transcript
import Verif.Props.Settings
import Verif.Props.Forbidden
import Verif.Props.Session
import Verif.Props.Report
import Verif.Props.Transcripts
import Verif.Props.Cli
import Verif.Props.Listing
import Verif.Props.Domains
import Verif.Props.Optimizing
import Verif.Props.Best
import Verif.Props.Objects
import Verif.Props.Syntax
import Verif.Props.Timer
import Verif.Props.Repr
import Verif.Props.ReprText
import Verif.Props.Calls
import Verif.Props.Singleton
import Verif.CommandLine
import Verif.Program
import Verif.Props.CommandLine
import Verif.Props.Program
import Verif.Props.Programs
import Verif.Props.JsonText
import Verif.Props.JsonRead
import Verif.Props.Defaults
import Verif.Props.DefaultPuzzles
import Verif.Props.DefaultSudoku
import Verif.Props.DefaultMap
import Verif.Attributes
import Verif.Props.Attributes
import Verif.Props.Trivial
import Verif.SpecRelation
import Verif.Props.Relation
import Verif.Props.RelationProgram
import Verif.SpecCondition
import Verif.Props.Condition
import Verif.Props.ConditionProgram
import Verif.SpecSyntax
import Verif.Lemmas.Syntax
import Verif.Props.BrokenText
import Verif.Props.Compiled
