import Verif.Lemmas.Bases
import Verif.Lemmas.Blur
import Verif.Lemmas.Caps
import Verif.Lemmas.Comb
import Verif.Lemmas.Compare
import Verif.Lemmas.Cong
import Verif.Lemmas.Cut
import Verif.Lemmas.Direct
import Verif.Lemmas.Lex
import Verif.Lemmas.Local
import Verif.Lemmas.Num
import Verif.Lemmas.Operand
import Verif.Lemmas.ParseClean
import Verif.Lemmas.ParseComplete
import Verif.Lemmas.ParsePrec
import Verif.Lemmas.ParseSound
import Verif.Lemmas.ParseStable
import Verif.Lemmas.ParseTop
import Verif.Lemmas.ParseTotal
import Verif.Lemmas.Pieces
import Verif.Lemmas.PureNode
import Verif.Lemmas.Rel
import Verif.Lemmas.ReprEval
import Verif.Lemmas.ReprParse
import Verif.Lemmas.ReprScan
import Verif.Lemmas.ReprText
import Verif.Lemmas.ReprVal
import Verif.Lemmas.Respace
import Verif.Lemmas.Rgx
import Verif.Lemmas.Runs
import Verif.Lemmas.Rvals
import Verif.Lemmas.Scan
import Verif.Lemmas.ScanAll
import Verif.Lemmas.ScanMore
import Verif.Lemmas.Seq
import Verif.Lemmas.Step
import Verif.Lemmas.Types
import Verif.Lemmas.Vars
import Verif.Lemmas.Weave
import Verif.Model.Eval
import Verif.Model.Main
import Verif.Model.Ops
import Verif.Model.OpsNum
import Verif.Model.OpsSeq
import Verif.Model.Parse
import Verif.Model.Repr
import Verif.Model.Rgx
import Verif.Model.Scan
import Verif.Model.State
import Verif.Model.Str
import Verif.Model.Types
import Verif.Model.Val
import Verif.Props.Arith
import Verif.Props.Bases
import Verif.Props.Build
import Verif.Props.Compare
import Verif.Props.Control
import Verif.Props.Cut
import Verif.Props.Deque
import Verif.Props.Eval
import Verif.Props.Find
import Verif.Props.Func
import Verif.Props.Input
import Verif.Props.Items
import Verif.Props.Lambda
import Verif.Props.Main
import Verif.Props.Meta
import Verif.Props.Order
import Verif.Props.Parse
import Verif.Props.Random
import Verif.Props.Repr
import Verif.Props.Scan
import Verif.Props.Values
import Verif.Props.Vars
import Verif.Spec.Data
import Verif.Spec.Eval
import Verif.Spec.Grammar
import Verif.Spec.Loops
import Verif.Spec.Prec
import Verif.Spec.Scan
import Verif.Spec.Seq
import Verif.Spec.Toy
import Verif.Spec.Values
import Verif.Spec.Display
import Verif.Lemmas.Show
import Verif.Lemmas.ShowRel
import Verif.Lemmas.ShowParse
import Verif.Lemmas.ShowLast
import Verif.Lemmas.ShowAll
import Verif.Lemmas.ShowBlocks
import Verif.Lemmas.ShowAgain
import Verif.Props.Display
import Verif.Model.Heap
import Verif.Spec.Heap
import Verif.Lemmas.Heap
import Verif.Lemmas.HeapPath
import Verif.Lemmas.HeapStmt
import Verif.Props.Heap
import Verif.Spec.Symbols
import Verif.Props.Table
import Verif.Props.Scalars
import Verif.Props.Joining
import Verif.Props.Patterns
import Verif.Props.Tight
import Verif.Props.Maps
import Verif.Props.Effects
import Verif.Model.Double
import Verif.Spec.Floats
import Verif.Lemmas.Double
import Verif.Lemmas.Decimal
import Verif.Lemmas.FloatText
import Verif.Lemmas.FloatArith
import Verif.Props.Float
import Verif.Props.FloatOps
import Verif.Props.FloatMod
import Verif.Props.Infinite
import Verif.Lemmas.FloatCut
import Verif.Props.Chop
import Verif.Model.Rex
import Verif.Spec.RegexClass
import Verif.Spec.RefText
import Verif.Spec.Matches
import Verif.Spec.Template
import Verif.Spec.ToyRe
import Verif.Lemmas.Rex
import Verif.Lemmas.RexParse
import Verif.Lemmas.RexRefs
import Verif.Lemmas.RexFind
import Verif.Lemmas.RexSub
import Verif.Props.Regexes
import Verif.Props.Replacing
import Verif.Props.Taking
import Verif.Props.Indexing
import Verif.Props.Presets
import Verif.Props.Stripping
import Verif.Props.Splitting
import Verif.Model.Case
import Verif.Props.Case
import Verif.Props.Commands
import Verif.Props.Multiples
import Verif.Props.Analysis
import Verif.Props.Preference
import Verif.Model.Cli
import Verif.Props.CommandLine
import Verif.Spec.Calc
import Verif.Lemmas.Calc
import Verif.Props.Calc
import Verif.Spec.Written
import Verif.Lemmas.Shortest
import Verif.Lemmas.Written
import Verif.Props.Written
import Verif.Lemmas.OutFrame
import Verif.Props.Verbose
import Verif.Spec.While
import Verif.Lemmas.While
import Verif.Props.While
import Verif.Lemmas.InFrame
import Verif.Props.Unread
import Verif.Props.Pi
import Verif.Spec.Prefer
import Verif.Lemmas.RexPrefer
import Verif.Lemmas.RexPreferFind
import Verif.Props.Prefer
import Verif.Spec.Capture
import Verif.Lemmas.RexCapture
import Verif.Lemmas.RexCaptureFind
import Verif.Props.Capture
import Verif.Props.ReplaceAt
import Verif.Props.Several
import Verif.Props.Selecting
import Verif.Props.Needles
