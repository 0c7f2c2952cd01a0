import Verif.Link.Props
import Verif.Link.Strings
import Verif.Link.StringsProps
import Verif.Link.StringsLinks
import Verif.Types.Props
import Verif.Types.RefineProps
import Verif.Value
import Verif.Lifetime.Props
import Verif.Builtin.OpsProps
import Verif.Builtin.CloneProps
import Verif.Builtin.StackProps
import Verif.Builtin.VecProps
import Verif.Eval.Mono
import Verif.Eval.Wp
import Verif.Eval.ChanProps
import Verif.Eval.LinkLoopProps
import Verif.Eval.CallProps
import Verif.Eval.GoProps
import Verif.Thread.JoinProps
import Verif.Host.EmbedProps
import Verif.Data.RoundTrip
import Verif.Data.Grammar
import Verif.Text.FmtProps
import Verif.Text.FmtComments
import Verif.Text.MetaJsonProps
import Verif.Module.Names
import Verif.Module.Lookup
import Verif.Module.Import
import Verif.Module.Imported
import Verif.Module.Listing
import Verif.Module.Describe
import Verif.Module.Make
import Verif.Module.MakeProps
import Verif.Module.CheckFn
import Verif.Module.CheckFnProps
import Verif.Module.LoadFn
import Verif.Module.LoadFnProps
import Verif.Eval.Fold
import Verif.Eval.PlaceLemmas
import Verif.Eval.PlaceProps
import Verif.Syntax.ChainProps
import Verif.Syntax.UnloopEval
import Verif.Syntax.InferProps
import Verif.Syntax.Print
import Verif.Syntax.Parse
import Verif.Syntax.PrintLemmas
import Verif.Syntax.PrintRead
import Verif.Syntax.PrintProps
import Verif.Syntax.PrintStmtProps
import Verif.Eval.Grows
import Verif.Eval.ClosureLemmas
import Verif.Eval.ClosureProps
import Verif.Eval.Slots
import Verif.Eval.SlotsRel
import Verif.Eval.SlotsEval
import Verif.Eval.SlotsGrab
import Verif.Eval.SlotsAll
import Verif.Eval.Resolve
import Verif.Eval.ResolveLemmas
import Verif.Eval.ResolveAll
import Verif.Eval.ResolveProps
import Verif.Eval.AssignProps
import Verif.Check.Node
import Verif.Check.Resolve
import Verif.Check.Demo
import Verif.Check.ResolveProps
import Verif.Check.Mutable
import Verif.Check.MutableProps
import Verif.Check.Calls
import Verif.Check.Lifetime
import Verif.Check.LifetimeLemmas
import Verif.Check.LifetimeProps
import Verif.Check.CallsProps
import Verif.Check.Types
import Verif.Check.TypesLemmas
import Verif.Check.TypesProps
import Verif.Check.TypesLocal
import Verif.Check.TypesDemo
import Verif.Check.RefineProps
import Verif.Check.RefineDemo
import Verif.Check.Operands
import Verif.Check.OperandsProps
import Verif.Check.InProps
import Verif.Front.Tree
import Verif.Front.Convert
import Verif.Front.Source
import Verif.Front.ConvertLemmas
import Verif.Front.ConvertProps
import Verif.Front.Link
import Verif.Front.Head
import Verif.Front.Load
import Verif.Front.LoadProps
import Verif.Front.Plain
import Verif.Front.PlainShape
import Verif.Front.PlainDecl
import Verif.Front.PlainNumber
import Verif.Front.PlainScope
import Verif.Front.PlainRun
import Verif.Front.Program
import Verif.Front.RunProps
import Verif.Check.Build
import Verif.Check.Text
import Verif.Check.Scope
import Verif.Check.TextLemmas
import Verif.Check.Layout
import Verif.Check.LayoutOrder
import Verif.Check.TextProps
import Verif.Check.EndRun
import Verif.Check.EndValue
import Verif.Check.EndConst
import Verif.Check.EndTree
import Verif.Check.EndLemmas
import Verif.Check.EndLinked
import Verif.Check.EndText
import Verif.Check.EndBuild
import Verif.Check.EndProps
import Verif.Eval.DynCall
import Verif.Eval.DynProps
import Verif.Builtin.Text
import Verif.Builtin.TextProps
import Verif.Builtin.Sigs
import Verif.Builtin.SigsProps
import Verif.Builtin.SigsLibProps
import Verif.Host.Call
import Verif.Host.CallHostProps
import Verif.Host.Macros
import Verif.Host.MacrosProps
import Verif.Eval.Local
import Verif.Eval.LocalCalm
import Verif.Eval.LocalEval
import Verif.Eval.LocalGrab
import Verif.Eval.LocalAll
import Verif.Eval.LocalLib
import Verif.Eval.LocalResolve
import Verif.Eval.LocalProps
import Verif.Eval.BlindProps
import Verif.Eval.ArgsProps
import Verif.Check.RangesProps
import Verif.Check.Suggest
import Verif.Check.SuggestProps
import Verif.Sound.Typing
import Verif.Sound.Run
import Verif.Sound.Lines
import Verif.Sound.Collect
import Verif.Sound.Good
import Verif.Sound.Resolved
import Verif.Sound.Findings
import Verif.Sound.Unchecked
import Verif.Sound.Props
import Verif.Sound.Checked
import Verif.Sound.Operators
import Verif.Sound.Small
import Verif.Sound.SmallBuild
import Verif.Sound.SmallNodes
import Verif.Sound.SmallVars
import Verif.Sound.SmallTypes
import Verif.Sound.SmallRun
import Verif.Sound.SmallProps
import Verif.File.Model
import Verif.File.Lemmas
import Verif.File.Props
import Verif.File.Web
import Verif.File.WebProps
import Verif.File.Syntax
import Verif.File.SyntaxProps
import Verif.File.Args
import Verif.File.ArgsProps
import Verif.Builtin.Sleep
import Verif.Builtin.SleepProps
import Verif.Builtin.Now
import Verif.Builtin.NowProps
import Verif.Module.ListFn
import Verif.Module.ListFnProps
import Verif.Draw.Model
import Verif.Draw.Lemmas
import Verif.Draw.Props
import Verif.Draw.Pixels
import Verif.Draw.PixelProps
import Verif.Draw.Moves
import Verif.Color.Float
import Verif.Color.Model
import Verif.Color.Props
import Verif.Color.Demo
import Verif.Color.Srgb
import Verif.Color.SrgbProps
import Verif.Channel.Model
import Verif.Channel.Spec
import Verif.Channel.Lemmas
import Verif.Channel.Progress
import Verif.Channel.Props
import Verif.Channel.Demo
import Verif.Console.Model
import Verif.Console.Props
