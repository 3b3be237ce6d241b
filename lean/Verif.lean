import Verif.Props.Reduce
import Verif.Props.Offset
import Verif.Props.Trim
import Verif.Props.White
import Verif.Props.Eol
import Verif.Props.Env
import Verif.Props.Shell
import Verif.Props.OutputName
import Verif.Props.Codec
import Verif.Props.Parse
import Verif.Props.Quote
import Verif.Props.Number
import Verif.Props.Header
import Verif.Props.Eval
import Verif.Props.Scope
import Verif.Props.Subst
import Verif.Props.Trace
import Verif.Props.Free
import Verif.Props.Builtin
import Verif.Props.Arith
import Verif.Props.Apply
import Verif.Props.Beta
import Verif.Props.Emit
import Verif.Props.Feature
import Verif.Props.Syntax
import Verif.Props.Mixed
import Verif.Props.Origin
import Verif.Props.Traceback
import Verif.Props.Editor
import Verif.Props.EditorName
import Verif.Props.Call
import Verif.Props.Indent
import Verif.Props.Config
import Verif.Props.Constant
import Verif.Props.Library
import Verif.Props.OutputFile
import Verif.Props.Message
import Verif.Props.Readable
import Verif.Props.Texts
import Verif.Props.Stdlib
import Verif.Props.StdlibText
import Verif.Props.PyString
import Verif.Props.Generate
import Verif.Props.Magic
import Verif.Spec.Command
import Verif.Props.Command
import Verif.Spec.Start
import Verif.Props.Start
import Verif.Props.Macro
import Verif.Lemmas.Trees
import Verif.Spec.StdMacro
import Verif.Props.StdMacro
import Verif.Spec.Bits
import Verif.Props.Bits
import Verif.Spec.Sequence
import Verif.Props.Sequence
import Verif.Props.Letters
import Verif.Spec.Dict
import Verif.Props.Dict
import Verif.Model.Cli
import Verif.Spec.Cli
import Verif.Props.Cli
import Verif.Props.SkipIf
import Verif.Props.DefIf
import Verif.Spec.StdDefine
import Verif.Props.StdDefine
import Verif.Testkit.Base
import Verif.Testkit.Parse
import Verif.Testkit.Eval
import Verif.Spec.Template
import Verif.Props.Template
import Verif.Spec.Effects
import Verif.Props.Effects
import Verif.Spec.Accept
import Verif.Lemmas.Accept
import Verif.Lemmas.AcceptRules
import Verif.Lemmas.AcceptText
import Verif.Props.Accept
import Verif.Spec.Straight
import Verif.Lemmas.Straight
import Verif.Props.Straight
import Verif.Spec.EditorSession
import Verif.Props.EditorSession
import Verif.Spec.Modules
import Verif.Lemmas.Modules
import Verif.Props.Modules
import Verif.Spec.ModuleScope
import Verif.Lemmas.StdText
import Verif.Props.ModuleScope
import Verif.Props.StdSample
import Verif.Props.StdStart
import Verif.Lemmas.KernelRfl
import Verif.Spec.Counter
import Verif.Lemmas.Follows
import Verif.Lemmas.Counter
import Verif.Props.Counter
import Verif.Spec.Meaning
import Verif.Lemmas.Twin
import Verif.Props.Meaning
import Verif.Spec.Fill
import Verif.Props.Fill
import Verif.Spec.HLib
import Verif.Props.HLib
import Verif.Spec.HBegin
import Verif.Props.HBegin
import Verif.Spec.Missing
import Verif.Props.Missing
import Verif.Spec.Coro
import Verif.Props.Coro
import Verif.Spec.HNamed
import Verif.Props.HNamed
import Verif.Spec.Variant
import Verif.Props.Variant
import Verif.Spec.HLight
import Verif.Props.HLight
import Verif.Spec.Undef
import Verif.Props.Undef
import Verif.Spec.Cpp
import Verif.Props.Cpp
import Verif.Spec.CoroH
import Verif.Props.CoroH
import Verif.Spec.CoroInit
import Verif.Props.CoroInit
import Verif.Spec.CoroPlain
import Verif.Props.CoroPlain
import Verif.Props.CoroStart
import Verif.Spec.WhiteSpace
import Verif.Props.WhiteSpace
import Verif.Props.QuoteText
import Verif.Spec.EscText
import Verif.Props.EscText
import Verif.Props.HeaderText
