import Verif.Core.NameGenProps
import Verif.Core.SubstMapProps
import Verif.Core.SourceRegistryProps
import Verif.Core.FileCacheProps
import Verif.Core.SharedOut
import Verif.Core.SharedOutProps
import Verif.Core.ExtensionProps
import Verif.Core.StrReplaceProps
import Verif.Core.TemplateProps
import Verif.Core.ExpandProps
import Verif.TypeMap.AStarProps
import Verif.TypeMap.BuildProps
import Verif.TypeMap.MergeProps
import Verif.TypeMap.ConvertProps
import Verif.TypeMap.SelectProps
import Verif.TypeMap.ForeignTypesProps
import Verif.TypeMap.MergeRuleProps
import Verif.TypeMap.Ty
import Verif.TypeMap.TyProps
import Verif.TypeMap.Match
import Verif.TypeMap.MatchProps
import Verif.TypeMap.MatchComplete
import Verif.TypeMap.Generic
import Verif.TypeMap.GenericProps
import Verif.TypeMap.ConfigRuleProps
import Verif.Core.RemoveFilesProps
import Verif.Macro.ScanProps
import Verif.Cpp.ArgsProps
import Verif.Lang.EnumProps
import Verif.Cpp.NamesProps
import Verif.Cpp.ContainersProps
import Verif.Cpp.SliceIterProps
import Verif.Java.ClassSymbolProps
import Verif.Lang.ClassParseProps
import Verif.Lang.ClassAccept
import Verif.Lang.TokenParse
import Verif.Lang.TokenParseProps
import Verif.Java.FindCacheProps
import Verif.Java.FindCacheCode
import Verif.Java.AnnotProps
import Verif.Java.FenceProps
import Verif.Java.LifeFindings
import Verif.Java.LifeLeak
import Verif.Java.CallbackProps
import Verif.TypeMap.BuildComplete
import Verif.TypeMap.BuildExact
import Verif.TypeMap.BuildRules
import Verif.TypeMap.Builtin
import Verif.TypeMap.BuiltinProps
import Verif.TypeMap.Pointers
import Verif.TypeMap.PointersProps
import Verif.TypeMap.Threads
import Verif.TypeMap.ThreadsProps
import Verif.Java.ValuesProps
import Verif.Java.ArraysProps
import Verif.Cpp.ClassLifeProps
import Verif.Cpp.AbiValuesProps
import Verif.Cpp.AliasNamesProps
import Verif.Cpp.CallbacksProps
import Verif.Cpp.SharedHeadersProps
import Verif.Python.RetTyping
import Verif.Python.CallProps
import Verif.Python.RetProps
import Verif.TypeMap.RuleParseProps
import Verif.TypeMap.ReadFileProps
import Verif.TypeMap.ReadSource
import Verif.TypeMap.ReadSourceProps
import Verif.TypeMap.Instantiate
import Verif.TypeMap.InstantiateProps
import Verif.TypeMap.InstantiateRule
import Verif.TypeMap.InstantiateAccept
import Verif.Lang.Comments
import Verif.Lang.CommentsProps
import Verif.Cpp.ClassGen
import Verif.Cpp.ClassGenProps
import Verif.Lang.Exported
import Verif.Lang.ExportedProps
import Verif.Java.ClassGen
import Verif.Java.ClassGenProps
import Verif.Java.ConvTextProps
import Verif.Lang.Register
import Verif.Lang.RegisterProps
import Verif.Cpp.Register
import Verif.Cpp.RegisterProps
import Verif.Cpp.RegisterPlain
import Verif.Cpp.Interface
import Verif.Cpp.InterfaceProps
import Verif.Java.Interface
import Verif.Java.InterfaceProps
import Verif.Java.Pending
import Verif.Java.PendingProps
import Verif.Java.PendingLocals
import Verif.Java.Register
import Verif.Java.RegisterProps
import Verif.TypeMap.MapType
import Verif.TypeMap.MapTypeProps
import Verif.Python.Module
import Verif.Python.ModuleProps
import Verif.Python.ModuleRefs
import Verif.Python.ModuleCalls
import Verif.Macro.Literal
import Verif.TypeMap.Requests
import Verif.TypeMap.RequestsProps
import Verif.TypeMap.RequestsNested
import Verif.TypeMap.RequestsMore
import Verif.TypeMap.RequestsIncoming
import Verif.Core.Config
import Verif.Core.ConfigProps
import Verif.Core.Driver
import Verif.Core.DriverProps
import Verif.Core.Diagnostics
import Verif.Core.DiagnosticsProps
import Verif.Cpp.Layout
import Verif.Cpp.LayoutProps
import Verif.Java.EnumCallback
import Verif.Java.EnumCallbackProps
import Verif.TypeMap.Recursion
import Verif.TypeMap.RecursionProps
import Verif.TypeMap.RuleTokens
import Verif.TypeMap.RuleTokensProps
import Verif.Core.RuleStringProps
import Verif.TypeMap.GenericCode
import Verif.TypeMap.GenericCodeProps
import Verif.Core.BackendRun
import Verif.Core.BackendRunProps
import Verif.Lang.EnumRegister
import Verif.Lang.EnumRegisterProps
import Verif.Cpp.SliceViews
import Verif.Cpp.SliceViewsProps
import Verif.Cpp.HeaderGraph
import Verif.Cpp.HeaderGraphProps
import Verif.TypeMap.PointersProgram
import Verif.TypeMap.NameCacheProps
import Verif.Lang.WordsProps
import Verif.TypeMap.ShapesProps
import Verif.Core.RustfmtProps
import Verif.Core.Aliasing
import Verif.Core.AliasingProps
import Verif.Core.AliasingCalls
import Verif.Python.Errors
import Verif.Cpp.AliasNamesMore
