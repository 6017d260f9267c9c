import Verif.Core.Expand
import Verif.Core.Template
import Verif.Core.Driver
import Verif.Core.Extension
import Verif.Cpp.Callbacks
import Verif.Cpp.SharedHeaders
import Verif.Cpp.Names
import Verif.Cpp.ClassGen
import Verif.Cpp.Interface
import Verif.Java.Code
import Verif.Java.Names
import Verif.Java.ClassGen
import Verif.Java.EnumCallback
import Verif.Java.Interface
import Verif.Lang.ClassParse
import Verif.Lang.TokenParse
import Verif.TypeMap.ConfigRule
import Verif.TypeMap.Instantiate
import Verif.TypeMap.MapType
import Verif.TypeMap.ReadFile
import Verif.TypeMap.Requests
import Verif.TypeMap.RuleParse
import Verif.TypeMap.RuleTokens
import Verif.TypeMap.Pointers
/-!
# The words of the languages flapigen reads and writes

The theorems of the properties named here mention words (keywords, macro names, placeholders) by the names they have in the model.
These facts say which words they are, so that those statements can be read without the model (they are no claims of their own).
-/
namespace Flapi.Words

/-- **C29**: the macros flapigen takes out of a source file. -/
theorem words_C29 : Expand.nForeignerClass = "foreigner_class".toList ∧ Expand.nForeignClass = "foreign_class".toList ∧
    Expand.nForeignEnum = "foreign_enum".toList ∧ Expand.nForeignInterface = "foreign_interface".toList ∧
    Expand.nForeignCallback = "foreign_callback".toList ∧ Expand.nForeignTypemap = "foreign_typemap".toList :=
  ⟨rfl, rfl, rfl, rfl, rfl, rfl⟩

/-- **C09**: the placeholders of conversion code. -/
theorem words_C09 : Template.toVar = "{to_var}".toList ∧ Template.fromVar = "{from_var}".toList ∧
    Template.toVarType = "{to_var_type}".toList ∧ Template.functionRetType = "{function_ret_type}".toList :=
  ⟨rfl, rfl, rfl, rfl⟩

/-- **C07**: the attribute words that are not left to extensions. -/
theorem words_C07 : Extension.knownClassDerives = ["Clone".toList, "Copy".toList, "SmartPtrCopy".toList, "PlainClass".toList,
      "camelCaseAliases".toList] ∧
    Extension.javaReserved = ["Clone".toList, "Copy".toList, "SmartPtrCopy".toList] := ⟨rfl, rfl⟩

/-- **C75**: the keywords of class, interface and enum declarations. -/
theorem words_C75 : TokenParse.kwEnum = "enum".toList ∧ TokenParse.kwInterface = "interface".toList ∧
    TokenParse.kwCallback = "callback".toList ∧ TokenParse.kwSelfType = "self_type".toList ∧ TokenParse.kwClass = "class".toList ∧
    TokenParse.kwPrivate = "private".toList ∧ TokenParse.kwProtected = "protected".toList ∧ TokenParse.kwEmpty = "empty".toList ∧
    TokenParse.kwAlias = "alias".toList ∧ TokenParse.kwForeignCode = "foreign_code".toList ∧
    TokenParse.kwForeignerCode = "foreigner_code".toList :=
  ⟨rfl, rfl, rfl, rfl, rfl, rfl, rfl, rfl, rfl, rfl, rfl⟩

/-- **C25**: the words that start a member of a class, and the two attributes that matter when a class is read. -/
theorem words_C25 : ClassParse.kwConstructor = "constructor".toList ∧ ClassParse.kwMethod = "method".toList ∧
    ClassParse.kwStaticMethod = "static_method".toList ∧ ClassParse.kwFn = "fn".toList ∧ ClassParse.copyTrait = "Copy".toList ∧
    ClassParse.camelAlias = "camelCaseAliases".toList :=
  ⟨rfl, rfl, rfl, rfl, rfl, rfl⟩

/-- **C76**: the words of a typemap rule. -/
theorem words_C76 : RuleTokens.kwRType = "r_type".toList ∧ RuleTokens.kwFType = "f_type".toList ∧
    RuleTokens.kwReqModules = "req_modules".toList ∧ RuleTokens.kwModule = "module".toList ∧ RuleTokens.kwOption = "option".toList ∧
    RuleTokens.kwInputToOutput = "input_to_output".toList ∧ RuleTokens.kwUniquePrefix = "unique_prefix".toList ∧
    RuleTokens.kwTemporary = "temporary".toList ∧ RuleTokens.kwDefineCType = "define_c_type".toList ∧
    RuleTokens.kwGenericAlias = "generic_alias".toList ∧ RuleTokens.kwConcat = "swig_concat_idents".toList ∧
    RuleTokens.kwIType = "swig_i_type".toList ∧ RuleTokens.kwSwigFType = "swig_f_type".toList ∧ RuleTokens.fatArrow = "=>".toList ∧
    RuleTokens.leArrow = "<=".toList ∧ RuleTokens.abiC = "C".toList :=
  ⟨rfl, rfl, rfl, rfl, rfl, rfl, rfl, rfl, rfl, rfl, rfl, rfl, rfl, rfl, rfl, rfl⟩

/-- **C27**: the variables of a rule's code and the line in front of it. -/
theorem words_C27 : RuleParse.outName = "out".toList ∧ RuleParse.outNoTypeName = "out_no_type".toList ∧
    RuleParse.letMut = "let mut ".toList ++ "{to_var}".toList ∧
    RuleParse.letMutTyped = "let mut ".toList ++ "{to_var}".toList ++ ": ".toList ++ "{to_var_type}".toList :=
  ⟨by decide, by decide, rfl, rfl⟩

/-- **C58**: the traits that carry conversions in a conversion file. -/
theorem words_C58 : ReadFile.intoName = "SwigInto".toList ∧ ReadFile.fromName = "SwigFrom".toList := ⟨rfl, rfl⟩

/-- **C59**: the macros inside a generic rule, and the path prefixes removed from the names of C types. -/
theorem words_C59 : Inst.swigIType = "swig_i_type".toList ∧ Inst.swigFromRustToI = "swig_from_rust_to_i_type".toList ∧
    Inst.swigFromIToRust = "swig_from_i_type_to_rust".toList ∧ Inst.swigForeignToI = "swig_foreign_to_i_type".toList ∧
    Inst.swigForeignFromI = "swig_foreign_from_i_type".toList ∧ Inst.swigFType = "swig_f_type".toList ∧
    Inst.swigSubstType = "swig_subst_type".toList ∧ Inst.rawLong = ":: std :: os :: raw ::".toList ∧
    Inst.rawShort = "std :: os :: raw ::".toList :=
  ⟨rfl, rfl, rfl, rfl, rfl, rfl, rfl, rfl, rfl⟩

/-- **C65**: the bound that asks for a type that crosses the C border as it is. -/
theorem words_C65 : MapType.reprC = "SwigTypeIsReprC".toList := rfl

/-- **C69**: the directions of a request, the words C puts in front of compound types, the option that switches annotations off. -/
theorem words_C69 : Requests.output = "output".toList ∧ Requests.input = "input".toList ∧ Requests.structBlank = "struct ".toList ∧
    Requests.unionBlank = "union ".toList ∧ Requests.noNullAnnotations = "NoNullAnnotations".toList := ⟨rfl, rfl, rfl, rfl, rfl⟩

/-- **C45**: the field of a callback object that holds the pointer to the user's object. -/
theorem words_C45 : CppCallback.opaqueText = "opaque".toList := rfl

/-- **C52**: the word that stands for the user's namespace in shared code. -/
theorem words_C52 : Headers.nsMark = "$RUST_SWIG_USER_NAMESPACE".toList := rfl

/-- **C70**: the class of optional values in Java, as written and as found in the binary. -/
theorem words_C70 : Driver.optDots = "java.util.Optional".toList ∧ Driver.optSlashes = "java/util/Optional".toList ∧
    Driver.knownClassDerives = ["Clone".toList, "Copy".toList, "SmartPtrCopy".toList, "PlainClass".toList,
      "camelCaseAliases".toList] := ⟨rfl, rfl, rfl⟩

/-- **C33**: the annotations, and the Java types that cannot be null. -/
theorem words_C33 : JavaNames.nonNull = "@NonNull".toList ∧ JavaNames.nullable = "@Nullable".toList ∧
    JavaCode.primitives = ["void".toList, "boolean".toList, "byte".toList, "short".toList, "int".toList, "long".toList,
      "float".toList, "double".toList] := ⟨rfl, rfl, rfl⟩

/-- **C62**: the field that holds the pointer. -/
theorem words_C62 : JavaCode.selfField = "mNativeObj".toList ∧ EnumCallback.selfField = "mNativeObj".toList := ⟨rfl, rfl⟩

/-- **C81**: the names in the rules for smart pointers and locks, and their code. -/
theorem words_C81 : Pointers.kwArc = "Arc".toList ∧ Pointers.kwRc = "Rc".toList ∧ Pointers.kwMutex = "Mutex".toList ∧
    Pointers.kwMutexGuard = "MutexGuard".toList ∧ Pointers.kwRefCell = "RefCell".toList ∧ Pointers.kwRef = "Ref".toList ∧
    Pointers.kwRefMut = "RefMut".toList ∧ Pointers.bodyShare = "$ out = & $ p ;".toList ∧ Pointers.bodyExcl = "$ out = & mut $ p ;".toList ∧
    Pointers.bodyLock = "$ out = $ p . lock () . unwrap () ;".toList ∧ Pointers.bodyBorrow = "$ out = $ p . borrow () ;".toList ∧
    Pointers.bodyBorrowMut = "$ out = $ p . borrow_mut () ;".toList :=
  ⟨by decide, by decide, by decide, by decide, by decide, by decide, by decide, rfl, rfl, rfl, rfl, rfl⟩

end Flapi.Words
