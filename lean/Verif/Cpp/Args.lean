import Verif.Core.Template
/-!
# Text of C/C++ parameter lists, argument conversions, includes and comments (model)
-/
namespace Flapi.Cpp

open Flapi.Template Flapi.NameGen

/-- `CppConverter`: macroslib/src/cpp/mod.rs:72-75 (type name shown to the C++ user and the conversion code). -/
structure Converter where
  typename : Text
  code : TypeConvCode

/-- `CppForeignTypeInfo`: macroslib/src/cpp/mod.rs:78-83.  `name` is the C side type name. -/
structure TypeInfo where
  name : Text
  modules : List Text
  converter : Option Converter
  inputToOutput : Bool

/-- `CppForeignMethodSignature`: macroslib/src/cpp/mod.rs:193-196. -/
structure MethodSig where
  output : TypeInfo
  input : List TypeInfo

/-- `", "`, the separator of macroslib/src/cpp/cpp_code.rs:51-53, 76-78, 103-105. -/
def comma : Text := ", ".toList

/-- Loop of `c_generate_args_with_types`: macroslib/src/cpp/cpp_code.rs:49-56. -/
def cArgsLoop (buf : Text) : List (TypeInfo × Text) → Text
  | [] => buf
  | (t, n) :: l =>
    let buf := if buf.isEmpty then buf else buf ++ comma
    cArgsLoop (buf ++ (t.name ++ ' ' :: n)) l

/-- `c_generate_args_with_types`: macroslib/src/cpp/cpp_code.rs:41-61. -/
def cArgsWithTypes (m : MethodSig) (names : List Text) (appendComma : Bool) : Text :=
  let buf := cArgsLoop [] (m.input.zip names)
  if !buf.isEmpty && appendComma then buf ++ comma else buf

/-- The type shown to the C++ user: macroslib/src/cpp/cpp_code.rs:82-87. -/
def TypeInfo.cppName (t : TypeInfo) : Text :=
  match t.converter with
  | some c => c.typename
  | none => t.name

/-- Loop of `cpp_generate_args_with_types`: macroslib/src/cpp/cpp_code.rs:71-91. -/
def cppArgsLoop (ret : Text) : List (TypeInfo × Text) → Text
  | [] => ret
  | (t, n) :: l =>
    if t.inputToOutput then cppArgsLoop ret l
    else
      let ret := if ret.isEmpty then ret else ret ++ comma
      cppArgsLoop (ret ++ (t.cppName ++ ' ' :: n)) l

/-- `cpp_generate_args_with_types`: macroslib/src/cpp/cpp_code.rs:67-93. -/
def cppArgsWithTypes (m : MethodSig) (names : List Text) : Text := cppArgsLoop [] (m.input.zip names)

/-- Name of the converted value if the template needs one: macroslib/src/cpp/cpp_code.rs:107-116. -/
def convVar (c : TypeConvCode) (i : Nat) (known : List Text) : Option (Option Text × List Text) :=
  if c.hasParam toVarType || c.hasParam toVar then do
    let v ← newUniqueName known ('a' :: dec i)
    pure (some v, v :: known)
  else pure (none, known)

/-- One iteration of `convert_args` without the separator: macroslib/src/cpp/cpp_code.rs:106-153.  The result is the code
to place before the call, the call argument and the new set of known names.  `none` is an error or panic; the `unwrap`s
of `var_name` are reached only for a template with that parameter, where `var_name` is `some`. -/
def convArg (t : TypeInfo) (argName : Text) (i : Nat) (known : List Text) : Option (Text × Text × List Text) :=
  match t.converter with
  | none => some ([], argName, known)
  | some conv => do
    let (var, known) ← convVar conv.code i known
    let v := var.getD []
    let (code, known) ← conv.code.generateWithSubst (cppSubst argName (t.name ++ ' ' :: v) v) known
    if conv.code.hasParam toVarType then
      pure (code, "std::move(".toList ++ v ++ ")".toList, known)
    else pure ([], code, known)

/-- Loop of `convert_args`: macroslib/src/cpp/cpp_code.rs:102-154. -/
def convArgsLoop (deps args : Text) (i : Nat) (known : List Text) :
    List (TypeInfo × Text) → Option (Text × Text × List Text)
  | [] => some (deps, args, known)
  | (t, n) :: l => do
    let args := if i > 0 then args ++ comma else args
    let (d, a, known) ← convArg t n i known
    convArgsLoop (deps ++ d) (args ++ a) (i + 1) known l

/-- `convert_args`: macroslib/src/cpp/cpp_code.rs:95-156. -/
def convertArgs (m : MethodSig) (known : List Text) (names : List Text) : Option (Text × Text × List Text) :=
  convArgsLoop [] [] 0 known (m.input.zip names)

/-- The collecting loop of `cpp_list_required_includes`: macroslib/src/cpp/cpp_code.rs:177-183. -/
def collectIncludes : List MethodSig → List Text
  | [] => []
  | m :: ms => (m.input.flatMap (·.modules) ++ m.output.modules) ++ collectIncludes ms

/-- `retain(|e| uniques.insert(e))`: macroslib/src/cpp/cpp_code.rs:186-187. -/
def retainUnique (seen : List Text) : List Text → List Text
  | [] => []
  | x :: xs => if seen.contains x then retainUnique seen xs else x :: retainUnique (x :: seen) xs

/-- `cpp_list_required_includes`: macroslib/src/cpp/cpp_code.rs:174-190. -/
def requiredIncludes (ms : List MethodSig) : List Text := retainUnique [] (collectIncludes ms)

/-- The includes of a class header: macroslib/src/cpp/fclass.rs:62-65 (a class does not include its own headers). -/
def classIncludes (className : Text) (ms : List MethodSig) : List Text :=
  let myCpp := '"' :: (className ++ ".hpp\"".toList)
  let myC := "\"c_".toList ++ className ++ ".h\"".toList
  (requiredIncludes ms).filter fun e => e != myCpp && e != myC

/-- The include lines of a header: macroslib/src/cpp/fclass.rs:1111-1113. -/
def includeLines : List Text → Text
  | [] => []
  | i :: is => "#include ".toList ++ i ++ '\n' :: includeLines is

end Flapi.Cpp
