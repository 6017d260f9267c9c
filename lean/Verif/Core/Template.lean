import Verif.Base.Replace
import Verif.Core.NameGen
/-!
# Conversion code templates (model)
-/
namespace Flapi.Template

/-- macroslib/src/typemap.rs:42. -/
def toVar : Text := "{to_var}".toList
/-- macroslib/src/typemap.rs:43. -/
def fromVar : Text := "{from_var}".toList
/-- macroslib/src/typemap.rs:44. -/
def toVarType : Text := "{to_var_type}".toList
/-- macroslib/src/typemap.rs:45. -/
def functionRetType : Text := "{function_ret_type}".toList

/-- `TypeConvCode`: macroslib/src/typemap.rs:50-54 (the source span is dropped). -/
structure TypeConvCode where
  code : Text
  params : List Text
deriving DecidableEq

/-- The parameters found in a code text by `new`/`new2`: macroslib/src/typemap.rs:90-97, 111-117. -/
def foundParams (code : Text) : List Text :=
  (if strContains code toVar then [toVar] else []) ++ (if strContains code fromVar then [fromVar] else [])

/-- `TypeConvCode::new`: macroslib/src/typemap.rs:87-107; `none` is a panic. -/
def TypeConvCode.new (code : Text) : Option TypeConvCode :=
  let params := foundParams code
  if params.isEmpty then none else some ⟨code, params⟩

/-- `TypeConvCode::new2`: macroslib/src/typemap.rs:109-128; `none` is a failed assertion. -/
def TypeConvCode.new2 (code : Text) : Option TypeConvCode :=
  let params := foundParams code
  if params.length ≥ 2 then some ⟨code, params⟩ else none

/-- `TypeConvCode::has_param`: macroslib/src/typemap.rs:185-187. -/
def TypeConvCode.hasParam (c : TypeConvCode) (p : Text) : Bool := c.params.contains p

/-- `TypeConvCode::generate_code`: macroslib/src/typemap.rs:146-161. -/
def TypeConvCode.generateCode (c : TypeConvCode) (toName fromName toTypename funcRetType : Text) : Text :=
  let ret := "    ".toList ++ c.code ++ "\n".toList
  strReplace (strReplace (strReplace (strReplace ret toVar toName) fromVar fromName) toVarType toTypename)
    functionRetType funcRetType

/-- `TypeConvCodeSubstParam`: macroslib/src/typemap.rs:63-66. -/
inductive SubstParam
  | name (n : Text)
  | tmp (n : Text)

/-- `p.strip_prefix('$')`: macroslib/src/typemap.rs:169-173. -/
def classify (p : Text) : SubstParam :=
  match p with
  | '$' :: rest => .tmp rest
  | p => .name p

/-- First loop of `generate_code_with_subst_func`: macroslib/src/typemap.rs:167-178.  The `FnMut` is a function with
state `σ`; `none` is the "Can not substitude parameter" error. -/
def collectVals {σ} (f : σ → SubstParam → Option (Text × σ)) : σ → List Text → Option (List Text × σ)
  | s, [] => some ([], s)
  | s, p :: ps => do
    let (v, s1) ← f s (classify p)
    let (vs, s2) ← collectVals f s1 ps
    pure (v :: vs, s2)

/-- Second loop: macroslib/src/typemap.rs:179-182. -/
def seqReplace (code : Text) (kv : List (Text × Text)) : Text :=
  kv.foldl (fun ret kv => strReplace ret kv.1 kv.2) code

/-- `generate_code_with_subst_func`: macroslib/src/typemap.rs:163-184. -/
def TypeConvCode.generateWithSubst {σ} (c : TypeConvCode) (f : σ → SubstParam → Option (Text × σ)) (s : σ) :
    Option (Text × σ) := do
  let (vals, s') ← collectVals f s c.params
  pure (seqReplace c.code (c.params.zip vals), s')

/-- The substitution function passed by the C++ backend: macroslib/src/cpp/cpp_code.rs:119-144 and
macroslib/src/cpp/fclass.rs:312-330.  The state is the set of known names; temporaries get a fresh name. -/
def cppSubst (fromName toType toName : Text) (known : List Text) : SubstParam → Option (Text × List Text)
  | .name n =>
    if n = fromVar then some (fromName, known)
    else if n = toVarType then some (toType, known)
    else if n = toVar then some (toName, known)
    else none
  | .tmp t => do
    let n ← NameGen.newUniqueName known t
    pure (n, n :: known)

/-- Construction of a `TypeConvCode` from a `foreign_typemap!` conversion string:
macroslib/src/typemap/typemap_macro/parse.rs:687-720.  `varName` is the name of the input variable. -/
def fromTypemapString (codeStr varName : Text) (temporaryIds : List Text) : TypeConvCode :=
  let var := '$' :: varName
  let code := replaceFirstAndOther (strReplace codeStr var fromVar) "$out".toList toVarType toVar
  let params := [fromVar]
    ++ (if strContains code toVarType then [toVarType] else [])
    ++ (if strContains code toVar then [toVar] else [])
    ++ temporaryIds.map (fun t => '$' :: t)
  ⟨code, params⟩

end Flapi.Template
