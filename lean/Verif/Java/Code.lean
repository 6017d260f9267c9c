import Verif.Java.Names
import Verif.Core.Template
import Verif.Core.NameGen
/-!
# Java wrapper text: argument lists, null annotations, conversions and reachability fences (model)
-/
namespace Flapi.JavaCode

open Flapi.JavaNames Flapi.NameGen Flapi.Template

/-- `NullAnnotation`: macroslib/src/java_jni/mod.rs:55-59. -/
inductive Null where
  | nonNull | nullable
  deriving DecidableEq, Repr

/-- `JavaConverter`: macroslib/src/java_jni/mod.rs:74-79. -/
structure Conv where
  transition : Text
  annotation : Option Null
  converter : Text
  deriving DecidableEq, Repr

/-- `JavaForeignTypeInfo`: macroslib/src/java_jni/mod.rs:61-66 (the Rust type left out). -/
structure Info where
  name : Text
  conv : Option Conv
  annotation : Option Null
  deriving DecidableEq, Repr

/-- `JniForeignMethodSignature`: macroslib/src/java_jni/mod.rs:100-103. -/
structure Sig where
  output : Info
  input : List Info
  deriving DecidableEq, Repr

/-- `type_annotation`: macroslib/src/java_jni/map_type.rs:326-334. -/
def typeAnnotation (t : Text) : Option Null :=
  if strContains t nullable then some .nullable
  else if strContains t nonNull then some .nonNull
  else none

/-- The words of `is_primitive_type`: macroslib/src/java_jni/java_code.rs:150-155. -/
def primitives : List Text :=
  ["void".toList, "boolean".toList, "byte".toList, "short".toList, "int".toList, "long".toList, "float".toList, "double".toList]

/-- `is_primitive_type`: macroslib/src/java_jni/java_code.rs:150-155. -/
def isPrimitive (t : Text) : Bool := primitives.contains t

/-- End of `map_type`: macroslib/src/java_jni/map_type.rs:107-124.  `inter` is the transition type and the converter code (if
the rule has an intermediate type), `isOption` tells whether the Rust type is `Option<_>`. -/
def mkInfo (name : Text) (inter : Option (Text × Text)) (isOption : Bool) : Info :=
  let conv := inter.map fun (t, c) => ⟨t, typeAnnotation t, c⟩
  let a := typeAnnotation name
  let a := if a.isNone && !isPrimitive name then some (if isOption then Null.nullable else Null.nonNull) else a
  ⟨name, conv, a⟩

/-- The printed type: macroslib/src/java_jni/java_code.rs:33-38. -/
def Info.printed (a : Info) (internal : Bool) : Text :=
  match a.conv with
  | some c => if internal then c.transition else a.name
  | none => a.name

/-- The annotation printed in front of the type: macroslib/src/java_jni/java_code.rs:39-53. -/
def annText (external useNull : Bool) (note : Option Null) (typeName : Text) : Text :=
  let already := strContains typeName nonNull || strContains typeName nullable
  match note with
  | some .nonNull => if external && useNull && !already then "@NonNull ".toList else []
  | some .nullable => if external && useNull && !already then "@Nullable ".toList else []
  | none => []

/-- One argument of `args_with_java_types` without separator: macroslib/src/java_jni/java_code.rs:32-60. -/
def argPiece (external internal useNull : Bool) (a : Info) (argName : Text) : Text :=
  annText external useNull a.annotation (a.printed internal) ++ a.printed internal ++ ' ' :: argName

/-- The loop of `args_with_java_types`; `n` is `method.input.len()`: macroslib/src/java_jni/java_code.rs:32-60. -/
def argPieces (external internal useNull : Bool) (n : Nat) : Nat → List (Info × Text) → Text
  | _, [] => []
  | i, (a, x) :: l =>
    argPiece external internal useNull a x ++ (if i = n - 1 then [] else ", ".toList) ++
      argPieces external internal useNull n (i + 1) l

/-- `args_with_java_types`: macroslib/src/java_jni/java_code.rs:16-62. -/
def argsWithTypes (comma external internal useNull : Bool) (s : Sig) (names : List Text) : Text :=
  (if comma && !s.input.isEmpty then ", ".toList else []) ++
    argPieces external internal useNull s.input.length 0 (s.input.zip names)

/-- The annotations one type contributes: macroslib/src/java_jni/java_code.rs:111-119. -/
def Info.notes (a : Info) : List Null := a.annotation.toList ++ (a.conv.bind (·.annotation)).toList

/-- The double loop of `get_null_annotation_imports`: macroslib/src/java_jni/java_code.rs:102-127.  The result is
(`has_non_null`, `has_nullable`) when the loop ends or is left early. -/
def scanNotes : Bool → Bool → List Info → Bool × Bool
  | hn, hl, [] => (hn, hl)
  | hn, hl, a :: l =>
    let hn := hn || a.notes.contains .nonNull
    let hl := hl || a.notes.contains .nullable
    if hn && hl then (true, true) else scanNotes hn hl l

/-- `import package.X;`. -/
def importLine (pkg cls : Text) : Text := "import ".toList ++ pkg ++ '.' :: cls ++ [';']

/-- `get_null_annotation_imports`: macroslib/src/java_jni/java_code.rs:97-144. -/
def nullImports (pkg : Option Text) (sigs : List Sig) : Text :=
  match pkg with
  | none => []
  | some p =>
    match scanNotes false false (sigs.flatMap fun s => s.input ++ [s.output]) with
    | (true, true) => importLine p "NonNull".toList ++ '\n' :: importLine p "Nullable".toList
    | (true, false) => importLine p "NonNull".toList
    | (false, true) => importLine p "Nullable".toList
    | (false, false) => []

/-! ## Conversions and fences -/

/-- `JavaReachabilityFence`: macroslib/src/lib.rs (`JavaConfig`). -/
inductive Fence where
  | std
  | gen (maxArgs : Nat)
  deriving DecidableEq, Repr

/-- Java code converting one argument: macroslib/src/java_jni/fclass.rs:1062-1072. -/
def convText (c : Conv) (after argName : Text) : Text :=
  filterNull (strReplace (strReplace (strReplace c.converter toVarType (c.transition ++ ' ' :: after)) toVar after) fromVar argName)

/-- Result of the loop of `convert_code_for_method`. -/
structure Loop where
  conv : Text
  call : Text
  protect : List Text
  deriving DecidableEq, Repr

/-- The loop of `convert_code_for_method`: macroslib/src/java_jni/fclass.rs:1055-1089; `n` is `f_method.input.len()`. -/
def convLoop (n : Nat) : (known : List Text) → (i : Nat) → List (Info × Text) → Option Loop
  | _, _, [] => some ⟨[], [], []⟩
  | known, i, (a, x) :: l =>
    match a.conv with
    | some c => do
      let after ← newUniqueName known ('a' :: dec i)
      let r ← convLoop n (after :: known) (i + 1) l
      pure ⟨convText c after x ++ r.conv, after ++ (if i ≠ n - 1 then ", ".toList else []) ++ r.call,
        (if !isPrimitive a.name then [x] else []) ++ r.protect⟩
    | none => do
      let r ← convLoop n known (i + 1) l
      pure ⟨r.conv, x ++ (if i ≠ n - 1 then ", ".toList else []) ++ r.call, r.protect⟩

def stdFence : Text := "        java.lang.ref.Reference.reachabilityFence(".toList
def genFence : Text := "\n        JNIReachabilityFence.reachabilityFence".toList

/-- The loop for `JavaReachabilityFence::Std`: macroslib/src/java_jni/fclass.rs:1092-1102. -/
def stdFences (acc : Text) : List Text → Text
  | [] => acc
  | x :: l => stdFences ((if acc.isEmpty then acc else acc ++ ['\n']) ++ stdFence ++ x ++ ");".toList) l

/-- The loop over the arguments of the generated fence: macroslib/src/java_jni/fclass.rs:1124-1132. -/
def genArgs : (first : Bool) → List Text → Text
  | _, [] => []
  | first, x :: l => (if first then [] else ", ".toList) ++ x ++ genArgs false l

/-- The fence code: macroslib/src/java_jni/fclass.rs:1090-1137; `none` is the "too many arguments" error. -/
def fenceCode (f : Fence) (protect : List Text) : Option Text :=
  match f with
  | .std => some (stdFences [] protect)
  | .gen maxArgs =>
    if protect.length > maxArgs then none
    else if protect.isEmpty then some []
    else some (genFence ++ dec protect.length ++ '(' :: genArgs true protect ++ ");".toList)

/-- `convert_code_for_method`: macroslib/src/java_jni/fclass.rs:1041-1138: (conversion code, arguments, fence code). -/
def convertCode (f : Fence) (commaBefore : Bool) (known : List Text) (s : Sig) (names : List Text) :
    Option (Text × Text × Text) := do
  let r ← convLoop s.input.length known 0 (s.input.zip names)
  let fc ← fenceCode f r.protect
  pure (r.conv, (if commaBefore && !s.input.isEmpty then ", ".toList else []) ++ r.call, fc)

/-- `mNativeObj`: macroslib/src/java_jni/mod.rs:41. -/
def selfField : Text := "mNativeObj".toList

/-- What the body of a wrapper is made of: the converted pieces and the already prepared names and types. -/
structure Parts where
  /-- native function called -/
  func : Text
  /-- conversion code, arguments, fence code -/
  conv : Text
  args : Text
  fence : Text
  retType : Text
  /-- printed type of the local variable -/
  interType : Text
  retName : Text
  convRet : Text
  retConv : Text
  deriving DecidableEq, Repr

def indent : Text := "        ".toList

/-- The `{intermediate_ret_type} {ret_name} = ` part. -/
def Parts.assign (p : Parts) : Text := p.interType ++ ' ' :: p.retName ++ " = ".toList

/-- `return ...;`: macroslib/src/java_jni/fclass.rs:263-275, 345-357. -/
def Parts.ret (p : Parts) : Text :=
  if p.retType ≠ "void".toList then
    "\n        return ".toList ++ (if p.retConv.isEmpty then p.retName else p.convRet) ++ ";\n".toList
  else []

def Parts.fencePart (p : Parts) : Text := if p.fence.isEmpty then [] else p.fence ++ ['\n']

/-- `if code[0] == '\n' { code = &code[1..] }`. -/
def dropNl : Text → Text
  | '\n' :: l => l
  | l => l

/-- Body of a static wrapper that needs conversions: macroslib/src/java_jni/fclass.rs:228-276. -/
def staticBody (p : Parts) : Text :=
  (if p.conv.isEmpty then [] else dropNl p.conv ++ ['\n']) ++
  (if p.retType ≠ "void".toList then indent ++ p.assign ++ p.func ++ '(' :: p.args ++ ");".toList ++ p.retConv ++ ['\n']
    else indent ++ p.func ++ '(' :: p.args ++ ");\n".toList) ++
  p.fencePart ++ p.ret ++ "    }".toList

/-- Body of an instance method: macroslib/src/java_jni/fclass.rs:307-358. -/
def methodBody (p : Parts) : Text :=
  (if p.conv.isEmpty then [] else (if p.conv.head? ≠ some '\n' then ['\n'] else []) ++ p.conv) ++
  (if p.retType ≠ "void".toList then
    '\n' :: indent ++ p.assign ++ p.func ++ '(' :: selfField ++ p.args ++ ");".toList ++ p.retConv ++ ['\n']
    else '\n' :: indent ++ p.func ++ '(' :: selfField ++ p.args ++ ");\n".toList) ++
  p.fencePart ++ p.ret ++ "    }".toList

/-- Body of a constructor: macroslib/src/java_jni/fclass.rs:399-424. -/
def constructorBody (p : Parts) : Text :=
  (if p.conv.isEmpty then [] else dropNl p.conv ++ ['\n']) ++
  indent ++ selfField ++ " = init(".toList ++ p.args ++ ");".toList ++ p.fence ++ "\n    }".toList

/-- Parameters of the i-th generated fence: macroslib/src/java_jni/mod.rs:416-424. -/
def fenceParams (i : Nat) : List Text := (List.range' 1 i).map fun j => "Object ref".toList ++ dec j

/-- `1..=max_args`: macroslib/src/java_jni/mod.rs:414-453; the fences that are declared, with their parameters. -/
def fenceDecls (maxArgs : Nat) : List (Text × List Text) :=
  (List.range' 1 maxArgs).map fun i => ("reachabilityFence".toList ++ dec i, fenceParams i)

end Flapi.JavaCode
