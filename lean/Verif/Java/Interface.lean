import Verif.Cpp.Interface
import Verif.Java.ClassGen
import Verif.Java.Callback
import Verif.Lang.Register
/-!
# Java: code generated for `foreign_callback!` (`foreign_interface!`): the Java interface, the conversion from `jobject` and the
implementation of the trait (model)

The Rust texts are parsed by `syn` before they are used, so only their structure is kept.  Left out: writing the file (C05).
-/
namespace Flapi.JavaInterface

open Flapi.CppInterface (IMethod Interface aName convInputs convOutput traitParams aNames selfText)
open Flapi.JavaClassGen (FTy Sig TypeMap Cfg sigJ)
open Flapi.JavaCode (argsWithTypes nullImports)
open Flapi.JavaNames (SigMap methodSignature)
open Flapi.JavaCallback (methodIds)
open Flapi.Exported (lit RStmt RustFn Err orErr World M)
open Flapi.Register (Cmd Key key tv fv)

/-- `jobject` -/
def jobject : Text := lit "jobject"

/-- Type of one argument, which goes out of Rust: macroslib/src/java_jni/finterface.rs:66-102.  A type that needs Java code is replaced by
`jobject`, if there is a conversion to it. -/
def mapArg {σ} (tm : TypeMap σ) (s : σ) (ty : Text) : Except Err (FTy × σ) := do
  let (t, s) ← orErr .typeMap (tm.mapType s false ty)
  match t.info.conv with
  | none => .ok (t, s)
  | some _ => do
    let (_, _, s) ← orErr .typeMap (tm.convert s ty jobject (lit "x") (lit "ret"))
    .ok (⟨{ t.info with conv := none }, jobject⟩, s)

/-- Types of the arguments: macroslib/src/java_jni/finterface.rs:65-102. -/
def mapArgs {σ} (tm : TypeMap σ) : σ → List (Text × Text) → Except Err (List FTy × σ)
  | s, [] => .ok ([], s)
  | s, (_, ty) :: as => do
    let (t, s) ← mapArg tm s ty
    let (ts, s) ← mapArgs tm s as
    .ok (t :: ts, s)

/-- `void`: macroslib/src/java_jni/finterface.rs:56-58, 104-108. -/
def voidTy : FTy := ⟨⟨lit "void", none, none⟩, lit "()"⟩

/-- Type of the result, which comes into Rust and must not need Java code: macroslib/src/java_jni/finterface.rs:103-129. -/
def mapOutput {σ} (tm : TypeMap σ) (s : σ) (m : IMethod) : Except Err (FTy × σ) :=
  match m.output with
  | none => .ok (voidTy, s)
  | some ty => do
    let (t, s) ← orErr .typeMap (tm.mapType s true ty)
    if t.info.conv.isSome then .error .javaCode else .ok (t, s)

/-- `find_suitable_ftypes_for_interace_methods`: macroslib/src/java_jni/finterface.rs:52-133. -/
def findSigs {σ} (tm : TypeMap σ) : σ → List IMethod → Except Err (List Sig × σ)
  | s, [] => .ok ([], s)
  | s, m :: ms => do
    let (i, s) ← mapArgs tm s m.args
    let (o, s) ← mapOutput tm s m
    let (r, s) ← findSigs tm s ms
    .ok (⟨o, i⟩ :: r, s)

/-! ### Java -/

/-- The beginning of the file: macroslib/src/java_jni/finterface.rs:141-158. -/
def javaHead (cfg : Cfg) (i : Interface) (gs : List Sig) : Text :=
  lit "// Automatically generated by flapigen\npackage " ++ cfg.package ++ lit ";\n" ++ nullImports cfg.nullPackage (gs.map sigJ) ++
  lit "\n" ++ Comments.docToJava cfg.ws i.docs true ++ lit "\npublic interface " ++ i.name ++ lit " {\n"

/-- One method: macroslib/src/java_jni/finterface.rs:160-177. -/
def javaMethod (cfg : Cfg) (m : IMethod) (g : Sig) : Text :=
  lit "\n" ++ Comments.docToJava cfg.ws m.docs false ++ lit "\n    " ++ g.output.info.name ++ lit " " ++ m.name ++ lit "(" ++
    argsWithTypes false true false cfg.nullPackage.isSome (sigJ g) m.argNames ++ lit ");\n"

/-- `generate_java_code_for_interface`: macroslib/src/java_jni/finterface.rs:135-182. -/
def javaFile (cfg : Cfg) (i : Interface) (gs : List Sig) : Text :=
  javaHead cfg i gs ++ ((i.items.zip gs).flatMap fun x => javaMethod cfg x.1 x.2) ++ lit "\n}\n"

/-! ### Rust -/

/-- What is looked up for one method: name and signature, macroslib/src/java_jni/finterface.rs:205-219
(`jni_method_signature` panics for an unknown type). -/
def lookup (cfg : Cfg) (m : IMethod) (g : Sig) : Except Err (Text × Text) := do
  let s ← orErr .unknownJavaType (methodSignature cfg.table (g.input.map (·.info.name)) g.output.info.name)
  .ok (m.name, s)

/-- The loop: macroslib/src/java_jni/finterface.rs:205-219. -/
def lookups (cfg : Cfg) : List IMethod → List Sig → Except Err (List (Text × Text))
  | m :: ms, g :: gs => do
    let x ← lookup cfg m g
    let r ← lookups cfg ms gs
    .ok (x :: r)
  | _, _ => .ok []

/-- `impl SwigFrom<jobject> for Box<dyn Trait>`: the ids of the methods are looked up (in this order) in the class of the Java object and
pushed to `methods`; an id that is not found makes it panic, macroslib/src/java_jni/finterface.rs:191-226. -/
structure FromObject where
  hint : Text
  target : Text
  lookups : List (Text × Text)

/-- `swig_from` of an object whose class answers `GetMethodID` with `find`: the ids kept in the callback (`none`: panic). -/
def FromObject.ids {I : Type} (f : FromObject) (find : Text × Text → Option I) : Option (List I) := methodIds find f.lookups

/-- `JNI_FOR_VARIADIC_C_FUNC_CALL`: macroslib/src/java_jni/finterface.rs:373-381. -/
def variadic : List (Text × Text) :=
  [(lit "jboolean", lit "::std::os::raw::c_uint"), (lit "jbyte", lit "::std::os::raw::c_int"),
   (lit "jshort", lit "::std::os::raw::c_int"), (lit "jfloat", lit "f64")]

/-- `convert_args_for_variadic_function_call`: macroslib/src/java_jni/finterface.rs:388-417; the variables with the types they are cast
to. -/
def callArgs : Nat → List FTy → List (Text × Option Text)
  | _, [] => []
  | n, t :: ts => (aName n, variadic.lookup t.rust) :: callArgs (n + 1) ts

/-- `jni_caller`: macroslib/src/java_jni/finterface.rs:320-331. -/
def callers : List (Text × Text) :=
  [(lit "jboolean", lit "CallBooleanMethod"), (lit "jbyte", lit "CallByteMethod"), (lit "jshort", lit "CallShortMethod"),
   (lit "jint", lit "CallIntMethod"), (lit "jlong", lit "CallLongMethod"), (lit "jfloat", lit "CallFloatMethod"),
   (lit "jdouble", lit "CallDoubleMethod"), (lit "jobject", lit "CallObjectMethod")]

/-- A function of the trait implementation: macroslib/src/java_jni/finterface.rs:285-304, 336-358.  `needsEnv`: the function panics if there is no
`JNIEnv` (one without result does nothing then); `pre` converts the arguments; then the JNI function `caller` is called with the object,
`self.methods[idx]` and `args` and an exception is logged and cleared; `post` converts the result. -/
structure TraitFn where
  self : Text
  name : Text
  params : List (Text × Text)
  ret : Text
  needsEnv : Bool
  pre : List RStmt
  caller : Text
  idx : Nat
  args : List (Text × Option Text)
  post : List RStmt

/-- The JNI function for a method: macroslib/src/java_jni/finterface.rs:293, 320-331. -/
def callerOf (m : IMethod) (t : FTy) : Except Err Text :=
  match m.output with
  | none => .ok (lit "CallVoidMethod")
  | some _ => orErr .callbackResult (callers.lookup t.rust)

/-- One function with the support code it needs: macroslib/src/java_jni/finterface.rs:232-361. -/
def traitFn {σ} (tm : TypeMap σ) (s : σ) (idx : Nat) (m : IMethod) (g : Sig) : Except Err (List Text × TraitFn × σ) := do
  let f ← orErr .internal m.path.getLast?
  let (d1, c1, s) ← convInputs tm 0 s m.args g.input
  let (d2, c2, s) ← convOutput tm s m g.output
  let caller ← callerOf m g.output
  .ok (d1 ++ d2, ⟨selfText m.self, f, traitParams 0 m.args, m.output.getD (lit "()"), m.output.isSome, c1, caller, idx,
    callArgs 0 g.input, c2⟩, s)

/-- The loop: macroslib/src/java_jni/finterface.rs:232-361. -/
def traitFns {σ} (tm : TypeMap σ) : Nat → σ → List IMethod → List Sig → Except Err (List Text × List TraitFn × σ)
  | n, s, m :: ms, g :: gs => do
    let (d, f, s) ← traitFn tm s n m g
    let (ds, fs, s) ← traitFns tm (n + 1) s ms gs
    .ok (d ++ ds, f :: fs, s)
  | _, s, _, _ => .ok ([], [], s)

/-- The Rust code: the conversion from `jobject` and `impl Trait for JavaCallback`. -/
structure RustCode where
  fromObject : FromObject
  support : List Text
  «trait» : Text
  fns : List TraitFn

/-- `generate_rust_code_for_interface`: macroslib/src/java_jni/finterface.rs:184-371. -/
def genRust {σ} (cfg : Cfg) (tm : TypeMap σ) (s : σ) (i : Interface) (gs : List Sig) : Except Err (RustCode × σ) := do
  let ls ← lookups cfg i.items gs
  let (ds, fs, s) ← traitFns tm 0 s i.items gs
  .ok (⟨⟨i.name, i.boxed, ls⟩, ds, i.trait, fs⟩, s)

/-! ### Registration -/

/-- The `jobject` a callback comes from: macroslib/src/java_jni/finterface.rs:40-44 and the hint of line 193. -/
def objectOf (i : Interface) : Key := ⟨jobject, some i.name⟩

/-- The code of the trait `SwigFrom`: macroslib/src/java_jni/jni-include.rs:87. -/
def fromCode : Text :=
  lit "let mut " ++ tv ++ lit ": " ++ Template.toVarType ++ lit " = <" ++ Template.toVarType ++ lit ">::swig_from(" ++ fv ++ lit ", env);"

/-- What is registered: the conversion (the `merge` of macroslib/src/java_jni/finterface.rs:227-228) and the Java type (lines 40-48). -/
def regCmds (i : Interface) : List Cmd :=
  [.rule (objectOf i) (key i.boxed) fromCode, .alloc (objectOf i) [],
   .ftype i.src [] i.name [] (some ⟨objectOf i, none⟩) (some ⟨objectOf i, none⟩)]

/-- What is produced for an interface. -/
structure Out where
  java : Text
  rust : RustCode
  reg : List Cmd

/-- `generate_interface`: macroslib/src/java_jni/finterface.rs:26-50. -/
def generate {σ} (cfg : Cfg) (tm : TypeMap σ) (s : σ) (i : Interface) : Except Err Out := do
  let (gs, s) ← findSigs tm s i.items
  let (r, _) ← genRust cfg tm s i gs
  .ok ⟨javaFile cfg i gs, r, regCmds i⟩

/-! ### Meaning of the trait functions -/

/-- What the generated function uses besides conversions: `get_jni_env` (does it give an environment? see C36), a panic, the JNI functions
(with the method id and the arguments), clearing of a pending exception, casts. -/
structure JWorld (S V : Type) extends World S V where
  hasEnv : M S V Bool
  panic : M S V V
  invoke : Text → V → List V → M S V V
  clear : M S V Unit
  cast : Text → V → V

/-- Statements one after the other. -/
def execAll {S V} (w : World S V) : (Text → V) → List RStmt → M S V (Text → V)
  | env, [] => pure env
  | env, s :: l => do
    let env ← Exported.exec w env s
    execAll w env l

/-- An argument of the JNI call. -/
def argValue {S V} (w : JWorld S V) (env : Text → V) (a : Text × Option Text) : V :=
  match a.2 with
  | some t => w.cast t (env a.1)
  | none => env a.1

/-- A call of a function of the trait, on a callback with the method ids `ids`. -/
def TraitFn.run {S V} (w : JWorld S V) (env : Text → V) (ids : List V) (f : TraitFn) (vs : List V) : M S V V := do
  let e ← w.hasEnv
  if e then do
    let env ← execAll w.toWorld (Exported.bindAll env (f.params.map (·.1)) vs) f.pre
    match ids[f.idx]? with
    | none => w.panic
    | some id => do
      let r ← w.invoke f.caller id (f.args.map (argValue w env))
      w.clear
      if f.needsEnv then Exported.runBody w.toWorld (Exported.set env (lit "ret") r) (f.post ++ [.result (lit "ret")]) else pure w.unit
  else if f.needsEnv then w.panic
  else pure w.unit

end Flapi.JavaInterface
