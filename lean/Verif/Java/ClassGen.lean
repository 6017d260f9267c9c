import Verif.Java.Code
import Verif.Lang.Comments
import Verif.Lang.Exported
/-!
# Generation of a Java class: the Java file and the exported Rust functions (model)
-/
namespace Flapi.JavaClassGen

open Flapi.JavaCode (Info Conv Fence Parts argsWithTypes convertCode staticBody methodBody constructorBody nullImports selfField)
open Flapi.JavaNames (SigMap ArgTy filterNull methodSymbol destructorSymbol)
open Flapi.CppNames (Access)
open Flapi.NameGen (newUniqueName)
open Flapi.Template (toVar toVarType fromVar)
open Flapi.Exported hiding FTy Sig TypeMap

/-- `JavaForeignTypeInfo` with its `corresponding_rust_type` (its name): macroslib/src/java_jni/mod.rs:61-66. -/
abbrev FTy := Exported.FTy Info

/-- `JniForeignMethodSignature`: macroslib/src/java_jni/mod.rs:100-103. -/
abbrev Sig := Exported.Sig Info

/-- The type map (macroslib/src/java_jni/map_type.rs, macroslib/src/typemap.rs). -/
abbrev TypeMap (σ : Type) := Exported.TypeMap σ Info

/-- The Java half of a signature. -/
def sigJ (s : Sig) : JavaCode.Sig := ⟨s.output.info, s.input.map (·.info)⟩

/-- `SelfTypeDesc`: macroslib/src/types.rs:30-33 (printed types).  `okTy` is the `T` of a constructor type `Result<T, E>`;
`holder` describes the type computed by `calc_this_type_for_method`, macroslib/src/java_jni/mod.rs:271-293. -/
structure SelfDesc where
  selfType : Text
  ctorRet : Text
  okTy : Option Text
  holder : Holder
  deriving DecidableEq

/-- `calc_this_type_for_method`: macroslib/src/java_jni/mod.rs:271-293. -/
def SelfDesc.thisTy (d : SelfDesc) : Text := d.okTy.getD d.ctorRet

/-- `ForeignClassInfo`: macroslib/src/types.rs:15-23. -/
structure Class where
  name : Text
  methods : List Method
  selfDesc : Option SelfDesc
  foreignCode : Text
  docs : List Text
  deriving DecidableEq

/-- What the generator is configured with, and the table of JNI signatures (macroslib/src/java_jni/mod.rs:50).  `isResult` is
`if_result_return_ok_err_types(_).is_some()` on printed types; `ws` is `char::is_whitespace`. -/
structure Cfg where
  package : Text
  nullPackage : Option Text
  fence : Fence
  table : SigMap
  isResult : Text → Bool
  ws : Char → Bool

/-- The foreign type of `()`: macroslib/src/java_jni/fclass.rs:807-811 (no name, for constructors), 815-819 (`void`). -/
def unitTy (name : Text) : FTy := ⟨⟨name, none, none⟩, lit "()"⟩

/-- Result of one method: macroslib/src/java_jni/fclass.rs:795-829.  The type of a constructor is mapped and forgotten. -/
def mapOutput {σ} (tm : TypeMap σ) (s : σ) (m : Method) : Except Err (FTy × σ) :=
  match m.variant with
  | .ctor => match m.output with
    | none => .ok (unitTy [], s)
    | some ty => do
      let (_, s) ← orErr .typeMap (tm.mapType s false ty)
      .ok (unitTy [], s)
  | _ => match m.output with
    | none => .ok (unitTy (lit "void"), s)
    | some ty => orErr .typeMap (tm.mapType s false ty)

/-- `find_suitable_foreign_types_for_methods`: macroslib/src/java_jni/fclass.rs:756-833. -/
def findSigs {σ} (tm : TypeMap σ) : σ → List Method → Except Err (List Sig × σ)
  | s, [] => .ok ([], s)
  | s, m :: ms => do
    let (i, s) ← mapArgs tm s m.args
    let (o, s) ← mapOutput tm s m
    let (r, s) ← findSigs tm s ms
    .ok (⟨o, i⟩ :: r, s)

/-! ### Names -/

/-- The parts of a type that the naming rules look at. -/
def argTy (t : FTy) : ArgTy := ⟨t.info.name, t.info.conv.map fun c => (c.transition, c.converter.isEmpty)⟩

/-- The variant for the naming rules. -/
def variantJ : Variant → JavaNames.Variant
  | .ctor => .constructor
  | .method _ => .method
  | .static => .static

/-- A method for the naming rules (macroslib/src/java_jni/mod.rs:239-258, macroslib/src/java_jni/rust_code.rs:61-118). -/
def nameInfo (m : Method) (g : Sig) : JavaNames.Method :=
  ⟨variantJ m.variant, m.shortName, m.isDummy, g.input.map argTy, argTy g.output⟩

/-- `method_name`: macroslib/src/java_jni/mod.rs:239-258. -/
def funcName (m : Method) (g : Sig) : Text := (nameInfo m g).nativeName

/-! ### Java side -/

/-- Access keywords: macroslib/src/java_jni/fclass.rs:134-138. -/
def accessW : Access → Text
  | .priv => lit "private"
  | .pub => lit "public"
  | .prot => lit "protected"

/-- `exception_spec`: macroslib/src/java_jni/fclass.rs:120-132. -/
def excSpec (cfg : Cfg) (m : Method) : Text :=
  match m.output with
  | none => []
  | some ty => if cfg.isResult ty then lit " throws Exception" else []

/-- Names taken by the arguments and the field: macroslib/src/java_jni/fclass.rs:146-157. -/
def knownNames (m : Method) : Except Err (List Text) :=
  if m.variant.isMethod then
    if m.argNames.contains selfField then .error .argSelfField else .ok (selfField :: m.argNames)
  else .ok m.argNames

/-- `calc_output_conv`, the code: macroslib/src/java_jni/fclass.rs:1148-1160. -/
def outputConv (ws : Char → Bool) (t : Info) (c : Conv) (ret convRet : Text) : Text :=
  let code := Comments.trim ws (filterNull (strReplace (strReplace (strReplace c.converter fromVar ret) toVarType (t.name ++ ' ' :: convRet))
    toVar convRet))
  if !code.isEmpty && code.head? ≠ some '\n' then
    '\n' :: (if JavaCode.indent.isPrefixOf code then code else JavaCode.indent ++ code)
  else code

/-- `ret_type`, `intermediate_ret_type` and `ret_conv_code`: macroslib/src/java_jni/fclass.rs:180-198. -/
def retParts (ws : Char → Bool) (m : Method) (t : Info) (ret convRet : Text) : Text × Text × Text :=
  match m.variant with
  | .ctor => (lit "long", lit "long", [])
  | _ => match t.conv with
    | some c => (t.name, c.transition, outputConv ws t c ret convRet)
    | none => (t.name, t.name, [])

/-- What is computed before the text of a member is written: the parts of its body and the type of the native function
(`intermediate_ret_type`). -/
structure Prep where
  parts : Parts
  inter : Text

/-- macroslib/src/java_jni/fclass.rs:139-203. -/
def prepare (cfg : Cfg) (m : Method) (g : Sig) : Except Err Prep := do
  let known ← knownNames m
  let ret ← orErr .internal (newUniqueName known (lit "ret"))
  let convRet ← orErr .internal (newUniqueName (ret :: known) (lit "convRet"))
  let (conv, args, fence) ← orErr .fence (convertCode cfg.fence m.variant.isMethod (convRet :: ret :: known) (sigJ g) m.argNames)
  let (retType, inter, retConv) := retParts cfg.ws m g.output.info ret convRet
  .ok ⟨⟨funcName m g, conv, args, fence, retType,
    Comments.trim cfg.ws (filterNull (if retConv.isEmpty then retType else inter)), ret, convRet, retConv⟩, inter⟩

/-- `external_args_except_self`: macroslib/src/java_jni/fclass.rs:173-178. -/
def extArgs (cfg : Cfg) (m : Method) (g : Sig) : Text := argsWithTypes false true false cfg.nullPackage.isSome (sigJ g) m.argNames
/-- The arguments of the native function: macroslib/src/java_jni/fclass.rs:284-289, 366-372, 413-420. -/
def intArgs (cfg : Cfg) (comma : Bool) (m : Method) (g : Sig) : Text :=
  argsWithTypes comma false true cfg.nullPackage.isSome (sigJ g) m.argNames

/-- The text of one member: macroslib/src/java_jni/fclass.rs:113-118, 207-427. -/
def memberText (cfg : Cfg) (c : Class) (m : Method) (g : Sig) (p : Prep) : Text :=
  Comments.docToJava cfg.ws m.docs false ++
  match m.variant with
  | .static =>
    if p.parts.conv.isEmpty && p.parts.retConv.isEmpty then
      lit "\n    " ++ accessW m.access ++ lit " static native " ++ p.parts.retType ++ lit " " ++ m.shortName ++ lit "(" ++
        extArgs cfg m g ++ lit ")" ++ excSpec cfg m ++ lit ";\n"
    else
      lit "\n    " ++ accessW m.access ++ lit " static " ++ p.parts.retType ++ lit " " ++ m.shortName ++ lit "(" ++
        extArgs cfg m g ++ lit ")" ++ excSpec cfg m ++ lit " {\n" ++ staticBody p.parts ++
      lit "\n    private static native " ++ p.inter ++ lit " " ++ p.parts.func ++ lit "(" ++ intArgs cfg false m g ++ lit ")" ++
        excSpec cfg m ++ lit ";\n"
  | .method _ =>
    lit "\n    " ++ accessW m.access ++ lit " final " ++ p.parts.retType ++ lit " " ++ m.shortName ++ lit "(" ++
      extArgs cfg m g ++ lit ")" ++ excSpec cfg m ++ lit " {" ++ methodBody p.parts ++
    lit "\n    private static native " ++ p.inter ++ lit " " ++ p.parts.func ++ lit "(long self" ++ intArgs cfg true m g ++ lit ")" ++
      excSpec cfg m ++ lit ";\n"
  | .ctor =>
    if m.isDummy then lit "\n    " ++ accessW m.access ++ lit " " ++ c.name ++ lit "() {}\n"
    else
      lit "\n    " ++ accessW m.access ++ lit " " ++ c.name ++ lit "(" ++ extArgs cfg m g ++ lit ")" ++ excSpec cfg m ++ lit " {\n" ++
        constructorBody p.parts ++
      lit "\n    private static native long " ++ p.parts.func ++ lit "(" ++ intArgs cfg false m g ++ lit ")" ++
        excSpec cfg m ++ lit ";\n"

/-- The loop: macroslib/src/java_jni/fclass.rs:112-428. -/
def members (cfg : Cfg) (c : Class) : List Method → List Sig → Except Err Text
  | m :: ms, g :: gs => do
    let p ← prepare cfg m g
    let r ← members cfg c ms gs
    .ok (memberText cfg c m g p ++ r)
  | _, _ => .ok []

/-- The beginning of the file: macroslib/src/java_jni/fclass.rs:92-107. -/
def javaHead (cfg : Cfg) (c : Class) (sigs : List Sig) : Text :=
  lit "// Automatically generated by flapigen\npackage " ++ cfg.package ++ lit ";\n" ++ nullImports cfg.nullPackage (sigs.map sigJ) ++
  lit "\n" ++ Comments.docToJava cfg.ws c.docs true ++ lit "\npublic final class " ++ c.name ++ lit " {\n"

/-- `have_constructor`. -/
def Class.hasCtor (c : Class) : Bool := c.methods.any fun m => m.variant = .ctor
/-- `have_methods`. -/
def Class.hasMethods (c : Class) : Bool := c.methods.any fun m => m.variant.isMethod

/-- What every class with objects gets: macroslib/src/java_jni/fclass.rs:441-471. -/
def lifeText (c : Class) : Text :=
  lit ("\n    public synchronized void delete() {\n        if (mNativeObj != 0) {\n            do_delete(mNativeObj);\n" ++
    "            mNativeObj = 0;\n       }\n    }\n    @Override\n    protected void finalize() throws Throwable {\n" ++
    "        try {\n            delete();\n        }\n        finally {\n             super.finalize();\n        }\n    }\n" ++
    "    private static native void do_delete(long me);\n    /*package*/ ") ++ c.name ++
  lit ("(InternalPointerMarker marker, long ptr) {\n        assert marker == InternalPointerMarker.RAW_PTR;\n" ++
    "        this.mNativeObj = ptr;\n    }\n    /*package*/ long mNativeObj;\n")

/-- The private constructor of a class that has only static methods: macroslib/src/java_jni/fclass.rs:475-483. -/
def utilText (c : Class) : Text := lit "\n    private " ++ c.name ++ lit "() {}\n"

/-- `generate_java_code`: macroslib/src/java_jni/fclass.rs:83-502.  Left out: the extension handlers (C07) and writing the file
(C05). -/
def generateJava (cfg : Cfg) (c : Class) (sigs : List Sig) : Except Err Text := do
  let ms ← members cfg c c.methods sigs
  if c.hasMethods && !c.hasCtor then .error .noConstructor
  else
    .ok (javaHead cfg c sigs ++ ms ++ (if c.hasCtor then lifeText c else []) ++
      (if !c.hasCtor && !c.hasMethods then utilText c else []) ++ c.foreignCode ++ lit "}")

/-! ### Rust side -/

/-- The parameters every native function has: `env: *mut JNIEnv, _: jclass` (macroslib/src/java_jni/fclass.rs:733, 860, 925,
1010). -/
def jniParams : List (Text × Text) := [(lit "env", lit "*mut JNIEnv"), (lit "_", lit "jclass")]

/-- `jlong` -/
def jlong : Text := lit "jlong"

/-- `this_type_for_method`: macroslib/src/java_jni/fclass.rs:519-590. -/
def Class.pointee (c : Class) : Text := (c.selfDesc.map (·.holder.inner)).getD (lit "()")
/-- `class.self_type_as_ty()`: macroslib/src/types.rs:39-45. -/
def Class.selfTy (c : Class) : Text := (c.selfDesc.map (·.selfType)).getD (lit "()")

/-- `generate_static_method`: macroslib/src/java_jni/fclass.rs:835-883. -/
def genStatic {σ} (tm : TypeMap σ) (s : σ) (fname : Text) (m : Method) (sig : Sig) (ret : Text) :
    Except Err (List RItem × σ) := do
  let (dOut, cOut, s) ← convOutput tm s m sig.output ret
  let (dIn, cIn, s) ← convInputs tm sig.output.rust s m.args sig.input
  .ok ((dOut ++ dIn).map .support ++
    [.fn ⟨fname, jniParams ++ rustArgs m sig, sig.output.rust,
      cIn ++ [.call ret m.realOutput m.call] ++ cOut ++ [.result ret]⟩], s)

/-- `generate_method`: macroslib/src/java_jni/fclass.rs:954-1039. -/
def genMethod {σ} (tm : TypeMap σ) (s : σ) (c : Class) (v : SelfVar) (fname : Text) (m : Method) (sig : Sig) (ret : Text) :
    Except Err (List RItem × σ) := do
  let (dIn, cIn, s) ← convInputs tm sig.output.rust s m.args sig.input
  let (dOut, cOut, s) ← convOutput tm s m sig.output ret
  let (fr, tt) ← suitableTypes v c.pointee c.selfTy
  let (dThis, cThis, s) ← orErr .typeMap (tm.convert s fr tt thisW sig.output.rust)
  .ok ((dIn ++ dOut ++ dThis).map .support ++
    [.fn ⟨fname, jniParams ++ (thisW, jlong) :: rustArgs m sig, sig.output.rust,
      cIn ++ [.refThis fr, .conv thisW cThis, .call ret m.realOutput m.call] ++ cOut ++ [.result ret]⟩], s)

/-- The type the constructor's result is converted to: macroslib/src/java_jni/fclass.rs:908-914. -/
def SelfDesc.target (d : SelfDesc) : Text := if d.okTy.isSome then jlong else d.thisTy

/-- `box_this`: the conversion of a `Result` gives the pointer already (macroslib/src/java_jni/fclass.rs:937-942). -/
def SelfDesc.box (d : SelfDesc) : Option Holder := if d.okTy.isSome then none else some d.holder

/-- `generate_constructor`: macroslib/src/java_jni/fclass.rs:885-952. -/
def genCtor {σ} (tm : TypeMap σ) (s : σ) (d : SelfDesc) (fname : Text) (m : Method) (sig : Sig) :
    Except Err (List RItem × σ) := do
  let (dIn, cIn, s) ← convInputs tm jlong s m.args sig.input
  let (dThis, cThis, s) ← orErr .typeMap (tm.convert s d.ctorRet d.target thisW jlong)
  .ok ((dIn ++ dThis).map .support ++
    [.fn ⟨fname, jniParams ++ rustArgs m sig, jlong,
      cIn ++ ([.call thisW m.realOutput m.call, .conv thisW cThis] ++ (d.box.map RStmt.toHeap).toList ++ [.thisPtr])⟩], s)

/-- The names taken in the exported function: macroslib/src/java_jni/fclass.rs:620-633. -/
def rustKnown (m : Method) : Except Err (List Text) :=
  if m.variant.isMethod then
    if m.argNames.contains thisW then .error .argThis else .ok (thisW :: m.argNames)
  else .ok m.argNames

/-- The body of the loop over the methods: macroslib/src/java_jni/fclass.rs:606-695; `all` are all methods with their types,
needed for the overloading count. -/
def rustOf {σ} (cfg : Cfg) (tm : TypeMap σ) (s : σ) (c : Class) (all : List (Method × Sig)) (m : Method) (g : Sig) :
    Except Err (List RItem × σ) := do
  let fname ← orErr .unknownJavaType
    (methodSymbol cfg.table cfg.package c.name (all.map fun p => nameInfo p.1 p.2) (nameInfo m g))
  let known ← rustKnown m
  let ret ← orErr .internal (newUniqueName known (lit "ret"))
  match m.variant with
  | .static => genStatic tm s fname m g ret
  | .method v => genMethod tm s c v fname m g ret
  | .ctor =>
    if m.isDummy then .ok ([], s)
    else do
      let d ← orErr .noThisInfo c.selfDesc
      genCtor tm s d fname m g

/-- The loop: macroslib/src/java_jni/fclass.rs:606-695. -/
def rustLoop {σ} (cfg : Cfg) (tm : TypeMap σ) (c : Class) (all : List (Method × Sig)) : σ → List (Method × Sig) →
    Except Err (List RItem × σ)
  | s, [] => .ok ([], s)
  | s, (m, g) :: l => do
    let (r, s) ← rustOf cfg tm s c all m g
    let (rs, s) ← rustLoop cfg tm c all s l
    .ok (r ++ rs, s)

/-- The destructor: macroslib/src/java_jni/fclass.rs:697-751. -/
def dtorItems (cfg : Cfg) (c : Class) : Except Err (List RItem) :=
  if c.hasCtor then do
    let d ← orErr .noThisInfo c.selfDesc
    let f ← orErr .unknownJavaType (destructorSymbol cfg.table cfg.package c.name)
    .ok [.fn ⟨f, jniParams ++ [(thisW, jlong)], lit "()", [.refThis (lit "*mut " ++ c.pointee), .fromHeap d.holder false, .dropThis]⟩]
  else .ok []

/-- `generate_rust_code`: macroslib/src/java_jni/fclass.rs:504-754. -/
def generateRust {σ} (cfg : Cfg) (tm : TypeMap σ) (s : σ) (c : Class) (sigs : List Sig) : Except Err (List RItem) := do
  let (rs, _) ← rustLoop cfg tm c (c.methods.zip sigs) s (c.methods.zip sigs)
  let dr ← dtorItems cfg c
  .ok ((match c.selfDesc with | some d => [RItem.classImpl d.thisTy] | none => []) ++ rs ++ dr)

/-- What is produced for a class. -/
structure Out where
  java : Text
  rust : List RItem

/-- `generate`: macroslib/src/java_jni/fclass.rs:35-71.  The table of JNI signatures is extended afterwards (C31). -/
def generate {σ} (cfg : Cfg) (tm : TypeMap σ) (s : σ) (c : Class) : Except Err Out := do
  let (sigs, s) ← findSigs tm s c.methods
  let java ← generateJava cfg c sigs
  let rust ← generateRust cfg tm s c sigs
  .ok ⟨java, rust⟩

end Flapi.JavaClassGen
