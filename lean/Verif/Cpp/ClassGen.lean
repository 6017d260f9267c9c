import Verif.Cpp.Args
import Verif.Cpp.Names
import Verif.Lang.Comments
import Verif.Lang.Exported
/-!
# Generation of a C++ class: C prototypes, exported Rust functions and C++ members (model)
-/
namespace Flapi.CppClassGen

open Flapi.Cpp (TypeInfo MethodSig Converter cArgsWithTypes cppArgsWithTypes convertArgs comma)
open Flapi.CppNames (Access cFuncName cppRetType)
open Flapi.NameGen (newUniqueName)
open Flapi.Template
open Flapi.Exported hiding FTy Sig TypeMap

/-- `SelfTypeDesc`: macroslib/src/types.rs:30-33 (printed types). -/
structure SelfDesc where
  selfType : Text
  ctorRet : Text
  holder : Holder
  deriving DecidableEq

/-- `ForeignClassInfo`: macroslib/src/types.rs:15-23. -/
structure Class where
  name : Text
  methods : List Method
  selfDesc : Option SelfDesc
  foreignCode : Text
  docs : List Text
  derives : List Text
  deriving DecidableEq

/-- `copy_derived`: macroslib/src/types.rs:77-79. -/
def Class.copyDerived (c : Class) : Bool := c.derives.contains (lit "Copy")
/-- `smart_ptr_copy_derived`: macroslib/src/types.rs:80-82; `SMART_PTR_COPY_TRAIT`, macroslib/src/lib.rs:70. -/
def Class.smartPtrCopyDerived (c : Class) : Bool := c.derives.contains (lit "SmartPtrCopy")
/-- `need_plain_class`: macroslib/src/cpp/fclass.rs:1420-1423; `PLAIN_CLASS`, macroslib/src/lib.rs:73. -/
def Class.plain (c : Class) : Bool := c.derives.contains (lit "PlainClass")

/-- `static_only`: macroslib/src/cpp/fclass.rs:100-103. -/
def Class.staticOnly (c : Class) : Bool := c.methods.all fun m => m.variant = .static

/-- `class_name` of the generated C++ class: macroslib/src/cpp/fclass.rs:112-117. -/
def Class.cppName (c : Class) : Text := if c.plain then c.name else c.name ++ lit "Wrapper"

/-- `c_class_type`: macroslib/src/cpp/cpp_code.rs:63-65. -/
def Class.opaque (c : Class) : Text := c.name ++ lit "Opaque"

/-- `c_func_name`: macroslib/src/cpp/mod.rs:387-389. -/
def Class.func (c : Class) (m : Method) : Text := cFuncName m.access c.name m.shortName

/-- `CppForeignTypeInfo` with its `corresponding_rust_type` (its name): macroslib/src/cpp/mod.rs:78-83, macroslib/src/typemap/ty.rs. -/
abbrev FTy := Exported.FTy TypeInfo

/-- `CppForeignMethodSignature`: macroslib/src/cpp/mod.rs:193-196. -/
abbrev Sig := Exported.Sig TypeInfo

/-- The type map (macroslib/src/cpp/map_type.rs, macroslib/src/typemap.rs). -/
abbrev TypeMap (σ : Type) := Exported.TypeMap σ TypeInfo

/-- The C/C++ half of a signature. -/
def sigC (s : Sig) : MethodSig := ⟨s.output.info, s.input.map (·.info)⟩

/-- The foreign type of `()`: macroslib/src/cpp/fclass.rs:1039-1043 (`void`), 1033-1037 (no name, for constructors). -/
def unitTy (name : Text) : FTy := ⟨⟨name, [], none, false⟩, lit "()"⟩

/-- Result of one method: macroslib/src/cpp/fclass.rs:1032-1054. -/
def mapOutput {σ} (tm : TypeMap σ) (s : σ) (m : Method) : Except Err (FTy × σ) :=
  match m.variant with
  | .ctor => .ok (unitTy [], s)
  | _ => match m.output with
    | none => .ok (unitTy (lit "void"), s)
    | some ty => orErr .typeMap (tm.mapType s false ty)

/-- `find_suitable_foreign_types_for_methods`: macroslib/src/cpp/fclass.rs:1001-1058. -/
def findSigs {σ} (tm : TypeMap σ) : σ → List Method → Except Err (List Sig × σ)
  | s, [] => .ok ([], s)
  | s, m :: ms => do
    let (i, s) ← mapArgs tm s m.args
    let (o, s) ← mapOutput tm s m
    let (r, s) ← findSigs tm s ms
    .ok (⟨o, i⟩ :: r, s)

/-! ### Rust side -/

/-- `generate_static_method`: macroslib/src/cpp/fclass.rs:793-843. -/
def genStatic {σ} (tm : TypeMap σ) (s : σ) (fname : Text) (m : Method) (sig : Sig) (ret : Text) :
    Except Err (List RItem × σ) := do
  let (dOut, cOut, s) ← convOutput tm s m sig.output ret
  let (dIn, cIn, s) ← convInputs tm sig.output.rust s m.args sig.input
  .ok ((dIn ++ dOut).map .support ++
    [.fn ⟨fname, rustArgs m sig, sig.output.rust,
      cIn ++ [.call ret m.realOutput m.call] ++ cOut ++ [.result ret]⟩], s)

/-- `*mut T` -/
def mutPtr (t : Text) : Text := lit "*mut " ++ t
/-- `*const T` -/
def constPtr (t : Text) : Text := lit "*const " ++ t
/-- `::std::os::raw::c_void` -/
def cVoid : Text := lit "::std::os::raw::c_void"

/-- `class.self_type_as_ty()`: macroslib/src/types.rs:39-45. -/
def Class.selfTy (c : Class) : Text := (c.selfDesc.map (·.selfType)).getD (lit "()")
/-- `this_type_for_method`: macroslib/src/cpp/fclass.rs:136-170. -/
def Class.thisTy (c : Class) : Text := (c.selfDesc.map (·.holder.inner)).getD (lit "()")

/-- `generate_method`: macroslib/src/cpp/fclass.rs:845-928. -/
def genMethod {σ} (tm : TypeMap σ) (s : σ) (c : Class) (v : SelfVar) (fname : Text) (m : Method) (sig : Sig) (ret : Text) :
    Except Err (List RItem × σ) := do
  let (dIn, cIn, s) ← convInputs tm sig.output.rust s m.args sig.input
  let (dOut, cOut, s) ← convOutput tm s m sig.output ret
  let (fr, tt) ← suitableTypes v c.thisTy c.selfTy
  let (dThis, cThis, s) ← orErr .typeMap (tm.convert s fr tt thisW sig.output.rust)
  .ok ((dIn ++ dOut ++ dThis).map .support ++
    [.fn ⟨fname, (thisW, mutPtr c.thisTy) :: rustArgs m sig, sig.output.rust,
      cIn ++ [.refThis fr, .conv thisW cThis, .call ret m.realOutput m.call] ++ cOut ++ [.result ret]⟩], s)

/-- `generate_constructor`: macroslib/src/cpp/fclass.rs:930-984 (both types are the type the constructor returns, 583-596). -/
def genCtor {σ} (tm : TypeMap σ) (s : σ) (d : SelfDesc) (fname : Text) (m : Method) (sig : Sig) :
    Except Err (List RItem × σ) := do
  let (dIn, cIn, s) ← convInputs tm d.ctorRet s m.args sig.input
  let (dThis, cThis, s) ← orErr .typeMap (tm.convert s d.ctorRet d.ctorRet thisW d.ctorRet)
  .ok ((dIn ++ dThis).map .support ++
    [.fn ⟨fname, rustArgs m sig, constPtr cVoid,
      cIn ++ ([.call thisW d.ctorRet m.call, .conv thisW cThis] ++ [.toHeap d.holder] ++ [.thisPtr])⟩], s)

/-- The destructor: macroslib/src/cpp/fclass.rs:603-631. -/
def dtorFn (c : Class) (d : SelfDesc) : RustFn :=
  ⟨c.name ++ lit "_delete", [(thisW, mutPtr c.thisTy)], lit "()", [.fromHeap d.holder false, .dropThis]⟩

/-- The clone function of a `SmartPtrCopy` class: macroslib/src/cpp/fclass.rs:1344-1366. -/
def cloneFn (c : Class) (d : SelfDesc) : RustFn :=
  ⟨cFuncName .priv c.name (lit "clone"), [(thisW, constPtr d.holder.inner)], mutPtr cVoid,
    [.fromHeap d.holder true, .cloneThis]⟩

/-! ### C and C++ side -/

/-- A piece of the class body in the C++ header. -/
inductive Piece
  /-- `public:` and so on -/
  | label (a : Access)
  /-- a member of the class -/
  | member (t : Text)
  deriving DecidableEq

/-- Access keywords: macroslib/src/cpp/fclass.rs:192-196. -/
def accessW : Access → Text
  | .priv => lit "private"
  | .pub => lit "public"
  | .prot => lit "protected"

/-- What has been generated so far.  `access` is `last_cpp_access`. -/
structure St (σ : Type) where
  cHdr : Text
  cpp : List Piece
  impl : Text
  rust : List RItem
  access : Option Access
  needDtor : Bool
  tm : σ

/-- The names taken by the arguments and `this`: macroslib/src/cpp/fclass.rs:221-232. -/
def knownNames (m : Method) : Except Err (List Text) :=
  if m.variant.isMethod then
    if m.argNames.contains thisW then .error .argThis else .ok (thisW :: m.argNames)
  else .ok m.argNames

/-- The checks on arguments that are turned into results: macroslib/src/cpp/fclass.rs:256-279; the argument found so far is
passed along. -/
def inOut (m : Method) : Option (FTy × Text) → List (FTy × Text) → Except Err (Option (FTy × Text))
  | cur, [] => .ok cur
  | cur, (t, n) :: l =>
    if t.info.inputToOutput then
      if m.variant = .ctor then .error .inOutConstructor
      else if cur.isSome then .error .inOutTwo
      else if m.output.isSome then .error .inOutReturn
      else inOut m (some (t, n)) l
    else inOut m cur l

/-- `cpp_ret_type` and `convert_ret_for_cpp`: macroslib/src/cpp/fclass.rs:300-349. -/
def retCode (io : Option (FTy × Text)) (out : FTy) (ret convRet : Text) (known : List Text) : Except Err (Text × Text) :=
  let t := (io.map (·.1)).getD out
  match t.info.converter with
  | some cv =>
    if io.isNone then do
      let (code, _) ← orErr .internal
        (cv.code.generateWithSubst (cppSubst ret (cv.typename ++ ' ' :: convRet) convRet) known)
      if cv.code.hasParam toVarType then
        .ok (cppRetType cv.typename, code ++ lit "\n        return " ++ convRet ++ lit ";")
      else .ok (cppRetType cv.typename, lit "        return " ++ code ++ lit ";")
    else .ok (cppRetType cv.typename, lit "        return " ++ ret ++ lit ";")
  | none => .ok (cppRetType t.info.name, lit "        return " ++ ret ++ lit ";")

/-- `input_to_output_ret_code`: macroslib/src/cpp/fclass.rs:351-360. -/
def inOutRet : Option (FTy × Text) → Text
  | some (_, n) => lit "\n        return " ++ n ++ lit ";\n"
  | none => []

/-- The head of the definition of a member function: macroslib/src/cpp/fclass.rs:384-412, 472-498. -/
def implHead (c : Class) (retTy name args tail : Text) : Text :=
  if c.plain then
    lit "\n    inline " ++ retTy ++ lit " " ++ c.cppName ++ lit "::" ++ name ++ lit "(" ++ args ++ lit ") " ++ tail ++
      lit "noexcept\n    {\n"
  else
    lit "\n    template<bool OWN_DATA>\n    inline " ++ retTy ++ lit " " ++ c.cppName ++ lit "<OWN_DATA>::" ++ name ++
      lit "(" ++ args ++ lit ") " ++ tail ++ lit "noexcept\n    {\n"

/-- The call of the exported function and the end of the member function: macroslib/src/cpp/fclass.rs:414-439, 500-533. -/
def implCall (out : TypeInfo) (fname args ret convRet : Text) (io : Option (FTy × Text)) : Text :=
  if out.name ≠ lit "void" then
    lit "\n        " ++ out.name ++ lit " " ++ ret ++ lit " = " ++ fname ++ lit "(" ++ args ++ lit ");\n" ++ convRet ++
      lit "\n    }\n"
  else lit "\n        " ++ fname ++ lit "(" ++ args ++ lit ");" ++ inOutRet io ++ lit "\n    }\n"

/-- `const ` for methods that take `&self`: macroslib/src/cpp/fclass.rs:444-448. -/
def constIf (v : SelfVar) : Text := if v.readOnly then lit "const " else []

/-- What the loop body computes before looking at the variant: macroslib/src/cpp/fclass.rs:188-360. -/
structure Prep where
  cArgs : Text
  cppArgs : Text
  convCode : Text
  callArgs : Text
  ret : Text
  retTy : Text
  convRet : Text
  io : Option (FTy × Text)

/-- macroslib/src/cpp/fclass.rs:207-360. -/
def prepare (m : Method) (sig : Sig) : Except Err Prep := do
  let known ← knownNames m
  let ret ← orErr .internal (newUniqueName known (lit "ret"))
  let convRet ← orErr .internal (newUniqueName (ret :: known) (lit "conv_ret"))
  let (convCode, callArgs, known') ← orErr .internal (convertArgs (sigC sig) (convRet :: ret :: known) m.argNames)
  let io ← inOut m none (sig.input.zip m.argNames)
  let (retTy, conv) ← retCode io sig.output ret convRet known'
  .ok ⟨cArgsWithTypes (sigC sig) m.argNames false, cppArgsWithTypes (sigC sig) m.argNames, convCode, callArgs, ret, retTy, conv, io⟩

/-- The access label: macroslib/src/cpp/fclass.rs:197-203. -/
def labelIf (last : Option Access) (a : Access) : List Piece := if last = some a then [] else [.label a]

/-- The comments of a method (`doc_comments_to_c_comments`, C60); `ws` are the white space characters. -/
abbrev docs (ws : Char → Bool) (m : Method) : Text := Flapi.Comments.docToC ws m.docs false

/-- The arguments of the call in a method, after `this->self_`: macroslib/src/cpp/fclass.rs:215-219, 510-514. -/
def afterSelf (m : Method) (args : Text) : Text := if m.args.isEmpty then [] else comma ++ args

/-- What one pass of the loop appends: to the C header, to the C++ class, to the definitions and to the Rust code. -/
def St.add {σ} (st : St σ) (hdr : Text) (cpp : List Piece) (impl : Text) (rs : List RItem) (a : Access) (ctor : Bool) (s : σ) :
    St σ :=
  ⟨st.cHdr ++ hdr, st.cpp ++ cpp, st.impl ++ impl, st.rust ++ rs, some a, st.needDtor || ctor, s⟩

/-- The body of the loop over the methods: macroslib/src/cpp/fclass.rs:188-599. -/
def step {σ} (ws : Char → Bool) (tm : TypeMap σ) (c : Class) (st : St σ) (m : Method) (sig : Sig) :
    Except Err (St σ) := do
  let p ← prepare m sig
  let fname := c.func m
  let doc := docs ws m
  let lab := labelIf st.access m.access
  match m.variant with
  | .static =>
    let (rs, s) ← genStatic tm st.tm fname m sig p.ret
    .ok (st.add (doc ++ lit "\n    " ++ sig.output.info.name ++ lit " " ++ fname ++ lit "(" ++ p.cArgs ++ lit ");\n")
      (lab ++ [.member (doc ++ lit "\n    static " ++ p.retTy ++ lit " " ++ m.shortName ++ lit "(" ++
        p.cppArgs ++ lit ") noexcept;\n")])
      (implHead c p.retTy m.shortName p.cppArgs [] ++ p.convCode ++
        implCall sig.output.info fname p.callArgs p.ret p.convRet p.io)
      rs m.access false s)
  | .method v =>
    let (rs, s) ← genMethod tm st.tm c v fname m sig p.ret
    let commaArgs := if p.cArgs.isEmpty then [] else comma ++ p.cArgs
    .ok (st.add (doc ++ lit "\n    " ++ sig.output.info.name ++ lit " " ++ fname ++ lit "(" ++ constIf v ++ c.opaque ++
        lit " * const self" ++ commaArgs ++ lit ");\n")
      (lab ++ [.member (doc ++ lit "\n    " ++ p.retTy ++ lit " " ++ m.shortName ++ lit "(" ++ p.cppArgs ++
        lit ") " ++ constIf v ++ lit "noexcept;\n")])
      (implHead c p.retTy m.shortName p.cppArgs (constIf v) ++ p.convCode ++
        implCall sig.output.info fname (lit "this->self_" ++ afterSelf m p.callArgs) p.ret p.convRet p.io)
      rs m.access false s)
  | .ctor =>
    if m.isDummy then
      .ok (st.add doc (lab ++ [.member (doc ++ lit "\n    " ++ c.cppName ++ lit "() noexcept {}\n")]) [] [] m.access true st.tm)
    else do
      let d ← orErr .noThisInfo c.selfDesc
      let (rs, s) ← genCtor tm st.tm d fname m sig
      .ok (st.add (doc ++ lit "\n    " ++ c.opaque ++ lit " *" ++ fname ++ lit "(" ++ p.cArgs ++ lit ");\n")
        (lab ++ [.member (doc ++ lit "\n    " ++ c.cppName ++ lit "(" ++ p.cppArgs ++ lit ") noexcept\n    {\n" ++
          p.convCode ++ lit "\n        this->self_ = " ++ fname ++ lit "(" ++ p.callArgs ++
          lit ");\n        if (this->self_ == nullptr) {\n            std::abort();\n        }\n    }\n")])
        [] rs m.access true s)

/-- The loop: macroslib/src/cpp/fclass.rs:187-600. -/
def loop {σ} (ws : Char → Bool) (tm : TypeMap σ) (c : Class) : St σ → List Method → List Sig → Except Err (St σ)
  | st, m :: ms, g :: gs => do
    let st ← step ws tm c st m g
    loop ws tm c st ms gs
  | st, _, _ => .ok st

/-- `generate_c_header_preamble`: macroslib/src/cpp/fclass.rs:1060-1096; `width` is the number of bytes of a pointer. -/
def cPreamble (ws : Char → Bool) (width : Nat) (c : Class) : Text :=
  lit "// Automatically generated by flapigen\n" ++ Flapi.Comments.docToC ws c.docs true ++
  lit ("\n#pragma once\n\n//for (u)intX_t types\n#include <stdint.h>\n\n#ifdef __cplusplus\n" ++
   "static_assert(sizeof(uintptr_t) == sizeof(uint8_t) * ") ++ dec width ++
  lit ",\n   \"our conversion usize <-> uintptr_t is wrong\");\nextern \"C\" {\n#endif\n" ++
  (if c.staticOnly then [] else lit "\n\n    typedef struct " ++ c.opaque ++ lit " " ++ c.opaque ++ lit ";\n")

/-- The end of the C header: macroslib/src/cpp/fclass.rs:675-683. -/
def cEnd : Text := lit "\n#ifdef __cplusplus\n}\n#endif\n\n"

/-- The copy constructor and assignment call this function: macroslib/src/cpp/fclass.rs:1297-1328, 1375-1406.  Of the two
members only the call is kept; without `Copy` or `SmartPtrCopy` they are deleted (1407-1416). -/
def copyMember (fname : Text) : Piece := .member (lit "self_ = " ++ fname ++ lit "(o.self_);")

/-- `generate_copy_stuff`: macroslib/src/cpp/fclass.rs:1259-1418; the C declaration, the Rust items and the C++ members. -/
def copyStuff (c : Class) : Except Err (Text × List RItem × List Piece) :=
  if c.copyDerived then do
    let m ← orErr .noClone (c.methods.find? fun m => m.path.getLast? = some (lit "clone"))
    .ok ([], [], [copyMember (c.func m)])
  else if c.smartPtrCopyDerived then do
    let d ← orErr .noSmartConstructor c.selfDesc
    let f := cFuncName .priv c.name (lit "clone")
    .ok (lit "\n    " ++ c.opaque ++ lit " *" ++ f ++ lit "(const " ++ c.opaque ++ lit " *);\n", [.fn (cloneFn c d)],
      [copyMember f])
  else .ok ([], [], [])

/-- Only classes with objects can be copied: macroslib/src/cpp/fclass.rs:1246-1255. -/
def copyPart (c : Class) : Except Err (Text × List RItem × List Piece) :=
  if c.staticOnly then .ok ([], [], []) else copyStuff c

/-- The destructor: macroslib/src/cpp/fclass.rs:602-673; the C declaration, the Rust items and the C++ members. -/
def dtorStuff (c : Class) (need : Bool) : Except Err (Text × List RItem × List Piece) :=
  if need then do
    let d ← orErr .noThisInfo c.selfDesc
    let f := c.name ++ lit "_delete"
    .ok (lit "\n    void " ++ f ++ lit "(const " ++ c.opaque ++ lit " *self);\n", [.fn (dtorFn c d)],
      [.label .priv, .member (lit "   static void free_mem(SelfType &p) noexcept\n   {\n        if (" ++
        (if c.plain then [] else lit "OWN_DATA && ") ++ lit "p != nullptr) {\n            " ++ f ++
        lit "(p);\n        }\n        p = nullptr;\n   }\n"),
       .label .pub, .member (lit "    ~" ++ c.cppName ++ lit "() noexcept\n    {\n        free_mem(this->self_);\n    }\n")])
  else if !c.staticOnly then
    .ok ([], [], [.label .priv, .member (lit "   static void free_mem(SelfType &) noexcept\n   {\n   }\n")])
  else .ok ([], [], [])

/-- The user's own members: macroslib/src/cpp/fclass.rs:685-687. -/
def foreignStuff (c : Class) : List Piece :=
  if c.foreignCode.isEmpty then [] else [.member (lit "\n" ++ c.foreignCode ++ lit "\n")]

/-- The field: macroslib/src/cpp/fclass.rs:688-703. -/
def fieldStuff (c : Class) : List Piece := if c.staticOnly then [] else [.label .priv, .member (lit "    SelfType self_;\n")]

/-- What is produced for a class: the C header, the body of the C++ class after the fixed members, the definitions of the
member functions, and the Rust items. -/
structure Out where
  cHdr : Text
  cpp : List Piece
  impl : Text
  rust : List RItem

/-- `do_generate`: macroslib/src/cpp/fclass.rs:70-791.  Left out: the includes (C22), the fixed members of the C++ class
(C42), the forward declaration header, the extension handlers (C07) and writing the files (C05). -/
def doGenerate {σ} (ws : Char → Bool) (width : Nat) (tm : TypeMap σ) (s : σ) (c : Class) (sigs : List Sig) :
    Except Err Out := do
  let (cc, cr, cm) ← copyPart c
  let impls : List RItem := match c.selfDesc with | some d => [.classImpl d.ctorRet] | none => []
  let st ← loop ws tm c ⟨cPreamble ws width c ++ cc, cm, [], cr ++ impls, some .pub, false, s⟩ c.methods sigs
  let (dc, dr, dm) ← dtorStuff c st.needDtor
  .ok ⟨st.cHdr ++ dc ++ cEnd, st.cpp ++ dm ++ foreignStuff c ++ fieldStuff c, st.impl, st.rust ++ dr⟩

/-- `generate`: macroslib/src/cpp/fclass.rs:35-68. -/
def generate {σ} (ws : Char → Bool) (width : Nat) (tm : TypeMap σ) (s : σ) (c : Class) : Except Err Out :=
  if (c.methods.any fun m => m.variant.isMethod) && !(c.methods.any fun m => m.variant = .ctor) then .error .noConstructor
  else do
    let (sigs, s) ← findSigs tm s c.methods
    doGenerate ws width tm s c sigs

end Flapi.CppClassGen
