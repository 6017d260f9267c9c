import Verif.Cpp.Args
import Verif.Lang.Comments
import Verif.Lang.Register
/-!
# C++: code generated for `foreign_callback!` (`foreign_interface!`): the C struct, the C++ class, the Rust struct and its trait (model)

The Rust texts are parsed by `syn` before they are used, so only their structure is kept.  Left out: writing the files (C05).
-/
namespace Flapi.CppInterface

open Flapi.Cpp (TypeInfo MethodSig Converter cArgsWithTypes cppArgsWithTypes convertArgs comma requiredIncludes)
open Flapi.NameGen (newUniqueName)
open Flapi.Exported (lit SelfVar RStmt RustFn Err orErr Call)
open Flapi.Register (Cmd Key key FRuleN refOf mutRefOf mutPtrOf fv tv)

/-- `ForeignInterfaceMethod`: macroslib/src/types.rs:286-291.  `path` are the segments of `rust_name`; `args` are the names and the
printed types without `self`; `output` is the printed return type, if one is written. -/
structure IMethod where
  name : Text
  path : List Text
  self : SelfVar
  args : List (Text × Text)
  output : Option Text
  docs : List Text

/-- `ForeignInterface`: macroslib/src/types.rs:269-275.  `trait` is the first bound of `self_type`, `object` the whole of it. -/
structure Interface where
  name : Text
  «trait» : Text
  object : Text
  docs : List Text
  items : List IMethod
  src : Option Nat

/-- `arg_names_without_self`: macroslib/src/types.rs:294-300. -/
def IMethod.argNames (m : IMethod) : List Text := m.args.map (·.1)

/-- `CppForeignTypeInfo` with the name of its Rust type. -/
abbrev FTy := Exported.FTy TypeInfo
/-- `CppForeignMethodSignature`. -/
abbrev Sig := Exported.Sig TypeInfo
/-- The type map; `true` is the incoming direction. -/
abbrev TypeMap (σ : Type) := Exported.TypeMap σ TypeInfo

/-- The C and C++ half of a signature. -/
def sigC (s : Sig) : MethodSig := ⟨s.output.info, s.input.map (·.info)⟩

/-- `void`: macroslib/src/cpp/finterface.rs:322, 347-352. -/
def voidTy : FTy := ⟨⟨lit "void", [], none, false⟩, lit "()"⟩

/-- Types of the arguments, which go out of Rust: macroslib/src/cpp/finterface.rs:332-346. -/
def mapArgs {σ} (tm : TypeMap σ) : σ → List (Text × Text) → Except Err (List FTy × σ)
  | s, [] => .ok ([], s)
  | s, (_, ty) :: as => do
    let (t, s) ← orErr .typeMap (tm.mapType s false ty)
    let (ts, s) ← mapArgs tm s as
    .ok (t :: ts, s)

/-- Type of the result, which comes into Rust: macroslib/src/cpp/finterface.rs:347-364. -/
def mapOutput {σ} (tm : TypeMap σ) (s : σ) (m : IMethod) : Except Err (FTy × σ) :=
  match m.output with
  | none => .ok (voidTy, s)
  | some ty => orErr .typeMap (tm.mapType s true ty)

/-- `find_suitable_ftypes_for_interace_methods`: macroslib/src/cpp/finterface.rs:322-368. -/
def findSigs {σ} (tm : TypeMap σ) : σ → List IMethod → Except Err (List Sig × σ)
  | s, [] => .ok ([], s)
  | s, m :: ms => do
    let (i, s) ← mapArgs tm s m.args
    let (o, s) ← mapOutput tm s m
    let (r, s) ← findSigs tm s ms
    .ok (⟨o, i⟩ :: r, s)

/-! ### C and C++ -/

/-- `C_{name}`: macroslib/src/cpp/finterface.rs:36, 145. -/
def Interface.cName (i : Interface) : Text := lit "C_" ++ i.name
/-- `C_{name}_deref`: macroslib/src/cpp/finterface.rs:153, 390. -/
def Interface.deref (i : Interface) : Text := lit "C_" ++ i.name ++ lit "_deref"
/-- `c_interface_header`: macroslib/src/cpp/finterface.rs:609-611. -/
def Interface.cHeader (i : Interface) : Text := lit "c_" ++ i.name ++ lit ".h"
/-- `cpp_interface_header`: macroslib/src/cpp/finterface.rs:613-615. -/
def Interface.cppHeader (i : Interface) : Text := i.name ++ lit ".hpp"

/-- The beginning of the C header: macroslib/src/cpp/finterface.rs:385-397. -/
def cHead (ws : Char → Bool) (i : Interface) : Text :=
  lit "// Automatically generated by flapigen\n#pragma once\n" ++ Comments.docToC ws i.docs true ++ lit "\nstruct C_" ++ i.name ++
  lit " {\n    void *opaque;\n    //! call by Rust side when callback not need anymore\n    void (*C_" ++ i.name ++
  lit "_deref)(void *opaque);\n"

/-- The function pointer of a method in the C header: macroslib/src/cpp/finterface.rs:433-446. -/
def cField (ws : Char → Bool) (m : IMethod) (g : Sig) : Text :=
  Comments.docToC ws m.docs false ++ lit "\n    " ++ g.output.info.name ++ lit " (*" ++ m.name ++ lit ")(" ++
    cArgsWithTypes (sigC g) m.argNames true ++ lit "void *opaque);\n"

/-- The end of the C header: macroslib/src/cpp/finterface.rs:541-546. -/
def cEnd : Text := lit "\n};\n"

/-- `const_sig`: macroslib/src/cpp/finterface.rs:450-456. -/
def constIf (m : IMethod) : Text := if m.self.readOnly then lit "const " else []

/-- The names that are not arguments, the result type shown to the user and the code converting the result:
macroslib/src/cpp/finterface.rs:413-432.  The placeholder of the input is the only one replaced. -/
structure Names where
  opaqueN : Text
  ptr : Text
  ret : Text
  deriving DecidableEq

/-- macroslib/src/cpp/finterface.rs:414-421. -/
def names (m : IMethod) : Option Names := do
  let o ← newUniqueName m.argNames (lit "opaque")
  let p ← newUniqueName (o :: m.argNames) (lit "pi")
  let r ← newUniqueName (p :: o :: m.argNames) (lit "ret")
  pure ⟨o, p, r⟩

/-- `cpp_ret_type`: macroslib/src/cpp/finterface.rs:423-432. -/
def cppRet (g : Sig) : Text :=
  match g.output.info.converter with
  | some c => c.typename
  | none => g.output.info.name

/-- `cpp_out_conv`: macroslib/src/cpp/finterface.rs:423-432. -/
def outConv (g : Sig) (ret : Text) : Text :=
  match g.output.info.converter with
  | some c => strReplace c.code.code Template.fromVar ret
  | none => []

/-- The virtual method: macroslib/src/cpp/finterface.rs:459-473. -/
def virtualText (ws : Char → Bool) (m : IMethod) (g : Sig) : Text :=
  Comments.docToC ws m.docs false ++ lit "\n    virtual " ++ cppRet g ++ lit " " ++ m.name ++ lit "(" ++
    cppArgsWithTypes (sigC g) m.argNames ++ lit ") " ++ constIf m ++ lit "noexcept = 0;\n"

/-- The call in the static function: macroslib/src/cpp/finterface.rs:498-527. -/
def callText (m : IMethod) (g : Sig) (n : Names) (args : Text) : Text :=
  if g.output.info.name = lit "void" then
    lit "\n        " ++ n.ptr ++ lit "->" ++ m.name ++ lit "(" ++ args ++ lit ");\n    }\n"
  else
    lit "\n        auto " ++ n.ret ++ lit " = " ++ n.ptr ++ lit "->" ++ m.name ++ lit "(" ++ args ++ lit ");\n        return " ++
      (if (outConv g n.ret).isEmpty then n.ret else outConv g n.ret) ++ lit ";\n    }\n"

/-- The static function of a method: macroslib/src/cpp/finterface.rs:475-527. -/
def staticText (i : Interface) (m : IMethod) (g : Sig) (n : Names) (conv args : Text) : Text :=
  lit "\n    static " ++ g.output.info.name ++ lit " c_" ++ m.name ++ lit "(" ++ cArgsWithTypes (sigC g) m.argNames true ++
    lit "void *" ++ n.opaqueN ++ lit ")\n    {\n        assert(" ++ n.opaqueN ++ lit " != nullptr);\n        auto " ++ n.ptr ++
    lit " = static_cast<" ++ constIf m ++ i.name ++ lit " *>(" ++ n.opaqueN ++ lit ");\n" ++ conv ++ callText m g n args

/-- `ret.{m} = c_{m};`: macroslib/src/cpp/finterface.rs:528-533. -/
def fillText (m : IMethod) : Text := lit "        ret." ++ m.name ++ lit " = c_" ++ m.name ++ lit ";\n"

/-- What the loop over the methods has written: macroslib/src/cpp/finterface.rs:399-410. -/
structure Parts where
  cHdr : Text
  virt : Text
  stat : Text
  fill : Text

/-- The static function that deletes the object: macroslib/src/cpp/finterface.rs:399-409. -/
def derefText (i : Interface) : Text :=
  lit "\n    static void c_" ++ i.name ++ lit "_deref(void *opaque)\n    {\n        auto p = static_cast<" ++ i.name ++
    lit " *>(opaque);\n        delete p;\n    }\n"

/-- One pass: macroslib/src/cpp/finterface.rs:412-534. -/
def stepCpp (ws : Char → Bool) (i : Interface) (p : Parts) (m : IMethod) (g : Sig) : Except Err Parts := do
  let n ← orErr .internal (names m)
  let (conv, args, _) ← orErr .internal (convertArgs (sigC g) (n.ret :: n.ptr :: n.opaqueN :: m.argNames) m.argNames)
  .ok ⟨p.cHdr ++ cField ws m g, p.virt ++ virtualText ws m g, p.stat ++ staticText i m g n conv args, p.fill ++ fillText m⟩

/-- The loop: macroslib/src/cpp/finterface.rs:412-534. -/
def loopCpp (ws : Char → Bool) (i : Interface) : Parts → List IMethod → List Sig → Except Err Parts
  | p, m :: ms, g :: gs => do
    let p ← stepCpp ws i p m g
    loopCpp ws i p ms gs
  | p, _, _ => .ok p

/-- The beginning of the C++ header up to the class: macroslib/src/cpp/finterface.rs:543-563, 588-595. -/
def cppHead (ws : Char → Bool) (ns : Text) (incs : List Text) (i : Interface) : Text :=
  lit "// Automatically generated by flapigen\n#pragma once\n\n#include <cassert>\n#include <memory> //for std::unique_ptr\n\n" ++
  Cpp.includeLines incs ++ lit "\n#include \"" ++ i.cHeader ++ lit "\"\n\nnamespace " ++ ns ++ lit " {\n" ++
  Comments.docToC ws i.docs true ++ lit "\nclass " ++ i.name ++ lit " {\npublic:\n    virtual ~" ++ i.name ++ lit "() noexcept {}\n"

/-- `to_c_interface`: macroslib/src/cpp/finterface.rs:567-576. -/
def toC (i : Interface) (fill : Text) : Text :=
  lit "    static C_" ++ i.name ++ lit " to_c_interface(std::unique_ptr<" ++ i.name ++
  lit "> p) noexcept\n    {\n        assert(p != nullptr);\n        C_" ++ i.name ++
  lit " ret;\n        ret.opaque = p.release();\n\n        ret.C_" ++ i.name ++ lit "_deref = c_" ++ i.name ++ lit "_deref;\n" ++ fill ++
  lit "\n        return ret;\n    }\n"

/-- `reference_to_c_interface`: macroslib/src/cpp/finterface.rs:577-584. -/
def refToC (i : Interface) (fill : Text) : Text :=
  lit "    static C_" ++ i.name ++ lit " reference_to_c_interface(" ++ i.name ++ lit " &cpp_interface) noexcept\n    {\n        C_" ++ i.name ++
  lit " ret;\n        ret.opaque = &cpp_interface;\n" ++ fill ++ lit "\n        ret.C_" ++ i.name ++
  lit "_deref = [](void *) {};\n        return ret;\n    }\n"

/-- The C++ header: macroslib/src/cpp/finterface.rs:548-600. -/
def cppFile (ws : Char → Bool) (ns : Text) (incs : List Text) (i : Interface) (p : Parts) : Text :=
  cppHead ws ns incs i ++ p.virt ++ lit "\n" ++ lit "\n" ++ toC i p.fill ++ refToC i p.fill ++ lit "protected:\n" ++ p.stat ++
    lit "\n};\n} // namespace " ++ ns ++ lit "\n"

/-- `cpp_code_generate_interface`: macroslib/src/cpp/finterface.rs:370-607; the C and the C++ header. -/
def genCpp (ws : Char → Bool) (ns : Text) (i : Interface) (gs : List Sig) : Except Err (Text × Text) := do
  let p ← loopCpp ws i ⟨cHead ws i, [], derefText i, []⟩ i.items gs
  .ok (p.cHdr ++ cEnd, cppFile ws ns (requiredIncludes (gs.map sigC)) i p)

/-! ### Rust -/

/-- Types of the fields of the Rust struct. -/
inductive RFieldTy
  | ty (t : Text)
  /-- `extern "C" fn(params) -> ret` -/
  | fnPtr (params : List Text) (ret : Text)
  deriving DecidableEq

/-- `*const ::std::os::raw::c_void` -/
def opaquePtr : Text := lit "*const ::std::os::raw::c_void"

/-- The `#[repr(C)]` struct: macroslib/src/cpp/finterface.rs:143-181 (with `rust_generate_args_with_types`,
macroslib/src/cpp/mod.rs:391-406). -/
def rustFields (i : Interface) (gs : List Sig) : List (Text × RFieldTy) :=
  (lit "opaque", .ty opaquePtr) :: (i.deref, .fnPtr [opaquePtr] (lit "()")) ::
  (i.items.zip gs).map fun x => (x.1.name, .fnPtr (x.2.input.map (·.rust) ++ [opaquePtr]) x.2.output.rust)

/-- `a{n}`: macroslib/src/cpp/finterface.rs:204, 229, 245. -/
def aName (n : Nat) : Text := 'a' :: dec n

/-- `self.opaque` -/
def selfOpaque : Text := lit "self.opaque"

/-- The printed `self`: macroslib/src/types.rs:226-236. -/
def selfText : SelfVar → Text
  | .rptrMut => lit "&mut self"
  | .rptr => lit "&self"
  | .mut => lit "mut self"
  | .default => lit "self"

/-- A function of the trait implementation. -/
structure TraitFn where
  self : Text
  fn : RustFn

/-- `rust_to_foreign_convert_method_inputs`: macroslib/src/typemap/utils.rs:144-182. -/
def convInputs {σ I} (tm : Exported.TypeMap σ I) : Nat → σ → List (Text × Text) → List (Exported.FTy I) → Except Err (List Text × List RStmt × σ)
  | n, s, (_, ty) :: as, t :: ts => do
    let (d, c, s) ← orErr .typeMap (tm.convert s ty t.rust (aName n) (lit "()"))
    let (ds, cs, s) ← convInputs tm (n + 1) s as ts
    .ok (d ++ ds, RStmt.conv (aName n) c :: cs, s)
  | _, s, _, _ => .ok ([], [], s)

/-- Parameters of the function: macroslib/src/cpp/finterface.rs:224-237. -/
def traitParams : Nat → List (Text × Text) → List (Text × Text)
  | _, [] => []
  | n, (_, ty) :: as => (aName n, ty) :: traitParams (n + 1) as

/-- `n_arguments_list`: macroslib/src/cpp/finterface.rs:197-207, 284-289. -/
def aNames (m : IMethod) : List Text := (List.range m.args.length).map aName

/-- The conversion of the result: macroslib/src/cpp/finterface.rs:250-265. -/
def convOutput {σ I} (tm : Exported.TypeMap σ I) (s : σ) (m : IMethod) (t : Exported.FTy I) : Except Err (List Text × List RStmt × σ) :=
  match m.output with
  | none => .ok ([], [], s)
  | some ty => do
    let (d, c, s) ← orErr .typeMap (tm.convert s t.rust ty (lit "ret") ty)
    .ok (d, [RStmt.conv (lit "ret") c], s)

/-- One function of the trait implementation with the support code it needs: macroslib/src/cpp/finterface.rs:209-295.  The called
function is the field with the method's name. -/
def traitFn {σ} (tm : TypeMap σ) (s : σ) (m : IMethod) (g : Sig) : Except Err (List Text × TraitFn × σ) := do
  let f ← orErr .internal m.path.getLast?
  let (d1, c1, s) ← convInputs tm 0 s m.args g.input
  let (d2, c2, s) ← convOutput tm s m g.output
  .ok (d1 ++ d2, ⟨selfText m.self, ⟨f, traitParams 0 m.args, m.output.getD (lit "()"),
    c1 ++ [.call (lit "ret") g.output.rust (.fn [m.name] (aNames m ++ [selfOpaque]))] ++ c2 ++ [.result (lit "ret")]⟩⟩, s)

/-- The loop: macroslib/src/cpp/finterface.rs:209-295. -/
def traitFns {σ} (tm : TypeMap σ) : σ → List IMethod → List Sig → Except Err (List Text × List TraitFn × σ)
  | s, m :: ms, g :: gs => do
    let (d, f, s) ← traitFn tm s m g
    let (ds, fs, s) ← traitFns tm s ms gs
    .ok (d ++ ds, f :: fs, s)
  | s, _, _ => .ok ([], [], s)

/-- The Rust code: the struct, which implements `Clone` (by `derive`) and `Send`, the implementation of the trait and `Drop`, which calls
a field with `self.opaque`. -/
structure RustCode where
  struct : Text
  fields : List (Text × RFieldTy)
  support : List Text
  «trait» : Text
  fns : List TraitFn
  dropCalls : Text

/-- `rust_code_generate_interface`: macroslib/src/cpp/finterface.rs:138-320. -/
def genRust {σ} (tm : TypeMap σ) (s : σ) (i : Interface) (gs : List Sig) : Except Err (RustCode × σ) := do
  let (ds, fs, s) ← traitFns tm s i.items gs
  .ok (⟨i.cName, rustFields i gs, ds, i.trait, fs, i.deref⟩, s)

/-! ### Registration -/

/-- `* const T` -/
def constPtrOf (t : Text) : Text := lit "* const " ++ t

/-- `register_reference`: macroslib/src/cpp/finterface.rs:644-707. -/
def referenceCmds (i : Interface) (ref ptr cpp : Text) : List Cmd :=
  [.alloc (key ref) [], .alloc (key ptr) [],
   .rule (key ref) (key ptr) (lit "\n            let " ++ tv ++ lit ": " ++ ptr ++ lit " = " ++ fv ++ lit ";\n        "),
   .ftype i.src [] cpp [lit "\"" ++ i.cHeader ++ lit "\""] (some ⟨key ref, some (key ptr, lit "*" ++ fv)⟩) none]

/-- `register_rust_type_and_c_type`: macroslib/src/cpp/finterface.rs:617-642. -/
def directCmds (i : Interface) (ty c : Text) : List Cmd :=
  [.alloc (key ty) [], .ftype i.src [] c [lit "\"" ++ i.cHeader ++ lit "\""] (some ⟨key ty, none⟩) (some ⟨key ty, none⟩)]

/-- `Box<dyn {self_type}>`: macroslib/src/cpp/finterface.rs:72-78. -/
def Interface.boxed (i : Interface) : Text := lit "Box < dyn " ++ i.object ++ lit " >"

/-- C++ gives the object away: macroslib/src/cpp/finterface.rs:81-96. -/
def giveCode (i : Interface) : Text :=
  lit "\n        C_" ++ i.name ++ lit " $tmp = " ++ i.name ++ lit "::to_c_interface(std::move(" ++ fv ++ lit "));\n        " ++
    Template.toVarType ++ lit " = &$tmp;\n"

/-- Rust boxes a copy of the struct: macroslib/src/cpp/finterface.rs:115-133. -/
def takeCode (i : Interface) : Text :=
  lit "\n            assert!(!" ++ fv ++ lit ".is_null());\n            let " ++ tv ++ lit ": &" ++ i.cName ++ lit " = unsafe { " ++ fv ++
  lit ".as_ref().unwrap() };\n            let mut " ++ tv ++ lit ": " ++ i.boxed ++ lit " = Box::new(" ++ tv ++ lit ".clone());\n        "

/-- What is registered: macroslib/src/cpp/finterface.rs:36-133. -/
def regCmds (i : Interface) : List Cmd :=
  directCmds i i.cName i.cName ++
  referenceCmds i (refOf i.cName) (constPtrOf i.cName) (lit "const " ++ i.cName ++ lit " &") ++
  referenceCmds i (mutRefOf i.cName) (mutPtrOf i.cName) (i.cName ++ lit " &") ++
  directCmds i (constPtrOf i.cName) (lit "const struct " ++ i.cName ++ lit " * const") ++
  [.alloc (key i.boxed) [],
   .ftype i.src [] (lit "std::unique_ptr<" ++ i.name ++ lit ">")
     [lit "\"" ++ i.cppHeader ++ lit "\"", lit "<memory>", lit "<utility>"] none
     (some ⟨key i.boxed, some (key (constPtrOf i.cName), giveCode i)⟩),
   .rule (key (constPtrOf i.cName)) (key i.boxed) (takeCode i)]

/-- What is produced for an interface. -/
structure Out where
  cHdr : Text
  cppHdr : Text
  rust : RustCode
  reg : List Cmd

/-- `generate_interface`: macroslib/src/cpp/finterface.rs:26-136. -/
def generate {σ} (ws : Char → Bool) (ns : Text) (tm : TypeMap σ) (s : σ) (i : Interface) : Except Err Out := do
  let (gs, s) ← findSigs tm s i.items
  let (c, cpp) ← genCpp ws ns i gs
  let (r, _) ← genRust tm s i gs
  .ok ⟨c, cpp, r, regCmds i⟩

end Flapi.CppInterface
