import Verif.TypeMap.ForeignTypes
import Verif.Core.Template
import Verif.Lang.Exported
/-!
# Registration of exported classes: operations on the type map (model)

The registration functions are straight-line code that looks Rust types up by name (creating them when unknown), stores
conversions between them and adds foreign types.  They are modelled as lists of such operations.
-/
namespace Flapi.Register

open Flapi.Exported (lit)
open Flapi.FTypes (Storage FType FRule Inter UName)

/-- `RustTypeS` besides its name: the printed tree (`typename_without_lifetimes`) and `implements`,
macroslib/src/typemap/ty.rs:17-25. -/
structure RInfo where
  tree : Text
  traits : List Text
  deriving DecidableEq

/-- What identifies a Rust type: its (normalised, printed) tree and the suffix of `find_or_alloc_rust_type_with_suffix`,
macroslib/src/typemap.rs:956-1000.  Simplification: types are written without lifetimes and `dyn`, so the printed and the
normalised tree are the same text. -/
structure Key where
  ty : Text
  suffix : Option Text
  deriving DecidableEq

/-- A type without suffix. -/
def key (t : Text) : Key := ⟨t, none⟩

/-- `make_unique_typename_if_need`: macroslib/src/typemap/ty.rs:71-86. -/
def Key.name (k : Key) : Text := FTypes.makeUniqueIfNeed k.ty k.suffix

/-- `ForeignConversionRule` by names: the Rust type and, if there is one, the intermediate type with the foreign conversion code
(`input_to_output` is always `false` here), macroslib/src/typemap/ty.rs:175-186. -/
structure FRuleN where
  ty : Key
  inter : Option (Key × Text)
  deriving DecidableEq

/-- One operation.  The code keeps the index returned by the look-up of a type and uses it later; here the type is named again at
each use (one name, one type: C14). -/
inductive Cmd
  /-- `find_or_alloc_rust_type*`; `traits` only matter if the type is not known yet (macroslib/src/typemap.rs:972-987) -/
  | alloc (k : Key) (traits : List Text)
  /-- `add_conversion_rule`: macroslib/src/typemap.rs:539-550 -/
  | rule (a b : Key) (code : Text)
  /-- `alloc_foreign_type` of a type named `pre ++ display` where `pre` is its hidden prefix; `src` is the source of the class: macroslib/src/typemap.rs:511-513 -/
  | ftype (src : Option Nat) (pre display : Text) (provided : List Text) (into frm : Option FRuleN)
  deriving DecidableEq

/-- The type map: Rust types with conversions, and foreign types (macroslib/src/typemap.rs:226-249). -/
structure St where
  tm : TMap.TM RInfo Text
  fts : Storage Text

/-- Errors of the registration. -/
inductive Err
  /-- a foreign type of that name exists already -/
  | duplicate
  /-- `SmartPtrCopy` on something that is not `Rc` or `Arc` -/
  | notShared
  /-- `SmartPtrCopy` together with a method `clone` -/
  | hasClone
  deriving DecidableEq, Repr

/-- `find_or_alloc_rust_type_that_implements` and its relatives: macroslib/src/typemap.rs:940-1000. -/
def St.node (st : St) (k : Key) (traits : List Text) : St × Nat :=
  let r := TMap.addNode st.tm ⟨k.name, ⟨k.ty, traits⟩⟩
  (⟨r.1, st.fts⟩, r.2)

/-- The foreign rule with types found by name. -/
def St.frule (st : St) : Option FRuleN → St × Option (FRule Text)
  | none => (st, none)
  | some ⟨t, none⟩ =>
    let (st, i) := st.node t []
    (st, some ⟨i, none⟩)
  | some ⟨t, some (m, c)⟩ =>
    let (st, i) := st.node t []
    let (st, j) := st.node m []
    (st, some ⟨i, some ⟨false, j, c, none⟩⟩)

/-- One operation. -/
def step (st : St) : Cmd → Except Err St
  | .alloc k ts => .ok (st.node k ts).1
  | .rule a b c =>
    let (st, i) := st.node a []
    let (st, j) := st.node b []
    .ok ⟨TMap.addRule st.tm i j c, st.fts⟩
  | .ftype src pre d mods into frm =>
    let (st, ri) := st.frule into
    let (st, rf) := st.frule frm
    match st.fts.addNew ⟨⟨pre ++ d, pre.length⟩, src, mods, ri, rf⟩ with
    | (fts, some _) => .ok ⟨st.tm, fts⟩
    | (_, none) => .error .duplicate

/-- A sequence of operations. -/
def run : St → List Cmd → Except Err St
  | st, [] => .ok st
  | st, c :: cs => do
    let st ← step st c
    run st cs

/-! ### Rust types built from others, and code for objects on the heap -/

/-- `& T` -/
def refOf (t : Text) : Text := lit "& " ++ t
/-- `& mut T` -/
def mutRefOf (t : Text) : Text := lit "& mut " ++ t
/-- `* mut T` -/
def mutPtrOf (t : Text) : Text := lit "* mut " ++ t

/-- `SelfTypeDesc` (macroslib/src/types.rs:30-33): the type of the objects (for Java: without `Result`), the type of `self`, and what
`check_if_smart_pointer_return_inner_type` says about the former for `Box`, `Rc`, `Arc` (macroslib/src/typemap/ast.rs:1028-1040):
the pointer and the type it points to. -/
structure Desc where
  ctorRet : Text
  thisTy : Text
  selfTy : Text
  smart : Option (Text × Text)
  deriving DecidableEq

/-- `boxed_type`: macroslib/src/typemap/utils.rs:228-236. -/
def Desc.inner (d : Desc) : Text := (d.smart.map (·.2)).getD d.thisTy

/-- Is it `Rc<_>` or `Arc<_>`?  (macroslib/src/cpp/mod.rs:265-266, macroslib/src/java_jni/mod.rs:152-153) -/
def Desc.isShared (d : Desc) : Bool :=
  match d.smart with
  | some (p, _) => decide (p = lit "Rc") || decide (p = lit "Arc")
  | none => false

/-- The parts of `ForeignClassInfo` that matter for the registration (macroslib/src/types.rs:15-23): `cloneMethod` says whether a
method or static method is called `clone` (not a constructor). -/
structure Class where
  name : Text
  derives : List Text
  desc : Option Desc
  cloneMethod : Bool
  src : Option Nat
  deriving DecidableEq

/-- `self_type_as_ty`: macroslib/src/types.rs:39-44. -/
def Class.selfTyAsTy (c : Class) : Text := (c.desc.map (·.selfTy)).getD (lit "()")

/-- `clone_derived`, `copy_derived`, `smart_ptr_copy_derived`, `need_plain_class`: macroslib/src/types.rs:46-76,
macroslib/src/cpp/fclass.rs:1421-1423. -/
def Class.has (c : Class) (tr : String) : Bool := c.derives.contains (lit tr)

/-- The traits the type of a class implements: macroslib/src/cpp/mod.rs:237-250, macroslib/src/java_jni/mod.rs:123-134. -/
def Class.traits (c : Class) : List Text :=
  [lit "SwigForeignClass"] ++ (if c.has "Clone" then [lit "Clone"] else []) ++
  (if c.has "Copy" then (if c.has "Clone" then [] else [lit "Clone"]) ++ [lit "Copy"] else []) ++
  (if c.has "SmartPtrCopy" then [lit "SmartPtrCopy"] else [])

/-- `"{to_var}"` -/
def tv : Text := Template.toVar
/-- `"{from_var}"` -/
def fv : Text := Template.fromVar

/-- `unpack_from_heap_pointer` with unboxing: macroslib/src/typemap/utils.rs:273-310. -/
def unpack (d : Desc) : Text :=
  match d.smart with
  | some (p, _) => lit "\n    let " ++ tv ++ lit ": " ++ d.thisTy ++ lit "  = unsafe { " ++ p ++ lit "::from_raw(" ++ tv ++ lit ") };\n"
  | none => lit "\n    let " ++ tv ++ lit ": Box<" ++ d.thisTy ++ lit "> = unsafe { Box::from_raw(" ++ tv ++ lit ") };\n" ++
      (lit "\n    let " ++ tv ++ lit ": " ++ d.thisTy ++ lit " = *" ++ tv ++ lit ";\n") ++ lit "\n"

end Flapi.Register
