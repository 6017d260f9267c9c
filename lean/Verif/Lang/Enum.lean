import Verif.Base.Text
/-!
# `foreign_enum!` code for C++, Java and Python (model)

An enum is the list of its items: the foreign name and the Rust variant it stands for.  `match` in the generated Rust
code takes the first arm that fits.
-/
namespace Flapi.Enum

/-- `ForeignEnumItem`: macroslib/src/types.rs (`name`, `rust_name`; doc comments dropped). -/
structure Item where
  name : Text
  rustName : Text
deriving DecidableEq

/-- Values that a generated function may have: a value or a panic/exception. -/
abbrev MayPanic (α : Type) := Option α

/-- `i as u32`: macroslib/src/cpp/fenum.rs:218. -/
def asU32Cast (i : Nat) : Nat := i % 2 ^ 32

/-- `i as i32`: macroslib/src/java_jni/fenum.rs:181. -/
def asI32Cast (i : Nat) : Int :=
  if i % 2 ^ 32 < 2 ^ 31 then ((i % 2 ^ 32 : Nat) : Int) else ((i % 2 ^ 32 : Nat) : Int) - 2 ^ 32

/-- Arms of a `match` on the variant, numbered from `i`. -/
def toArms {ι : Type} (cast : Nat → ι) : Nat → List Item → List (Text × ι)
  | _, [] => []
  | i, it :: its => (it.rustName, cast i) :: toArms cast (i + 1) its

/-- First arm for a variant. -/
def matchVariant {ι : Type} (arms : List (Text × ι)) (v : Text) : Option ι :=
  match arms with
  | [] => none
  | (p, i) :: arms => if p = v then some i else matchVariant arms v

/-- First arm for a number; `none` is the `_ => panic!` arm. -/
def matchNumber {ι : Type} [DecidableEq ι] (arms : List (Text × ι)) (x : ι) : MayPanic Text :=
  match arms with
  | [] => none
  | (p, i) :: arms => if i = x then some p else matchNumber arms x

/-! ### C++ -/

/-- The size check: macroslib/src/cpp/fenum.rs:21-27 (`false` is the error). -/
def cppAccepted (items : List Item) : Bool := !(items.length ≥ 2 ^ 32 - 1)

/-- `as_u32`: macroslib/src/cpp/fenum.rs:216-231.  `none`: the variant is not listed (rustc rejects the `match`). -/
def asU32 (items : List Item) (v : Text) : Option Nat := matchVariant (toArms asU32Cast 0 items) v

/-- `from_u32`: macroslib/src/cpp/fenum.rs:216-238. -/
def fromU32 (items : List Item) (x : Nat) : MayPanic Text := matchNumber (toArms asU32Cast 0 items) x

/-- The enumerators `name = index` written to the C++ header, numbered from `i`: macroslib/src/cpp/fenum.rs:110-129. -/
def cppEnumerators : Nat → List Item → List (Text × Nat)
  | _, [] => []
  | i, it :: its => (it.name, i) :: cppEnumerators (i + 1) its

/-- The enumerators `Enum_name = index` written to the C header: macroslib/src/cpp/fenum.rs:171-191. -/
def cEnumerators (enumName : Text) : Nat → List Item → List (Text × Nat)
  | _, [] => []
  | i, it :: its => (enumName ++ '_' :: it.name, i) :: cEnumerators enumName (i + 1) its

/-- Value of an enumerator in C or C++ (names are unique there, otherwise it does not compile). -/
def constant (es : List (Text × Nat)) (name : Text) : Option Nat :=
  match es with
  | [] => none
  | (n, i) :: es => if n = name then some i else constant es name

/-! ### Java -/

/-- The size check: macroslib/src/java_jni/fenum.rs:31-37. -/
def javaAccepted (items : List Item) : Bool := !(items.length ≥ 2 ^ 31 - 1)

/-- `as_jint`: macroslib/src/java_jni/fenum.rs:179-198. -/
def asJint (items : List Item) (v : Text) : Option Int := matchVariant (toArms asI32Cast 0 items) v

/-- `from_jint`: macroslib/src/java_jni/fenum.rs:199-205. -/
def fromJint (items : List Item) (x : Int) : MayPanic Text := matchNumber (toArms asI32Cast 0 items) x

/-- The Java constants `NAME(index)`; the index is the `value` field: macroslib/src/java_jni/fenum.rs:117-136, 139-141. -/
def javaConstants : Nat → List Item → List (Text × Int)
  | _, [] => []
  | i, it :: its => (it.name, (i : Int)) :: javaConstants (i + 1) its

/-- `getValue`: macroslib/src/java_jni/fenum.rs:142. -/
def getValue (items : List Item) (name : Text) : Option Int :=
  let rec go : List (Text × Int) → Option Int
    | [] => none
    | (n, i) :: l => if n = name then some i else go l
  go (javaConstants 0 items)

/-- The `case index: return NAME;` lines numbered from `i`: macroslib/src/java_jni/fenum.rs:152-161. -/
def javaCases : Nat → List Item → List (Int × Text)
  | _, [] => []
  | i, it :: its => ((i : Int), it.name) :: javaCases (i + 1) its

/-- `fromInt`; `none` is the thrown `Error`: macroslib/src/java_jni/fenum.rs:146-168. -/
def javaFromInt (items : List Item) (x : Int) : MayPanic Text :=
  let rec go : List (Int × Text) → MayPanic Text
    | [] => none
    | (i, n) :: l => if i = x then some n else go l
  go (javaCases 0 items)

/-- `Option<T> => jint`: macroslib/src/java_jni/jni-include.rs:1653-1658. -/
def optToJint (items : List Item) : Option Text → Option Int
  | some v => asJint items v
  | none => some (-1)

/-- `Option<T> <= jint`: macroslib/src/java_jni/jni-include.rs:1678-1684.  The outer `none` is a panic. -/
def optFromJint (items : List Item) (x : Int) : MayPanic (Option Text) :=
  if x ≠ -1 then (fromJint items x).map some else some none

/-- Java side of an optional result: macroslib/src/java_jni/jni-include.rs:1659-1674.  The outer `none` is an `Error`. -/
def javaOptFromInt (items : List Item) (x : Int) : MayPanic (Option Text) :=
  if x ≠ -1 then (javaFromInt items x).map some else some none

/-- Java side of an optional argument (`null` is `none`): macroslib/src/java_jni/jni-include.rs:1685-1690. -/
def javaOptToInt (items : List Item) : Option Text → Option Int
  | some n => getValue items n
  | none => some (-1)

/-! ### Python -/

/-- A Python enum item: the Rust variant together with its discriminant.  macroslib/src/python/mod.rs:150-156. -/
structure PyItem where
  name : Text
  rustName : Text
  discr : Int
deriving DecidableEq

/-- `variant as u32`: macroslib/src/python/mod.rs:164, 168 — the value is the *discriminant* of the variant. -/
def discrAsU32 (d : Int) : Nat := (d % 2 ^ 32).toNat

/-- `static NAME = variant as u32`: macroslib/src/python/mod.rs:164. -/
def pyConstant (items : List PyItem) (name : Text) : Option Nat :=
  match items with
  | [] => none
  | it :: its => if it.name = name then some (discrAsU32 it.discr) else pyConstant its name

/-- `from_u32`; `none` is the `ValueError`: macroslib/src/python/mod.rs:167-172. -/
def pyFromU32 (items : List PyItem) (value : Nat) : MayPanic Text :=
  match items with
  | [] => none
  | it :: its => if value = discrAsU32 it.discr then some it.rustName else pyFromU32 its value

end Flapi.Enum
