import Verif.Java.FindCache
import Verif.Lang.Enum
import Verif.Java.Jni
/-!
# Enum values and objects that Rust hands to Java as references (model)

`SwigFrom<Enum> for jobject` (used when an enum is an argument of a callback) and `object_to_jobject` look up classes and fields
through the cached variables of C32.  The generated Rust code of a library is a sequence of pieces; here only the macro calls of the
pieces belonging to enums and classes are kept.  `to_uppercase` is a parameter.
-/
namespace Flapi.EnumCallback
open Flapi Flapi.FindCache

/-- `java_class_name_to_jni(java_class_full_name(package, class))`: macroslib/src/java_jni/mod.rs:260-269. -/
def jniPath (pkg name : Text) : Text := (pkg ++ '.' :: name).map fun c => if c = '.' then '/' else c

/-- A `foreign_enum!` (`class = false`) or a `foreign_class!` with a `self_type`. -/
inductive Decl
  | enum (name : Text) (items : List Enum.Item)
  | cls (name : Text)
deriving DecidableEq

/-- `enum_id_upper`: macroslib/src/java_jni/fenum.rs:220-223. -/
def enumVar (upper : Text → Text) (name : Text) : Text := "FOREIGN_ENUM_".toList ++ upper name

/-- `enum_filed_global_var`: macroslib/src/java_jni/fenum.rs:230-233. -/
def itemVar (upper : Text → Text) (name item : Text) : Text := enumVar upper name ++ '_' :: upper item

/-- `enum_sig`: macroslib/src/java_jni/fenum.rs:229. -/
def enumSig (pkg name : Text) : Text := 'L' :: jniPath pkg name ++ [';']

/-- The macro call in the arm of an item: macroslib/src/java_jni/fenum.rs:225-242. -/
def itemUse (upper : Text → Text) (pkg name : Text) (it : Enum.Item) : Use :=
  .member .staticField ⟨itemVar upper name it.name, enumVar upper name, it.name, enumSig pkg name⟩

/-- `JAVA_RUST_SELF_NAME`: macroslib/src/java_jni/mod.rs (`mNativeObj`). -/
def selfField : Text := "mNativeObj".toList

/-- `global_var_with_jclass`: macroslib/src/java_jni/fclass.rs:543-546. -/
def classVar (upper : Text → Text) (name : Text) : Text := "FOREIGN_CLASS_".toList ++ upper name

/-- `global_var_with_ptr_field`: macroslib/src/java_jni/fclass.rs:547-554. -/
def ptrVar (upper : Text → Text) (name : Text) : Text :=
  classVar upper name ++ '_' :: upper selfField ++ "_FIELD".toList

/-- The macro calls of one item, in the order of the code: macroslib/src/java_jni/fenum.rs:245-261 (the class first, then the
arms), macroslib/src/java_jni/fclass.rs:559-566. -/
def uses (upper : Text → Text) (pkg : Text) : Decl → List Use
  | .enum name items => .findClass (enumVar upper name) (jniPath pkg name) :: items.map (itemUse upper pkg name)
  | .cls name => [.findClass (classVar upper name) (jniPath pkg name),
      .member .field ⟨ptrVar upper name, classVar upper name, selfField, "J".toList⟩]

/-- What the generated code sees of Java besides the lookups: `GetStaticObjectField` (`none` is null). -/
structure Java (Obj : Type) where
  jvm : Jvm
  getStatic : Nat → Nat → Option Obj

/-- A class variable as `jclass`: the class of a live global reference; `none` is a null or dangling reference. -/
def asClass (w : World) (v : Text) : Option Nat :=
  match w.vars v with
  | .ref h => (w.globals.find? (·.1 = h)).map (·.2)
  | _ => none

/-- A member variable as `jfieldID`. -/
def asField (w : World) (v : Text) : Option Nat :=
  match w.vars v with
  | .mem m => some m
  | _ => none

/-- The arms of `match x`: macroslib/src/java_jni/fenum.rs:236-243. -/
def arms (upper : Text → Text) (name : Text) (items : List Enum.Item) : List (Text × Text) :=
  items.map fun it => (it.rustName, itemVar upper name it.name)

/-- `<jobject>::swig_from(x, env)`; `none` is a failed `assert!` (or an unlisted variant, which rustc rejects):
macroslib/src/java_jni/fenum.rs:245-262. -/
def enumToJobject {Obj : Type} (upper : Text → Text) (j : Java Obj) (w : World) (name : Text) (items : List Enum.Item)
    (v : Text) : Option Obj :=
  match asClass w (enumVar upper name) with
  | none => none
  | some cls =>
    match Enum.matchVariant (arms upper name items) v with
    | none => none
    | some var =>
      match asField w var with
      | none => none
      | some f => j.getStatic cls f

/-- The memory part of `object_to_jobject`: allocate the Java object, box the Rust object, store its address in `mNativeObj`:
macroslib/src/java_jni/jni-include.rs:326-343.  `AllocObject` does not run a constructor, the field is 0 at first. -/
def objectToJobject {T : Type} (x : T) : Jni.M T Nat := do
  let jobj ← Jni.alloc (.obj 0)
  let p ← Jni.boxObject x
  Jni.setLongField jobj p
  pure jobj

end Flapi.EnumCallback
