import Verif.Lang.Register
/-! # Registration of an exported class in the Java back end (model) -/
namespace Flapi.JavaRegister

open Flapi.Exported (lit)
open Flapi.Register

/-- `jlong` -/
def jlong : Key := key (lit "jlong")
/-- The `jlong` an object is given to Java as: macroslib/src/java_jni/map_class_self_type.rs:157-158. -/
def outVal (c : Class) : Key := ⟨lit "jlong", some (c.name ++ lit "OutVal")⟩
/-- The `jlong` an object is taken from Java as: macroslib/src/java_jni/map_class_self_type.rs:195. -/
def inVal (c : Class) : Key := ⟨lit "jlong", some (c.name ++ lit "InVal")⟩

/-- `jlong_to_pointer::<{ty}>({from_var}).as_mut().unwrap()` in `unsafe`. -/
def fromLong (ty : Text) : Text :=
  lit "unsafe {\n            jlong_to_pointer::<" ++ ty ++ lit ">(" ++ fv ++ lit ").as_mut().unwrap()\n        };\n    "

/-- `jlong -> &"class"`: macroslib/src/java_jni/map_class_self_type.rs:78-97. -/
def borrowCode (d : Desc) : Text := lit "\n        let " ++ tv ++ lit ": &" ++ d.inner ++ lit " = " ++ fromLong d.inner
/-- `jlong -> &mut "class"`: macroslib/src/java_jni/map_class_self_type.rs:102-121. -/
def borrowMutCode (d : Desc) : Text := lit "\n        let " ++ tv ++ lit ": &mut " ++ d.inner ++ lit " = " ++ fromLong d.inner
/-- `"class" -> jobject`: macroslib/src/java_jni/map_class_self_type.rs:123-140. -/
def objectCode : Text := lit "\n        let " ++ tv ++ lit ": jobject = object_to_jobject(env, " ++ fv ++ lit ");\n"
/-- `"class" -> jlong`: macroslib/src/java_jni/map_class_self_type.rs:160-179. -/
def giveCode (d : Desc) : Text := lit "\n    let " ++ tv ++ lit ": jlong = <" ++ d.thisTy ++ lit ">::box_object(" ++ fv ++ lit ");\n"

/-- `jlong -> "class"` of a `SmartPtrCopy` class, a copy of the pointer: macroslib/src/java_jni/map_class_self_type.rs:204-229. -/
def shareCode (d : Desc) : Text :=
  lit "\n        let " ++ tv ++ lit ": *mut " ++ d.inner ++ lit " = " ++ fromLong d.inner ++ unpack d ++
  lit "\n        let tmp: " ++ d.thisTy ++ lit " = " ++ tv ++ lit ";\n        let " ++ tv ++ lit ": " ++ d.thisTy ++
  lit " = tmp.clone();\n        ::std::mem::forget(tmp);\n    "
/-- `jlong -> "class"` of a `Copy` class, a copy of the object: macroslib/src/java_jni/map_class_self_type.rs:231-249. -/
def copyCode (d : Desc) : Text :=
  lit "\n        let " ++ tv ++ lit ": &" ++ d.inner ++ lit " = " ++ fromLong d.inner ++
  lit "    let " ++ tv ++ lit ": " ++ d.inner ++ lit " = " ++ tv ++ lit ".clone();\n    "
/-- `jlong -> "class"` of other classes, the object itself: macroslib/src/java_jni/map_class_self_type.rs:251-271. -/
def takeCode (d : Desc) : Text :=
  lit "\n        let " ++ tv ++ lit ": *mut " ++ d.inner ++ lit " = " ++ fromLong d.inner ++ unpack d ++ lit "\n    "

/-- Which of the three: macroslib/src/java_jni/map_class_self_type.rs:201-272. -/
def inCode (c : Class) (d : Desc) : Text :=
  if c.has "SmartPtrCopy" then shareCode d else if c.has "Copy" then copyCode d else takeCode d

/-- Java code reading the pointer: macroslib/src/java_jni/map_class_self_type.rs:339-342, 378-383, 416-421, 455-456. -/
def readPtr : Text := lit "        long " ++ tv ++ lit " = " ++ fv ++ lit ".mNativeObj;"

/-- `java_code_in_val_to_long`: the pointer is read and, unless the object is copied, removed from the Java object,
macroslib/src/java_jni/map_class_self_type.rs:290-306. -/
def readVal (c : Class) : Text :=
  lit "\n        long " ++ tv ++ lit " = " ++ fv ++ lit ".mNativeObj;\n" ++
  (if !c.has "Copy" && !c.has "SmartPtrCopy" then lit "        " ++ fv ++ lit ".mNativeObj = 0;\n" else [])

/-- A Java object from a pointer: macroslib/src/java_jni/map_class_self_type.rs:322-331. -/
def wrapOut (c : Class) : Text :=
  lit "        " ++ c.name ++ lit " " ++ tv ++ lit " = new " ++ c.name ++ lit "(InternalPointerMarker.RAW_PTR, " ++ fv ++ lit ");"

/-- The null annotation in front of the name: macroslib/src/java_jni/map_class_self_type.rs:308-312. -/
def annot (ann : Bool) : Text := if ann then lit "@NonNull " else []

/-- `register_rust_ty_conversion_rules`: macroslib/src/java_jni/map_class_self_type.rs:66-143. -/
def ruleCmds (d : Desc) : List Cmd :=
  [.alloc (key d.inner) [], .alloc jlong [], .alloc (key (refOf d.inner)) [],
   .rule jlong (key (refOf d.inner)) (borrowCode d),
   .alloc (key (mutRefOf d.inner)) [],
   .rule jlong (key (mutRefOf d.inner)) (borrowMutCode d),
   .alloc (key (lit "jobject")) [],
   .rule (key d.thisTy) (key (lit "jobject")) objectCode]

/-- `/*{Class}OutVal*/` -/
def outPre (c : Class) : Text := lit "/*" ++ c.name ++ lit "OutVal*/"
/-- `/*{Class}InVal*/` -/
def inPre (c : Class) : Text := lit "/*" ++ c.name ++ lit "InVal*/"

/-- A Java type for references: macroslib/src/java_jni/map_class_self_type.rs:353-378, 384-409, 419-453, 454-484. -/
def refType (ann : Bool) (c : Class) (pre : String) (ty : Text) : Cmd :=
  .ftype c.src (lit pre) (annot ann ++ c.name) [] none (some ⟨key ty, some (jlong, readPtr)⟩)

/-- `register_main_foreign_types`: macroslib/src/java_jni/map_class_self_type.rs:145-488. -/
def mainCmds (ann : Bool) (c : Class) (d : Desc) : List Cmd :=
  [.alloc (outVal c) [], .rule (key d.thisTy) (outVal c) (giveCode d),
   .ftype c.src (outPre c) (lit "long") [] (some ⟨outVal c, none⟩) none,
   .alloc (inVal c) [], .rule (inVal c) (key d.thisTy) (inCode c d),
   .ftype c.src (inPre c) (lit "long") [] none (some ⟨inVal c, none⟩),
   .ftype c.src [] (annot ann ++ c.name) [] (some ⟨key d.thisTy, some (outVal c, wrapOut c)⟩) (some ⟨key d.thisTy, some (inVal c, readVal c)⟩),
   refType ann c "/*ref*/" (refOf d.inner),
   refType ann c "/*mut ref*/" (mutRefOf d.inner)] ++
  (if d.selfTy ≠ d.thisTy then
    [.alloc (key (mutRefOf d.selfTy)) [], refType ann c "/*ref 2*/" (mutRefOf d.selfTy),
     .alloc (key (refOf d.selfTy)) [], refType ann c "/*mut ref 2*/" (refOf d.selfTy)]
   else [])

/-- `register_typemap_for_self_type`: macroslib/src/java_jni/map_class_self_type.rs:19-64. -/
def selfTypeCmds (ann : Bool) (c : Class) (d : Desc) : List Cmd :=
  [.alloc ⟨lit "jobject", some d.thisTy⟩ [], .alloc (key d.ctorRet) [], .alloc (key d.inner) [], .alloc (key (refOf d.inner)) [],
   .alloc (key (mutRefOf d.inner)) []] ++
  ruleCmds d ++ [.alloc (key d.selfTy) []] ++ mainCmds ann c d

/-- The check of `register_class`: macroslib/src/java_jni/mod.rs:141-161. -/
def check (c : Class) (d : Desc) : Except Err Unit :=
  if c.has "SmartPtrCopy" && !d.isShared then .error .notShared else .ok ()

/-- `register_class`: macroslib/src/java_jni/mod.rs:113-169.  Left out: `validate_class` (C25) and a warning.  `ann`: null annotations
are configured. -/
def registerClass (ann : Bool) (st : St) (c : Class) : Except Err St :=
  match c.desc with
  | some d => do
    let st1 ← run st [.alloc (key d.thisTy) c.traits]
    check c d
    run st1 (selfTypeCmds ann c d ++ [.alloc (key c.selfTyAsTy) []])
  | none => run st [.alloc (key c.selfTyAsTy) []]

/-- All classes are registered before any code is generated: macroslib/src/java_jni/mod.rs:200-212. -/
def registerAll (ann : Bool) : St → List Class → Except Err St
  | st, [] => .ok st
  | st, c :: cs => do
    let st ← registerClass ann st c
    registerAll ann st cs

end Flapi.JavaRegister
