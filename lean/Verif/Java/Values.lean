import Verif.Base.Text
/-!
# Numbers, booleans, pointers, times, results and optional values at the JNI border (model)

Machine integers are bit vectors with a signedness; `none` is a Rust panic (`expect`, `unwrap`).
-/
namespace Flapi.JavaValues

/-- A primitive integer type: signedness and width in bits. -/
structure IntTy where
  signed : Bool
  width : Nat
  deriving DecidableEq, Repr

/-- The number a bit pattern stands for. -/
def IntTy.val (t : IntTy) (v : BitVec t.width) : Int := if t.signed then v.toInt else (v.toNat : Int)

/-- Smallest and largest value (`MIN`, `MAX`). -/
def IntTy.min (t : IntTy) : Int := if t.signed then -(2 ^ (t.width - 1)) else 0
/-- See `IntTy.min`. -/
def IntTy.max (t : IntTy) : Int := if t.signed then 2 ^ (t.width - 1) - 1 else 2 ^ t.width - 1

/-- Rust `v as t`: sign extension from signed types, zero extension from unsigned ones, truncation to smaller types. -/
def asCast (s t : IntTy) (v : BitVec s.width) : BitVec t.width :=
  if s.signed then v.signExtend t.width else v.setWidth t.width

/-- `<t as TryFrom<s>>::try_from(v)` (std): the same number if `t` has it, else an error. -/
def tryFrom (s t : IntTy) (v : BitVec s.width) : Option (BitVec t.width) :=
  if t.min ≤ s.val v ∧ s.val v ≤ t.max then some (BitVec.ofInt t.width (s.val v)) else none

/-- `target_pointer_width`. -/
inductive PtrWidth where
  | w32 | w64
  deriving DecidableEq, Repr

def PtrWidth.bits : PtrWidth → Nat
  | .w32 => 32
  | .w64 => 64

/-- Rust integer types with a conversion to Java. -/
inductive RInt where
  | i8 | u8 | i16 | u16 | i32 | u32 | i64 | u64 | isize | usize
  deriving DecidableEq, Repr

def RInt.ty (pw : PtrWidth) : RInt → IntTy
  | .i8 => ⟨true, 8⟩
  | .u8 => ⟨false, 8⟩
  | .i16 => ⟨true, 16⟩
  | .u16 => ⟨false, 16⟩
  | .i32 => ⟨true, 32⟩
  | .u32 => ⟨false, 32⟩
  | .i64 => ⟨true, 64⟩
  | .u64 => ⟨false, 64⟩
  | .isize => ⟨true, pw.bits⟩
  | .usize => ⟨false, pw.bits⟩

/-- `jbyte`, `jshort`, `jint`, `jlong`. -/
def jbyte : IntTy := ⟨true, 8⟩
def jshort : IntTy := ⟨true, 16⟩
def jint : IntTy := ⟨true, 32⟩
def jlong : IntTy := ⟨true, 64⟩

/-- The Java type a Rust integer type is mapped to: macroslib/src/java_jni/jni-include.rs:533-616, 1079-1106. -/
def RInt.jty (pw : PtrWidth) : RInt → IntTy
  | .i8 => jbyte
  | .u8 | .i16 => jshort
  | .u16 | .i32 => jint
  | .u32 | .i64 | .u64 | .usize => jlong
  | .isize => match pw with | .w32 => jint | .w64 => jlong

/-- `u64_to_jlong_checked`: macroslib/src/java_jni/jni-include.rs:613-616. -/
def u64ToJlongChecked (v : BitVec 64) : Option (BitVec 64) := tryFrom ⟨false, 64⟩ jlong v

/-- `SwigFrom<usize> for jlong`: macroslib/src/java_jni/jni-include.rs:1093-1106. -/
def usizeToJlong : (pw : PtrWidth) → BitVec pw.bits → Option (BitVec 64)
  | .w32, v => some (asCast ⟨false, 32⟩ jlong v)
  | .w64, v => u64ToJlongChecked v

/-- `SwigFrom<isize>`: macroslib/src/java_jni/jni-include.rs:1079-1091. -/
def isizeToJava : (pw : PtrWidth) → BitVec pw.bits → BitVec (RInt.jty pw .isize).width
  | .w32, v => asCast ⟨true, 32⟩ jint v
  | .w64, v => asCast ⟨true, 64⟩ jlong v

/-- Rust to Java: macroslib/src/java_jni/jni-include.rs:533-616 (`From` between primitive integers is `as`). -/
def toJava (pw : PtrWidth) : (r : RInt) → BitVec (r.ty pw).width → Option (BitVec (r.jty pw).width)
  | .i8, v => some v
  | .u8, v => some (asCast ⟨false, 8⟩ jshort v)
  | .i16, v => some v
  | .u16, v => some (asCast ⟨false, 16⟩ jint v)
  | .i32, v => some v
  | .u32, v => some (asCast ⟨false, 32⟩ jlong v)
  | .i64, v => some v
  | .u64, v => tryFrom ⟨false, 64⟩ jlong v
  | .isize, v => some (isizeToJava pw v)
  | .usize, v => usizeToJlong pw v

/-- Java to Rust: macroslib/src/java_jni/jni-include.rs:533-610, 714-719.  There is no conversion to `isize`. -/
def fromJava (pw : PtrWidth) : (r : RInt) → r ≠ .isize → BitVec (r.jty pw).width → Option (BitVec (r.ty pw).width)
  | .i8, _, v => some v
  | .u8, _, v => tryFrom jshort ⟨false, 8⟩ v
  | .i16, _, v => some v
  | .u16, _, v => tryFrom jint ⟨false, 16⟩ v
  | .i32, _, v => some v
  | .u32, _, v => tryFrom jlong ⟨false, 32⟩ v
  | .i64, _, v => some v
  | .u64, _, v => tryFrom jlong ⟨false, 64⟩ v
  | .usize, _, v => tryFrom jlong ⟨false, pw.bits⟩ v
  | .isize, h, _ => absurd rfl h

/-- `bool => jboolean`: macroslib/src/java_jni/jni-include.rs:496. -/
def boolToJava (b : Bool) : BitVec 8 := if b then 1 else 0

/-- `bool <= jboolean`: macroslib/src/java_jni/jni-include.rs:513-515. -/
def boolFromJava (v : BitVec 8) : Bool := v != 0

/-! ## Pointers -/

/-- `this as jlong` for a pointer: macroslib/src/typemap/utils.rs (`convert_to_heap_pointer`), as in
macroslib/src/java_jni/fclass.rs:569, 930; a pointer cast zero-extends. -/
def pointerToJlong (pw : PtrWidth) (p : BitVec pw.bits) : BitVec 64 := asCast ⟨false, pw.bits⟩ jlong p

/-- `jlong_to_pointer`: macroslib/src/java_jni/jni-include.rs:107-114. -/
def jlongToPointer : (pw : PtrWidth) → BitVec 64 → BitVec pw.bits
  | .w32, v => asCast jlong ⟨false, 32⟩ v
  | .w64, v => asCast jlong ⟨false, 64⟩ v

/-- `Option<T> => jlong`: macroslib/src/java_jni/jni-include.rs:1541-1550 (`debug_assert_ne!` left out). -/
def optPtrToJlong (pw : PtrWidth) : Option (BitVec pw.bits) → BitVec 64
  | some p => pointerToJlong pw p
  | none => 0

/-- Java side of an optional result, `if ($p != 0)`: macroslib/src/java_jni/jni-include.rs:1551-1566; the value is the content of
`mNativeObj` of the new wrapper. -/
def javaOptional (v : BitVec 64) : Option (BitVec 64) := if v ≠ 0 then some v else none

/-! ## Times -/

/-- `SystemTime` after `duration_since(UNIX_EPOCH)`: seconds and nanoseconds; `none`: before the epoch. -/
structure Duration where
  secs : BitVec 64
  nanos : Nat

/-- How `*` and `+` on `u64` treat overflow: a debug build panics, a release build wraps. -/
inductive Build where
  | debug | release
  deriving DecidableEq, Repr

/-- `a * b` in `u64`. -/
def mulU64 (b : Build) (x y : Nat) : Option Nat :=
  match b with
  | .debug => if x * y < 2 ^ 64 then some (x * y) else none
  | .release => some (x * y % 2 ^ 64)

/-- `a + b` in `u64`. -/
def addU64 (b : Build) (x y : Nat) : Option Nat :=
  match b with
  | .debug => if x + y < 2 ^ 64 then some (x + y) else none
  | .release => some ((x + y) % 2 ^ 64)

/-- `SystemTime => jlong`: macroslib/src/java_jni/jni-include.rs:508-517. -/
def timeToJava (b : Build) (t : Option Duration) : Option (BitVec 64) := do
  let d ← t
  let ms ← mulU64 b d.secs.toNat 1000
  let n ← addU64 b ms (d.nanos / 1000000)
  tryFrom ⟨false, 64⟩ jlong (BitVec.ofNat 64 n)

/-! ## Results -/

/-- What a native function with a `Result` does. -/
inductive Outcome (I : Type) where
  /-- returns a value and no exception is pending -/
  | value (v : I)
  /-- a `java.lang.Exception` with the message is pending, the returned value is ignored by Java -/
  | exception (msg : Text)
  | panic
  deriving DecidableEq, Repr

/-- `jni_throw`: macroslib/src/java_jni/jni-include.rs:307-317: `CString::new` refuses texts with a NUL character. -/
def jniThrow {I} (msg : Text) : Outcome I := if msg.contains (Char.ofNat 0) then .panic else .exception msg

/-- `Result<T, &str> => _`, `Result<T, String> => _`: macroslib/src/java_jni/jni-include.rs:474-506; `conv` is the conversion of the
`Ok` value (`none`: panic). -/
def resultToJava {T I} (conv : T → Option I) : Except Text T → Outcome I
  | .ok x => match conv x with | some v => .value v | none => .panic
  | .error msg => jniThrow msg

/-! ## Boxed and optional numbers -/

/-- `from_java_lang_*_to_rust`: macroslib/src/java_jni/jni-include.rs:1165-1194, 1307-1334, 1354-1447; `none` is Java `null`. -/
def boxedToRust {V} : Option V → Option V
  | none => none
  | some v => some v

/-- Rust integers with an `Option` rule. -/
inductive OInt where
  | i8 | i16 | i32 | i64
  deriving DecidableEq, Repr

def OInt.ty : OInt → IntTy
  | .i8 => ⟨true, 8⟩
  | .i16 => ⟨true, 16⟩
  | .i32 => ⟨true, 32⟩
  | .i64 => ⟨true, 64⟩

/-- Element type of the Java optional: macroslib/src/java_jni/jni-include.rs:1345-1351, 1504-1538. -/
def OInt.jty : OInt → IntTy
  | .i8 | .i16 | .i32 => jint
  | .i64 => jlong

/-- `Option<i8/i16/i32> => OptionalInt`, `Option<i64> => OptionalLong`: macroslib/src/java_jni/jni-include.rs:1345-1351, 1504-1538
(`$p.map(i32::from)`); `none` is `empty()`. -/
def optToJava : (o : OInt) → Option (BitVec o.ty.width) → Option (BitVec o.jty.width)
  | .i8, x => x.map (asCast ⟨true, 8⟩ jint)
  | .i16, x => x.map (asCast ⟨true, 16⟩ jint)
  | .i32, x => x
  | .i64, x => x

end Flapi.JavaValues
