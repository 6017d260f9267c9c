import Verif.Java.Jni
/-!
# Strings and arrays at the JNI border (model)
-/
namespace Flapi.Jni
variable {T : Type}

/-- `str::encode_utf16` for one character (Unicode standard, D91). -/
def encodeChar (c : Char) : List Nat :=
  if c.toNat < 0x10000 then [c.toNat]
  else [0xD800 + (c.toNat - 0x10000) / 0x400, 0xDC00 + (c.toNat - 0x10000) % 0x400]

/-- `str::encode_utf16`. -/
def encodeUtf16 (s : Text) : List Nat := s.flatMap encodeChar

/-- `char::decode_utf16` collected by `String::from_utf16`: `none` at the first unpaired surrogate. -/
def decodeUtf16 : List Nat → Option Text
  | [] => some []
  | u :: l =>
    if u < 0xD800 ∨ 0xE000 ≤ u then (decodeUtf16 l).map (Char.ofNat u :: ·)
    else if 0xDC00 ≤ u then none
    else match l with
      | [] => none
      | v :: l' =>
        if v < 0xDC00 ∨ 0xE000 ≤ v then none
        else (decodeUtf16 l').map (Char.ofNat (0x10000 + (u - 0xD800) * 0x400 + (v - 0xDC00)) :: ·)

/-- `from_jstring_std_string` with `JavaUTF16Slice`: macroslib/src/java_jni/jni-include.rs:660-706; the contents are released on both ways out
of `into_string` (drop, also while unwinding). -/
def fromJstring (js : Option Nat) : M T Text :=
  match js with
  | none => pure []
  | some a => do
    let u ← getStringChars a
    release a
    match decodeUtf16 u with
    | some s => pure s
    | none => panic

/-- `from_std_str_jstring`: macroslib/src/java_jni/jni-include.rs:708-712. -/
def fromStdStr (x : Text) : M T (Option Nat) :=
  let u := encodeUtf16 x
  newString u (asJsize u.length)

/-- `assert!(!p.is_null())`. -/
def notNull (o : Option Nat) : M T Nat :=
  match o with
  | some a => pure a
  | none => panic

/-- Loop of `vec_string_to_jobject_array`: macroslib/src/java_jni/jni-include.rs:737-749. -/
def fillStrings (arr : Nat) : Nat → List Text → M T Unit
  | _, [] => pure ()
  | i, x :: l => do
    let jstr ← fromStdStr x
    let a ← notNull jstr
    let failed ← setElement arr (asJsize i) (some a)
    assert (!failed)
    deleteLocalRef (some a)
    fillStrings arr (i + 1) l

/-- `vec_string_to_jobject_array`: macroslib/src/java_jni/jni-include.rs:731-751. -/
def vecStringToArray (arr : List Text) : M T Nat := do
  let o ← newArray (fun n => .arr (List.replicate n none)) (asJsize arr.length)
  let a ← notNull o
  fillStrings a 0 arr
  pure a

/-- `from_slice_to_raw` of every primitive array wrapper: macroslib/src/java_jni/jni-include.rs:793-808. -/
def fromSlice (arr : List Nat) : M T Nat := do
  assert (decide (arr.length ≤ 2147483647))
  let o ← newArray (fun n => .prims (List.replicate n 0)) (asJsize arr.length)
  let a ← notNull o
  let failed ← setRegion a (asJsize arr.length) arr
  assert (!failed)
  pure a

/-- `new` of a primitive array wrapper with `to_slice`: macroslib/src/java_jni/jni-include.rs:779-792. -/
def arrayToSlice (o : Option Nat) : M T (List Nat) := do
  let a ← notNull o
  getElements a

/-- A call that uses a Java array: the wrapper is made, the slice is given to `f`, the wrapper is dropped with `JNI_ABORT`:
macroslib/src/java_jni/jni-include.rs:779-792, 811-825.  (`f` is the user's function: it reads the slice and nothing else here.) -/
def withArray {R} (o : Option Nat) (f : List Nat → R) : M T R := do
  let e ← arrayToSlice o
  let a ← notNull o
  release a
  pure (f e)

/-- Loop of `vec_of_objects_to_jobject_array`: macroslib/src/java_jni/jni-include.rs:407-423. -/
def fillObjects (arr : Nat) : Nat → List T → M T Unit
  | _, [] => pure ()
  | i, x :: l => do
    let jobj ← alloc (.obj 0)
    let p ← boxObject x
    setLongField jobj p
    let failed ← setElement arr (asJsize i) (some jobj)
    assert (!failed)
    deleteLocalRef (some jobj)
    fillObjects arr (i + 1) l

/-- `vec_of_objects_to_jobject_array`: macroslib/src/java_jni/jni-include.rs:392-428. -/
def vecObjectsToArray (arr : List T) : M T Nat := do
  assert (decide (arr.length ≤ 2147483647))
  let o ← newArray (fun n => .arr (List.replicate n none)) (asJsize arr.length)
  let a ← notNull o
  fillObjects a 0 arr
  pure a

/-- One element of `jobject_array_to_vec_of_objects`: macroslib/src/java_jni/jni-include.rs:354-379. -/
def readObject (arr i : Nat) : M T T := do
  let o ← getElement arr i
  match o with
  | none => panic
  | some obj => do
    let p ← getLongField obj
    let x ← derefNative p
    deleteLocalRef obj
    pure x

/-- Loop of `jobject_array_to_vec_of_objects`: macroslib/src/java_jni/jni-include.rs:364-378; `n` is the number of elements left. -/
def readObjects (arr : Nat) : Nat → Nat → M T (List T)
  | _, 0 => pure []
  | i, n + 1 => do
    let x ← readObject arr i
    let l ← readObjects arr (i + 1) n
    pure (x :: l)

/-- `jobject_array_to_vec_of_objects`: macroslib/src/java_jni/jni-include.rs:354-379 (cloning gives an equal object). -/
def arrayToVecObjects (arr : Nat) : M T (List T) := do
  let n ← getArrayLength arr
  readObjects arr 0 n

end Flapi.Jni
