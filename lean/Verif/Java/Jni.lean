import Verif.Base.Text
/-!
# The Java side as the generated code sees it: objects, local references, borrowed contents (model)

The JNI functions themselves belong to the Java virtual machine; what is written here is their documented behaviour, as far as the
functions of macroslib/src/java_jni/jni-include.rs use them.  Out-of-memory is not modelled.
-/
namespace Flapi.Jni

/-- A Java object.  Strings are sequences of UTF-16 code units (`jchar`, numbers here); primitive arrays hold bit patterns (one constructor for the six array types
of macroslib/src/java_jni/jni-include.rs:830-891); `none` in an object array is `null`; `obj` is an instance of a generated class with the
content of its `mNativeObj` field. -/
inductive JObj where
  | str (units : List Nat)
  | prims (elems : List Nat)
  | arr (elems : List (Option Nat))
  | obj (native : Nat)
  deriving DecidableEq, Repr

/-- State: Java objects (an address is an index), open local references, contents of strings and arrays given out and not yet released, the
largest number of local references so far, and the Rust objects behind `mNativeObj` (the pointer of the object at index `i` is `i + 1`). -/
structure Jvm (T : Type) where
  heap : List JObj
  locals : List Nat
  pins : List Nat
  peak : Nat
  natives : List T
  deriving DecidableEq, Repr

/-- How a piece of native code ends: normally, by a Rust panic, or by undefined behaviour (null dereferenced by the virtual machine). -/
inductive Res (α : Type) where
  | ok (a : α)
  | panic
  | crash
  deriving DecidableEq, Repr

/-- Native code. -/
def M (T α : Type) := Jvm T → Res (α × Jvm T)

variable {T α β : Type}

def M.pure (a : α) : M T α := fun s => .ok (a, s)

def M.bind (x : M T α) (f : α → M T β) : M T β := fun s =>
  match x s with
  | .ok (a, s') => f a s'
  | .panic => .panic
  | .crash => .crash

instance : Monad (M T) where
  pure := M.pure
  bind := M.bind

def panic : M T α := fun _ => .panic
def crash : M T α := fun _ => .crash

/-- `assert!`. -/
def assert (b : Bool) : M T Unit := if b then M.pure () else panic

/-- A new local reference. -/
def addLocal (s : Jvm T) (a : Nat) : Jvm T :=
  { s with locals := a :: s.locals, peak := max s.peak (s.locals.length + 1) }

/-- Allocate a Java object and return a local reference to it. -/
def alloc (o : JObj) : M T Nat := fun s => .ok (s.heap.length, addLocal { s with heap := s.heap ++ [o] } s.heap.length)

/-- `len as i32` (`jsize`). -/
def asJsize (n : Nat) : Int := (BitVec.ofNat 32 n).toInt

/-- `NewString(env, chars, len)`: `null` for a negative length, else a string with the first `len` units. -/
def newString (units : List Nat) (len : Int) : M T (Option Nat) := fun s =>
  if len < 0 then .ok (none, s)
  else match alloc (.str (units.take len.toNat)) s with
    | .ok (a, s') => .ok (some a, s')
    | .panic => .panic
    | .crash => .crash

/-- `GetStringLength` and `GetStringChars` (the contents stay borrowed until released). -/
def getStringChars (a : Nat) : M T (List Nat) := fun s =>
  match s.heap[a]? with
  | some (.str u) => .ok (u, { s with pins := a :: s.pins })
  | _ => .crash

/-- `ReleaseStringChars`, `Release<Type>ArrayElements(.., JNI_ABORT)`. -/
def release (a : Nat) : M T Unit := fun s => .ok ((), { s with pins := s.pins.erase a })

/-- `New<Type>Array` and `NewObjectArray` with null elements: `null` for a negative length. -/
def newArray (mk : Nat → JObj) (len : Int) : M T (Option Nat) := fun s =>
  if len < 0 then .ok (none, s)
  else match alloc (mk len.toNat) s with
    | .ok (a, s') => .ok (some a, s')
    | .panic => .panic
    | .crash => .crash

/-- `Set<Type>ArrayRegion(env, arr, 0, len, data)`; the result says whether an exception is pending (index out of bounds). -/
def setRegion (a : Nat) (len : Int) (data : List Nat) : M T Bool := fun s =>
  match s.heap[a]? with
  | some (.prims e) =>
    if 0 ≤ len ∧ len.toNat ≤ e.length then
      .ok (false, { s with heap := s.heap.set a (.prims (data.take len.toNat ++ e.drop len.toNat)) })
    else .ok (true, s)
  | _ => .crash

/-- `Get<Type>ArrayElements` and `GetArrayLength`. -/
def getElements (a : Nat) : M T (List Nat) := fun s =>
  match s.heap[a]? with
  | some (.prims e) => .ok (e, { s with pins := a :: s.pins })
  | _ => .crash

/-- `GetArrayLength` of an object array. -/
def getArrayLength (a : Nat) : M T Nat := fun s =>
  match s.heap[a]? with
  | some (.arr e) => .ok (e.length, s)
  | _ => .crash

/-- `SetObjectArrayElement`; the result says whether an exception is pending. -/
def setElement (a : Nat) (i : Int) (v : Option Nat) : M T Bool := fun s =>
  match s.heap[a]? with
  | some (.arr e) =>
    if 0 ≤ i ∧ i.toNat < e.length then .ok (false, { s with heap := s.heap.set a (.arr (e.set i.toNat v)) })
    else .ok (true, s)
  | _ => .crash

/-- `GetObjectArrayElement`: a new local reference, unless the element is null; `none` outside is a pending exception. -/
def getElement (a i : Nat) : M T (Option (Option Nat)) := fun s =>
  match s.heap[a]? with
  | some (.arr e) =>
    match e[i]? with
    | some (some o) => .ok (some (some o), addLocal s o)
    | some none => .ok (some none, s)
    | none => .ok (none, s)
  | _ => .crash

/-- `GetLongField(obj, mNativeObj)`; a null object is undefined behaviour. -/
def getLongField (o : Option Nat) : M T Nat := fun s =>
  match o with
  | none => .crash
  | some a =>
    match s.heap[a]? with
    | some (.obj n) => .ok (n, s)
    | _ => .crash

/-- `SetLongField(obj, mNativeObj, v)`. -/
def setLongField (a n : Nat) : M T Unit := fun s =>
  match s.heap[a]? with
  | some (.obj _) => .ok ((), { s with heap := s.heap.set a (.obj n) })
  | _ => .crash

/-- `DeleteLocalRef` (nothing for null). -/
def deleteLocalRef (o : Option Nat) : M T Unit := fun s =>
  match o with
  | none => .ok ((), s)
  | some a => .ok ((), { s with locals := s.locals.erase a })

/-- `T::box_object`: the object goes to the Rust heap, its non-null address is returned
(macroslib/src/java_jni/fclass.rs, `SwigForeignClass` impls). -/
def boxObject (x : T) : M T Nat := fun s => .ok (s.natives.length + 1, { s with natives := s.natives ++ [x] })

/-- `(ptr as *mut T).as_mut().unwrap()`: null panics, a dangling address is undefined behaviour. -/
def derefNative (n : Nat) : M T T := fun s =>
  if n = 0 then .panic
  else match s.natives[n - 1]? with
    | some x => .ok (x, s)
    | none => .crash

end Flapi.Jni
