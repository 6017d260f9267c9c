import Verif.Base.Text
/-!
# JNI calls under any behaviour of the Java machine: exceptions, buffers, local references (model)

What the native code of a method or callback calls, in order; what a call returns, and whether it throws, is up to the Java machine.  Null arrays, elements and
strings on the Java side, and the values themselves, are the subject of C37, C38, C55; threads and attaching of C36; class and method ids come from a
cache (C32), so reading them is no call.
-/
namespace Flapi.JniRules

/-- The JNI functions that are used; for `Get<Type>ArrayElements` and such one stands for all types. -/
inductive Fn where
  | newString | getStringLength | getStringChars | releaseStringChars
  | getElements | getArrayLength | releaseElements | newArray | setRegion
  | newObjectArray | allocObject | setLongField | getLongField | setObjectElement | getObjectElement
  | newLocalRef | deleteLocalRef | newGlobalRef | deleteGlobalRef | getObjectClass | getMethodId
  | callMethod | callStatic | throwNew | exceptionCheck | exceptionDescribe | exceptionClear
  deriving DecidableEq, Repr

/-- May be called while an exception is pending: the list in the JNI specification, chapter 2, "Exceptions and Error Codes". -/
def Fn.always : Fn → Bool
  | .releaseStringChars | .releaseElements | .deleteLocalRef | .deleteGlobalRef | .exceptionCheck | .exceptionDescribe | .exceptionClear => true
  | _ => false

/-- A call gives a new local reference (unless it gives null). -/
def Fn.givesLocal : Fn → Bool
  | .newString | .newArray | .newObjectArray | .allocObject | .getObjectElement | .newLocalRef | .getObjectClass | .callStatic => true
  | _ => false

/-- What the Java machine answers: null (or an error code), an exception, a number. -/
structure Ans where
  null : Bool
  throws : Bool
  num : Nat
  deriving DecidableEq, Repr

/-- What the Java machine will do: depends on how many answers it has given. -/
abbrev Oracle := Nat → Fn → Ans

/-- `bad`: a function was called that must not be called while an exception is pending; `held`: buffers not released; `twice`: one was released that was not held;
`locals`: local references, `peak`: the most there have been. -/
structure St where
  answered : Nat
  pending : Bool
  bad : Bool
  held : List Nat
  fresh : Nat
  twice : Bool
  locals : Nat
  peak : Nat
  deriving DecidableEq, Repr

/-- How code stops early: a panic unwinds and runs destructors; a panic that reaches the border to Java ends the process. -/
inductive Stop where
  | panic
  | abort
  deriving DecidableEq, Repr

/-- Code: it ends with a value or stops. -/
def M (α : Type) := Oracle → St → Except Stop α × St

def M.ret (a : α) : M α := fun _ s => (.ok a, s)

def M.andThen (x : M α) (f : α → M β) : M β := fun O s =>
  match x O s with
  | (.ok a, t) => f a O t
  | (.error e, t) => (.error e, t)

instance : Monad M where
  pure := M.ret
  bind := M.andThen

def panic {α : Type} : M α := fun _ s => (.error .panic, s)

/-- `assert!`, `expect`, `unwrap`. -/
def assert (b : Bool) : M Unit := if b then pure () else panic

/-- One call of a JNI function. -/
def call (f : Fn) : M Ans := fun O s =>
  let a := O s.answered f
  let locals :=
    match f with
    | .deleteLocalRef => s.locals - 1
    | _ => if f.givesLocal && !a.null then s.locals + 1 else s.locals
  (.ok a, { s with
    answered := s.answered + 1
    bad := s.bad || (s.pending && !f.always)
    pending := match f with
      | .exceptionClear => false
      | _ => s.pending || a.throws
    locals := locals
    peak := max s.peak locals })

/-- Is an exception pending? -/
def check : M Bool := fun O s =>
  match call .exceptionCheck O s with
  | (.ok _, t) => (.ok s.pending, t)
  | (.error e, t) => (.error e, t)

/-- `if ExceptionCheck() != 0 { panic!() }` after a call. -/
def checked (f : Fn) : M Ans := do
  let a ← call f
  let b ← check
  assert !b
  pure a

/-- `assert!(!x.is_null())` after a call. -/
def nonNull (f : Fn) : M Ans := do
  let a ← call f
  assert !a.null
  pure a

/-- A local reference is deleted, unless it is null. -/
def deleteLocal (a : Ans) : M Unit := fun O s =>
  match call .deleteLocalRef O s with
  | (r, t) => (r.map fun _ => (), if a.null then { t with locals := s.locals } else t)

/-- A buffer was received. -/
def acquire : M Nat := fun _ s => (.ok s.fresh, { s with held := s.fresh :: s.held, fresh := s.fresh + 1 })

/-- It is released. -/
def release (b : Nat) : M Unit := fun _ s => (.ok (), { s with held := s.held.erase b, twice := s.twice || !s.held.contains b })

/-- `Drop`: runs at the end of the scope, also after a panic. -/
def finally' (x : M α) (drop : M Unit) : M α := fun O s =>
  match x O s with
  | (.error .abort, t) => (.error .abort, t)
  | (r, t) => (r, (drop O t).2)

/-- `Drop` of something that is returned if there is no panic. -/
def onPanic (x : M α) (drop : M Unit) : M α := fun O s =>
  match x O s with
  | (.error .panic, t) => (.error .panic, (drop O t).2)
  | (r, t) => (r, t)

/-- Repeated. -/
def times : Nat → M Unit → M Unit
  | 0, _ => pure ()
  | n + 1, x => do x; times n x

/-! ## Arguments of exported functions, results of callbacks' calls -/

/-- `JavaUTF16Slice::new`, `into_string`, `drop`: macroslib/src/java_jni/jni-include.rs:660-706.  `valid`: the text is well-formed UTF-16. -/
def fromJString (null valid : Bool) : M Unit :=
  if null then pure ()
  else do
    let _ ← call .getStringLength
    let _ ← call .getStringChars
    let b ← acquire
    finally' (assert valid) (do let _ ← call .releaseStringChars; release b)

/-- `Java<Type>Array::new`, `to_slice`, the code that uses the slice, `drop`: macroslib/src/java_jni/jni-include.rs:763-829. -/
def withArray (null : Bool) (rest : M Unit) : M Unit := do
  assert !null
  let _ ← call .getElements
  let b ← acquire
  finally' (do let _ ← call .getArrayLength; rest) (do let _ ← call .releaseElements; release b)

/-- One element: macroslib/src/java_jni/jni-include.rs:364-376.  `owner`: its native object was not given away. -/
def fromElement (owner : Bool) : M Unit := do
  let a ← checked .getObjectElement
  let _ ← call .getLongField
  assert owner
  deleteLocal a

/-- `jobject_array_to_vec_of_objects`: macroslib/src/java_jni/jni-include.rs:352-380. -/
def fromObjectArray (owner : Bool) : M Unit := do
  let a ← call .getArrayLength
  times a.num (fromElement owner)

/-- `from_java_lang_double_to_rust` and the like for the other boxed types: macroslib/src/java_jni/jni-include.rs:1166-1194, 1213-1241, 1306-1335,
1354-1448. -/
def fromBoxed (null : Bool) : M Unit :=
  if null then pure ()
  else do
    let x ← call .newLocalRef
    if x.null then pure ()
    else do
      let _ ← checked .callMethod
      deleteLocal x

/-- `JavaCallback::new` and the look-up of the methods; a panic drops the callback: macroslib/src/java_jni/jni-include.rs:211-224, 291-304,
macroslib/src/java_jni/finterface.rs:191-228. -/
def newCallback (methods : Nat) : M Unit := do
  let _ ← nonNull .newGlobalRef
  onPanic (do let _ ← nonNull .getObjectClass; times methods (do let _ ← nonNull .getMethodId; pure ())) (do let _ ← call .deleteGlobalRef; pure ())

/-- An argument of an exported function, by what its conversion calls. -/
inductive In where
  /-- numbers, enums, objects, `Option` of an object: no call -/
  | plain
  /-- `String`, `&str`, `&Path`, `Option<&str>` -/
  | string (null valid : Bool)
  /-- `&[i32]` and the like -/
  | array (null : Bool)
  | objects (owner : Bool)
  | boxed (null : Bool)
  | callback (methods : Nat)
  deriving DecidableEq, Repr

/-- The conversion of an argument, then the rest of the function: macroslib/src/typemap/utils.rs:66-115. -/
def In.with (rest : M Unit) : In → M Unit
  | .plain => rest
  | .string null valid => do fromJString null valid; rest
  | .array null => withArray null rest
  | .objects owner => do fromObjectArray owner; rest
  | .boxed null => do fromBoxed null; rest
  | .callback methods => do newCallback methods; rest

def withAll : List In → M Unit → M Unit
  | [], rest => rest
  | a :: as, rest => a.with (withAll as rest)

/-! ## Results of exported functions, arguments of callbacks -/

/-- `from_std_str_jstring`: macroslib/src/java_jni/jni-include.rs:708-712. -/
def toJString : M Unit := do let _ ← call .newString; pure ()

/-- `from_slice_to_raw`: macroslib/src/java_jni/jni-include.rs:793-810. -/
def toArray : M Unit := do
  let _ ← nonNull .newArray
  let _ ← checked .setRegion
  pure ()

/-- `object_to_jobject`: macroslib/src/java_jni/jni-include.rs:325-344. -/
def toObject : M Unit := do
  let _ ← nonNull .allocObject
  let _ ← checked .setLongField
  pure ()

/-- One element: macroslib/src/java_jni/jni-include.rs:407-423. -/
def toElement : M Unit := do
  let a ← nonNull .allocObject
  let _ ← checked .setLongField
  let _ ← checked .setObjectElement
  deleteLocal a

/-- `vec_of_objects_to_jobject_array`: macroslib/src/java_jni/jni-include.rs:391-429. -/
def toObjectArray (len : Nat) : M Unit := do
  let _ ← nonNull .newObjectArray
  times len toElement

/-- One element: macroslib/src/java_jni/jni-include.rs:737-749. -/
def toStringElement : M Unit := do
  let a ← nonNull .newString
  let _ ← checked .setObjectElement
  deleteLocal a

/-- `vec_string_to_jobject_array`: macroslib/src/java_jni/jni-include.rs:730-751. -/
def toStringArray (len : Nat) : M Unit := do
  let _ ← nonNull .newObjectArray
  times len toStringElement

/-- `to_java_util_optional_double` and the like: macroslib/src/java_jni/jni-include.rs:1114-1163, 1258-1303, 1457-1502. -/
def toOptional : M Unit := do
  let a ← checked .callStatic
  assert !a.null

/-- A result of an exported function or an argument of a callback, by what its conversion calls. -/
inductive Out where
  /-- numbers, enums, objects returned as numbers, `None` of strings: no call -/
  | plain
  | string
  | array
  | object
  | objects (len : Nat)
  | strings (len : Nat)
  | optional
  deriving DecidableEq, Repr

/-- macroslib/src/java_jni/jni-include.rs:325-344, 390-429, 641-658, 708-712, 730-751, 793-810, 1114-1163. -/
def Out.conv : Out → M Unit
  | .plain => pure ()
  | .string => toJString
  | .array => toArray
  | .object => toObject
  | .objects len => toObjectArray len
  | .strings len => toStringArray len
  | .optional => toOptional

/-- What an exported function ends with; `error`: `Err` of a `Result`, `nul`: the message contains a zero byte. -/
inductive Result where
  | value (o : Out)
  | error (nul : Bool)
  deriving DecidableEq, Repr

/-- macroslib/src/java_jni/jni-include.rs:306-323, 474-503. -/
def Result.conv : Result → M Unit
  | .value o => o.conv
  | .error nul => do assert !nul; let _ ← call .throwNew; pure ()

/-! ## Exported functions and callbacks -/

/-- An exported function that Java calls: macroslib/src/java_jni/fclass.rs:835-884, 885-952, 954-1028.  `body`: the Rust function. -/
def native (args : List In) (body : M Unit) (r : Result) : M Unit := withAll args (do body; r.conv)

/-- Java calls it: its local references end with the call; a panic ends the process (`extern "C"`). -/
def fromJava (f : M Unit) : M Unit := fun O s =>
  match f O s with
  | (.ok _, t) => (.ok (), { t with locals := s.locals })
  | (.error _, t) => (.error .abort, t)

/-- A Java method is called; it runs `java`, then it may throw. -/
def callJava (java : M Unit) : M Unit := fun O s =>
  match java O { s with bad := s.bad || s.pending } with
  | (.ok _, t) => (.ok (), { t with answered := t.answered + 1, pending := t.pending || (O t.answered .callMethod).throws })
  | (.error e, t) => (.error e, t)

/-- Java goes on after a call: if there is an exception it is either caught, or nothing more is done. -/
def javaNext (rest : M Unit) : M Unit := fun O s =>
  if s.pending then
    if (O s.answered .callMethod).throws then (.ok (), { s with answered := s.answered + 1 })
    else rest O { s with answered := s.answered + 1, pending := false }
  else rest O s

/-- A callback: arguments are converted, the Java method is called (it runs `java`, then may throw), an exception is cleared:
macroslib/src/java_jni/finterface.rs:285-305, 332-360. -/
def callback (args : List Out) (java : M Unit) : M Unit := do
  args.forM Out.conv
  callJava java
  let b ← check
  if b then do
    let _ ← call .exceptionDescribe
    let _ ← call .exceptionClear
    pure ()
  else pure ()

end Flapi.JniRules
