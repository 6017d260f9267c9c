/-!
# Java callbacks: attachment of threads, global references, method ids (model)
-/
namespace Flapi.JavaCallback

/-- Result of `GetEnv` and `AttachCurrentThread`, chosen by the Java VM. -/
inductive VmAnswer where
  /-- `GetEnv` returned an error that is not `JNI_EDETACHED` -/
  | getEnvError
  /-- `AttachCurrentThread` failed -/
  | attachError
  /-- `AttachCurrentThread` succeeded -/
  | attachOk
  deriving DecidableEq, Repr

/-- `JniEnvHolder`: macroslib/src/java_jni/jni-include.rs:188-193 (the pointer to the callback left out).  `before` is a ghost field: was
the thread attached when the holder was made? -/
structure Holder where
  env : Bool
  needDetach : Bool
  before : Bool
  deriving DecidableEq, Repr

/-- `get_jni_env` on a thread with the given attachment state: macroslib/src/java_jni/jni-include.rs:224-290.  `none`: panic.
`GetEnv` answers `JNI_OK` on an attached thread, `JNI_EDETACHED` (or another error) on a detached one. -/
def getEnv (attached : Bool) (vm : VmAnswer) : Option (Bool × Holder) :=
  if attached then some (true, ⟨true, false, true⟩)
  else match vm with
    | .getEnvError => none
    | .attachError => some (false, ⟨false, false, false⟩)
    | .attachOk => some (true, ⟨true, true, false⟩)

/-- `JniEnvHolder::drop`: macroslib/src/java_jni/jni-include.rs:197-206; the new attachment state. -/
def dropHolder (attached : Bool) (h : Holder) : Bool := if h.needDetach then false else attached

/-- What one thread is doing: is it attached, and the holders of the callback calls it is inside of, innermost first. -/
structure Thread where
  attached : Bool
  stack : List Holder
  deriving DecidableEq, Repr

/-- A `JavaCallback` owned by Rust code. -/
structure Cb where
  /-- not dropped yet -/
  owned : Bool
  /-- number of `DeleteGlobalRef` calls for its global reference -/
  deleted : Nat
  deriving DecidableEq, Repr

structure St where
  threads : Nat → Thread
  cbs : List Cb
  /-- a Rust panic happened on the thread (it runs no more callbacks in this model) -/
  panicked : Nat → Bool

def upd (f : Nat → β) (k : Nat) (v : β) : Nat → β := fun n => if n = k then v else f n

/-- Steps.  Any thread may run any of them at any time.
- `create`: `JavaCallback::new` in a native method called by Java, macroslib/src/java_jni/jni-include.rs:211-222.
- `enter`/`skip`/`enterPanic`: the beginning of a callback method up to the call of the Java method, macroslib/src/java_jni/finterface.rs:289,
  340-341; a method without result does nothing if no `JNIEnv` is available, one with a result panics.
- `exit`: end of the callback method, the holder is dropped.  Java code and native code called by it run between `enter` and `exit`.
- `dropCb`: `JavaCallback::drop`, macroslib/src/java_jni/jni-include.rs:295-303.
- `app`: outside callbacks the application attaches or detaches its threads as it likes. -/
inductive Step : St → St → Prop
  | create (s : St) (t : Nat) : (s.threads t).attached = true → Step s { s with cbs := s.cbs ++ [⟨true, 0⟩] }
  | enter (s : St) (t c : Nat) (cb : Cb) (vm : VmAnswer) (a : Bool) (h : Holder) :
      s.panicked t = false → s.cbs[c]? = some cb → cb.owned = true →
      getEnv (s.threads t).attached vm = some (a, h) → h.env = true →
      Step s { s with threads := upd s.threads t ⟨a, h :: (s.threads t).stack⟩ }
  | noEnv (s : St) (t c : Nat) (cb : Cb) (vm : VmAnswer) (a : Bool) (h : Holder) (hasResult : Bool) :
      s.panicked t = false → s.cbs[c]? = some cb → cb.owned = true →
      getEnv (s.threads t).attached vm = some (a, h) → h.env = false →
      Step s { s with threads := upd s.threads t ⟨dropHolder a h, (s.threads t).stack⟩, panicked := upd s.panicked t hasResult }
  | getEnvPanic (s : St) (t c : Nat) (cb : Cb) (vm : VmAnswer) :
      s.panicked t = false → s.cbs[c]? = some cb → cb.owned = true →
      getEnv (s.threads t).attached vm = none → Step s { s with panicked := upd s.panicked t true }
  | exit (s : St) (t : Nat) (h : Holder) (rest : List Holder) :
      (s.threads t).stack = h :: rest →
      Step s { s with threads := upd s.threads t ⟨dropHolder (s.threads t).attached h, rest⟩ }
  | dropCb (s : St) (t c : Nat) (cb : Cb) (vm : VmAnswer) (a : Bool) (h : Holder) :
      s.panicked t = false → s.cbs[c]? = some cb → cb.owned = true → getEnv (s.threads t).attached vm = some (a, h) →
      Step s { s with
        threads := upd s.threads t ⟨dropHolder a h, (s.threads t).stack⟩
        cbs := s.cbs.set c ⟨false, if h.env then cb.deleted + 1 else cb.deleted⟩ }
  | app (s : St) (t : Nat) (a : Bool) : (s.threads t).stack = [] →
      Step s { s with threads := upd s.threads t ⟨a, []⟩ }

inductive Run : St → St → Prop
  | refl (s : St) : Run s s
  | tail {s₁ s₂ s₃ : St} : Run s₁ s₂ → Step s₂ s₃ → Run s₁ s₃

/-! ## Method ids and arguments -/

/-- The ids pushed by `swig_from`, in the order of the interface: macroslib/src/java_jni/finterface.rs:205-219; `none`: an id was not found
(`assert!`).  `find` is `GetMethodID`. -/
def methodIds (find : M → Option I) : List M → Option (List I)
  | [] => some []
  | m :: l => do pure ((← find m) :: (← methodIds find l))

/-- The id used by the `i`-th trait method: `self.methods[#method_idx]`, macroslib/src/java_jni/finterface.rs:294, 347. -/
def dispatch (ids : List I) (i : Nat) : Option I := ids[i]?

/-- `JNI_FOR_VARIADIC_C_FUNC_CALL`: macroslib/src/java_jni/finterface.rs:373-381.  The cast of an argument before a C call with variable arguments,
as a function on the bits of the argument. -/
inductive JType where
  | jboolean | jbyte | jshort | jint | jlong
  deriving DecidableEq, Repr

def JType.width : JType → Nat
  | .jboolean => 8
  | .jbyte => 8
  | .jshort => 16
  | .jint => 32
  | .jlong => 64

/-- Width after the C default argument promotions. -/
def JType.promoted : JType → Nat
  | .jboolean | .jbyte | .jshort | .jint => 32
  | .jlong => 64

/-- `a as c_uint` (zero extension), `a as c_int` (sign extension) or no cast. -/
def castArg (t : JType) (v : BitVec t.width) : BitVec t.promoted :=
  match t, v with
  | .jboolean, v => BitVec.setWidth 32 (v : BitVec 8)
  | .jbyte, v => BitVec.signExtend 32 (v : BitVec 8)
  | .jshort, v => BitVec.signExtend 32 (v : BitVec 16)
  | .jint, v => v
  | .jlong, v => v

end Flapi.JavaCallback
