/-!
# Life cycle of Java wrapper objects (model)

A small-step, multi-threaded machine for the Java and native code generated for one library: every Java wrapper object has the field
`mNativeObj`, every native object has an address.  Threads run Java calls; each call is compiled to the elementary actions of the
generated Java method and of the generated native function, and actions of different threads interleave arbitrarily.

Simplifications: memory is sequentially consistent; addresses are never reused (so that an address names one native object for ever);
a panic in native code (`unwrap()` on a null pointer) ends the process; a Rust object stored in a `Box`, `Rc` or `Arc` is one
address, and `clone()` of it only needs it to be alive.
-/
namespace Flapi.JavaLife

/-- A Java wrapper object (the value of a Java reference). -/
abbrev Obj := Nat
/-- Value of `mNativeObj`; 0 is "no native object". -/
abbrev Addr := Nat

/-- An argument of a generated Java method whose type is a foreign class:
macroslib/src/java_jni/map_class_self_type.rs:80-121 (`&T`, `&mut T`), 204-306 (by value), macroslib/src/java_jni/jni-include.rs:1569-1617 (`Option`). -/
inductive Arg where
  /-- `&T` / `&mut T` -/
  | ref (x : Obj)
  /-- `T`, class neither `Copy` nor `SmartPtrCopy` -/
  | value (x : Obj)
  /-- `T`, class `Copy` or `SmartPtrCopy` -/
  | copy (x : Obj)
  /-- `Option<T>` (any class) -/
  | optValue (x : Option Obj)
  /-- `Option<&T>` -/
  | optRef (x : Option Obj)
  /-- Java `null` given for one of the first three kinds -/
  | null
  deriving DecidableEq, Repr

/-- What a Java program does with wrapper objects. -/
inductive Op where
  /-- `x = new Class(args)` -/
  | new (x : Obj) (args : List Arg)
  /-- `Class.f(args)` or `recv.f(args)` -/
  | call (recv : Option Obj) (args : List Arg)
  /-- `x.delete()` (also called by `finalize()`) -/
  | delete (x : Obj)
  deriving DecidableEq, Repr

/-- Elementary actions; `i` is a local variable (`long a0`, ...). -/
inductive Instr where
  | acquire (x : Obj)
  | release (x : Obj)
  /-- `if (x.mNativeObj != 0) {`: if it is zero go to the end of the `synchronized` method -/
  | ifSet (x : Obj)
  /-- `long i = x.mNativeObj;` -/
  | load (i : Nat) (x : Obj)
  /-- `x.mNativeObj = 0;` -/
  | clear (x : Obj)
  /-- `null.mNativeObj`: `NullPointerException` -/
  | npe
  /-- `jlong_to_pointer(i).as_mut().unwrap()` and a use of the reference -/
  | deref (i : Nat)
  /-- the same under `if i != 0` -/
  | derefOpt (i : Nat)
  /-- `unwrap()`, then the heap cell is taken back by Rust and freed -/
  | take (i : Nat)
  /-- the same under `if i != 0` -/
  | takeOpt (i : Nat)
  /-- reachability fences on the objects -/
  | fence (xs : List Obj)
  /-- a new native object is put on the heap and its address stored in `x.mNativeObj`, then reachability fences -/
  | create (x : Obj) (xs : List Obj)
  deriving DecidableEq, Repr

/-- Java side of one argument: macroslib/src/java_jni/map_class_self_type.rs:290-306, 346-378; macroslib/src/java_jni/jni-include.rs:1578-1591, 1605-1616. -/
def javaArg (i : Nat) : Arg → List Instr
  | .ref x => [.load i x]
  | .value x => [.load i x, .clear x]
  | .copy x => [.load i x]
  | .optValue (some x) => [.load i x, .clear x]
  | .optValue none => []
  | .optRef (some x) => [.load i x]
  | .optRef none => []
  | .null => [.npe]

/-- Java side of all arguments: the loop at macroslib/src/java_jni/fclass.rs:1055-1089. -/
def javaArgs : Nat → List Arg → List Instr
  | _, [] => []
  | i, a :: l => javaArg i a ++ javaArgs (i + 1) l

/-- Native conversion of one argument: macroslib/src/java_jni/map_class_self_type.rs:86-92, 109-113, 204-272;
macroslib/src/java_jni/jni-include.rs:1571-1576, 1596-1603. -/
def nativeArg (i : Nat) : Arg → List Instr
  | .ref _ => [.deref i]
  | .value _ => [.take i]
  | .copy _ => [.deref i]
  | .optValue _ => [.takeOpt i]
  | .optRef _ => [.derefOpt i]
  | .null => []

def nativeArgs : Nat → List Arg → List Instr
  | _, [] => []
  | i, a :: l => nativeArg i a ++ nativeArgs (i + 1) l

/-- The called Rust function uses its reference arguments: `{call}` at macroslib/src/java_jni/fclass.rs:1016. -/
def bodyArg (i : Nat) : Arg → List Instr
  | .ref _ => [.deref i]
  | .optRef _ => [.derefOpt i]
  | _ => []

def bodyArgs : Nat → List Arg → List Instr
  | _, [] => []
  | i, a :: l => bodyArg i a ++ bodyArgs (i + 1) l

/-- The wrapper object an argument refers to. -/
def Arg.objs : Arg → List Obj
  | .ref x | .value x | .copy x | .optValue (some x) | .optRef (some x) => [x]
  | _ => []

def argObjs (args : List Arg) : List Obj := args.flatMap Arg.objs

/-- `delete()`: macroslib/src/java_jni/fclass.rs:445-450 and the native `do_delete`, 726-741. -/
def deleteCode (x : Obj) : List Instr :=
  [.acquire x, .ifSet x, .load 0 x, .take 0, .clear x, .release x]

/-- The receiver is read when the native method is called, after the conversions of the arguments
(macroslib/src/java_jni/fclass.rs:314-344), and turned into a reference after them (1011-1016): it behaves like a last argument `&T`,
but has no reachability fence. -/
def withRecv (args : List Arg) : Option Obj → List Arg
  | some x => args ++ [.ref x]
  | none => args

/-- Java side, native conversions and body of a call. -/
def callCode (args : List Arg) : List Instr := javaArgs 0 args ++ (nativeArgs 0 args ++ bodyArgs 0 args)

/-- Actions of one operation.  The separate fences of `JavaReachabilityFence::Std` are one action here, and in a constructor storing the
result of `init` and the fence after it (macroslib/src/java_jni/fclass.rs:412-414) are one action. -/
def compile : Op → List Instr
  | .delete x => deleteCode x
  | .call recv args => callCode (withRecv args recv) ++ [.fence (argObjs args)]
  | .new x args => callCode args ++ [.create x (argObjs args)]

abbrev Regs := Nat → Addr

/-- Shared memory. -/
structure Mem where
  field : Obj → Addr
  lock : Obj → Option Nat
  /-- addresses `1 ≤ a < next` have been given out -/
  next : Addr
  /-- how often Rust destroyed the object (or took its heap cell) -/
  destroyed : Addr → Nat
  /-- a native `unwrap()` panicked -/
  aborted : Bool
  /-- a destroyed object was used or destroyed again: undefined behaviour -/
  bad : Bool

def upd (f : Nat → β) (k : Nat) (v : β) : Nat → β := fun n => if n = k then v else f n

def Mem.live (m : Mem) (a : Addr) : Prop := a ≠ 0 ∧ a < m.next ∧ m.destroyed a = 0

instance (m : Mem) (a : Addr) : Decidable (m.live a) := inferInstanceAs (Decidable (_ ∧ _ ∧ _))

def Mem.destroy (m : Mem) (a : Addr) : Mem := { m with destroyed := upd m.destroyed a (m.destroyed a + 1) }

/-- Use of a reference. -/
def Mem.use (m : Mem) (a : Addr) : Mem := if m.live a then m else { m with bad := true }

/-- Destroying a native object. -/
def Mem.takeOut (m : Mem) (a : Addr) : Mem := (m.use a).destroy a

/-- One action of thread `t` with local variables `r` and the rest `c` of its operation; `none`: the thread is blocked. -/
def exec (t : Nat) : Instr → Mem → Regs → List Instr → Option (Mem × Regs × List Instr)
  | .acquire x, m, r, c => if m.lock x = none then some ({ m with lock := upd m.lock x (some t) }, r, c) else none
  | .release x, m, r, c => some ({ m with lock := upd m.lock x none }, r, c)
  | .ifSet x, m, r, c => some (m, r, if m.field x = 0 then [.release x] else c)
  | .load i x, m, r, c => some (m, upd r i (m.field x), c)
  | .clear x, m, r, c => some ({ m with field := upd m.field x 0 }, r, c)
  | .npe, m, r, _ => some (m, r, [])
  | .deref i, m, r, c => some (if r i = 0 then { m with aborted := true } else m.use (r i), r, c)
  | .derefOpt i, m, r, c => some (if r i = 0 then m else m.use (r i), r, c)
  | .take i, m, r, c => some (if r i = 0 then { m with aborted := true } else m.takeOut (r i), r, c)
  | .takeOpt i, m, r, c => some (if r i = 0 then m else m.takeOut (r i), r, c)
  | .fence _, m, r, c => some (m, r, c)
  | .create x _, m, r, c => some ({ m with field := upd m.field x m.next, next := m.next + 1 }, r, c)

/-- A thread: the operations still to do, the running one (the last one when `code` is empty), what is left of it, its variables. -/
structure Thread where
  todo : List Op
  cur : Op
  code : List Instr
  regs : Regs

structure St where
  mem : Mem
  made : Obj → Bool
  threads : List Thread

/-- Objects an action refers to (a thread that still has the action to do keeps them reachable). -/
def Instr.objs : Instr → List Obj
  | .acquire x | .release x | .ifSet x | .load _ x | .clear x => [x]
  | .create x xs => x :: xs
  | .fence xs => xs
  | _ => []

def Op.objs : Op → List Obj
  | .new x args => x :: argObjs args
  | .call recv args => recv.toList ++ argObjs args
  | .delete x => [x]

/-- The thread can still reach `x`. -/
def Thread.reaches (th : Thread) (x : Obj) : Prop := (∃ i ∈ th.code, x ∈ i.objs) ∨ ∃ o ∈ th.todo, x ∈ o.objs

/-- `new x` makes an object that did not exist before. -/
def St.canStart (s : St) : Op → Prop
  | .new x _ => s.made x = false
  | _ => True

def markMade (made : Obj → Bool) : Op → Obj → Bool
  | .new x _ => upd made x true
  | _ => made

/-- What a step does, for stating restrictions on runs. -/
inductive Label where
  | start (t : Nat) (o : Op)
  | act (t : Nat)
  | gc (x : Obj)

/-- The machine.  `gc`: the collector finds an object no thread can reach and lets a new thread run its finaliser, which calls
`delete()` (macroslib/src/java_jni/fclass.rs:451-459). -/
inductive Step : St → Label → St → Prop
  | start (s : St) (t : Nat) (th : Thread) (o : Op) (rest : List Op) :
      s.mem.aborted = false → s.threads[t]? = some th → th.code = [] → th.todo = o :: rest → s.canStart o →
      Step s (.start t o) { s with made := markMade s.made o, threads := s.threads.set t ⟨rest, o, compile o, fun _ => 0⟩ }
  | exec (s : St) (t : Nat) (th : Thread) (i : Instr) (c : List Instr) (m : Mem) (r : Regs) (c' : List Instr) :
      s.mem.aborted = false → s.threads[t]? = some th → th.code = i :: c → exec t i s.mem th.regs c = some (m, r, c') →
      Step s (.act t) { s with mem := m, threads := s.threads.set t { th with code := c', regs := r } }
  | gc (s : St) (x : Obj) :
      s.mem.aborted = false → s.made x = true → (∀ th ∈ s.threads, ¬ th.reaches x) →
      Step s (.gc x) { s with threads := s.threads ++ [⟨[.delete x], .delete x, [], fun _ => 0⟩] }

/-- Any number of steps, every one satisfying `ok`. -/
inductive Run (ok : St → Label → Prop) : St → St → Prop
  | refl (s : St) : Run ok s s
  | tail {s₁ s₂ s₃ : St} {l : Label} : Run ok s₁ s₂ → Step s₂ l s₃ → ok s₂ l → Run ok s₁ s₃

end Flapi.JavaLife
