import Verif.TypeMap.PointersProps
/-!
# Threads that call exported functions at the same time (model)

The objects of a class stored as `Arc<Mutex<T>>` may be used from several threads.  The exported function converts its
arguments one after the other and then, for a method, the object itself
(macroslib/src/cpp/fclass.rs:893-906, macroslib/src/java_jni/fclass.rs:1005-1020); the conversions of such objects lock their
mutexes (macroslib/src/cpp/cpp-include.rs:142-165, macroslib/src/java_jni/jni-include.rs:1019-1042) and keep the guards in local
variables, so that they are released only at the end of the function, the last one first.

Not modelled: panics (they end the process at the border of an `extern "C"` function), locks the Rust functions take by
themselves, and objects that are not protected by a mutex.
-/
namespace Flapi.Threads
open Flapi.Pointers

/-- The Rust function, from the point of view of the objects behind the mutexes: it may look at and change the content of one
of them, and go on depending on what it saw, until it returns.  (User code; called at macroslib/src/types.rs:171-190.) -/
inductive Prog (V : Type) where
  | done (r : V)
  | access (m : Nat) (w : V → V) (k : V → Prog V)

/-- A call of an exported function: the arguments in the order of their conversions (macroslib/src/cpp/fclass.rs:893-906), and
what the Rust function does. -/
structure Call (V : Type) where
  args : List Arg
  body : Prog V

/-- A call of a method on `this`: the object comes last: macroslib/src/cpp/fclass.rs:897-901,
macroslib/src/java_jni/fclass.rs:1011-1015. -/
def methodCall {V : Type} (this : Arg) (args : List Arg) (body : Prog V) : Call V := ⟨args ++ [this], body⟩

/-- The mutexes the conversions of the arguments lock, in order: macroslib/src/cpp/cpp-include.rs:142-165. -/
def Call.locks {V : Type} (c : Call V) : List Nat := ((needs c.args).getD []).map (·.1)

/-- Where a thread is: macroslib/src/cpp/fclass.rs:893-906. -/
inductive Phase (V : Type) where
  /-- not in an exported function -/
  | idle
  /-- at the conversions: `held` is locked, `rest` is not yet -/
  | taking (c : Call V) (held rest : List Nat)
  /-- in the Rust function -/
  | running (c : Call V) (held : List Nat) (p : Prog V)
  /-- the guards go out of scope -/
  | leaving (held : List Nat)

/-- A thread and the calls it is going to make. -/
structure Thread (V : Type) where
  todo : List (Call V)
  phase : Phase V

/-- The mutexes a thread holds. -/
def Thread.held {V : Type} (t : Thread V) : List Nat :=
  match t.phase with
  | .idle => []
  | .taking _ h _ => h
  | .running _ h _ => h
  | .leaving h => h

/-- The store with the content of one mutex replaced. -/
def put {V : Type} (σ : Nat → V) (m : Nat) (v : V) : Nat → V := fun x => if x = m then v else σ x

/-- One step of a thread: macroslib/src/cpp/fclass.rs:893-906.  `free m`: nobody holds `m`; the last argument is the call that
returns, with its result. -/
inductive TStep {V : Type} (free : Nat → Prop) (σ : Nat → V) : Thread V → (Nat → V) → Thread V → Option (Call V × V) → Prop
  | start (c : Call V) (l : List (Call V)) : TStep free σ ⟨c :: l, .idle⟩ σ ⟨l, .taking c [] c.locks⟩ none
  | take (c : Call V) (l : List (Call V)) (held rest : List Nat) (m : Nat) (h : free m) :
      TStep free σ ⟨l, .taking c held (m :: rest)⟩ σ ⟨l, .taking c (held ++ [m]) rest⟩ none
  | enter (c : Call V) (l : List (Call V)) (held : List Nat) : TStep free σ ⟨l, .taking c held []⟩ σ ⟨l, .running c held c.body⟩ none
  | access (c : Call V) (l : List (Call V)) (held : List Nat) (m : Nat) (w : V → V) (k : V → Prog V) :
      TStep free σ ⟨l, .running c held (.access m w k)⟩ (put σ m (w (σ m))) ⟨l, .running c held (k (σ m))⟩ none
  | ret (c : Call V) (l : List (Call V)) (held : List Nat) (r : V) :
      TStep free σ ⟨l, .running c held (.done r)⟩ σ ⟨l, .leaving held⟩ (some (c, r))
  | release (l : List (Call V)) (held : List Nat) (m : Nat) : TStep free σ ⟨l, .leaving (held ++ [m])⟩ σ ⟨l, .leaving held⟩ none
  | leave (l : List (Call V)) : TStep free σ ⟨l, .leaving []⟩ σ ⟨l, .idle⟩ none

/-- All threads, the contents of the mutexes, and the calls that returned: the thread, the call and its result. -/
structure Sys (V : Type) where
  threads : List (Thread V)
  store : Nat → V
  log : List (Nat × Call V × V)

/-- Nobody holds the mutex. -/
def Sys.free {V : Type} (s : Sys V) (m : Nat) : Prop := ∀ t ∈ s.threads, m ∉ t.held

/-- One step of one of the threads, the scheduler chooses which. -/
inductive Step {V : Type} (s : Sys V) : Sys V → Prop
  | mk (i : Nat) (t t' : Thread V) (σ' : Nat → V) (ev : Option (Call V × V)) (hi : s.threads[i]? = some t)
      (h : TStep s.free s.store t σ' t' ev) :
      Step s ⟨s.threads.set i t', σ', s.log ++ (ev.map fun e => (i, e)).toList⟩

/-- The threads before they start. -/
def initial {V : Type} (calls : List (List (Call V))) (σ : Nat → V) : Sys V := ⟨calls.map fun l => ⟨l, .idle⟩, σ, []⟩

/-- Any number of steps. -/
inductive Reach {V : Type} (s : Sys V) : Sys V → Prop
  | refl : Reach s s
  | step {s' s'' : Sys V} (h : Reach s s') (h' : Step s' s'') : Reach s s''

end Flapi.Threads
