import Verif.Base.Text
/-!
# The references that exported functions make out of pointers (model)

An exported function gets raw pointers to objects, makes references out of them, and calls the Rust function with these references.  While that
function runs it may call back into C++ or Java, which may call exported functions again.  Which uses of the references are defined is decided by
Rust's aliasing rules; they are modelled here as the "stacked borrows" of one object (Jung et al., POPL 2020): a stack of the references made from the pointer that
C++ or Java holds; making or using a reference removes others, and using a removed one, or removing one that a running function received, is undefined.

Simplifications: an object is one place in memory and has no interior mutability; the pointer that C++ or Java holds (`Box::into_raw`) stays valid
(C35, C42 say when); objects behind locks are those of C81 and C87.
-/
namespace Flapi.Aliasing

/-- What a reference may be used for: `&mut T` or `&T`. -/
inductive Perm where
  | unique
  | shared
  deriving DecidableEq, Repr

/-- How the generated code makes a reference out of a pointer. -/
inductive Via where
  /-- `&*(p as *const T)`: an argument `&T` or `Option<&T>` in C++ (macroslib/src/cpp/map_class_self_type.rs:134-151,
  macroslib/src/cpp/cpp-include.rs:545-552) -/
  | plain
  /-- an argument `&mut T` (macroslib/src/cpp/map_class_self_type.rs:153-172, macroslib/src/java_jni/map_class_self_type.rs:101-121), in C++ also
  `Option<&mut T>` (macroslib/src/cpp/cpp-include.rs:568-575), or `&mut self`
  (macroslib/src/cpp/fclass.rs:898-900, macroslib/src/java_jni/fclass.rs:1012-1014) -/
  | mutRef
  /-- `let r: &T = p.as_mut().unwrap();`: an argument `&T` in Java (macroslib/src/java_jni/map_class_self_type.rs:81-98), there also `Option<&T>`
  (macroslib/src/java_jni/jni-include.rs:1595-1603, macroslib/src/java_jni/fclass.rs:578-583), and `&self` in both languages
  (macroslib/src/cpp/fclass.rs:898-900, macroslib/src/java_jni/fclass.rs:1012-1014) -/
  | viaMut
  /-- `p.as_mut().unwrap()`, cloned at once: an argument `T` of a class that can be copied, in Java (macroslib/src/java_jni/map_class_self_type.rs:204-252) -/
  | copy
  deriving DecidableEq, Repr

/-- The reference that the Rust function receives. -/
def Via.gives : Via → Option Perm
  | .plain => some .shared
  | .mutRef => some .unique
  | .viaMut => some .shared
  | .copy => none

/-- A reference that was made, and not removed yet. -/
structure Item where
  tag : Nat
  perm : Perm
  deriving DecidableEq, Repr

/-- The stack of an object, newest first; below it is the pointer C++ or Java holds. -/
abbrev Stack := List Item

/-- A reference some Rust function has received. -/
structure Ref where
  obj : Nat
  tag : Nat
  perm : Perm
  deriving DecidableEq, Repr

/-- The objects' stacks and the next free tag. -/
structure Mem where
  stacks : Nat → Stack
  next : Nat

/-- The stack of one object replaced. -/
def Mem.set (m : Mem) (o : Nat) (st : Stack) : Mem := { m with stacks := fun x => if x = o then st else m.stacks x }

/-- A running function received this reference to this object. -/
def held (l : List Ref) (o : Nat) (i : Item) : Bool := l.any fun r => r.obj == o && r.tag == i.tag

/-- Reading through the pointer removes the exclusive references. -/
def readRaw (l : List Ref) (o : Nat) (st : Stack) : Option Stack :=
  if (st.filter (·.perm = .unique)).any (held l o) then none else some (st.filter (·.perm = .shared))

/-- Making an exclusive reference from the pointer removes all references. -/
def writeRaw (l : List Ref) (o : Nat) (st : Stack) : Option Stack := if st.any (held l o) then none else some []

/-- What is above an item in the stack, and what is below. -/
def splitAt : Stack → Item → Option (Stack × Stack)
  | [], _ => none
  | i :: st, t => if i = t then some ([], st) else (splitAt st t).map fun x => (i :: x.1, x.2)

/-- Using a reference: a shared one is read, which removes the exclusive references made after it; an exclusive one is written, which removes all references
made after it. -/
def useTag (l : List Ref) (st : Stack) (r : Ref) : Option Stack :=
  match splitAt st ⟨r.tag, r.perm⟩ with
  | none => none
  | some (above, below) =>
    match r.perm with
    | .shared => if (above.filter (·.perm = .unique)).any (held l r.obj) then none else some (above.filter (·.perm = .shared) ++ ⟨r.tag, .shared⟩ :: below)
    | .unique => if above.any (held l r.obj) then none else some (⟨r.tag, .unique⟩ :: below)

/-- One reference is made: macroslib/src/cpp/map_class_self_type.rs:134-172, macroslib/src/java_jni/map_class_self_type.rs:81-121, 204-252,
macroslib/src/cpp/fclass.rs:898-900, macroslib/src/java_jni/fclass.rs:1012-1014.  `l`: what running functions have received. -/
def make (l : List Ref) (m : Mem) (o : Nat) : Via → Option (Mem × Option Ref)
  | .plain => (readRaw l o (m.stacks o)).map fun st => ({ m.set o (⟨m.next, .shared⟩ :: st) with next := m.next + 1 }, some ⟨o, m.next, .shared⟩)
  | .mutRef => (writeRaw l o (m.stacks o)).map fun st => ({ m.set o (⟨m.next, .unique⟩ :: st) with next := m.next + 1 }, some ⟨o, m.next, .unique⟩)
  | .viaMut => (writeRaw l o (m.stacks o)).map fun st =>
      ({ m.set o (⟨m.next + 1, .shared⟩ :: ⟨m.next, .unique⟩ :: st) with next := m.next + 2 }, some ⟨o, m.next + 1, .shared⟩)
  | .copy => (writeRaw l o (m.stacks o)).map fun st => ({ m.set o (⟨m.next, .unique⟩ :: st) with next := m.next + 1 }, none)

/-- The conversions of all arguments, in order, and last of the object itself: macroslib/src/cpp/fclass.rs:893-901,
macroslib/src/java_jni/fclass.rs:1010-1015. -/
def makeAll (l : List Ref) : Mem → List (Nat × Via) → Option (Mem × List Ref)
  | m, [] => some (m, [])
  | m, v :: vs =>
    match make l m v.1 v.2 with
    | none => none
    | some (m1, r) =>
      match makeAll l m1 vs with
      | none => none
      | some (m2, rs) => some (m2, r.toList ++ rs)

/-- A reference is passed to a function: it is used once, and the function gets a new one made from it. -/
def pass (l : List Ref) (m : Mem) (r : Ref) : Option (Mem × Ref) :=
  (useTag l (m.stacks r.obj) r).map fun st => ({ m.set r.obj (⟨m.next, r.perm⟩ :: st) with next := m.next + 1 }, ⟨r.obj, m.next, r.perm⟩)

/-- All references are passed, in this order; those passed already are protected. -/
def passAll (l : List Ref) : Mem → List Ref → Option (Mem × List Ref)
  | m, [] => some (m, [])
  | m, r :: rs =>
    match pass l m r with
    | none => none
    | some (m1, q) =>
      match passAll (q :: l) m1 rs with
      | none => none
      | some (m2, qs) => some (m2, q :: qs)

/-- A call of an exported function: the pointers it gets for the arguments, in order, and for the object. -/
structure Call where
  args : List (Nat × Via)
  self : Option (Nat × Via)

/-- In the order of the conversions: macroslib/src/cpp/fclass.rs:893-901. -/
def Call.uses (c : Call) : List (Nat × Via) := c.args ++ c.self.toList

/-- The memory and what the running functions have received, innermost first. -/
structure Sys where
  mem : Mem
  frames : List (List Ref)

/-- All references running functions have received. -/
def Sys.active (s : Sys) : List Ref := s.frames.flatten

/-- The order in which the references are passed: the object first (macroslib/src/types.rs:184-188). -/
def Call.passed (c : Call) (rs : List Ref) : List Ref :=
  let n := (c.args.filter fun v => v.2.gives.isSome).length
  rs.drop n ++ rs.take n

/-- What happens: macroslib/src/cpp/fclass.rs:893-906, macroslib/src/java_jni/fclass.rs:1010-1018. -/
inductive Op where
  /-- C++ or Java calls an exported function, also from a callback -/
  | enter (c : Call)
  /-- the innermost running function uses what it received as parameter `i`: reads it, and if it can writes it -/
  | use (i : Nat)
  /-- the innermost running function returns -/
  | leave

/-- One step; `none`: undefined behaviour. -/
def step (s : Sys) : Op → Option Sys
  | .enter c =>
    match makeAll s.active s.mem c.uses with
    | none => none
    | some (m1, rs) => (passAll s.active m1 (c.passed rs)).map fun x => ⟨x.1, x.2 :: s.frames⟩
  | .use i =>
    match s.frames with
    | [] => some s
    | f :: _ =>
      match f[i]? with
      | none => some s
      | some r => (useTag s.active (s.mem.stacks r.obj) r).map fun st => ⟨s.mem.set r.obj st, s.frames⟩
  | .leave => some ⟨s.mem, s.frames.drop 1⟩

/-- A history. -/
def run : Sys → List Op → Option Sys
  | s, [] => some s
  | s, o :: os => (step s o).bind fun s => run s os

/-- Before the first call. -/
def initial : Sys := ⟨⟨fun _ => [], 0⟩, []⟩

end Flapi.Aliasing
