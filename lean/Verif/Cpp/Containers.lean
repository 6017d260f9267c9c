import Verif.Base.Text
/-!
# C++ containers of Rust data: `RustVec`, `RustForeignVec`, `RustVecAccess`, `RustString` (model)

A C++ program is a sequence of operations on named container objects.  The Rust heap is explicit; what would be undefined behaviour (freeing
twice, freeing or reading a foreign or freed address, a null pointer given to `from_raw_parts`, wrong length or capacity) is a result of its own.
-/
namespace Flapi.Containers

/-- The four class templates. -/
inductive Kind where
  /-- macroslib/src/cpp/rust_vec_impl.hpp -/
  | vec
  /-- macroslib/src/cpp/rust_foreign_vec_impl.hpp -/
  | foreignVec
  /-- macroslib/src/cpp/rust_vec_access.hpp -/
  | access
  /-- macroslib/src/cpp/cpp-include.rs:451-524 -/
  | string
  deriving DecidableEq, Repr

/-- A data pointer: null, the dangling aligned address of an empty Rust vector, or the address of a buffer. -/
inductive Ptr where
  | null | dangling
  | buf (i : Nat)
  deriving DecidableEq, Repr

/-- The C struct `{ data, len, capacity }`. -/
structure Raw where
  ptr : Ptr
  len : Nat
  cap : Nat
  deriving DecidableEq, Repr

/-- `bufs[i]` is the `i`-th buffer ever allocated by Rust: capacity and elements, `none` once freed.  `vars` are the C++ objects that are alive,
`rust` the vectors handed back to Rust, `dropped` the elements destroyed by Rust, `taken` the elements moved out to C++. -/
structure St (E : Type) where
  bufs : List (Option (Nat × List E))
  vars : Nat → Option Raw
  rust : List (List E)
  dropped : List E
  taken : List E

inductive Res (S : Type) where
  | ok (s : S)
  /-- undefined behaviour -/
  | ub
  /-- a Rust panic: the process ends -/
  | abort
  /-- not a C++ program: an object used before its construction or after its destruction, an operation the class does not have -/
  | illegal
  deriving DecidableEq, Repr

def Res.bind {S R : Type} : Res S → (S → Res R) → Res R
  | .ok s, f => f s
  | .ub, _ => .ub
  | .abort, _ => .abort
  | .illegal, _ => .illegal

variable {E : Type}

def setVar {V : Type} (f : Nat → Option V) (x : Nat) (v : Option V) : Nat → Option V := fun z => if z = x then v else f z

/-- `reset`: macroslib/src/cpp/rust_vec_impl.hpp:69-75, macroslib/src/cpp/rust_foreign_vec_impl.hpp:115-121, macroslib/src/cpp/rust_vec_access.hpp:51-56,
macroslib/src/cpp/cpp-include.rs:518-523. -/
def resetRaw : Kind → Raw
  | .vec | .foreignVec => ⟨.dangling, 0, 0⟩
  | .access | .string => ⟨.null, 0, 0⟩

/-- A vector or string leaves Rust (`as_mut_ptr`, `len`, `capacity`, `mem::forget`): macroslib/src/cpp/cpp-include.rs:218-230, 779-792,
918-927, 951-972.  A vector with capacity 0 has no buffer.  Elements of size zero are not modelled. -/
def fromRust (s : St E) (l : List E) (cap : Nat) : Raw × St E :=
  if cap = 0 then (⟨.dangling, 0, 0⟩, s)
  else (⟨.buf s.bufs.length, l.length, cap⟩, { s with bufs := s.bufs ++ [some (cap, l)] })

/-- `Vec::from_raw_parts`/`String::from_raw_parts`: what Rust finds behind a struct; `none` is undefined behaviour. -/
def fromRawParts (s : St E) (r : Raw) : Option (List E) :=
  match r.ptr with
  | .null => none
  | .dangling => if r.len = 0 ∧ r.cap = 0 then some [] else none
  | .buf i =>
    match s.bufs[i]? with
    | some (some (cap, l)) => if r.cap = cap ∧ r.len = l.length then some l else none
    | _ => none

/-- The buffer of a vector is given back to the allocator (its elements are gone already). -/
def freeBuf (s : St E) (r : Raw) : St E :=
  match r.ptr with
  | .buf i => { s with bufs := s.bufs.set i none }
  | _ => s

/-- `FreeFunc`/`VectorTrait::free`/`crust_string_free`: from_raw_parts and drop: macroslib/src/cpp/cpp-include.rs:418-421, 898-900, 1003-1004. -/
def freeFunc (s : St E) (r : Raw) : Res (St E) :=
  match fromRawParts s r with
  | none => .ub
  | some l => .ok { freeBuf s r with dropped := s.dropped ++ l }

/-- `free_mem`: macroslib/src/cpp/rust_vec_impl.hpp:63-68, macroslib/src/cpp/rust_foreign_vec_impl.hpp:110-114, macroslib/src/cpp/rust_vec_access.hpp:44-50, macroslib/src/cpp/cpp-include.rs:511-517. -/
def freeMem (k : Kind) (s : St E) (x : Nat) : Res (St E) :=
  match s.vars x with
  | none => .illegal
  | some r =>
    match k with
    | .vec | .foreignVec => (freeFunc s r).bind fun s => .ok { s with vars := setVar s.vars x (some (resetRaw k)) }
    | .access | .string =>
      if r.ptr ≠ .null then (freeFunc s r).bind fun s => .ok { s with vars := setVar s.vars x (some (resetRaw k)) }
      else .ok s

/-- `crust_string_clone`: macroslib/src/cpp/cpp-include.rs:424-429 (the clone has just the capacity it needs). -/
def stringClone (s : St E) (r : Raw) : Res (Raw × St E) :=
  match fromRawParts s r with
  | none => .ub
  | some l => .ok (fromRust s l l.length)

/-- `v.push(e)` on a vector rebuilt from the struct: macroslib/src/cpp/cpp-include.rs:976-988; when full, a buffer of capacity `newCap`
replaces the old one. -/
def pushFunc (s : St E) (r : Raw) (e : E) (newCap : Nat) : Res (Raw × St E) :=
  match fromRawParts s r with
  | none => .ub
  | some l =>
    if l.length < r.cap then
      match r.ptr with
      | .buf i => .ok (⟨.buf i, l.length + 1, r.cap⟩, { s with bufs := s.bufs.set i (some (r.cap, l ++ [e])) })
      | _ => .ub
    else .ok (fromRust (freeBuf s r) (l ++ [e]) (max newCap (l.length + 1)))

/-- `v.remove(index)`: macroslib/src/cpp/cpp-include.rs:992-1005. -/
def removeFunc (s : St E) (r : Raw) (idx : Nat) : Res (E × Raw × St E) :=
  match fromRawParts s r with
  | none => .ub
  | some l =>
    match l[idx]?, r.ptr with
    | some e, .buf i => .ok (e, ⟨.buf i, l.length - 1, r.cap⟩, { s with bufs := s.bufs.set i (some (r.cap, l.eraseIdx idx)) })
    | some _, _ => .ub
    | none, _ => .abort

/-- Operations of a C++ program. -/
inductive Op (E : Type) where
  /-- a function returns a container: `T x{rust struct}`; Rust guarantees `l.length ≤ cap` -/
  | fromRust (x : Nat) (l : List E) (cap : Nat)
  | default (x : Nat)
  | moveCtor (x y : Nat)
  | moveAssign (x y : Nat)
  | copyCtor (x y : Nat)
  | copyAssign (x y : Nat)
  | destroy (x : Nat)
  | clear (x : Nat)
  /-- `release()`, the struct is given to a Rust function that makes a vector of it -/
  | release (x : Nat)
  | push (x : Nat) (e : E) (newCap : Nat)
  | remove (x : Nat) (idx : Nat)
  /-- `x[i]` -/
  | read (x : Nat) (i : Nat)
  deriving Repr

/-- Has the class this operation? -/
def Kind.has (k : Kind) : Op E → Bool
  | .copyCtor _ _ | .copyAssign _ _ => k = .string
  | .clear _ | .release _ => k = .vec || k = .foreignVec
  | .push _ _ _ | .remove _ _ => k = .foreignVec
  | .read _ _ => true
  | _ => true

/-- A new object: its name must be free. -/
def construct (s : St E) (x : Nat) (r : Raw) : Res (St E) :=
  match s.vars x with
  | some _ => .illegal
  | none => .ok { s with vars := setVar s.vars x (some r) }

/-- One operation.  Move constructor and assignment: macroslib/src/cpp/rust_vec_impl.hpp:29-46, macroslib/src/cpp/rust_foreign_vec_impl.hpp:33-50,
macroslib/src/cpp/rust_vec_access.hpp:21-39, macroslib/src/cpp/cpp-include.rs:475-492; copies: macroslib/src/cpp/cpp-include.rs:460-474; destructors and the rest next to them. -/
def step (k : Kind) (s : St E) (op : Op E) : Res (St E) :=
  if !k.has op then .illegal
  else match op with
  | .fromRust x l cap =>
    if cap < l.length then .illegal
    else construct (fromRust s l cap).2 x (fromRust s l cap).1
  | .default x => construct s x (resetRaw k)
  | .moveCtor x y =>
    match s.vars y with
    | none => .illegal
    | some r => (construct s x r).bind fun s => .ok { s with vars := setVar s.vars y (some (resetRaw k)) }
  | .moveAssign x y =>
    match s.vars y with
    | none => .illegal
    | some _ => (freeMem k s x).bind fun s =>
      match s.vars y with
      | none => .illegal
      | some r => .ok { s with vars := setVar (setVar s.vars x (some r)) y (some (resetRaw k)) }
  | .copyCtor x y =>
    match s.vars y with
    | none => .illegal
    | some r => (stringClone s r).bind fun p => construct p.2 x p.1
  | .copyAssign x y =>
    match s.vars y with
    | none => .illegal
    | some r =>
      if x = y then .ok s
      else (freeMem k s x).bind fun s => (stringClone s r).bind fun p => .ok { p.2 with vars := setVar p.2.vars x (some p.1) }
  | .destroy x => (freeMem k s x).bind fun s => .ok { s with vars := setVar s.vars x none }
  | .clear x => freeMem k s x
  | .release x =>
    match s.vars x with
    | none => .illegal
    | some r =>
      match fromRawParts s r with
      | none => .ub
      | some l => .ok { freeBuf s r with vars := setVar s.vars x (some (resetRaw k)), rust := s.rust ++ [l] }
  | .push x e newCap =>
    match s.vars x with
    | none => .illegal
    | some r => (pushFunc s r e newCap).bind fun p => .ok { p.2 with vars := setVar p.2.vars x (some p.1) }
  | .remove x idx =>
    match s.vars x with
    | none => .illegal
    | some r => (removeFunc s r idx).bind fun p =>
      .ok { p.2.2 with vars := setVar p.2.2.vars x (some p.2.1), taken := p.2.2.taken ++ [p.1] }
  | .read x i =>
    match s.vars x with
    | none => .illegal
    | some r =>
      if i < r.len then
        match fromRawParts s r with
        | none => .ub
        | some _ => .ok s
      else .illegal

/-- A whole program. -/
def run (k : Kind) : St E → List (Op E) → Res (St E)
  | s, [] => .ok s
  | s, op :: l => (step k s op).bind fun s => run k s l

def initial : St E := ⟨[], fun _ => none, [], [], []⟩

end Flapi.Containers
