import Verif.Base.Text
/-!
# C++ wrapper classes of Rust objects: who destroys what (model)

A C++ program is a sequence of operations on named wrapper objects of one class; Rust code takes part through the functions it exports.  A cell is
what a raw pointer points to: a `Box` or the allocation of an `Rc`/`Arc`.
-/
namespace Flapi.CppClass

/-- How a class can be copied in C++: macroslib/src/cpp/fclass.rs:1274-1416. -/
inductive Copy where
  /-- copy constructor and assignment deleted -/
  | deleted
  /-- `#[derive(Copy)]`: the class' `clone` method is called -/
  | cloneMethod
  /-- `#[derive(SmartPtrCopy)]`: the `Rc`/`Arc` is cloned -/
  | smartPtr
  deriving DecidableEq, Repr

/-- What matters of a class: is the constructor's type `Rc<_>` or `Arc<_>`; how it is copied. -/
structure Class where
  shared : Bool
  copy : Copy
  deriving DecidableEq, Repr

/-- The test at registration: macroslib/src/cpp/mod.rs:259-276 (`SmartPtrCopy` needs `Rc` or `Arc`). -/
def Class.accepted (c : Class) : Bool := !(c.copy = .smartPtr && !c.shared)

/-- A wrapper object: `Wrapper<OWN_DATA>`, `self_` (none = nullptr): macroslib/src/cpp/fclass.rs:1182-1213.  A class that derives
`PlainClass` has no template parameter (macroslib/src/cpp/fclass.rs:1213-1242) and its `free_mem` no test of it
(macroslib/src/cpp/fclass.rs:645-659): it is `Wrapper<true>`, and programs with it are those that never use `refTo`. -/
structure Wrapper where
  own : Bool
  ptr : Option Nat
  deriving DecidableEq, Repr

/-- `cells[p]`: the object at address `p` and the number of strong references to it (1 for a `Box`), `none` once the memory is free.  `objs`: number of
Rust objects of the class created so far; `held`: what Rust code owns itself — objects (if not shared) or strong references to cells (if shared);
`destroyed`: the objects dropped, in order. -/
structure St where
  cells : List (Option (Nat × Nat))
  objs : Nat
  vars : Nat → Option Wrapper
  held : List Nat
  destroyed : List Nat

inductive Res (S : Type) where
  | ok (s : S)
  | ub
  /-- a failed `assert`, `unwrap` or `std::abort` -/
  | abort
  /-- not a valid C++ program, or a thing Rust cannot do in this state -/
  | illegal
  deriving DecidableEq, Repr

def Res.bind {S R : Type} : Res S → (S → Res R) → Res R
  | .ok s, f => f s
  | .ub, _ => .ub
  | .abort, _ => .abort
  | .illegal, _ => .illegal

def setVar (f : Nat → Option Wrapper) (x : Nat) (v : Option Wrapper) : Nat → Option Wrapper := fun z => if z = x then v else f z

/-- What is behind an address. -/
def cellAt (s : St) (p : Nat) : Option (Nat × Nat) :=
  match s.cells[p]? with
  | some c => c
  | none => none

/-- `Box::into_raw(Box::new(v))` or `Arc::into_raw(Arc::new(v))` of object `o`: macroslib/src/typemap/utils.rs:238-271. -/
def allocCell (s : St) (o : Nat) : Nat × St := (s.cells.length, { s with cells := s.cells ++ [some (o, 1)] })

/-- A Rust object comes into being. -/
def newObj (s : St) : Nat × St := (s.objs, { s with objs := s.objs + 1 })

/-- Drop of a `Box`, `Rc` or `Arc` made by `from_raw`. -/
def dropRef (s : St) (p : Nat) : Res St :=
  match cellAt s p with
  | none => .ub
  | some (o, 1) => .ok { s with cells := s.cells.set p none, destroyed := s.destroyed ++ [o] }
  | some (o, c) => .ok { s with cells := s.cells.set p (some (o, c - 1)) }

/-- One more strong reference. -/
def addRef (s : St) (p : Nat) : Res St :=
  match cellAt s p with
  | none => .ub
  | some (o, c) => .ok { s with cells := s.cells.set p (some (o, c + 1)) }

/-- `free_mem` and `X_delete` on an object's `self_`: macroslib/src/cpp/fclass.rs:602-673. -/
def freeMem (s : St) (x : Nat) : Res St :=
  match s.vars x with
  | none => .illegal
  | some w =>
    match w.own, w.ptr with
    | true, some p => (dropRef s p).bind fun s => .ok { s with vars := setVar s.vars x (some ⟨w.own, none⟩) }
    | _, _ => .ok { s with vars := setVar s.vars x (some ⟨w.own, none⟩) }

/-- The native clone function on a pointer that is not null: of a `clone` method (macroslib/src/cpp/fclass.rs:1275-1295 and 845-928: the result is boxed
anew) or of a smart pointer (macroslib/src/cpp/fclass.rs:1344-1366: `from_raw`, `clone`, `forget`; were the class not shared, `from_raw` and unboxing would free the
box). -/
def cloneFunc (c : Class) (s : St) (p : Nat) : Res (Nat × St) :=
  match cellAt s p with
  | none => .ub
  | some _ =>
    match c.copy with
    | .deleted => .illegal
    | .cloneMethod => .ok (allocCell (newObj s).2 (newObj s).1)
    | .smartPtr =>
      if c.shared then (addRef s p).bind fun s => .ok (p, s)
      else .ok (allocCell (newObj { s with cells := s.cells.set p none }).2 s.objs)

/-- `if (o.self_ != nullptr) self_ = clone(o.self_) else self_ = nullptr`: macroslib/src/cpp/fclass.rs:1302-1306, 1312-1316. -/
def cloneOpt (c : Class) (s : St) : Option Nat → Res (Option Nat × St)
  | none => .ok (none, s)
  | some p => (cloneFunc c s p).bind fun q => .ok (some q.1, q.2)

/-- Operations. -/
inductive Op where
  /-- the class' constructor -/
  | construct (x : Nat)
  /-- Rust makes an object for itself -/
  | rustNew
  /-- Rust clones a strong reference it holds (shared classes) -/
  | rustClone (k : Nat)
  /-- Rust drops something it holds -/
  | rustDrop (k : Nat)
  /-- an exported function returns, by value, what Rust holds at position `k` -/
  | returned (x k : Nat)
  /-- an exported function takes `x` by value: `x.release()` -/
  | pass (x : Nat)
  /-- `x = y.as_rref()`, or a function that returns a reference to the object of `y` -/
  | refTo (x y : Nat)
  | moveCtor (x y : Nat)
  | moveAssign (x y : Nat)
  /-- copy constructor; `y` may be a reference wrapper (through `as_cref()`) -/
  | copyCtor (x y : Nat)
  | copyAssign (x y : Nat)
  | destroy (x : Nat)
  /-- a method is called on `x`, or `x` is given to a function by reference -/
  | use (x : Nat)
  deriving DecidableEq, Repr

/-- A new C++ object. -/
def declare (s : St) (x : Nat) (w : Wrapper) : Res St :=
  match s.vars x with
  | some _ => .illegal
  | none => .ok { s with vars := setVar s.vars x (some w) }

/-- One operation. -/
def step (c : Class) (s : St) : Op → Res St
  -- constructor: macroslib/src/cpp/fclass.rs:564-581, 957-976
  | .construct x => let r := allocCell (newObj s).2 (newObj s).1; declare r.2 x ⟨true, some r.1⟩
  | .rustNew =>
    if c.shared then let r := allocCell (newObj s).2 (newObj s).1; .ok { r.2 with held := r.2.held ++ [r.1] }
    else .ok { (newObj s).2 with held := s.held ++ [s.objs] }
  | .rustClone k =>
    match c.shared, s.held[k]? with
    | true, some p => (addRef s p).bind fun s => .ok { s with held := s.held ++ [p] }
    | _, _ => .illegal
  | .rustDrop k =>
    match s.held[k]? with
    | none => .illegal
    | some v =>
      if c.shared then (dropRef s v).bind fun s => .ok { s with held := s.held.eraseIdx k }
      else .ok { s with held := s.held.eraseIdx k, destroyed := s.destroyed ++ [v] }
  -- box_object, `Foo(static_cast<FooOpaque *>($p))`: macroslib/src/cpp/fclass.rs:155-158, macroslib/src/cpp/map_class_self_type.rs:258-275
  | .returned x k =>
    match s.held[k]? with
    | none => .illegal
    | some v =>
      if c.shared then declare { s with held := s.held.eraseIdx k } x ⟨true, some v⟩
      else let r := allocCell { s with held := s.held.eraseIdx k } v; declare r.2 x ⟨true, some r.1⟩
  -- `$p.release()`, assertion that the pointer is not null, from_raw: macroslib/src/cpp/map_class_self_type.rs:276-286, 174-204
  | .pass x =>
    match s.vars x with
    | some ⟨true, none⟩ => .abort
    | some ⟨true, some p⟩ =>
      match cellAt s p with
      | none => .ub
      | some (o, _) =>
        if c.shared then .ok { s with vars := setVar s.vars x (some ⟨true, none⟩), held := s.held ++ [p] }
        else .ok { s with vars := setVar s.vars x (some ⟨true, none⟩), held := s.held ++ [o], cells := s.cells.set p none }
    | _ => .illegal
  -- macroslib/src/cpp/fclass.rs:1212
  | .refTo x y =>
    match s.vars y with
    | none => .illegal
    | some w => declare s x ⟨false, w.ptr⟩
  -- macroslib/src/cpp/fclass.rs:1189-1192
  | .moveCtor x y =>
    match s.vars y with
    | none => .illegal
    | some w => (declare s x w).bind fun s => .ok { s with vars := setVar s.vars y (some ⟨w.own, none⟩) }
  -- macroslib/src/cpp/fclass.rs:1193-1200
  | .moveAssign x y =>
    match s.vars x, s.vars y with
    | some v, some w =>
      if v.own ≠ w.own then .illegal
      else if x = y then .abort
      else (freeMem s x).bind fun s => .ok { s with vars := setVar (setVar s.vars x (some w)) y (some ⟨w.own, none⟩) }
    | _, _ => .illegal
  -- macroslib/src/cpp/fclass.rs:1300-1307
  | .copyCtor x y =>
    match s.vars y with
    | none => .illegal
    | some w =>
      if c.copy = .deleted then .illegal
      else (cloneOpt c s w.ptr).bind fun r => declare r.2 x ⟨true, r.1⟩
  -- macroslib/src/cpp/fclass.rs:1308-1319
  | .copyAssign x y =>
    match s.vars x, s.vars y with
    | some v, some w =>
      if c.copy = .deleted ∨ v.own = false then .illegal
      else if x = y then .ok s
      else (freeMem s x).bind fun s => (cloneOpt c s w.ptr).bind fun r => .ok { r.2 with vars := setVar r.2.vars x (some ⟨true, r.1⟩) }
    | _, _ => .illegal
  -- macroslib/src/cpp/fclass.rs:650
  | .destroy x => (freeMem s x).bind fun s => .ok { s with vars := setVar s.vars x none }
  -- `this.as_mut().unwrap()`, `assert!(!p.is_null())`: macroslib/src/cpp/fclass.rs:896-900, macroslib/src/cpp/map_class_self_type.rs:134-172
  | .use x =>
    match s.vars x with
    | none => .illegal
    | some w =>
      match w.ptr with
      | none => .abort
      | some p =>
        match cellAt s p with
        | none => .ub
        | some _ => .ok s

/-- A whole program. -/
def run (c : Class) : St → List Op → Res St
  | s, [] => .ok s
  | s, op :: l => (step c s op).bind fun s => run c s l

def initial : St := ⟨[], 0, fun _ => none, [], []⟩

end Flapi.CppClass
