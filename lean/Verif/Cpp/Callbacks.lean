import Verif.Core.NameGen
/-!
# C++ callbacks (`foreign_callback!`/`foreign_interface!`) seen from Rust (model)

The generated C struct `C_X` holds a pointer to the C++ object, a function that gets rid of it and one function per method.  The generated Rust struct
`C_X` has, by position, the same fields.
-/
namespace Flapi.CppCallback

/-- An item of an interface: the function of the Rust trait, the name given to C++, the names of the arguments without `self`. -/
structure Method where
  rustName : Text
  name : Text
  args : List Text
  deriving DecidableEq, Repr

structure Interface where
  name : Text
  items : List Method
  deriving DecidableEq, Repr

def opaqueText : Text := "opaque".toList

/-- `C_{interface_name}_deref`. -/
def derefField (i : Interface) : Text := "C_".toList ++ i.name ++ "_deref".toList

/-- Fields of the C struct, in order: macroslib/src/cpp/finterface.rs:385-397, 433-446. -/
def cFields (i : Interface) : List Text := opaqueText :: derefField i :: i.items.map (·.name)

/-- Fields of the Rust struct, in order: macroslib/src/cpp/finterface.rs:147-170. -/
def rustFields (i : Interface) : List Text := opaqueText :: derefField i :: i.items.map (·.name)

/-- Parameter names of the function pointer in the C header: macroslib/src/cpp/finterface.rs:436 (`void *opaque` whatever the arguments are called). -/
def cParams (m : Method) : List Text := m.args ++ [opaqueText]

/-- What the compilers of the generated code insist on: different fields, different functions in the trait's implementation, different parameters. -/
def compiles (i : Interface) : Bool :=
  decide (cFields i).Nodup && decide (i.items.map (·.rustName)).Nodup && i.items.all fun m => decide (cParams m).Nodup

/-- C functions of the generated C++ class: macroslib/src/cpp/finterface.rs:400-409, 475-527, 582. -/
inductive Fn where
  /-- `c_{interface}_deref`: deletes -/
  | deref
  /-- `[](void *) {}` -/
  | nothing
  /-- `c_{method}` -/
  | method (name : Text)
  deriving DecidableEq, Repr

/-- Contents of a field. -/
inductive Slot where
  | uninit
  | ptr (o : Nat)
  | fn (f : Fn)
  deriving DecidableEq, Repr

/-- An instance of the struct, by position. -/
abbrev Inst := List Slot

/-- `ret.field = v`. -/
def setField (fields : List Text) (s : Inst) (f : Text) (v : Slot) : Inst := s.set (fields.idxOf f) v

/-- `cpp_fill_c_interface_struct`: macroslib/src/cpp/finterface.rs:528-533. -/
def fillMethods (fields : List Text) : List Method → Inst → Inst
  | [], s => s
  | m :: ms, s => fillMethods fields ms (setField fields s m.name (.fn (.method m.name)))

/-- `C_X ret;`. -/
def blank (i : Interface) : Inst := List.replicate (cFields i).length .uninit

/-- `to_c_interface` with an object: macroslib/src/cpp/finterface.rs:567-576. -/
def toCInterface (i : Interface) (o : Nat) : Inst :=
  let s := setField (cFields i) (blank i) opaqueText (.ptr o)
  let s := setField (cFields i) s (derefField i) (.fn .deref)
  fillMethods (cFields i) i.items s

/-- `reference_to_c_interface`: macroslib/src/cpp/finterface.rs:577-584. -/
def referenceToCInterface (i : Interface) (o : Nat) : Inst :=
  let s := setField (cFields i) (blank i) opaqueText (.ptr o)
  let s := fillMethods (cFields i) i.items s
  setField (cFields i) s (derefField i) (.fn .nothing)

/-- The state: the C++ objects made so far are `0 … made-1`; `kept`: those C++ code keeps for itself (and may lend or delete); `deleted`; `held`: the structs Rust
holds, `none` when dropped; `calls`: virtual methods run: object, method, arguments. -/
structure St (V : Type) where
  made : Nat
  kept : List Nat
  deleted : List Nat
  held : List (Option Inst)
  calls : List (Nat × Text × List V)

inductive Res (S : Type) where
  | ok (s : S)
  | ub
  /-- a failed `assert` -/
  | abort
  | illegal

def lookup {V : Type} (env : List (Text × V)) (n : Text) : Option V := (env.find? (fun e => e.1 = n)).map (·.2)

/-- A value passed to a C function: an argument or the opaque pointer. -/
inductive CArg (V : Type) where
  | val (v : V)
  | ptr (o : Nat)

def CArg.val? {V : Type} : CArg V → Option V
  | .val v => some v
  | .ptr _ => none

def CArg.ptr? {V : Type} : CArg V → Option Nat
  | .ptr o => some o
  | .val _ => none

/-- `static R c_m(args, void *opaque) { auto pi = static_cast<X *>(opaque); pi->m(args); }`: macroslib/src/cpp/finterface.rs:414-421, 475-527 (argument conversions are
identities here).  The virtual method runs on a live object. -/
def runMethod {V : Type} (i : Interface) (s : St V) (name : Text) (params : List (CArg V)) : Res (St V) :=
  match i.items.find? (fun m => m.name = name) with
  | none => .illegal
  | some m =>
    match NameGen.newUniqueName m.args opaqueText with
    | none => .illegal
    | some opaqueName =>
      let env := (m.args ++ [opaqueName]).zip params
      match (lookup env opaqueName).bind CArg.ptr?, m.args.mapM (fun a => (lookup env a).bind CArg.val?) with
      | some o, some vals =>
        if o ∈ s.deleted ∨ s.made ≤ o then .ub else .ok { s with calls := s.calls ++ [(o, m.name, vals)] }
      | _, _ => .illegal

/-- Name of the Rust parameter number `k`: macroslib/src/cpp/finterface.rs:197-207, 221-229. -/
def aName (k : Nat) : Text := 'a' :: dec k

/-- The trait's function `rustName` on a struct: `(self.{name})(a0, …, self.opaque)`: macroslib/src/cpp/finterface.rs:209-295. -/
def callTrait {V : Type} (i : Interface) (s : St V) (inst : Inst) (rustName : Text) (vals : List V) : Res (St V) :=
  match i.items.find? (fun m => m.rustName = rustName) with
  | none => .illegal
  | some m =>
    if m.args.length ≠ vals.length then .illegal
    else
      let env := ((List.range vals.length).map aName).zip vals
      match inst[(rustFields i).idxOf m.name]?, inst[(rustFields i).idxOf opaqueText]?, ((List.range vals.length).map aName).mapM (lookup env) with
      | some (.fn (.method n)), some (.ptr o), some l => runMethod i s n (l.map .val ++ [.ptr o])
      | _, _, _ => .ub

/-- `impl Drop`: `(self.C_X_deref)(self.opaque)`: macroslib/src/cpp/finterface.rs:302-312, 400-409, 582. -/
def dropInst {V : Type} (i : Interface) (s : St V) (inst : Inst) : Res (St V) :=
  match inst[(rustFields i).idxOf (derefField i)]?, inst[(rustFields i).idxOf opaqueText]? with
  | some (.fn .deref), some (.ptr o) => if o ∈ s.deleted ∨ s.made ≤ o then .ub else .ok { s with deleted := s.deleted ++ [o] }
  | some (.fn .nothing), some (.ptr _) => .ok s
  | _, _ => .ub

inductive Op (V : Type) where
  /-- C++ makes an object and gives it to Rust in a `unique_ptr`; Rust clones the struct into a box: macroslib/src/cpp/finterface.rs:83-94, 115-133 -/
  | give
  /-- the same with a null pointer -/
  | giveNull
  /-- C++ makes an object and keeps it -/
  | make
  /-- `reference_to_c_interface(object)` goes to Rust -/
  | lend (o : Nat)
  /-- C++ deletes an object of its own -/
  | delete (o : Nat)
  /-- Rust calls a function of the trait on what it holds at position `k` -/
  | call (k : Nat) (rustName : Text) (vals : List V)
  /-- Rust drops it -/
  | drop (k : Nat)
  /-- Rust clones the struct itself (it has `#[derive(Clone)]`: macroslib/src/cpp/finterface.rs:147) -/
  | clone (k : Nat)

def step {V : Type} (i : Interface) (s : St V) : Op V → Res (St V)
  | .give => .ok { s with made := s.made + 1, held := s.held ++ [some (toCInterface i s.made)] }
  | .giveNull => .abort
  | .make => .ok { s with made := s.made + 1, kept := s.kept ++ [s.made] }
  | .lend o => if o ∈ s.kept ∧ o ∉ s.deleted then .ok { s with held := s.held ++ [some (referenceToCInterface i o)] } else .illegal
  | .delete o => if o ∈ s.kept ∧ o ∉ s.deleted then .ok { s with deleted := s.deleted ++ [o] } else .illegal
  | .call k f vals =>
    match s.held[k]? with
    | some (some inst) => callTrait i s inst f vals
    | _ => .illegal
  | .drop k =>
    match s.held[k]? with
    | some (some inst) =>
      match dropInst i s inst with
      | .ok s => .ok { s with held := s.held.set k none }
      | r => r
    | _ => .illegal
  | .clone k =>
    match s.held[k]? with
    | some (some inst) => .ok { s with held := s.held ++ [some inst] }
    | _ => .illegal

def run {V : Type} (i : Interface) : St V → List (Op V) → Res (St V)
  | s, [] => .ok s
  | s, op :: l =>
    match step i s op with
    | .ok s => run i s l
    | r => r

def initial {V : Type} : St V := ⟨0, [], [], [], []⟩

end Flapi.CppCallback
