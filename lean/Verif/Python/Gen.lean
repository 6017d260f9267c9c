import Verif.Base.Text
/-!
# Python: which Rust types may be arguments and results, and the code that converts them (model)

Types are what the generator distinguishes.  The generated expressions are kept as syntax; `Python/Typing.lean` says which type rustc gives them,
`Python/Eval.lean` what they do.
-/
namespace Flapi.Py

/-- The types `is_cpython_supported_type` knows (without `&str`): macroslib/src/python/mod.rs:700-706. -/
inductive Prim where
  | bool | i8 | i16 | i32 | i64 | isize | u8 | u16 | u32 | u64 | usize | f32 | f64 | string
  deriving DecidableEq, Repr

/-- Rust types.  `cls c`: the type of the exported class number `c`; `enm e`: the exported enum number `e`; a tuple `(A, B)` is `tcons A (tcons B unit)`;
`py c`: the Python wrapper of class `c` (`super::py_…::…`); `pyObject`: `cpython::PyObject`. -/
inductive RTy where
  | prim (p : Prim)
  | str
  | unit
  | tcons (a rest : RTy)
  | cls (c : Nat)
  | enm (e : Nat)
  | opt (t : RTy)
  | vec (t : RTy)
  | slice (t : RTy)
  | ref (t : RTy)
  | refMut (t : RTy)
  | arc (t : RTy)
  | mutex (t : RTy)
  | box (t : RTy)
  | res (ok err : RTy)
  | py (c : Nat)
  | pyObject
  | other (n : Nat)
  deriving DecidableEq, Repr

/-- `PointerType`: macroslib/src/python/mod.rs:736-742. -/
inductive Ptr where
  | arcMutex | mutex | arc | box | none
  deriving DecidableEq, Repr

/-- `Reference`: macroslib/src/python/mod.rs:797-802. -/
inductive Refr where
  | none | ref | mutRef
  deriving DecidableEq, Repr

/-- What is known about the exported items: `ctor c`: the type the constructor of class `c` returns (`constructor_ret_type`); `clonable c`: the class is
marked `#[derive(Clone)]` or `#[derive(Copy)]`; `enums`: the enums generated before the class being generated (an enum is registered when it is
generated, macroslib/src/python/mod.rs:176-193); the lists of discriminants of the listed variants of each enum. -/
structure Env where
  ctor : Nat → RTy
  clonable : Nat → Bool
  enums : List Nat
  discr : Nat → List Int

/-- `smart_pointer`: macroslib/src/python/mod.rs:769-794. -/
def smart : RTy → Ptr × RTy
  | .arc (.mutex t) => (.arcMutex, t)
  | .arc t => (.arc, t)
  | .mutex t => (.mutex, t)
  | .box t => (.box, t)
  | t => (.none, t)

/-- `get_reference_info_and_inner_type`: macroslib/src/python/mod.rs:804-824. -/
def unref : RTy → Refr × RTy
  | .ref t => (.ref, t)
  | .refMut t => (.mutRef, t)
  | t => (.none, t)

/-- `storage_smart_pointer_for_class`: macroslib/src/python/mod.rs:1230-1250.  Never `none`. -/
def storage (env : Env) (c : Nat) : Ptr :=
  match (smart (env.ctor c)).1 with
  | .none => .mutex
  | p => p

/-- `wrap_type_for_class`: macroslib/src/python/mod.rs:1252-1260. -/
def storageTy (env : Env) (c : Nat) : RTy :=
  match storage env c with
  | .arcMutex => .arc (.mutex (.cls c))
  | .arc => .arc (.cls c)
  | .mutex => .mutex (.cls c)
  | .box => .cls c
  | .none => .other 0

/-- The check of `generate_rust_instance_field_and_methods`: macroslib/src/python/mod.rs:238-251.  Without it no code is generated for the class. -/
def ctorOk (env : Env) (c : Nat) : Bool := (smart (env.ctor c)).2 = .cls c

/-- `is_cpython_supported_type`. -/
def supported : RTy → Bool
  | .prim _ => true
  | .ref .str => true
  | _ => false

/-- The expressions that convert arguments.  `arg` is the argument, or `inner` inside `some`/`map`. -/
inductive Exp where
  | arg
  /-- `super::m::rust_instance(e, py)`, with `&e` if `addRef` -/
  | inst (c : Nat) (addRef : Bool) (e : Exp)
  /-- `(&*e.lock().unwrap())` -/
  | lockRef (e : Exp)
  /-- `(&mut *e.lock().unwrap())` -/
  | lockMut (e : Exp)
  /-- `(*e.lock().unwrap()).clone()` -/
  | lockClone (e : Exp)
  /-- `(&*e)` -/
  | derefRef (e : Exp)
  /-- `(*e).clone()` -/
  | derefClone (e : Exp)
  /-- `(e).clone()` -/
  | clone (e : Exp)
  /-- `super::m::from_u32(py, e)?` -/
  | fromU32 (n : Nat) (e : Exp)
  /-- `match e { Some(inner) => Some(body), None => None }` -/
  | matchOpt (e body : Exp)
  /-- `e.into_iter().map(|inner| Ok(body)).collect::<PyResult<Vec<_>>>()?` -/
  | mapCollect (e body : Exp)
  /-- `&e` -/
  | ref (e : Exp)
  deriving DecidableEq, Repr

/-- `append_clone_if_supported`: macroslib/src/python/mod.rs:1213-1228. -/
def appendClone (env : Env) (c : Nat) (e : Exp) : Option Exp := if env.clonable c then some e else none

/-- `generate_deref_for_mutex`: macroslib/src/python/mod.rs:1075-1107. -/
def derefMutex (env : Env) (c : Nat) (p : Ptr) (r : Refr) (e : Exp) : Option Exp :=
  match p, r with
  | .none, .mutRef => some (.lockMut e)
  | .none, .ref => some (.lockRef e)
  | .none, .none => appendClone env c (.lockClone e)
  | .mutex, .ref => some e
  | _, _ => none

/-- `generate_deref_for_arc_mutex`: macroslib/src/python/mod.rs:1109-1142. -/
def derefArcMutex (env : Env) (c : Nat) (p : Ptr) (r : Refr) (e : Exp) : Option Exp :=
  match p, r with
  | .none, .mutRef => some (.lockMut e)
  | .none, .ref => some (.lockRef e)
  | .none, .none => appendClone env c (.lockClone e)
  | .arcMutex, .ref => some e
  | .arcMutex, .none => some (.clone e)
  | _, _ => none

/-- `generate_deref_for_arc`: macroslib/src/python/mod.rs:1144-1181. -/
def derefArc (env : Env) (c : Nat) (p : Ptr) (r : Refr) (e : Exp) : Option Exp :=
  match p, r with
  | .none, .ref => some (.derefRef e)
  | .none, .none => appendClone env c (.derefClone e)
  | .arc, .ref => some e
  | .arc, .none => some (.clone e)
  | _, _ => none

/-- `generate_deref_for_box`: macroslib/src/python/mod.rs:1183-1211. -/
def derefBox (env : Env) (c : Nat) (p : Ptr) (r : Refr) (e : Exp) : Option Exp :=
  match p, r with
  | .none, .ref => some e
  | .none, .none => appendClone env c (.clone e)
  | _, _ => none

/-- The `match class_smart_pointer.pointer_type` of `if_exported_class_generate_argument_conversion`: macroslib/src/python/mod.rs:1036-1070. -/
def derefFor (env : Env) (c : Nat) (p : Ptr) (r : Refr) (e : Exp) : Option Exp :=
  match storage env c with
  | .arcMutex => derefArcMutex env c p r e
  | .arc => derefArc env c p r e
  | .mutex => derefMutex env c p r e
  | .box => derefBox env c p r e
  | .none => none

/-- The class a type is about, with the pointer and reference around it: the first lines of both `if_exported_class_…` functions:
macroslib/src/python/mod.rs:833-843, 1007-1017. -/
def classOf (t : RTy) : Option (Refr × Ptr × Nat) :=
  match smart (unref t).2 with
  | (p, .cls c) => some ((unref t).1, p, c)
  | _ => none

/-- `if_exported_class_generate_argument_conversion` for a type of a class: macroslib/src/python/mod.rs:999-1073. -/
def argClass (env : Env) (refAllowed : Bool) (r : Refr) (p : Ptr) (c : Nat) : Option (RTy × Exp) :=
  (derefFor env c p r (.inst c (!refAllowed) .arg)).map fun e => (if refAllowed then .ref (.py c) else .py c, e)

/-- `generate_conversion_for_argument`: macroslib/src/python/mod.rs:442-550.  The Python type of the argument and the expression; `none` is an error of the generator. -/
def genArg (env : Env) (refAllowed : Bool) (t : RTy) : Option (RTy × Exp) :=
  if supported t then some (t, .arg)
  else match classOf t with
    | some (r, p, c) => argClass env refAllowed r p c
    | none =>
      match t with
      | .enm e => if e ∈ env.enums then some (.prim .u32, .fromU32 e .arg) else none
      | .opt t => (genArg env false t).map fun (p, e) => (.opt p, .matchOpt .arg e)
      | .ref (.slice t) => (genArg env false t).map fun (p, e) => (.vec p, .ref (.mapCollect .arg e))
      | .vec t => (genArg env false t).map fun (p, e) => (.vec p, .mapCollect .arg e)
      | .ref t => (genArg env false t).map fun (p, e) => (p, .ref e)
      | _ => none

/-- The expressions around the call.  `call` is the call, or `inner`/`ok_inner`/`tuple.i` in a body.  The list of bodies of a tuple is `tnil`/`tcons`. -/
inductive RExp where
  | call
  /-- `(e).clone()` -/
  | clone (e : RExp)
  /-- `{e; py.None()}` -/
  | thenNone (e : RExp)
  /-- `super::m::create_instance(py, e)?` -/
  | create (c : Nat) (e : RExp)
  /-- `std::sync::Mutex::new(e)` -/
  | mutexNew (e : RExp)
  /-- `(*e)` -/
  | deref (e : RExp)
  /-- `e as u32` -/
  | asU32 (e : RExp)
  | matchOpt (e body : RExp)
  /-- `e.iter().cloned().map(|inner| Ok(body)).collect::<PyResult<Vec<_>>>()?` -/
  | iterCloned (e body : RExp)
  /-- `e.into_iter().map(|inner| Ok(body)).collect::<PyResult<Vec<_>>>()?` -/
  | intoIter (e body : RExp)
  /-- `match e { Ok(ok_inner) => body, Err(err_inner) => return Err(…) }` -/
  | matchRes (e body : RExp)
  /-- `{ let tuple = e; (bodies,) }` -/
  | tuple (e bodies : RExp)
  | tnil
  | tcons (body rest : RExp)
  deriving DecidableEq, Repr

/-- `generate_wrapper_constructor_for_*`: macroslib/src/python/mod.rs:909-997, chosen in macroslib/src/python/mod.rs:872-902. -/
def wrapFor (env : Env) (c : Nat) (p : Ptr) (e : RExp) : Option RExp :=
  match storage env c, p with
  | .mutex, .mutex => some e
  | .mutex, .none => some (.mutexNew e)
  | .arcMutex, .arcMutex => some e
  | .arc, .arc => some e
  | .box, .none => some e
  | .box, .box => some (.deref e)
  | _, _ => none

/-- `PointerType::is_shared`: macroslib/src/python/mod.rs:750-753. -/
def Ptr.isShared (p : Ptr) : Bool := p = .arc || p = .arcMutex

/-- `if_exported_class_generate_return_conversion` for a type of a class: macroslib/src/python/mod.rs:826-907. -/
def retClass (env : Env) (r : Refr) (p : Ptr) (c : Nat) (call : RExp) : Option (RTy × RExp) :=
  let call? : Option RExp :=
    if r ≠ .none then
      if p = .mutex then none
      else if env.clonable c || p.isShared then some (.clone call)
      else none
    else some call
  call?.bind fun call => (wrapFor env c p call).map fun e => (.py c, .create c e)

/-- `generate_conversion_for_return`: macroslib/src/python/mod.rs:552-698.  (The components of a tuple are handled by the same function: a tail `tcons` is met only inside a
tuple, `unit` at its end.) -/
def genRet (env : Env) (t : RTy) (call : RExp) : Option (RTy × RExp) :=
  if t = .unit then some (.pyObject, .thenNone call)
  else if supported t then some (t, call)
  else match classOf t with
    | some (r, p, c) => retClass env r p c call
    | none =>
      match t with
      | .enm e => if e ∈ env.enums then some (.prim .u32, .asU32 call) else none
      | .opt t => (genRet env t .call).map fun (p, e) => (.opt p, .matchOpt call e)
      | .ref (.slice t) => (genRet env t .call).map fun (p, e) => (.vec p, .iterCloned call e)
      | .vec t => (genRet env t .call).map fun (p, e) => (.vec p, .intoIter call e)
      | .res ok _ => (genRet env ok .call).map fun (p, e) => (p, .matchRes call e)
      | .ref t => genRet env t (.clone call)
      | .refMut t => genRet env t (.clone call)
      | .tcons a rest => (genRet env a .call).bind fun (p, e) => (genTail rest).map fun (ps, es) => (.tcons p ps, .tuple call (.tcons e es))
      | _ => none
where
  /-- the remaining components -/
  genTail : RTy → Option (RTy × RExp)
    | .unit => some (.unit, .tnil)
    | .tcons a rest => (genRet env a .call).bind fun (p, e) => (genTail rest).map fun (ps, es) => (.tcons p ps, .tcons e es)
    | _ => none

end Flapi.Py
