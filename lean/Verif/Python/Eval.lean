import Verif.Python.Gen
/-!
# Python: what the generated conversions do (model)

An exported object lives in a cell of the heap, inside the `Mutex`, `Arc`, … its class is kept in.  Python objects and Rust pointers refer to cells.
-/
namespace Flapi.Py

/-- Values, on both sides.  `prim`: a number, a string, …; `data x`: an object by value with content `x`; `ref a`: a Python object with cell `a`, or a
Rust reference to what is in the cell, to its lock or to its `Arc`; `refMut a`: a mutable reference; `handle a`: an `Arc` of its own; `lent v`: a reference
to the value `v` in a result of Rust; `okv`/`errv`: a `Result`.  Lists, slices and tuples are `nil`/`cons`. -/
inductive Val where
  | prim (n : Int)
  | data (x : Int)
  | enm (e i : Nat)
  | none
  | some (v : Val)
  | nil
  | cons (v l : Val)
  | ref (a : Nat)
  | refMut (a : Nat)
  | handle (a : Nat)
  | lent (v : Val)
  | okv (v : Val)
  | errv (msg : Int)
  deriving DecidableEq, Repr

/-- How the evaluation of an argument ends: a value and the locks held by the guards still alive; blocked for ever on a lock the thread itself holds; a
Python exception; `stuck` for what rustc would not compile. -/
inductive Out where
  | ok (v : Val) (held : List Nat)
  | deadlock
  | error
  | stuck
  deriving DecidableEq, Repr

def Out.bind (o : Out) (f : Val → List Nat → Out) : Out :=
  match o with
  | .ok v h => f v h
  | o => o

/-- `d as u32`. -/
def asU32 (d : Int) : Int := d % 2 ^ 32

/-- `from_u32`: macroslib/src/python/mod.rs:167-172. -/
def fromU32 (ds : List Int) (k : Int) : Option Nat := ds.findIdx? (fun d => k = asU32 d)

/-- Taking a lock: the guard lives to the end of the statement the expression stands in. -/
def lock (held : List Nat) (a : Nat) (v : Val) : Out := if a ∈ held then .deadlock else .ok v (a :: held)

/-- `.clone()` on the storage of class `c`: a copy of the object if it is kept bare (`Box`), another `Arc` if it is kept in one. -/
def cloneInst (env : Env) (heap : List Int) (c a : Nat) : Option Val :=
  match storage env c with
  | .box => (heap[a]?).map .data
  | .arc => some (.handle a)
  | .arcMutex => some (.handle a)
  | _ => none

/-- The class whose storage the expression is. -/
def instOf : Exp → Option Nat
  | .inst c _ _ => some c
  | _ => none

/-- Elements one after the other; the guards of an element are dropped at the end of the closure. -/
def mapVals (f : Val → Out) (held : List Nat) : Val → Out
  | .nil => .ok .nil held
  | .cons v l => (f v).bind fun v' _ => (mapVals f held l).bind fun l' _ => .ok (.cons v' l') held
  | _ => .stuck

/-- The expressions of `Exp`.  References made with `&` are the value itself.  The body of a `match` arm and of a closure is a scope of its own for
temporaries: its guards are dropped there.  `ds e` below: the discriminants of enum `e`. -/
def eval (env : Env) (heap : List Int) : Exp → List Nat → Val → Out
  | .arg, held, var => .ok var held
  | .inst _ _ e, held, var => eval env heap e held var
  | .lockRef e, held, var => (eval env heap e held var).bind fun v h =>
    match v with
    | .ref a => lock h a (.ref a)
    | _ => .stuck
  | .lockMut e, held, var => (eval env heap e held var).bind fun v h =>
    match v with
    | .ref a => lock h a (.refMut a)
    | _ => .stuck
  | .lockClone e, held, var => (eval env heap e held var).bind fun v h =>
    match v with
    | .ref a =>
      match heap[a]? with
      | some x => lock h a (.data x)
      | none => .stuck
    | _ => .stuck
  | .derefRef e, held, var => eval env heap e held var
  | .derefClone e, held, var => (eval env heap e held var).bind fun v h =>
    match v, (instOf e).bind (fun c => match v with | .ref a => cloneInst env heap c a | _ => none) with
    | .ref _, some w => .ok w h
    | _, _ => .stuck
  | .clone e, held, var => (eval env heap e held var).bind fun v h =>
    match v, (instOf e).bind (fun c => match v with | .ref a => cloneInst env heap c a | _ => none) with
    | .ref _, some w => .ok w h
    | _, _ => .stuck
  | .fromU32 n e, held, var => (eval env heap e held var).bind fun v h =>
    match v with
    | .prim k =>
      match fromU32 (env.discr n) k with
      | some i => .ok (.enm n i) h
      | none => .error
    | _ => .stuck
  | .matchOpt e body, held, var => (eval env heap e held var).bind fun v h =>
    match v with
    | .none => .ok .none h
    | .some w => (eval env heap body h w).bind fun w' _ => .ok (.some w') h
    | _ => .stuck
  | .mapCollect e body, held, var => (eval env heap e held var).bind fun v h => mapVals (fun w => eval env heap body h w) h v
  | .ref e, held, var => eval env heap e held var

/-- How the evaluation of all arguments ends; the locks are those held while the Rust function runs. -/
inductive Args where
  | ok (vs : List Val) (held : List Nat)
  | deadlock
  | error
  | stuck
  deriving DecidableEq, Repr

/-- The arguments of the call, `self` first, from left to right in one statement: macroslib/src/python/mod.rs:301-325, 346-350. -/
def evalArgs (env : Env) (heap : List Int) : List Nat → List (Exp × Val) → Args
  | held, [] => .ok [] held
  | held, (e, v) :: l =>
    match eval env heap e held v with
    | .deadlock => .deadlock
    | .error => .error
    | .stuck => .stuck
    | .ok w h =>
      match evalArgs env heap h l with
      | .ok ws h' => .ok (w :: ws) h'
      | r => r

/-- How the conversion of a result ends: the value for Python and the heap; an exception; not compilable. -/
inductive ROut where
  | ok (v : Val) (heap : List Int)
  | raise (msg : Int)
  | stuck
  deriving DecidableEq, Repr

def ROut.bind (o : ROut) (f : Val → List Int → ROut) : ROut :=
  match o with
  | .ok v h => f v h
  | o => o

def mapValsR (f : List Int → Val → ROut) : List Int → Val → ROut
  | h, .nil => .ok .nil h
  | h, .cons v l => (f h v).bind fun v' h => (mapValsR f h l).bind fun l' h => .ok (.cons v' l') h
  | _, _ => .stuck

/-- The expressions of `RExp`.  An object by value (bare, in a `Mutex` or in a `Box`) gets a cell of its own when its Python object is made, an `Arc` leads
to the cell it always led to. -/
def evalR (env : Env) : RExp → List Int → Val → ROut
  | .call, heap, var => .ok var heap
  | .clone e, heap, var => (evalR env e heap var).bind fun v h =>
    match v with
    | .lent w => .ok w h
    | _ => .stuck
  | .thenNone e, heap, var => (evalR env e heap var).bind fun _ h => .ok .none h
  | .create _ e, heap, var => (evalR env e heap var).bind fun v h =>
    match v with
    | .data x => .ok (.ref h.length) (h ++ [x])
    | .handle a => .ok (.ref a) h
    | _ => .stuck
  | .mutexNew e, heap, var => evalR env e heap var
  | .deref e, heap, var => evalR env e heap var
  | .asU32 e, heap, var => (evalR env e heap var).bind fun v h =>
    match v with
    | .enm n i =>
      match (env.discr n)[i]? with
      | some d => .ok (.prim (asU32 d)) h
      | none => .stuck
    | _ => .stuck
  | .matchOpt e body, heap, var => (evalR env e heap var).bind fun v h =>
    match v with
    | .none => .ok .none h
    | .some w => (evalR env body h w).bind fun w' h => .ok (.some w') h
    | _ => .stuck
  | .iterCloned e body, heap, var => (evalR env e heap var).bind fun v h =>
    match v with
    | .lent l => mapValsR (fun h w => evalR env body h w) h l
    | _ => .stuck
  | .intoIter e body, heap, var => (evalR env e heap var).bind fun v h => mapValsR (fun h w => evalR env body h w) h v
  | .matchRes e body, heap, var => (evalR env e heap var).bind fun v h =>
    match v with
    | .okv w => evalR env body h w
    | .errv m => .raise m
    | _ => .stuck
  | .tuple e bodies, heap, var => (evalR env e heap var).bind fun v h => evalR env bodies h v
  | .tnil, heap, var => if var = .nil then .ok .nil heap else .stuck
  | .tcons body rest, heap, var =>
    match var with
    | .cons v l => (evalR env body heap v).bind fun v' h => (evalR env rest h l).bind fun l' h => .ok (.cons v' l') h
    | _ => .stuck

/-- What Python sees of a typed value: `Some(x)` is `x` (rust-cpython's conversion of `Option`). -/
def erase : Val → Val
  | .some v => erase v
  | .cons v l => .cons (erase v) (erase l)
  | v => v

end Flapi.Py
