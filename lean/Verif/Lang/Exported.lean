import Verif.Cpp.Names
/-!
# Exported Rust functions of a class: common part of the C++ and Java back ends (model and meaning)
-/
namespace Flapi.Exported

open Flapi.CppNames (Access)

/-- A text constant.  (Irreducible: proofs never look inside.) -/
@[irreducible] def lit (s : String) : Text := s.toList

/-- `SelfTypeVariant`: macroslib/src/types.rs:207-213. -/
inductive SelfVar
  | rptrMut
  | rptr
  | «mut»
  | default
  deriving DecidableEq, Repr

/-- `is_read_only`: macroslib/src/types.rs:239-244. -/
def SelfVar.readOnly : SelfVar → Bool
  | .rptrMut => false
  | .mut => false
  | .default => true
  | .rptr => true

/-- `MethodVariant`: macroslib/src/types.rs:200-205. -/
inductive Variant
  | ctor
  | method (s : SelfVar)
  | static
  deriving DecidableEq, Repr

/-- `Method(_)`. -/
def Variant.isMethod : Variant → Bool
  | .method _ => true
  | _ => false

/-- `ForeignMethod`: macroslib/src/types.rs:90-99.  `path` are the segments of `rust_id`; `args` are the names and the
(printed) types of the arguments without `self`; `output` is the printed return type without lifetimes, if one is
written; unknown attributes (C07) are left out. -/
structure Method where
  variant : Variant
  path : List Text
  args : List (Text × Text)
  output : Option Text
  «alias» : Option Text
  access : Access
  docs : List Text
  inlineBlock : Option Text
  deriving DecidableEq

/-- `short_name`: macroslib/src/types.rs:140-149. -/
def Method.shortName (m : Method) : Text :=
  match m.alias with
  | some a => a
  | none => m.path.getLast?.getD []

/-- `is_dummy_constructor`: macroslib/src/types.rs:155-157. -/
def Method.isDummy (m : Method) : Bool := m.path.isEmpty

/-- `arg_names_without_self`: macroslib/src/types.rs:159-169. -/
def Method.argNames (m : Method) : List Text := m.args.map (·.1)

/-- How the type of the objects is kept on the heap, `convert_to_heap_pointer` and `unpack_from_heap_pointer`:
macroslib/src/typemap/utils.rs:238-271, 273-310. -/
inductive Holder
  /-- one of `Box`, `Rc`, `Arc`, with the inner type -/
  | smart (ptr inner : Text)
  /-- any other type: it is boxed -/
  | plain (ty : Text)
  deriving DecidableEq

/-- The pointee: the first component returned by `convert_to_heap_pointer`. -/
def Holder.inner : Holder → Text
  | .smart _ i => i
  | .plain t => t

/-- A foreign type (`I` depends on the language) with its `corresponding_rust_type` (its name):
macroslib/src/typemap/ty.rs, `ForeignTypeInfo` in macroslib/src/typemap.rs. -/
structure FTy (I : Type) where
  info : I
  rust : Text

/-- `CppForeignMethodSignature`, `JniForeignMethodSignature`: macroslib/src/cpp/mod.rs:193-196,
macroslib/src/java_jni/mod.rs:100-103. -/
structure Sig (I : Type) where
  output : FTy I
  input : List (FTy I)

/-- Everything that can go wrong. -/
inductive Err
  | noConstructor
  | argThis
  | argSelfField
  | inOutConstructor
  | inOutTwo
  | inOutReturn
  | noThisInfo
  | noClone
  | noSmartConstructor
  | selfByValue
  | fence
  | unknownJavaType
  | javaCode
  | callbackResult
  | internal
  | typeMap
  deriving DecidableEq, Repr

/-- An `Option` that fails with a given error. -/
def orErr {α} (e : Err) : Option α → Except Err α
  | some a => .ok a
  | none => .error e

/-- What is asked of the type map: a foreign type for a Rust type (`map_type`, macroslib/src/cpp/map_type.rs and
macroslib/src/java_jni/map_type.rs; `true` is the incoming direction) and the code
converting a variable between two Rust types, with the support code it needs (`convert_rust_types`, modelled in
`Verif.TypeMap.Convert`).  `σ` is the state of the type map. -/
structure TypeMap (σ I : Type) where
  mapType : σ → Bool → Text → Option (FTy I × σ)
  convert : σ → (fr tt var ret : Text) → Option (List Text × Text × σ)

/-- Types of the arguments of one method: macroslib/src/cpp/fclass.rs:1018-1031, macroslib/src/java_jni/fclass.rs:779-794. -/
def mapArgs {σ I} (tm : TypeMap σ I) : σ → List (Text × Text) → Except Err (List (FTy I) × σ)
  | s, [] => .ok ([], s)
  | s, (_, ty) :: as => do
    let (t, s) ← orErr .typeMap (tm.mapType s true ty)
    let (ts, s) ← mapArgs tm s as
    .ok (t :: ts, s)

/-- What the exported function calls: `generate_code_to_call_rust_func`, macroslib/src/types.rs:171-190. -/
inductive Call
  /-- the user's block; `vars` are the object (in methods) and the arguments, which it can use -/
  | block (code : Text) (vars : List Text)
  /-- `path(this, args)` or `path(args)` -/
  | fn (path : List Text) (args : List Text)
  deriving DecidableEq

/-- The statements of the generated functions (lines of macroslib/src/cpp/fclass.rs and macroslib/src/java_jni/fclass.rs). -/
inductive RStmt
  /-- the code produced by the type map for one variable (macroslib/src/typemap/utils.rs:86-108) -/
  | conv (var code : Text)
  /-- `let this: {ty} = unsafe { this.as_mut().unwrap() };` (cpp 898-900; java 1012-1014, 734-736 where the pointer comes from
  a `jlong`) -/
  | refThis (ty : Text)
  /-- `let mut {var}: {ty} = {call};` (cpp 822, 902; java 862, 1016) and `let this: {ty} = {call};` (cpp 963, java 927) -/
  | call (var ty : Text) (what : Call)
  /-- `convert_to_heap_pointer` of `this` (macroslib/src/typemap/utils.rs:238-271) -/
  | toHeap (h : Holder)
  /-- `unpack_from_heap_pointer` of `this` (macroslib/src/typemap/utils.rs:273-310) -/
  | fromHeap (h : Holder) (unbox : Bool)
  /-- `drop(this);` (cpp 619, java 738) -/
  | dropThis
  /-- `let ret = this.clone(); forget(this); SwigForeignClass::box_object(ret)` (cpp 1362-1364) -/
  | cloneThis
  /-- the value of the function: a variable -/
  | result (var : Text)
  /-- `this as *const c_void` (cpp 966), `this as jlong` (java 930) -/
  | thisPtr
  deriving DecidableEq

/-- An exported Rust function: `#[no_mangle] pub extern "C" fn name(params) -> ret { body }`.  The texts of
macroslib/src/cpp/fclass.rs:816-841, 892-926, 957-982, 613-631, 1357-1366 and of
macroslib/src/java_jni/fclass.rs:729-750, 856-880, 921-949, 1005-1037 are parsed by `syn` or built by `quote!`, so
only their structure is kept.  `()` is written for an absent return type. -/
structure RustFn where
  name : Text
  params : List (Text × Text)
  ret : Text
  body : List RStmt
  deriving DecidableEq

/-- What is appended to `rust_code`. -/
inductive RItem
  /-- support code requested by the type map -/
  | support (code : Text)
  /-- `impl SwigForeignClass for …` (macroslib/src/cpp/fclass.rs:150-166, macroslib/src/java_jni/fclass.rs:555-586) -/
  | classImpl (ty : Text)
  | fn (f : RustFn)

/-- `foreign_to_rust_convert_method_inputs`: macroslib/src/typemap/utils.rs:66-110; the `zip` of declared argument types,
foreign types and names. -/
def convInputs {σ I} (tm : TypeMap σ I) (ret : Text) : σ → List (Text × Text) → List (FTy I) →
    Except Err (List Text × List RStmt × σ)
  | s, (n, ty) :: as, t :: ts => do
    let (d, c, s) ← orErr .typeMap (tm.convert s t.rust ty n ret)
    let (ds, cs, s) ← convInputs tm ret s as ts
    .ok (d ++ ds, RStmt.conv n c :: cs, s)
  | s, _, _ => .ok ([], [], s)

/-- `foreign_from_rust_convert_method_output`: macroslib/src/typemap/utils.rs:40-64. -/
def convOutput {σ I} (tm : TypeMap σ I) (s : σ) (m : Method) (t : FTy I) (var : Text) :
    Except Err (List Text × List RStmt × σ) :=
  match m.output with
  | none => .ok ([], [], s)
  | some ty => do
    let (d, c, s) ← orErr .typeMap (tm.convert s ty t.rust var t.rust)
    .ok (d, [RStmt.conv var c], s)

/-- The name of the object parameter. -/
def thisW : Text := lit "this"

/-- The object (in methods) and the arguments. -/
def Method.vars (m : Method) : List Text := if m.variant.isMethod then thisW :: m.argNames else m.argNames

/-- `generate_code_to_call_rust_func`: macroslib/src/types.rs:171-190. -/
def Method.call (m : Method) : Call :=
  match m.inlineBlock with
  | some b => .block b m.vars
  | none => .fn m.path m.vars

/-- `rust_args_with_types`: macroslib/src/cpp/fclass.rs:253-287; `decl_func_args`: macroslib/src/java_jni/fclass.rs:635-650. -/
def rustArgs {I} (m : Method) (s : Sig I) : List (Text × Text) := (s.input.zip m.argNames).map fun p => (p.2, p.1.rust)

/-- `real_output_typename`: macroslib/src/cpp/fclass.rs:244-251, macroslib/src/java_jni/fclass.rs:652-655. -/
def Method.realOutput (m : Method) : Text := m.output.getD (lit "()")

/-- `create_suitable_types_for_constructor_and_self`: macroslib/src/typemap/utils.rs:112-142; taking `self` by value is
`unimplemented!`. -/
def suitableTypes (v : SelfVar) (ctorTy selfTy : Text) : Except Err (Text × Text) :=
  match v with
  | .default => .error .selfByValue
  | .mut => .error .selfByValue
  | .rptr => .ok (lit "& " ++ ctorTy, lit "& " ++ selfTy)
  | .rptrMut => .ok (lit "& mut " ++ ctorTy, lit "& mut " ++ selfTy)

/-! ## Meaning of the generated Rust code

Used to state what a call of an exported function does.  A computation may change the state `S` of the program and may
return early from the exported function with a value (as conversions of `Result` do). -/

/-- A piece of an exported function: it changes the state and goes on with an `α` or returns a `V`. -/
abbrev M (S V α : Type) := ExceptT V (StateM S) α

/-- What the pieces of a generated function do: conversion code, dereferencing the object pointer, moving an object to
the heap and back, dropping and copying it, the user's functions and blocks. -/
structure World (S V : Type) where
  unit : V
  conv : Text → V → M S V V
  deref : V → M S V V
  toHeap : Holder → V → M S V V
  fromHeap : Holder → Bool → V → M S V V
  drop : V → M S V V
  cloneBoxed : V → M S V V
  call : List Text → List V → M S V V
  block : Text → List V → M S V V

/-- Assignment. -/
def set {V} (env : Text → V) (x : Text) (v : V) : Text → V := fun y => if y = x then v else env y

/-- One statement. -/
def exec {S V} (w : World S V) (env : Text → V) : RStmt → M S V (Text → V)
  | .conv x c => do pure (set env x (← w.conv c (env x)))
  | .refThis _ => do pure (set env thisW (← w.deref (env thisW)))
  | .call x _ (.fn path args) => do pure (set env x (← w.call path (args.map env)))
  | .call x _ (.block b args) => do pure (set env x (← w.block b (args.map env)))
  | .toHeap h => do pure (set env thisW (← w.toHeap h (env thisW)))
  | .fromHeap h u => do pure (set env thisW (← w.fromHeap h u (env thisW)))
  | .dropThis => do let _ ← w.drop (env thisW); pure env
  | .cloneThis => pure env
  | .result _ => pure env
  | .thisPtr => pure env

/-- The value of a body is that of its last expression. -/
def tailValue {S V} (w : World S V) (env : Text → V) : RStmt → M S V V
  | .result x => pure (env x)
  | .thisPtr => pure (env thisW)
  | .cloneThis => w.cloneBoxed (env thisW)
  | s => do let _ ← exec w env s; pure w.unit

/-- A body. -/
def runBody {S V} (w : World S V) (env : Text → V) : List RStmt → M S V V
  | [] => pure w.unit
  | [s] => tailValue w env s
  | s :: l => do
    let env ← exec w env s
    runBody w env l

/-- The parameters hold the values of the call. -/
def bindAll {V} (env : Text → V) : List Text → List V → (Text → V)
  | x :: ps, v :: vs => bindAll (set env x v) ps vs
  | _, _ => env

/-- A call of an exported function.  (`env` are the meaningless values of variables not yet declared.) -/
def RustFn.run {S V} (w : World S V) (env : Text → V) (f : RustFn) (vs : List V) : M S V V :=
  runBody w (bindAll env (f.params.map (·.1)) vs) f.body

end Flapi.Exported
