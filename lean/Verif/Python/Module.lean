import Verif.Python.Gen
import Verif.Lang.Exported
/-!
# Python: the wrapper modules, the classes and the module initialisation (model)

What `expand_items` emits, as a structure: one Rust module per class and enum, and the initialisation of the Python module.  Expressions and types are
those of `Python/Gen.lean`.  Types in declarations are raw: a named type is `.other n`, whatever it is; `classify` finds the class or the enum.
Left out: the tokens around the structure, spans, messages.
-/
namespace Flapi.PyModule

open Flapi.Py (RTy Ptr Exp RExp Env smart genArg genRet)
open Flapi.Exported (lit)

/-! ### Input -/

/-- `SelfTypeVariant`: macroslib/src/types.rs:207-213. -/
inductive SelfVar where
  | rptrMut | rptr | «mut» | default
  deriving DecidableEq, Repr

/-- `MethodVariant`: macroslib/src/types.rs:200-205. -/
inductive Variant where
  | constructor
  | method (v : SelfVar)
  | static
  deriving DecidableEq, Repr

/-- `FnArg`: macroslib/src/types.rs:101-105, 125-130. -/
inductive FnArg where
  | self
  | named (name : Text) (ty : RTy)
  deriving DecidableEq, Repr

/-- `MethodAccess`: macroslib/src/types.rs:193-198. -/
inductive Access where
  | priv | pub | prot
  deriving DecidableEq, Repr

/-- `ForeignMethod`: macroslib/src/types.rs:89-99.  `path` is the list of segments of `rust_id`; `ret = none` is a declaration without `->`. -/
structure Method where
  variant : Variant
  path : List Text
  «alias» : Option Text
  args : List FnArg
  ret : Option RTy
  docs : List Text
  inline : Option Text
  access : Access
  deriving DecidableEq, Repr

/-- `ForeignClassInfo`: macroslib/src/types.rs:14-33.  The self type is a named type, given by its number; `ctorRet` is `constructor_ret_type`. -/
structure Class where
  name : Text
  self : Option (Nat × RTy)
  derives : List Text
  docs : List Text
  methods : List Method
  deriving DecidableEq, Repr

/-- `ForeignEnumInfo`: macroslib/src/types.rs:247-266.  `ty` is the number of the type named like the enum; an item is the name for Python, the Rust path and the
discriminant. -/
structure EnumInfo where
  name : Text
  ty : Nat
  docs : List Text
  items : List (Text × Text × Int)
  deriving DecidableEq, Repr

/-- `ItemToExpand`: macroslib/src/types.rs:302-307. -/
inductive Item where
  | cls (c : Class)
  | enm (e : EnumInfo)
  | iface (name : Text)
  deriving DecidableEq, Repr

/-- The configuration and what comes from other crates: `snake` is `heck`'s `to_snake_case`, `ident` is `syn::parse_str::<Ident>(s).is_ok()`; the numbers of
registered class and method attribute handlers; the names of foreign types that `foreign_typemap!` made. -/
structure Cfg where
  moduleName : Text
  snake : Text → Text
  ident : Text → Bool
  classHandlers : Nat
  methodHandlers : Nat
  foreign : List Text

/-! ### Output -/

/-- A parameter of a generated `def`. -/
inductive Param where
  /-- `&self` -/
  | self
  /-- `_cls` -/
  | cls
  | arg (name : Text) (ty : RTy)
  deriving DecidableEq, Repr

/-- A generated `def`: `doc` is the text of the doc comment; the body calls `callee` with the converted variables and converts the result. -/
structure PyDef where
  doc : Option Text
  static : Bool
  name : Text
  params : List Param
  ret : RTy
  callee : List Text
  convs : List (Text × Exp)
  result : RExp
  deriving DecidableEq, Repr

/-- A generated Rust module.  `data = some t`: the class keeps a field of type `t` and the module has `rust_instance` and `create_instance` for it. -/
inductive Module where
  | cls (mod name doc : Text) (data : Option RTy) (defs : List PyDef)
  | enm (mod name doc : Text) (consts : List (Text × Text)) (fromU32 : List Text)
  deriving DecidableEq, Repr

/-- Everything emitted: the modules, the module of the exception and the initialiser with what it adds to the Python module. -/
structure Output where
  modules : List Module
  errorMod : Text
  errorName : Text
  initName : Text
  pyInitName : Text
  added : List (Text × Text)
  deriving DecidableEq, Repr

/-- The error of the generator; `unimplemented` is a panic. -/
inductive Err where
  | attributes | ident | mismatch | noSelfType | unsupported | selfArg | noName | duplicate | unimplemented
  deriving DecidableEq, Repr

/-! ### Types -/

/-- The classes in the order they were parsed and registered: macroslib/src/lib.rs:643-646, macroslib/src/typemap.rs:936-938. -/
def classesOf (items : List Item) : List Class := items.filterMap fun | .cls c => some c | _ => none

/-- `find_foreigner_class_with_such_this_type`: macroslib/src/typemap.rs:917-934.  The number of the first class with that self type. -/
def findClass (cs : List Class) (n : Nat) : Option Nat := cs.findIdx? fun c => c.self.any fun s => s.1 == n

/-- The classes and enums among the named types, as both conversion functions find them: macroslib/src/python/mod.rs:453-472, 568-585, 836-842, 1010-1016.
`enums` are those generated so far. -/
def classify (cs : List Class) (enums : List Nat) : RTy → RTy
  | .other n =>
    match findClass cs n with
    | some i => .cls i
    | none => if n ∈ enums then .enm n else .other n
  | .tcons a b => .tcons (classify cs enums a) (classify cs enums b)
  | .opt t => .opt (classify cs enums t)
  | .vec t => .vec (classify cs enums t)
  | .slice t => .slice (classify cs enums t)
  | .ref t => .ref (classify cs enums t)
  | .refMut t => .refMut (classify cs enums t)
  | .arc t => .arc (classify cs enums t)
  | .mutex t => .mutex (classify cs enums t)
  | .box t => .box (classify cs enums t)
  | .res a b => .res (classify cs enums a) (classify cs enums b)
  | t => t

/-- `clone_derived() || copy_derived()`: macroslib/src/types.rs:77-86. -/
def Class.clonable (c : Class) : Bool := c.derives.any (· == lit "Clone") || c.derives.any (· == lit "Copy")

/-- What the conversion functions know when the enums `enums` have been generated. -/
def envOf (items : List Item) (enums : List Nat) : Env where
  ctor i := match (classesOf items)[i]? with
    | some c => match c.self with
      | some s => classify (classesOf items) enums s.2
      | none => .unit
    | none => .unit
  clonable i := match (classesOf items)[i]? with
    | some c => c.clonable
    | none => false
  enums := enums
  discr n := match items.findSome? fun | .enm e => if e.ty = n then some e else none | _ => none with
    | some e => e.items.map fun i => i.2.2
    | none => []

/-! ### Names -/

/-- `py_wrapper_mod_name`: macroslib/src/python/mod.rs:717-719. -/
def modName (cfg : Cfg) (name : Text) : Text := lit "py_" ++ cfg.snake name

/-- `parse::<Ident>`. -/
def parseIdent (cfg : Cfg) (s : Text) : Except Err Text := if cfg.ident s then .ok s else .error .ident

/-- `standard_method_name`: macroslib/src/python/mod.rs:375-382. -/
def standardName (m : Method) : Except Err Text :=
  match m.alias with
  | some a => .ok a
  | none => match m.path.getLast? with
    | some s => .ok s
    | none => .error .noName

/-- `method_name`: macroslib/src/python/mod.rs:384-395. -/
def methodName (m : Method) : Except Err Text :=
  if m.variant = .constructor then .ok (lit "__new__")
  else (standardName m).map fun n => if n = lit "to_string" then lit "__repr__" else n

/-- `slice.join(sep)`. -/
def join (sep : Text) : List Text → Text
  | [] => []
  | [a] => a
  | a :: l => a ++ sep ++ join sep l

/-! ### Classes -/

/-- `wrap_type_for_class` for the pointer of the storage: macroslib/src/python/mod.rs:1230-1260. -/
def dataTy (selfTy : Nat) (ctorRet : RTy) : RTy :=
  match (smart ctorRet).1 with
  | .arcMutex => .arc (.mutex (.other selfTy))
  | .arc => .arc (.other selfTy)
  | .mutex => .mutex (.other selfTy)
  | .none => .mutex (.other selfTy)
  | .box => .other selfTy

/-- `has_any_methods`: macroslib/src/python/mod.rs:435-440. -/
def hasAnyMethods (c : Class) : Bool := c.methods.any fun m => match m.variant with | .method _ => true | _ => false

/-- `generate_rust_instance_field_and_methods`: macroslib/src/python/mod.rs:234-284. -/
def instanceField (c : Class) : Except Err (Option RTy) :=
  match c.self with
  | some (n, ret) => if (smart ret).2 ≠ .other n then .error .mismatch else .ok (some (dataTy n ret))
  | none => if hasAnyMethods c then .error .noSelfType else .ok none

/-- The conversion of one argument: macroslib/src/python/mod.rs:301-322. -/
def genParam (cs : List Class) (env : Env) : FnArg → Except Err ((Text × RTy) × (Text × Exp))
  | .self => .error .selfArg
  | .named name ty =>
    match genArg env true (classify cs env.enums ty) with
    | some (p, e) => .ok ((name, p), (name, e))
    | none => .error .unsupported

/-- `.map(…).collect::<Result<Vec<_>>>()`. -/
def mapRes {α β} (f : α → Except Err β) : List α → Except Err (List β)
  | [] => .ok []
  | a :: l =>
    match f a with
    | .error e => .error e
    | .ok b => match mapRes f l with
      | .error e => .error e
      | .ok bs => .ok (b :: bs)

/-- The type of `self`: macroslib/src/python/mod.rs:413-417. -/
def selfTy (n : Nat) : SelfVar → RTy
  | .rptr => .ref (.other n)
  | .rptrMut => .refMut (.other n)
  | _ => .other n

/-- `self_type_conversion`: macroslib/src/python/mod.rs:397-433. -/
def selfConv (cs : List Class) (env : Env) (c : Class) (m : Method) : Except Err (Option Exp) :=
  match m.variant with
  | .method v =>
    match c.self with
    | none => .error .noSelfType
    | some (n, _) =>
      match genArg env true (classify cs env.enums (selfTy n v)) with
      | some (_, e) => .ok (some e)
      | none => .error .unsupported
  | _ => .ok none

/-- `skip_args_count`: macroslib/src/python/mod.rs:296-300. -/
def skipArgs (m : Method) : Nat := match m.variant with | .method _ => 1 | _ => 0

/-- `&self` or `_cls` in front: macroslib/src/python/mod.rs:335-339. -/
def firstParam (m : Method) : List Param :=
  match m.variant with
  | .method _ => [.self]
  | .constructor => [.cls]
  | .static => []

/-- The conversion of `self` in front of the others: macroslib/src/python/mod.rs:323-325. -/
def selfPart : Option Exp → List (Text × Exp)
  | some e => [(lit "self", e)]
  | none => []

/-- The doc comment, not for names with `__` in front: macroslib/src/python/mod.rs:355-363. -/
def docOf (name : Text) (docs : List Text) : Option Text :=
  if (lit "__").isPrefixOf name then none else some (lit "/// " ++ join (lit "\n/// ") docs)

/-- `generate_method_code`: macroslib/src/python/mod.rs:286-373.  `none`: a dummy constructor, for which nothing is generated. -/
def genMethod (cs : List Class) (env : Env) (c : Class) (m : Method) : Except Err (Option PyDef) :=
  if m.path = [] then .ok none
  else do
    let name ← methodName m
    let args ← mapRes (genParam cs env) (m.args.drop (skipArgs m))
    let self ← selfConv cs env c m
    let (ret, result) ← match genRet env (classify cs env.enums (m.ret.getD .unit)) .call with
      | some r => Except.ok r
      | none => .error .unsupported
    .ok (some {
      doc := docOf name m.docs
      static := m.variant = .static
      name := name
      params := firstParam m ++ args.map fun a => .arg a.1.1 a.1.2
      ret := ret
      callee := m.path
      convs := selfPart self ++ args.map (·.2)
      result := result })

/-- The documentation of the class and of its first constructor: macroslib/src/python/mod.rs:103-115. -/
def classDoc (c : Class) : Text :=
  join (lit "\n") (match c.methods.find? fun m => m.variant = .constructor with
    | some m => c.docs ++ [[]] ++ m.docs
    | none => c.docs)

/-- `generate_class`: macroslib/src/python/mod.rs:75-138. -/
def genClass (cfg : Cfg) (cs : List Class) (env : Env) (c : Class) : Except Err Module :=
  if cfg.classHandlers ≠ 0 ∨ cfg.methodHandlers ≠ 0 then .error .attributes
  else do
    let mod ← parseIdent cfg (modName cfg c.name)
    let data ← instanceField c
    let defs ← mapRes (genMethod cs env c) c.methods
    .ok (.cls mod c.name (classDoc c) data (defs.filterMap id))

/-! ### Enums and the whole -/

/-- `generate_enum`: macroslib/src/python/mod.rs:140-200.  `known`: the names of foreign types there are already. -/
def genEnum (cfg : Cfg) (known : List Text) (e : EnumInfo) : Except Err Module := do
  let mod ← parseIdent cfg (modName cfg e.name)
  if e.name ∈ known then .error .duplicate
  else .ok (.enm mod e.name (join (lit "\n") e.docs) (e.items.map fun i => (i.1, i.2.1)) (e.items.map fun i => i.2.1))

/-- The names and the types of the enums among the items. -/
def enumNames (items : List Item) : List Text := items.filterMap fun | .enm e => some e.name | _ => none
def enumTypes (items : List Item) : List Nat := items.filterMap fun | .enm e => some e.ty | _ => none

/-- One turn of the loop: macroslib/src/python/mod.rs:46-62.  `done`: the items before. -/
def genItem (cfg : Cfg) (items done : List Item) : Item → Except Err Module
  | .cls c => genClass cfg (classesOf items) (envOf items (enumTypes done)) c
  | .enm e => genEnum cfg (cfg.foreign ++ enumNames done) e
  | .iface _ => .error .unimplemented

/-- The loop: macroslib/src/python/mod.rs:44-62. -/
def genItems (cfg : Cfg) (items : List Item) : List Item → List Item → Except Err (List Module)
  | _, [] => .ok []
  | done, i :: rest =>
    match genItem cfg items done i with
    | .error e => .error e
    | .ok m => match genItems cfg items (done ++ [i]) rest with
      | .error e => .error e
      | .ok ms => .ok (m :: ms)

/-- `m.add_class::<mod::Name>(py)`: macroslib/src/python/mod.rs:132-136, 194-198. -/
def Module.added : Module → Text × Text
  | .cls mod name _ _ _ => (mod, name)
  | .enm mod name _ _ _ => (mod, name)

/-- `generate_module_initialization`: macroslib/src/python/mod.rs:210-231. -/
def genInit (cfg : Cfg) (ms : List Module) : Except Err Output := do
  let _ ← parseIdent cfg cfg.moduleName
  let i ← parseIdent cfg (lit "init" ++ cfg.moduleName)
  let p ← parseIdent cfg (lit "PyInit_" ++ cfg.moduleName)
  .ok ⟨ms, lit "py_error", lit "Error", i, p, ms.map Module.added⟩

/-- `expand_items`: macroslib/src/python/mod.rs:29-63. -/
def expand (cfg : Cfg) (items : List Item) : Except Err Output :=
  match genItems cfg items [] items with
  | .error e => .error e
  | .ok ms => genInit cfg ms

end Flapi.PyModule
