import Verif.Core.NameGen
/-!
# Parsing of `foreign_class` bodies and method signatures (model)

Tokenising and `syn`'s own grammar are not modelled: the input is the list of entries of the class body, each with the
pieces `syn` delivers (keyword, path, argument list, result type, ...).  `Ty` is the type of Rust types, `norm` is
`normalize_type`.  `none` is a syntax error reported to the user.
-/
namespace Flapi.ClassParse

open Flapi.NameGen

/-- `SelfTypeVariant`: macroslib/src/types.rs:207-213. -/
inductive SelfVariant where
  | rptrMut | rptr | mut | default
  deriving DecidableEq, Repr

/-- `MethodVariant`: macroslib/src/types.rs:200-205. -/
inductive Variant where
  | constructor
  | method (v : SelfVariant)
  | static
  deriving DecidableEq, Repr

/-- `MethodAccess`: macroslib/src/types.rs:193-198. -/
inductive Access where
  | priv | pub | prot
  deriving DecidableEq, Repr

/-- Patterns of a typed argument (`syn::Pat`). -/
inductive Pat where
  | ident (n : Text)
  | wild
  | other
  deriving DecidableEq, Repr

/-- `syn::FnArg`: a receiver (with reference and `mut` flags) or a typed argument. -/
inductive SynArg (Ty : Type) where
  | receiver (reference mutable : Bool)
  | typed (pat : Pat) (ty : Ty)
  deriving DecidableEq, Repr

/-- `FnArg`/`NamedArg`: macroslib/src/types.rs:101-105, 126-131. -/
inductive FnArg (Ty : Type) where
  | selfArg (v : SelfVariant)
  | named (name : Text) (ty : Ty)
  deriving DecidableEq, Repr

/-- Variant of a receiver: macroslib/src/code_parse.rs:603-628 (and the same table at 395-419). -/
def receiverVariant (reference mutable : Bool) : SelfVariant :=
  if reference then (if mutable then .rptrMut else .rptr) else (if mutable then .mut else .default)

/-- The name meaning "no name". -/
def underscore : Text := ['_']

/-- Name of a typed argument: macroslib/src/code_parse.rs:630-636. -/
def patName : Pat → Option Text
  | .ident n => some n
  | .wild => some underscore
  | .other => none

/-- First loop of `parse_fn_args`: macroslib/src/code_parse.rs:600-656.  `names` is `args_names`. -/
def argsLoop {Ty} (names : List Text) : List (SynArg Ty) → Option (List (FnArg Ty) × List Text)
  | [] => some ([], names)
  | .receiver r m :: l => do
    let (ret, names) ← argsLoop names l
    pure (.selfArg (receiverVariant r m) :: ret, names)
  | .typed p ty :: l => do
    let n ← patName p
    if n ≠ underscore then
      if n ∈ names then none
      else
        let (ret, names) ← argsLoop (n :: names) l
        pure (.named n ty :: ret, names)
    else
      let (ret, names) ← argsLoop names l
      pure (.named n ty :: ret, names)

/-- Second loop of `parse_fn_args`: macroslib/src/code_parse.rs:658-672.  `i` numbers the arguments other than `self`.
The result also says whether some argument was unnamed. -/
def nameLoop {Ty} (names : List Text) (i : Nat) : List (FnArg Ty) → Option (List (FnArg Ty) × Bool)
  | [] => some ([], false)
  | .selfArg v :: l => do
    let (ret, u) ← nameLoop names i l
    pure (.selfArg v :: ret, u)
  | .named n ty :: l =>
    if n = underscore then do
      let n' ← newUniqueName names ('a' :: dec i)
      let (ret, _) ← nameLoop (n' :: names) (i + 1) l
      pure (.named n' ty :: ret, true)
    else do
      let (ret, u) ← nameLoop names (i + 1) l
      pure (.named n ty :: ret, u)

/-- `parse_fn_args`: macroslib/src/code_parse.rs:588-673. -/
def parseFnArgs {Ty} (args : List (SynArg Ty)) : Option (List (FnArg Ty) × Bool) := do
  let (ret, names) ← argsLoop [] args
  nameLoop names 0 ret

/-- `ForeignMethod`: macroslib/src/types.rs:89-99 (doc comments and attributes left out).  `path` is `rust_id` as its
segments; it is empty exactly for a dummy constructor. -/
structure Method (Ty : Type) where
  variant : Variant
  path : List Text
  inputs : List (FnArg Ty)
  output : Option Ty
  alias : Option Text
  access : Access
  inline : Bool
  deriving DecidableEq, Repr

/-- `arg_names_without_self`: macroslib/src/types.rs:159-169; `none` is the panic of `unwrap`. -/
def namesOf {Ty} : List (FnArg Ty) → Option (List Text)
  | [] => some []
  | .selfArg _ :: _ => none
  | .named n _ :: l => (namesOf l).map (n :: ·)

def Method.argNames {Ty} (m : Method Ty) : Option (List Text) :=
  namesOf (m.inputs.drop (match m.variant with | .method _ => 1 | _ => 0))

/-- `", "` between the names: macroslib/src/types.rs:175-183. -/
def joinComma (acc : Text) : List Text → Text
  | [] => acc
  | x :: l => joinComma ((if acc.isEmpty then acc else acc ++ ", ".toList) ++ x) l

/-- `generate_code_to_call_rust_func` for a method without body: macroslib/src/types.rs:171-190; `pathText` is the printed
path. -/
def Method.callText {Ty} (m : Method Ty) (pathText : Text) : Option Text := do
  let names ← m.argNames
  let a := joinComma [] names
  pure (match m.variant with
    | .method _ => pathText ++ "(this, ".toList ++ a ++ ")".toList
    | _ => pathText ++ "(".toList ++ a ++ ")".toList)

/-- One entry of a class body: macroslib/src/code_parse.rs:221-519. -/
inductive Entry (Ty : Type) where
  /-- `self_type T;` -/
  | selfType (ty : Ty)
  /-- `foreign_code "...";` -/
  | code (text : Text)
  /-- `[private] [protected] constructor = empty [-> T];` -/
  | dummy (priv prot : Bool) (ret : Option Ty)
  /-- `[private] [protected] kind path(args) [-> T] (; | {..}) [alias a;]` -/
  | func (priv prot : Bool) (kind : Text) (path : List Text) (args : List (SynArg Ty)) (out : Option Ty) (inline : Bool)
      (alias : Option Text)
  deriving DecidableEq, Repr

/-- Access of an entry: macroslib/src/code_parse.rs:228-238. -/
def accessOf (priv prot : Bool) : Access := if prot then .prot else if priv then .priv else .pub

/-- State of the parser: macroslib/src/code_parse.rs:211-214. -/
structure St (Ty : Type) where
  selfTy : Option Ty
  code : Text
  hasDummy : Bool
  ctorTy : Option Ty
  methods : List (Method Ty)
  deriving DecidableEq, Repr

/-- Is the argument a receiver: macroslib/src/code_parse.rs:383-389. -/
def SynArg.isReceiver {Ty} : SynArg Ty → Bool
  | .receiver _ _ => true
  | .typed _ _ => false

def kwConstructor : Text := "constructor".toList
def kwMethod : Text := "method".toList
def kwStaticMethod : Text := "static_method".toList
def kwFn : Text := "fn".toList

/-- Variant chosen by the keyword: macroslib/src/code_parse.rs:342-379. -/
def kindVariant {Ty} (kind : Text) (args : List (SynArg Ty)) : Option Variant :=
  if kind = kwConstructor then some .constructor
  else if kind = kwStaticMethod then some .static
  else if kind = kwMethod then some (.method .default)
  else if kind = kwFn then
    match args with
    | .receiver _ _ :: _ => some (.method .default)
    | _ => some .static
  else none

/-- The check of the receiver: macroslib/src/code_parse.rs:381-431. -/
def checkReceiver {Ty} (v : Variant) (args : List (SynArg Ty)) : Option Variant :=
  match v with
  | .constructor => if args.any SynArg.isReceiver then none else some .constructor
  | .static => if args.any SynArg.isReceiver then none else some .static
  | .method _ =>
    match args with
    | .receiver r m :: _ => some (.method (receiverVariant r m))
    | _ => none

/-- The constructor type after one more constructor: macroslib/src/code_parse.rs:468-496.  `none` is an error. -/
def ctorCheck {Ty} (norm : Ty → Text) (v : Variant) (known : Option Ty) (out : Option Ty) : Option (Option Ty) :=
  if v = .constructor then
    match out with
    | none => none
    | some t =>
      match known with
      | some k => if norm k ≠ norm t then none else some known
      | none => some (some t)
  else some known

/-- The constructor type after a dummy constructor: the type written there, else the one known, else the self type:
macroslib/src/code_parse.rs:277-302. -/
def dummyCtorTy {Ty} (s : St Ty) (ret : Option Ty) : Option Ty :=
  match ret with
  | some t => some t
  | none =>
    match s.ctorTy with
    | some t => some t
    | none => s.selfTy

/-- One iteration of the loop of `do_parse_foreigner_class`: macroslib/src/code_parse.rs:221-519. -/
def step {Ty} (norm : Ty → Text) (s : St Ty) : Entry Ty → Option (St Ty)
  | .selfType ty => some { s with selfTy := some ty }
  | .code t => some { s with code := s.code ++ t }
  | .dummy priv prot ret =>
    if s.hasDummy then none
    else if accessOf priv prot ≠ .priv then none
    else do
        let ctorTy ← dummyCtorTy s ret
        pure { s with
          hasDummy := true, ctorTy := some ctorTy,
          methods := s.methods ++ [⟨.constructor, [], [], none, none, .priv, false⟩] }
  | .func priv prot kind path args out inline alias =>
    if kind = kwConstructor && s.hasDummy then none
    else do
      let v ← kindVariant kind args
      let v ← checkReceiver v args
      let (inputs, unnamed) ← parseFnArgs args
      if inline && unnamed then none
      else if alias.isSome && inline then none
      else if alias.isSome && v = .constructor then none
      else
        let ctorTy ← ctorCheck norm v s.ctorTy out
        pure { s with ctorTy := ctorTy, methods := s.methods ++ [⟨v, path, inputs, out, alias, accessOf priv prot, inline⟩] }

/-- The loop. -/
def run {Ty} (norm : Ty → Text) : St Ty → List (Entry Ty) → Option (St Ty)
  | s, [] => some s
  | s, e :: l => (step norm s e).bind fun s => run norm s l

/-- `ForeignClassInfo`: macroslib/src/types.rs:14-23. -/
structure Class (Ty : Type) where
  methods : List (Method Ty)
  /-- (`self_type`, `constructor_ret_type`) -/
  selfDesc : Option (Ty × Ty)
  code : Text
  derives : List Text
  deriving DecidableEq, Repr

def copyTrait : Text := "Copy".toList
def camelAlias : Text := "camelCaseAliases".toList

/-- `seg.ident == "clone"` on the last segment: macroslib/src/code_parse.rs:513-519. -/
def hasClone {Ty} (m : Method Ty) : Bool := m.path.getLast? = some "clone".toList

/-- `self_desc`: macroslib/src/code_parse.rs:527-545. -/
def selfDescOf {Ty} (selfTy ctorTy : Option Ty) : Option (Option (Ty × Ty)) :=
  match selfTy, ctorTy with
  | some s, some c => some (some (s, c))
  | none, none => some none
  | _, _ => none

/-- `short_name`: macroslib/src/types.rs:140-149. -/
def Method.shortName {Ty} (m : Method Ty) : Text :=
  match m.alias with
  | some a => a
  | none => m.path.getLast?.getD []

/-- `camelCaseAliases`: macroslib/src/code_parse.rs:547-565; `camel` is `to_lower_camel_case` (crate `heck`).  The result
of `camel` is taken to be an identifier (otherwise `Ident::new` panics). -/
def addAlias {Ty} (camel : Text → Text) (m : Method Ty) : Option (Method Ty) :=
  match m.alias with
  | some _ => some m
  | none =>
    if m.shortName.isEmpty then (if m.variant = .constructor then some m else none)
    else some { m with alias := some (camel m.shortName) }

/-- The loop over the methods at macroslib/src/code_parse.rs:549-564. -/
def addAliases {Ty} (camel : Text → Text) : List (Method Ty) → Option (List (Method Ty))
  | [] => some []
  | m :: l => do
    let m ← addAlias camel m
    let l ← addAliases camel l
    pure (m :: l)

/-- `do_parse_foreigner_class`: macroslib/src/code_parse.rs:194-586, from the derive list and the entries of the body. -/
def parseClass {Ty} (norm : Ty → Text) (camel : Text → Text) (derives : List Text) (body : List (Entry Ty)) :
    Option (Class Ty) := do
  let s ← run norm ⟨none, [], false, none, []⟩ body
  if derives.contains copyTrait && !s.methods.any hasClone then none
  else
    let sd ← selfDescOf s.selfTy s.ctorTy
    if derives.contains camelAlias then do
      let ms ← addAliases camel s.methods
      pure ⟨ms, sd, s.code, derives.erase camelAlias⟩
    else pure ⟨s.methods, sd, s.code, derives⟩

/-- `Variant` is `Method(_)`. -/
def Variant.isMethod : Variant → Bool
  | .method _ => true
  | _ => false

/-- `validate_class`: macroslib/src/types.rs:46-76. -/
def validate {Ty} (c : Class Ty) : Bool :=
  let hasCtor := c.methods.any (·.variant = .constructor)
  let hasMethods := c.methods.any (·.variant.isMethod)
  let hasStatic := c.methods.any (·.variant = .static)
  if c.selfDesc.isNone && hasMethods then false
  else if c.selfDesc.isSome && !hasStatic && !hasCtor && !hasMethods then false
  else true

/-- Methods of a callback: macroslib/src/code_parse.rs:772-799.  Entry = (foreign name, path, arguments, result). -/
def parseCallback {Ty} (args : List (SynArg Ty)) : Option (List (FnArg Ty)) :=
  match args with
  | .receiver _ _ :: _ => (parseFnArgs args).map (·.1)
  | _ => none

end Flapi.ClassParse
