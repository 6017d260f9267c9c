import Verif.Core.Template
import Verif.TypeMap.MergeRule
/-!
# Reading a file of conversion rules: `typemap::parse::parse` (model)

syn's parsing of items, types and generic parameter lists is given.  `τ` are types, `γ` generic parameter lists, `ι` items (tokens), `ρ` what else a
`foreign_typemap!` rule contains (`TypeMap/RuleParse.lean`).  Error texts and spans are dropped.
-/
namespace Flapi.ReadFile
open Flapi Flapi.Template Flapi.FTypes

/-- Results: a value, an error message, a panic. -/
inductive Res (α : Type) where
  | ok (a : α)
  | err
  | panic
  deriving DecidableEq, Repr

def Res.bind {α β : Type} (r : Res α) (f : α → Res β) : Res β :=
  match r with
  | .ok a => f a
  | .err => .err
  | .panic => .panic

/-- One entry inside `#[cfg(..)]`, as `parse_nested_meta` hands it to the closure: `target_pointer_width = "…"` (with the number if there is one), a plain word, or
anything else: `not(..)`, `all(..)`, `feature = ".."` — the closure consumes only the word and `parse_nested_meta` then fails on what follows. -/
inductive CfgMeta where
  | width (n : Option Nat)
  | plain
  | bad
  deriving DecidableEq, Repr

/-- The six known attributes: macroslib/src/typemap/parse.rs:36-41. -/
inductive Key where
  | toHint
  | fromHint
  | code
  | genericArg
  | frm
  | dst
  deriving DecidableEq, Repr

/-- An attribute of an item; the value of a known one is `none` unless it is a string. -/
inductive Attr where
  | cfg (ms : List CfgMeta)
  | swig (k : Key) (v : Option Text)
  | other
  deriving DecidableEq, Repr

/-- The closure of `is_wrong_cfg_pointer_width`, run over the entries; the second component says that `parse_nested_meta` failed: macroslib/src/typemap/parse.rs:318-335. -/
def readMetas (w : Nat) (res : Bool) : List CfgMeta → Bool × Bool
  | [] => (res, false)
  | .bad :: _ => (res, true)
  | .plain :: l => readMetas w res l
  | .width none :: l => readMetas w res l
  | .width (some n) :: l => readMetas w (w != n) l

/-- `is_wrong_cfg_pointer_width`: macroslib/src/typemap/parse.rs:314-340. -/
def wrongWidth (w : Nat) (res : Bool) : List Attr → Bool
  | [] => res
  | .cfg ms :: l => if (readMetas w res ms).2 then (readMetas w res ms).1 else wrongWidth w (readMetas w res ms).1 l
  | _ :: l => wrongWidth w res l

/-- `my_syn_attrs_to_hashmap`: macroslib/src/typemap/parse.rs:342-373.  The map from names to values, as a list of pairs in order. -/
def swigAttrs : List Attr → Option (List (Key × Text))
  | [] => some []
  | .swig _ none :: _ => none
  | .swig k (some v) :: l => (swigAttrs l).map fun m => (k, v) :: m
  | _ :: l => swigAttrs l

/-- `attrs.get(name)`: the values, in order (`[]` = no such key). -/
def vals (m : List (Key × Text)) (k : Key) : List Text := m.filterMap fun p => if p.1 = k then some p.2 else none

/-- `attrs.len()`: the number of different keys. -/
def keyCount (m : List (Key × Text)) : Nat :=
  ([Key.toHint, .fromHint, .code, .genericArg, .frm, .dst].filter fun k => !(vals m k).isEmpty).length

/-- `validate_code_template`: macroslib/src/typemap.rs:1075-1091. -/
def validTemplate (c : Text) : Bool := strContains c toVar && strContains c fromVar && strContains c toVarType

/-- `get_swig_code_from_attrs`: macroslib/src/typemap/parse.rs:380-399. -/
def swigCode (m : List (Key × Text)) : Option Text :=
  match vals m .code with
  | [c] => if validTemplate c then some c else none
  | _ => none

/-- An `impl SwigInto<arg> for self` (`into = true`) or `impl SwigFrom<arg> for self`; `arg` is `none` unless there is exactly one argument and it is a type. -/
structure Impl (τ γ ι : Type) where
  attrs : List Attr
  into : Bool
  arg : Option τ
  self : τ
  generics : γ
  typeParams : List Text
  item : ι

/-- `#![swig_foreigner_type = ".."]` and the like; the value is `none` unless it is a string. -/
inductive ModAttr where
  | foreign (v : Option Text)
  | rust (v : Option Text)
  | rustNotUnique (v : Option Text)
  | other
  deriving DecidableEq, Repr

/-- `GenericTypeConv`: macroslib/src/typemap/ast.rs:424-431. -/
structure GEdge (τ γ ι : Type) where
  fromTy : τ
  toTy : τ
  code : TypeConvCode
  dep : Option ι
  generics : γ
  toHint : Option Text
  fromHint : Option Text

/-- What an edge of the graph carries: the code and the item it needs (`TypeConvEdge`, macroslib/src/typemap.rs:196-215). -/
abbrev EdgeW (ι : Type) := TypeConvCode × Option ι

/-- The items of a file, as `parse` tells them apart (macroslib/src/typemap/parse.rs:95-160).  A `foreign_typemap!` that does not parse is `none`; one that does is what merging needs, the
generic conversion it amounts to, if any, and the rest. -/
inductive Item (τ γ ι ρ : Type) where
  | typesMod (attrs : List ModAttr)
  | impl (i : Impl τ γ ι)
  | trait (attrs : List Attr) (name : Text) (item : ι)
  | typemap (attrs : List Attr) (r : Option (RuleInfo τ (EdgeW ι) × Option (GEdge τ γ ι) × ρ))
  | macro (attrs : List Attr) (item : ι)
  | other (item : ι)

/-- Given: reading a type, making a generic parameter list `<..>` (`parse_quote!` panics = `none`; with the names of its type parameters), the normalised name of a
type, and `FilterSwigAttrs` (macroslib/src/typemap/parse.rs:719-734). -/
structure Env (τ γ ι : Type) where
  parseTy : Text → Option τ
  mkGenerics : List τ → Option (γ × List Text)
  norm : τ → Text
  strip : ι → ι

/-- `TypeMap` as filled by `parse`: macroslib/src/typemap/parse.rs:60-72; `seenMod` is `types_map_span`. -/
structure St (τ γ ι ρ : Type) where
  traits : Text → Option Text
  m : MState τ (EdgeW ι)
  utils : List ι
  genericEdges : List (GEdge τ γ ι)
  genericRules : List ρ
  notMerged : List ρ
  seenMod : Bool

variable {τ γ ι ρ : Type}

/-- The table at the start of a file: everything empty except the templates of the traits known so far. -/
def St.start (traits : Text → Option Text) : St τ γ ι ρ :=
  ⟨traits, ⟨TMap.empty, Storage.empty, fun _ => none, fun _ => none⟩, [], [], [], [], false⟩

def intoName : Text := "SwigInto".toList
def fromName : Text := "SwigFrom".toList

/-- The suffix of a type: macroslib/src/typemap/parse.rs:408-433.  `err` unless the hint is the only attribute and occurs once. -/
def suffix (m : List (Key × Text)) (k : Key) : Res (Option Text) :=
  match vals m k with
  | [] => .ok none
  | [v] => if keyCount m = 1 then .ok (some v) else .err
  | _ => .err

/-- `get_foreigner_hint_for_generic`: macroslib/src/typemap/parse.rs:635-689. -/
def genericHint (typeParams : List Text) (m : List (Key × Text)) (k : Key) : Res (Option Text) :=
  match vals m k with
  | [] => .ok none
  | [v] =>
    match typeParams with
    | [p] => if strContains v p then .ok (some v) else .err
    | _ => .err
  | _ => .err

/-- `TypeConvCode::new`, which panics without parameters: macroslib/src/typemap.rs:87-107. -/
def newCode (c : Text) : Res TypeConvCode :=
  match TypeConvCode.new c with
  | some c => .ok c
  | none => .panic

/-- `add_conv_code`: macroslib/src/typemap/parse.rs:691-707. -/
def addConvCode (env : Env τ γ ι) (s : St τ γ ι ρ) (a b : τ) (sa sb : Option Text) (w : EdgeW ι) : St τ γ ι ρ :=
  let x := findOrAllocSuffix env.norm s.m.tm a sa
  let y := findOrAllocSuffix env.norm x.1 b sb
  { s with m := { s.m with tm := TMap.addRule y.1 x.2 y.2 w } }

/-- `handle_into_from_impl`: macroslib/src/typemap/parse.rs:402-501. -/
def handleImpl (env : Env τ γ ι) (m : List (Key × Text)) (i : Impl τ γ ι) (s : St τ γ ι ρ) : Res (St τ γ ι ρ) :=
  (suffix m .toHint).bind fun sto =>
  (suffix m .fromHint).bind fun sfrom =>
  match i.arg with
  | none => .err
  | some arg =>
    match s.traits (if i.into then intoName else fromName) with
    | none => .err
    | some tmpl =>
      (newCode tmpl).bind fun code =>
      if i.typeParams.isEmpty then
        .ok (addConvCode env s (if i.into then i.self else arg) (if i.into then arg else i.self) sfrom sto (code, some (env.strip i.item)))
      else
        (genericHint i.typeParams m .toHint).bind fun hto =>
        (genericHint i.typeParams m .fromHint).bind fun hfrom =>
        .ok { s with genericEdges := s.genericEdges ++
          [⟨if i.into then i.self else arg, if i.into then arg else i.self, code, some (env.strip i.item), i.generics, hto, hfrom⟩] }

/-- `spanned_str_to_type` for all values. -/
def parseTys (env : Env τ γ ι) : List Text → Option (List τ)
  | [] => some []
  | t :: l =>
    match env.parseTy t, parseTys env l with
    | some t, some l => some (t :: l)
    | _, _ => none

/-- `handle_macro`: macroslib/src/typemap/parse.rs:503-589. -/
def handleMacro (env : Env τ γ ι) (m : List (Key × Text)) (item : ι) (s : St τ γ ι ρ) : Res (St τ γ ι ρ) :=
  match vals m .frm, vals m .dst, swigCode m with
  | f :: _, t :: _, some tmpl =>
    match vals m .genericArg with
    | [] => .panic
    | gs =>
      match parseTys env gs with
      | none => .err
      | some gs =>
        match env.mkGenerics gs with
        | none => .panic
        | some (g, ps) =>
          match env.parseTy f, env.parseTy t with
          | some f, some t =>
            (genericHint ps m .toHint).bind fun hto =>
            (genericHint ps m .fromHint).bind fun hfrom =>
            (newCode tmpl).bind fun code =>
            .ok { s with genericEdges := s.genericEdges ++ [⟨f, t, code, some (env.strip item), g, hto, hfrom⟩] }
          | _, _ => .err
  | _, _, _ => .err

/-- The entries of `swig_foreign_types_map` while they are read. -/
structure ModSt (τ : Type) where
  pending : Option Text
  map : List (Text × TMap.RTy τ)

/-- `names_map.insert`: the key keeps its place, the value is replaced. -/
def insertEntry (f : Text) (v : TMap.RTy τ) : List (Text × TMap.RTy τ) → List (Text × TMap.RTy τ)
  | [] => [(f, v)]
  | (g, u) :: l => if g = f then (g, v) :: l else (g, u) :: insertEntry f v l

/-- One attribute of `swig_foreign_types_map`: macroslib/src/typemap/parse.rs:203-302. -/
def modStep (env : Env τ γ ι) (st : ModSt τ) : ModAttr → Option (ModSt τ)
  | .foreign (some v) => some { st with pending := some v }
  | .rust v =>
    match st.pending, v with
    | some f, some v => (env.parseTy v).map fun t => ⟨none, insertEntry f ⟨env.norm t, t⟩ st.map⟩
    | _, _ => none
  | .rustNotUnique v =>
    match st.pending, v with
    | some f, some v => (env.parseTy v).map fun t => ⟨none, insertEntry f ⟨makeUnique (env.norm t) f, t⟩ st.map⟩
    | _, _ => none
  | _ => none

def modSteps (env : Env τ γ ι) (st : ModSt τ) : List ModAttr → Option (ModSt τ)
  | [] => some st
  | a :: l =>
    match modStep env st a with
    | none => none
    | some st => modSteps env st l

/-- The loop of `fill_foreign_types_map`: macroslib/src/typemap/parse.rs:169-191. -/
def fillTypes (src : Option Nat) (s : MState τ (EdgeW ι)) : List (Text × TMap.RTy τ) → Res (MState τ (EdgeW ι))
  | [] => .ok s
  | (f, r) :: l =>
    let x := TMap.addNode s.tm r
    match s.st.allocNew ⟨f, 0⟩ src x.2 with
    | (_, none) => .err
    | (st, some _) => fillTypes src { s with tm := x.1, st := st } l

/-- `fill_foreign_types_map` and `parse_foreign_types_map_mod`: macroslib/src/typemap/parse.rs:164-312.  `ord` is the iteration order of the hash map. -/
def handleMod (env : Env τ γ ι) (ord : List (Text × TMap.RTy τ) → List (Text × TMap.RTy τ)) (src : Option Nat) (attrs : List ModAttr) (s : St τ γ ι ρ) :
    Res (St τ γ ι ρ) :=
  match modSteps env ⟨none, []⟩ attrs with
  | none => .err
  | some r => (fillTypes src s.m (ord r.map)).bind fun m => .ok { s with m := m }

/-- One item: the body of the loop of `parse`, macroslib/src/typemap/parse.rs:95-160. -/
def addItem (env : Env τ γ ι) (ord : List (Text × TMap.RTy τ) → List (Text × TMap.RTy τ)) (w : Nat) (src : Option Nat) (s : St τ γ ι ρ) :
    Item τ γ ι ρ → Res (St τ γ ι ρ)
  | .typesMod attrs => if s.seenMod then .err else handleMod env ord src attrs { s with seenMod := true }
  | .impl i =>
    if wrongWidth w false i.attrs then .ok s
    else
      match swigAttrs i.attrs with
      | none => .err
      | some m => handleImpl env m i s
  | .trait attrs name item =>
    if wrongWidth w false attrs then .ok s
    else
      match swigAttrs attrs with
      | none => .err
      | some [] => .ok { s with utils := s.utils ++ [env.strip item] }
      | some m =>
        match swigCode m with
        | none => .err
        | some c => .ok { s with traits := fun t => if t = name then some c else s.traits t, utils := s.utils ++ [env.strip item] }
  | .typemap _ r =>
    match r with
    | none => .err
    | some (ri, e, rest) =>
      match mayBeMerge env.norm src s.m ri with
      | (.generic, _, _) =>
        match e with
        | some e => .ok { s with genericEdges := s.genericEdges ++ [e] }
        | none => .ok { s with genericRules := s.genericRules ++ [rest] }
      | (.deferred, _, _) => .ok { s with notMerged := s.notMerged ++ [rest] }
      | (.merged, m, .ok _) => .ok { s with m := m }
      | (.merged, _, .err) => .err
      | (.merged, _, .panic) => .panic
  | .macro attrs item =>
    if wrongWidth w false attrs then .ok s
    else
      match swigAttrs attrs with
      | none => .err
      | some [] => .ok { s with utils := s.utils ++ [item] }
      | some m => handleMacro env m item s
  | .other item => .ok { s with utils := s.utils ++ [item] }

def addItems (env : Env τ γ ι) (ord : List (Text × TMap.RTy τ) → List (Text × TMap.RTy τ)) (w : Nat) (src : Option Nat) (s : St τ γ ι ρ) :
    List (Item τ γ ι ρ) → Res (St τ γ ι ρ)
  | [] => .ok s
  | i :: l => (addItem env ord w src s i).bind fun s => addItems env ord w src s l

/-- `parse`: macroslib/src/typemap/parse.rs:48-162. -/
def parse (env : Env τ γ ι) (ord : List (Text × TMap.RTy τ) → List (Text × TMap.RTy τ)) (w : Nat) (src : Option Nat) (traits : Text → Option Text)
    (items : List (Item τ γ ι ρ)) : Res (St τ γ ι ρ) :=
  addItems env ord w src (St.start traits) items

/-- `traits_usage_code` of the type map after `TypeMap::merge` has read a file: the map is moved into `parse` and comes back only if that succeeds
(macroslib/src/typemap/merge.rs:31-39). -/
def traitsAfter (r : Res (St τ γ ι ρ)) : Text → Option Text :=
  match r with
  | .ok s => s.traits
  | _ => fun _ => none

end Flapi.ReadFile
