import Verif.TypeMap.ReadFile
import Verif.Core.Config
/-!
# Which items of a file are conversion rules, by how they are written (model)

`TypeMap/ReadFile.lean` starts from items that are already told apart; here they are told apart by paths and attribute names, as in the loop of `parse`.
syn's parsing of items and types is given.
-/
namespace Flapi.ReadFile
open Flapi

/-- `syn::GenericArgument`: a type, or anything else (lifetime, constant, ..). -/
inductive GArg (τ : Type) where
  | type (t : τ)
  | other

/-- `syn::PathArguments`. -/
inductive PArgs (τ : Type) where
  | none
  | angle (l : List (GArg τ))
  | paren

structure Seg (τ : Type) where
  ident : Text
  args : PArgs τ

/-- `syn::Path`. -/
structure TPath (τ : Type) where
  leading : Bool
  segs : List (Seg τ)

variable {τ γ ι ρ : Type}

/-- `syn::Path::is_ident`, used in macroslib/src/typemap/parse.rs:201, 223, 259, 317, 353. -/
def TPath.isIdent (p : TPath τ) (n : Text) : Bool :=
  match p.leading, p.segs with
  | false, [s] => match s.args with | .none => s.ident == n | _ => false
  | _, _ => false

/-- `is_ident_ignore_params`: macroslib/src/typemap/parse.rs:709-715. -/
def TPath.isIdentIgnoreParams (p : TPath τ) (n : Text) : Bool :=
  match p.leading, p.segs with
  | false, [s] => s.ident == n
  | _, _ => false

/-- `extract_trait_param_type`: macroslib/src/typemap/parse.rs:591-628. -/
def TPath.param (p : TPath τ) : Option τ :=
  match p.segs with
  | [s] =>
    match s.args with
    | .angle [.type t] => some t
    | _ => none
  | _ => none

/-- What follows a path inside `#[cfg(..)]`, up to the next comma.  Simplification: nothing more follows a literal. -/
inductive CfgRest where
  | nothing
  | eqStr (v : Text)
  | eqOther
  | group
  deriving DecidableEq, Repr

/-- The closure in `is_wrong_cfg_pointer_width`, and what `parse_nested_meta` does after it: it wants a comma or the end:
macroslib/src/typemap/parse.rs:318-335. -/
def cfgMeta (p : TPath τ) (rest : CfgRest) : CfgMeta :=
  if p.isIdent "target_pointer_width".toList then
    match rest with
    | .eqStr v => .width (Config.parseUsize v)
    | _ => .bad
  else
    match rest with
    | .nothing => .plain
    | _ => .bad

/-- An attribute; `value` is `v` in `path = "v"`; `metas` is what is in the parentheses of `path(..)`. -/
structure SAttr (τ : Type) where
  path : TPath τ
  value : Option Text
  metas : Option (List (TPath τ × CfgRest))

/-- The names of the known attributes: macroslib/src/typemap/parse.rs:36-41. -/
def Key.name : Key → Text
  | .toHint => "swig_to_foreigner_hint".toList
  | .fromHint => "swig_from_foreigner_hint".toList
  | .code => "swig_code".toList
  | .genericArg => "swig_generic_arg".toList
  | .frm => "swig_from".toList
  | .dst => "swig_to".toList

def keys : List Key := [.toHint, .fromHint, .code, .genericArg, .frm, .dst]

/-- macroslib/src/typemap/parse.rs:314-340, 343-365. -/
def SAttr.toAttr (a : SAttr τ) : Attr :=
  if a.path.isIdent "cfg".toList then .cfg (match a.metas with | some l => l.map fun e => cfgMeta e.1 e.2 | none => [.bad])
  else
    match keys.find? fun k => a.path.isIdent k.name with
    | some k => .swig k a.value
    | none => .other

/-- `FilterSwigAttrs`, for one attribute (a path is printed with its first segment in front, unless it starts with `::`):
macroslib/src/typemap/parse.rs:717-734. -/
def SAttr.strip (a : SAttr τ) : SAttr τ :=
  match a.path.leading, a.path.segs with
  | false, s :: _ => if "swig_".toList.isPrefixOf s.ident then ⟨⟨false, [⟨"doc".toList, .none⟩]⟩, some [], none⟩ else a
  | _, _ => a

/-- macroslib/src/typemap/parse.rs:33-35, 201, 223, 259, 294-300. -/
def SAttr.toModAttr (a : SAttr τ) : ModAttr :=
  if a.path.isIdent "swig_foreigner_type".toList then .foreign a.value
  else if a.path.isIdent "swig_rust_type".toList then .rust a.value
  else if a.path.isIdent "swig_rust_type_not_unique".toList then .rustNotUnique a.value
  else .other

/-- The items of a file as they are written. `rule`: what the tokens of a macro are when read as a conversion rule. -/
inductive SItem (τ γ ι ρ : Type) where
  | mod (attrs : List (SAttr τ)) (name : Text) (item : ι)
  | impl (attrs : List (SAttr τ)) (trait : Option (TPath τ)) (self : τ) (generics : γ) (typeParams : List Text) (item : ι)
  | trait (attrs : List (SAttr τ)) (name : Text) (item : ι)
  | macro (attrs : List (SAttr τ)) (path : TPath τ) (rule : Option (FTypes.RuleInfo τ (EdgeW ι) × Option (GEdge τ γ ι) × ρ)) (item : ι)
  | other (item : ι)

/-- The loop of `parse`: macroslib/src/typemap/parse.rs:83-93, 96-97, 115-117, 124, 141-142, 155-157. -/
def SItem.toItem : SItem τ γ ι ρ → Item τ γ ι ρ
  | .mod attrs name item => if name = "swig_foreign_types_map".toList then .typesMod (attrs.map SAttr.toModAttr) else .other item
  | .impl attrs tr self g ps item =>
    match tr with
    | some p =>
      if p.isIdentIgnoreParams intoName || p.isIdentIgnoreParams fromName then
        .impl ⟨attrs.map SAttr.toAttr, p.isIdentIgnoreParams intoName, p.param, self, g, ps, item⟩
      else .other item
    | none => .other item
  | .trait attrs name item => .trait (attrs.map SAttr.toAttr) name item
  | .macro attrs path rule item =>
    if path.isIdent "foreign_typemap".toList then .typemap (attrs.map SAttr.toAttr) rule else .macro (attrs.map SAttr.toAttr) item
  | .other item => .other item

/-- `parse`: macroslib/src/typemap/parse.rs:48-162. -/
def parseSource (env : Env τ γ ι) (ord : List (Text × TMap.RTy τ) → List (Text × TMap.RTy τ)) (w : Nat) (src : Option Nat) (traits : Text → Option Text)
    (items : List (SItem τ γ ι ρ)) : Res (St τ γ ι ρ) :=
  parse env ord w src traits (items.map SItem.toItem)

end Flapi.ReadFile
