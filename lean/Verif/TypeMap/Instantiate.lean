import Verif.Macro.Scan
import Verif.Core.Template
import Verif.TypeMap.MergeRule
/-!
# Instantiating a generic `foreign_typemap!` rule (model)

The language backend (`TypeMapConvRuleInfoExpanderHelper`, macroslib/src/typemap/typemap_macro.rs:529-547) is an arbitrary state machine: it
may answer differently each time it is asked.  The printing and the parsing of Rust types (`normalize_type`,
`DisplayToTokens`, `parse_ty_with_given_span`) are arbitrary functions.  Error texts, notes and spans are dropped; the
kind of an error is kept.
-/
namespace Flapi.Inst
open Flapi Flapi.Macro Flapi.Template

mutual
/-- `syn::Type` as far as `expand_type` looks at it: references, macro calls, and any other shape with the types inside
it in visiting order.  Macro calls whose path is not a single identifier are not modelled. -/
inductive PTy where
  | node (head : Text) (kids : PTys)
  /-- `hdr`: lifetime and mutability -/
  | ref (hdr : Text) (e : PTy)
  /-- `id!(arg)` -/
  | mac (id arg : Text)
deriving DecidableEq
/-- A list of types. -/
inductive PTys where
  | nil
  | cons (h : PTy) (t : PTys)
deriving DecidableEq
end

/-- Why an expansion is rejected. -/
inductive Er where
  | backend
  | nargs
  | param
  | unknown
  | alias
  | cparse
deriving DecidableEq

/-- The surroundings of an instantiation: `params` is the map from type parameters to types (only parameters that have a
value count, `Some(Some(ty))`). -/
structure Env where
  u : Unicode
  norm : PTy → Text
  disp : PTy → Text
  parse : Text → Option PTy
  params : Text → Option PTy

/-- `ExpandedFType`: macroslib/src/typemap/typemap_macro.rs:524-527; `value` is the name with its hidden prefix,
`display` without. -/
structure FName where
  value : Text
  display : Text
  mods : List Text
deriving DecidableEq

/-- `TypeMapConvRuleInfoExpanderHelper`: macroslib/src/typemap/typemap_macro.rs:529-547. -/
structure Backend (σ : Type) where
  iType : σ → PTy → Option Text → Except Er PTy × σ
  fType : σ → PTy → Option Text → Except Er FName × σ
  rustToI : σ → PTy → Text → Text → Except Er Text × σ
  iToRust : σ → PTy → Text → Text → Except Er Text × σ
  foreignToI : σ → PTy → Text → Except Er Text × σ
  foreignFromI : σ → PTy → Text → Except Er Text × σ

/-- `CalcGenericAlias`: macroslib/src/typemap/typemap_macro.rs:549-553. -/
structure Alias where
  name : Text
  value : PTy
  mods : List Text

/-- macroslib/src/typemap/typemap_macro.rs:37. -/
def swigIType : Text := "swig_i_type".toList
/-- macroslib/src/typemap/typemap_macro.rs:39. -/
def swigFromRustToI : Text := "swig_from_rust_to_i_type".toList
/-- macroslib/src/typemap/typemap_macro.rs:40. -/
def swigFromIToRust : Text := "swig_from_i_type_to_rust".toList
/-- macroslib/src/typemap/typemap_macro.rs:41. -/
def swigForeignToI : Text := "swig_foreign_to_i_type".toList
/-- macroslib/src/typemap/typemap_macro.rs:42. -/
def swigForeignFromI : Text := "swig_foreign_from_i_type".toList
/-- macroslib/src/typemap/typemap_macro.rs:43. -/
def swigFType : Text := "swig_f_type".toList
/-- macroslib/src/typemap/typemap_macro.rs:45. -/
def swigSubstType : Text := "swig_subst_type".toList

variable {σ : Type}

/-- `iter().position(|a| a.name == id)` and the indexed access: macroslib/src/typemap/typemap_macro.rs:843-855. -/
def findAlias (al : List Alias) (id : Text) : Option Alias := al.find? fun a => a.name = id

/-- `find_type_param`: macroslib/src/typemap/typemap_macro.rs:1089-1117. -/
def findTypeParam (env : Env) (p : Text) : Except Er PTy :=
  match env.params p with
  | some t => .ok t
  | none =>
    match env.parse p with
    | some (.ref h e) =>
      match env.params (env.disp e) with
      | some t => .ok (.ref h t)
      | none => .error .param
    | _ => .error .param

/-- A backend answer whose failure ends everything (`?`). -/
def ask {α β : Type} (r : Except Er α × σ) (f : α → β) : Except Er (β × σ) :=
  match r with
  | (.ok a, s) => .ok (f a, s)
  | (.error e, _) => .error e

/-- `type_name.ends_with("!()")` and the name in front: macroslib/src/typemap/typemap_macro.rs:984. -/
def aliasForm (u : Unicode) (p : Text) : Option Text :=
  match p.reverse with
  | ')' :: '(' :: '!' :: r => some (trim u r.reverse)
  | _ => none

/-- The type meant by the first parameter of `swig_f_type!`: macroslib/src/typemap/typemap_macro.rs:984-995. -/
def fTypeArg (env : Env) (al : List Alias) (p : Text) : Except Er PTy :=
  match aliasForm env.u p with
  | some n =>
    match findAlias al n with
    | some a => .ok a.value
    | none => .error .unknown
  | none => findTypeParam env p

/-- One or two parameters: macroslib/src/typemap/typemap_macro.rs:970-983, 1180-1198, 1248-1264. -/
def oneOrTwo : List Text → Except Er (Text × Option Text)
  | [p] => .ok (p, none)
  | [p, q] => .ok (p, some q)
  | _ => .error .nargs

/-- `call_swig_f_type`: macroslib/src/typemap/typemap_macro.rs:962-1000. -/
def callFType (env : Env) (B : Backend σ) (al : List Alias) (s : σ) (ps : List Text) : Except Er (FName × σ) :=
  match oneOrTwo ps with
  | .error e => .error e
  | .ok (p, o) =>
    match fTypeArg env al p with
    | .error e => .error e
    | .ok t => ask (B.fType s t o) id

/-- `out` of an ordinary Rust macro call, rebuilt from its parameters: macroslib/src/typemap/typemap_macro.rs:1212-1225. -/
def rebuild (id : Text) (ps : List Text) : Text :=
  id ++ "!(".toList ++ (match ps with
    | [] => []
    | p :: r => p ++ (r.map fun q => ", ".toList ++ q).flatten) ++ ")".toList

/-- The closure of `expand_rust_code`: macroslib/src/typemap/typemap_macro.rs:1158-1229. -/
def rustExp (env : Env) (B : Backend σ) (al : List Alias) (s : σ) (id : Text) (ps : List Text) : Except Er (Text × σ) :=
  if id = swigFromRustToI ∨ id = swigFromIToRust then
    match ps with
    | [p, x, y] =>
      match findTypeParam env p with
      | .error e => .error e
      | .ok t => if id = swigFromRustToI then ask (B.rustToI s t x y) (·) else ask (B.iToRust s t x y) (·)
    | _ => .error .nargs
  else if id = swigIType then
    match oneOrTwo ps with
    | .error e => .error e
    | .ok (p, o) =>
      match findTypeParam env p with
      | .error e => .error e
      | .ok t => ask (B.iType s t o) env.norm
  else if id = swigSubstType then
    match ps with
    | [p] =>
      match findTypeParam env p with
      | .error e => .error e
      | .ok t => .ok (env.norm t, s)
    | _ => .error .nargs
  else
    match findAlias al id with
    | some a => .ok (env.norm a.value, s)
    | none => .ok (rebuild id ps, s)

/-- `expand_rust_code`: macroslib/src/typemap/typemap_macro.rs:1150-1231. -/
def expandRustCode (env : Env) (B : Backend σ) (al : List Alias) (s : σ) (code : Text) : Out Er (Text × σ) :=
  expandMacroses env.u (rustExp env B al) s code

/-- The closure of `expand_foreign_code`: macroslib/src/typemap/typemap_macro.rs:1241-1300. -/
def foreignExp (env : Env) (B : Backend σ) (al : List Alias) (s : σ) (id : Text) (ps : List Text) :
    Except Er (Text × σ) :=
  if id = swigFType then
    match callFType env B al s ps with
    | .error e => .error e
    | .ok (f, s') => .ok (f.value, s')
  else if id = swigIType then
    match oneOrTwo ps with
    | .error e => .error e
    | .ok (p, o) =>
      match findTypeParam env p with
      | .error e => .error e
      | .ok t =>
        match ask (B.iType s t o) (·) with
        | .error e => .error e
        | .ok (it, s') => ask (B.fType s' it o) FName.display
  else if id = swigForeignToI ∨ id = swigForeignFromI then
    match ps with
    | [p, x] =>
      match findTypeParam env p with
      | .error e => .error e
      | .ok t => if id = swigForeignToI then ask (B.foreignToI s t x) (·) else ask (B.foreignFromI s t x) (·)
    | _ => .error .nargs
  else
    match findAlias al id with
    | some a => .ok (env.disp a.value, s)
    | none => .error .unknown

/-- `expand_foreign_code`: macroslib/src/typemap/typemap_macro.rs:1233-1302. -/
def expandForeignCode (env : Env) (B : Backend σ) (al : List Alias) (s : σ) (code : Text) : Out Er (Text × σ) :=
  expandMacroses env.u (foreignExp env B al) s code

/-- The closure of `expand_str_in_ftype_name_context`, whose state also holds the modules collected so far:
macroslib/src/typemap/typemap_macro.rs:1035-1072. -/
def nameExp (env : Env) (B : Backend σ) (al : List Alias) (s : σ × List Text) (id : Text) (ps : List Text) :
    Except Er (Text × (σ × List Text)) :=
  if id = swigFType then
    match callFType env B al s.1 ps with
    | .error e => .error e
    | .ok (f, s') => .ok (f.value, (s', s.2 ++ f.mods))
  else if id = swigSubstType then
    match ps with
    | [p] =>
      match findTypeParam env p with
      | .error e => .error e
      | .ok t => .ok (env.norm t, s)
    | _ => .error .nargs
  else
    match findAlias al id with
    | some a => .ok (env.disp a.value, (s.1, s.2 ++ a.mods))
    | none => .error .unknown

/-- `expand_str_in_ftype_name_context` (and `expand_ftype_name`, which only wraps it):
macroslib/src/typemap/typemap_macro.rs:1002-1073. -/
def expandName (env : Env) (B : Backend σ) (al : List Alias) (s : σ × List Text) (name : Text) :
    Out Er (Text × (σ × List Text)) :=
  expandMacroses env.u (nameExp env B al) s name

/-- The closure of `expand_module_name`: macroslib/src/typemap/typemap_macro.rs:1126-1145. -/
def modExp (env : Env) (al : List Alias) (s : Unit) (id : Text) (ps : List Text) : Except Er (Text × Unit) :=
  if ps.isEmpty = false then .error .nargs
  else
    match findAlias al id with
    | some a => .ok (env.disp a.value, s)
    | none => .error .unknown

/-- `expand_module_name`: macroslib/src/typemap/typemap_macro.rs:1119-1148. -/
def expandModule (env : Env) (al : List Alias) (name : Text) : Out Er Text :=
  match expandMacroses env.u (modExp env al) () name with
  | .ok (t, _) => .ok t
  | .panic => .panic
  | .error e => .error e
  | .fuel => .fuel

/-! ### Types -/

/-- State of the visitor `ReplaceTypes`: has an error been met, and the backend
(macroslib/src/typemap/typemap_macro.rs:781-787). -/
abbrev VState (σ : Type) := Bool × σ

/-- The last step of `visit_type_mut`, with `expand_macro_in_type`: macroslib/src/typemap/typemap_macro.rs:801-814 and
830-858. -/
def afterVisit (env : Env) (B : Backend σ) (al : List Alias) (t : PTy) (v : VState σ) : PTy × VState σ :=
  match t with
  | .mac id arg =>
    if id = swigIType then
      match findTypeParam env arg with
      | .error _ => (t, (true, v.2))
      | .ok ty =>
        match B.iType v.2 ty none with
        | (.ok t', s') => (t', (v.1, s'))
        | (.error _, s') => (t, (true, s'))
    else
      match findAlias al id with
      | some a => (a.value, v)
      | none => (t, (true, v.2))
  | t => (t, v)

mutual
/-- `ReplaceTypes::visit_type_mut`: macroslib/src/typemap/typemap_macro.rs:789-815. -/
def visit (env : Env) (B : Backend σ) (al : List Alias) : PTy → VState σ → PTy × VState σ
  | .node h ks, v =>
    if v.1 then (.node h ks, v)
    else
      match env.params (env.norm (.node h ks)) with
      | some sub => afterVisit env B al sub v
      | none =>
        let r := visits env B al ks v
        (.node h r.1, r.2)
  | .ref h e, v =>
    if v.1 then (.ref h e, v)
    else
      match env.params (env.norm (.ref h e)) with
      | some sub => afterVisit env B al sub v
      | none =>
        let r := visit env B al e v
        (.ref h r.1, r.2)
  | .mac id arg, v =>
    if v.1 then (.mac id arg, v)
    else
      match env.params (env.norm (.mac id arg)) with
      | some sub => afterVisit env B al sub v
      | none => afterVisit env B al (.mac id arg) v
/-- The inner types, in order. -/
def visits (env : Env) (B : Backend σ) (al : List Alias) : PTys → VState σ → PTys × VState σ
  | .nil, v => (.nil, v)
  | .cons h t, v =>
    let r := visit env B al h v
    let r' := visits env B al t r.2
    (.cons r.1 r'.1, r'.2)
end

/-- `expand_type`, which forgets the error: macroslib/src/typemap/typemap_macro.rs:774-828. -/
def expandType (env : Env) (B : Backend σ) (al : List Alias) (s : σ) (t : PTy) : PTy × σ :=
  let r := visit env B al t (false, s)
  (r.1, r.2.2)

/-! ### Rules -/

/-- `RTypeConvRule`: macroslib/src/typemap/typemap_macro.rs:468-473. -/
structure RRule where
  left : PTy
  right : Option PTy
  code : Option TypeConvCode
deriving DecidableEq

/-- `FTypeConvRule`: macroslib/src/typemap/typemap_macro.rs:475-483. -/
structure FConv where
  uniquePrefix : Option Text
  reqModules : List Text
  cfg : Option Text
  pair : FTypes.FPair
  inputToOutput : Bool
  code : Option TypeConvCode
deriving DecidableEq

/-- `ForeignCode`: macroslib/src/typemap/typemap_macro.rs:76-81. -/
structure FCode where
  module : Text
  cfg : Option Text
  code : Text
deriving DecidableEq

/-- `GenericAliasItem`: macroslib/src/typemap/typemap_macro.rs:607-613. -/
inductive Item where
  | concat (items : List Item)
  | ident (id : Text)
  | iType (id : Text) (arg : Option Text)
  | fType (id : Text)

/-- A step that may panic or fail, followed by another. -/
def andThen {α β : Type} (x : Out Er α) (f : α → Out Er β) : Out Er β :=
  match x with
  | .ok a => f a
  | .panic => .panic
  | .error e => .error e
  | .fuel => .fuel

/-- `Except` as an outcome (no panic). -/
def lift {α : Type} : Except Er α → Out Er α
  | .ok a => .ok a
  | .error e => .error e

mutual
/-- `concat_idents`; the state also holds the modules and the text collected so far:
macroslib/src/typemap/typemap_macro.rs:615-646. -/
def concatIdents (env : Env) (B : Backend σ) : Item → σ × List Text × Text → Except Er (σ × List Text × Text)
  | .concat items, s => concatAll env B items s
  | .iType id arg, (s, m, t) =>
    match findTypeParam env id with
    | .error e => .error e
    | .ok ty =>
      match ask (B.iType s ty arg) env.disp with
      | .error e => .error e
      | .ok (d, s') => .ok (s', m, t ++ d)
  | .fType id, (s, m, t) =>
    match findTypeParam env id with
    | .error e => .error e
    | .ok ty =>
      match ask (B.fType s ty none) (·) with
      | .error e => .error e
      | .ok (f, s') => .ok (s', m ++ f.mods, t ++ f.display)
  | .ident id, (s, m, t) => .ok (s, m, t ++ id)
/-- The loop over the items of `swig_concat_idents!`: macroslib/src/typemap/typemap_macro.rs:624-628. -/
def concatAll (env : Env) (B : Backend σ) : List Item → σ × List Text × Text → Except Er (σ × List Text × Text)
  | [], s => .ok s
  | i :: is, s =>
    match concatIdents env B i s with
    | .error e => .error e
    | .ok s' => concatAll env B is s'
end

/-- `":: std :: os :: raw ::"`, macroslib/src/typemap/typemap_macro.rs:594. -/
def rawLong : Text := ":: std :: os :: raw ::".toList
/-- `"std :: os :: raw ::"`, macroslib/src/typemap/typemap_macro.rs:595. -/
def rawShort : Text := "std :: os :: raw ::".toList

/-- One character: macroslib/src/typemap/typemap_macro.rs:598-602. -/
def escChar (c : Char) : Text :=
  if (ascii c && c.isAlphanum) || c == '_' then [c] else dec c.toNat

/-- `properly_escape_str_as_type`: macroslib/src/typemap/typemap_macro.rs:592-605. -/
def escapeAsType (s : Text) : Text :=
  (strReplace (strReplace s rawLong []) rawShort []).flatMap escChar

/-- `build_generic_aliases`; an alias is its name and what its value parses to (`none`: not an alias expression):
macroslib/src/typemap/typemap_macro.rs:555-590. -/
def buildAliases (env : Env) (B : Backend σ) : List (Text × Option Item) → σ → Except Er (List Alias × σ)
  | [], s => .ok ([], s)
  | (_, none) :: _, _ => .error .alias
  | (n, some it) :: r, s =>
    match concatIdents env B it (s, [], []) with
    | .error e => .error e
    | .ok (s', m, t) =>
      match env.parse (escapeAsType t) with
      | none => .error .alias
      | some ty =>
        match buildAliases env B r s' with
        | .error e => .error e
        | .ok (l, s'') => .ok (⟨n, ty, m⟩ :: l, s'')

/-- The code of a Rust-side rule; a text without `{to_var}` and `{from_var}` makes `TypeConvCode::new` panic:
macroslib/src/typemap/typemap_macro.rs:755-764. -/
def expandCode (env : Env) (B : Backend σ) (al : List Alias) (s : σ) :
    Option TypeConvCode → Out Er (Option TypeConvCode × σ)
  | none => .ok (none, s)
  | some c =>
    andThen (expandRustCode env B al s c.code) fun (t, s') =>
      match TypeConvCode.new t with
      | none => .panic
      | some c' => .ok (some c', s')

/-- `expand_rtype_rule`: macroslib/src/typemap/typemap_macro.rs:731-772. -/
def expandRRule (env : Env) (B : Backend σ) (al : List Alias) (s : σ) : Option RRule → Out Er (Option RRule × σ)
  | none => .ok (none, s)
  | some r =>
    let l := expandType env B al s r.left
    let rt : Option PTy × σ := match r.right with
      | none => (none, l.2)
      | some t => (some (expandType env B al l.2 t).1, (expandType env B al l.2 t).2)
    andThen (expandCode env B al rt.2 r.code) fun (c, s') => .ok (some ⟨l.1, rt.1, c⟩, s')

/-- The foreign names of a rule: macroslib/src/typemap/typemap_macro.rs:871-907. -/
def expandPair (env : Env) (B : Backend σ) (al : List Alias) (s : σ × List Text) :
    FTypes.FPair → Out Er (FTypes.FPair × (σ × List Text))
  | .onlyLeft n => andThen (expandName env B al s n) fun (n', s') => .ok (.onlyLeft n', s')
  | .onlyRight n => andThen (expandName env B al s n) fun (n', s') => .ok (.onlyRight n', s')
  | .both l r =>
    andThen (expandName env B al s l) fun (l', s') =>
      andThen (expandName env B al s' r) fun (r', s'') => .ok (.both l' r', s'')

/-- The code of a foreign-side rule: macroslib/src/typemap/typemap_macro.rs:908-920, 1304-1323. -/
def expandFConvCode (env : Env) (B : Backend σ) (al : List Alias) (s : σ) :
    Option TypeConvCode → Out Er (Option TypeConvCode × σ)
  | none => .ok (none, s)
  | some c =>
    andThen (expandForeignCode env B al s c.code) fun (t, s') => .ok (some ⟨t, c.params⟩, s')

/-- The modules written in the rule: macroslib/src/typemap/typemap_macro.rs:921-927. -/
def expandModules (env : Env) (al : List Alias) : List Text → Out Er (List Text)
  | [] => .ok []
  | m :: r => andThen (expandModule env al m) fun m' => andThen (expandModules env al r) fun r' => .ok (m' :: r')

/-- `retain(|e| mod_uniques.insert(..))`: macroslib/src/typemap/typemap_macro.rs:925. -/
def retainNew : List Text → List Text → List Text
  | _, [] => []
  | seen, m :: r => if m ∈ seen then retainNew seen r else m :: retainNew (m :: seen) r

/-- `unique_prefix`, whose modules are dropped: macroslib/src/typemap/typemap_macro.rs:928-948. -/
def expandPrefix (env : Env) (B : Backend σ) (al : List Alias) (s : σ) : Option Text → Out Er (Option Text × σ)
  | none => .ok (none, s)
  | some p => andThen (expandName env B al (s, []) p) fun (p', s') => .ok (some p', s'.1)

/-- One turn of the loop of `expand_ftype_rule`: macroslib/src/typemap/typemap_macro.rs:869-958. -/
def expandFConv (env : Env) (B : Backend σ) (al : List Alias) (s : σ) (r : FConv) : Out Er (FConv × σ) :=
  andThen (expandPair env B al (s, []) r.pair) fun (pair, s1) =>
    andThen (expandFConvCode env B al s1.1 r.code) fun (code, s2) =>
      andThen (expandModules env al r.reqModules) fun ms =>
        andThen (expandPrefix env B al s2 r.uniquePrefix) fun (pre, s3) =>
          .ok (⟨pre, retainNew [] (s1.2 ++ ms), r.cfg, pair, r.inputToOutput, code⟩, s3)

/-- `expand_ftype_rule`: macroslib/src/typemap/typemap_macro.rs:860-960. -/
def expandFConvs (env : Env) (B : Backend σ) (al : List Alias) : σ → List FConv → Out Er (List FConv × σ)
  | s, [] => .ok ([], s)
  | s, r :: rs =>
    andThen (expandFConv env B al s r) fun (r', s') =>
      andThen (expandFConvs env B al s' rs) fun (rs', s'') => .ok (r' :: rs', s'')

/-- `expand_fcode`: macroslib/src/typemap/typemap_macro.rs:1325-1351. -/
def expandFCode (env : Env) (B : Backend σ) (al : List Alias) : σ → List FCode → Out Er (List FCode × σ)
  | s, [] => .ok ([], s)
  | s, c :: cs =>
    andThen (expandModule env al c.module) fun m =>
      andThen (expandForeignCode env B al s c.code) fun (t, s') =>
        andThen (expandFCode env B al s' cs) fun (cs', s'') => .ok (⟨m, c.cfg, t⟩ :: cs', s'')

/-- `TypeMapConvRuleInfo`: macroslib/src/typemap/typemap_macro.rs:46-59; C items are their header and their list (`κ`),
the generic ones header and source text. -/
structure Rule (κ : Type) where
  generic : Bool
  rLR : Option RRule
  rRL : Option RRule
  fLR : List FConv
  fRL : List FConv
  cTypes : Option (Text × κ)
  genericC : Option (Text × Text)
  fCode : List FCode
  aliases : List (Text × Option Item)

/-- `if_simple_rtype_ftype_map().is_some()`: macroslib/src/typemap/typemap_macro.rs:133-162. -/
def Rule.isSimple {κ : Type} (r : Rule κ) : Bool :=
  if r.rRL.isSome || !r.fRL.isEmpty || decide (r.fLR.length > 1) then false
  else
    match r.rLR, r.fLR.head? with
    | some ⟨_, none, none⟩, some ⟨_, _, _, .onlyLeft _, _, none⟩ => true
    | _, _ => false

/-- `petgraph::Direction`: `Outgoing` is Rust to foreign. -/
inductive Dir where
  | outgoing
  | incoming
deriving DecidableEq

/-- The two rules of one side, if wanted: the arms of macroslib/src/typemap/typemap_macro.rs:307-347. -/
def expandSide (env : Env) (B : Backend σ) (al : List Alias) (wanted : Bool) (s : σ) (r : Option RRule) (f : List FConv) :
    Out Er ((Option RRule × List FConv) × σ) :=
  if wanted then
    andThen (expandRRule env B al s r) fun (r', s') =>
      andThen (expandFConvs env B al s' f) fun (f', s'') => .ok ((r', f'), s'')
  else .ok ((none, []), s)

/-- `subst_generic_params`: macroslib/src/typemap/typemap_macro.rs:294-368. -/
def substGenericParams {κ : Type} (env : Env) (B : Backend σ) (d : Dir) (s : σ) (r : Rule κ) : Out Er (Rule κ × σ) :=
  if r.generic = false then .panic
  else
    andThen (lift (buildAliases env B r.aliases s)) fun (al, s1) =>
      andThen (expandSide env B al (decide (d = .outgoing) || r.isSimple) s1 r.rLR r.fLR) fun (lr, s2) =>
        andThen (expandSide env B al (decide (d = .incoming)) s2 r.rRL r.fRL) fun (rl, s3) =>
          andThen (expandFCode env B al s3 r.fCode) fun (fc, s4) =>
            .ok (⟨false, lr.1, rl.1, lr.2, rl.2, none, none, fc, []⟩, s4)

/-- `subst_generic_params_to_c_items`; `parseC` parses a text as a list of C items:
macroslib/src/typemap/typemap_macro.rs:246-292. -/
def substToCItems {κ : Type} (env : Env) (parseC : Text → Option κ) (B : Backend σ) (s : σ) (r : Rule κ) :
    Out Er (Option (Text × κ) × σ) :=
  if r.generic = false then .panic
  else
    andThen (lift (buildAliases env B r.aliases s)) fun (al, s1) =>
      match r.genericC with
      | none => .ok (r.cTypes, s1)
      | some (h, src) =>
        andThen (expandRustCode env B al s1 src) fun (t, s2) =>
          match parseC t with
          | none => .error .cparse
          | some items =>
            if r.cTypes.isSome then .panic
            else andThen (expandModule env al h) fun h' => .ok (some (h', items), s2)

end Flapi.Inst
