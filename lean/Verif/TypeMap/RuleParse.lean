import Verif.Core.Template
/-!
# Reading a `foreign_typemap!` rule and deciding where it goes (model)

A rule is a list of lines.  What syn parses inside a line (types, generics, literals) is given: `τ` are types, `γ` generic parameter lists, `ω` the C items,
`ι` unparsed generic C items, `α` generic aliases.
-/
namespace Flapi.RuleParse
open Flapi Flapi.Template

/-- `$name` as a token stream is printed: `$`, what is put between tokens, the name (macroslib/src/typemap/typemap_macro/parse.rs:240-245). -/
def dollar (gap name : Text) : Text := '$' :: gap ++ name

def outName : Text := ['o', 'u', 't']
def outNoTypeName : Text := ['o', 'u', 't', '_', 'n', 'o', '_', 't', 'y', 'p', 'e']

/-- `let mut {to_var}` and `let mut {to_var}: {to_var_type}`. -/
def letMut : Text := "let mut ".toList ++ toVar
def letMutTyped : Text := letMut ++ ": ".toList ++ toVarType

/-- Results: a value, an error message, a panic. -/
inductive Res (α : Type) where
  | ok (a : α)
  | err
  | panic
  deriving DecidableEq, Repr

def Res.bind {α β : Type} (r : Res α) (f : α → Res β) : Res β :=
  match r with
  | .ok a => f a
  | .err => .err
  | .panic => .panic

/-- One `r_type` line: `($var:r_type) <generics> left => right { body }`; `arrow` says whether the arrow points right. -/
structure RLine (τ γ : Type) where
  var : Option Text
  generics : Option γ
  left : τ
  arrow : Option (Bool × τ)
  body : Option Text

/-- One `f_type` line with its parameters. -/
structure FLine where
  var : Option Text
  option : Option Text
  mods : List Text
  inputToOutput : Bool
  uniquePrefix : Option Text
  temporaries : List Text
  left : Option Text
  arrow : Option (Bool × Text)
  body : Option Text
  deriving DecidableEq, Repr

/-- The lines of a rule.  `cItems` is a `define_c_type!` that parses as plain C items, `genericCItems` one that does not. -/
inductive Line (τ γ ω ι α : Type) where
  | rType (l : RLine τ γ)
  | fType (l : FLine)
  | cItems (c : ω)
  | genericCItems (c : ι)
  | code (module : Text) (option : Option Text) (code : Text)
  | alias (a : α)
  | unknownMacro

/-- `RTypeConvRule`: macroslib/src/typemap/typemap_macro.rs:468-473. -/
structure RRule (τ : Type) where
  left : τ
  right : Option τ
  code : Option TypeConvCode

/-- `FTypeLeftRightPair`: macroslib/src/typemap/typemap_macro.rs:485-490. -/
inductive FPair where
  | onlyLeft (n : Text)
  | onlyRight (n : Text)
  | both (l r : Text)
  deriving DecidableEq, Repr

/-- `FTypeConvRule`: macroslib/src/typemap/typemap_macro.rs:475-483. -/
structure FRule where
  mods : List Text
  option : Option Text
  pair : FPair
  inputToOutput : Bool
  uniquePrefix : Option Text
  code : Option TypeConvCode
  deriving DecidableEq

/-- `ForeignCode`: macroslib/src/typemap/typemap_macro.rs:75-81. -/
structure FCode where
  module : Text
  option : Option Text
  code : Text
  deriving DecidableEq, Repr

/-- `TypeMapConvRuleInfo`: macroslib/src/typemap/typemap_macro.rs:46-59. -/
structure Rule (τ γ ω ι α : Type) where
  generics : Option γ := none
  rLR : Option (RRule τ) := none
  rRL : Option (RRule τ) := none
  fLR : List FRule := []
  fRL : List FRule := []
  cTypes : Option ω := none
  genericCTypes : Option ι := none
  fCode : List FCode := []
  aliases : List α := []

variable {τ γ ω ι α : Type}

/-- The code of an `r_type` line: macroslib/src/typemap/typemap_macro/parse.rs:227-277.  `err` when the variable or its output is missing, `panic` for the assertion of `new2`. -/
def rCode (gap : Text) (var : Option Text) (body : Text) : Res TypeConvCode :=
  match var with
  | none => .err
  | some v =>
    if strContains body (dollar gap v) && (strContains body (dollar gap outName) || strContains body (dollar gap outNoTypeName)) then
      let r :=
        if strContains body (dollar gap outNoTypeName) then
          TypeConvCode.new2 (strReplace (strReplace body (dollar gap v) fromVar) (dollar gap outNoTypeName) letMut)
        else
          TypeConvCode.new2 (strReplace (strReplace body (dollar gap v) fromVar) (dollar gap outName) letMutTyped)
      match r with
      | some c => .ok c
      | none => .panic
    else .err

/-- The code of a line, if it has some: a body is only read after an arrow (otherwise the parser meets `{` where it expects `;`). -/
def lineCode (gap : Text) (var : Option Text) (arrow : Bool) : Option Text → Res (Option TypeConvCode)
  | none => .ok none
  | some b => if arrow then (rCode gap var b).bind fun c => .ok (some c) else .err

/-- The generic parameters: macroslib/src/typemap/typemap_macro/parse.rs:204-216. -/
def addGenerics [DecidableEq γ] (g new : Option γ) : Res (Option γ) :=
  match new with
  | none => .ok g
  | some n =>
    match g with
    | none => .ok (some n)
    | some p => if p = n then .ok g else .err

/-- `parse_r_type_rule`: macroslib/src/typemap/typemap_macro/parse.rs:196-321. -/
def addR [DecidableEq γ] (gap : Text) (r : Rule τ γ ω ι α) (l : RLine τ γ) : Res (Rule τ γ ω ι α) :=
  (addGenerics r.generics l.generics).bind fun g =>
    (lineCode gap l.var l.arrow.isSome l.body).bind fun code =>
      match l.arrow with
      | some (true, right) => if r.rLR.isSome then .err else .ok { r with generics := g, rLR := some ⟨l.left, some right, code⟩ }
      | some (false, right) => if r.rRL.isSome then .err else .ok { r with generics := g, rRL := some ⟨l.left, some right, code⟩ }
      | none => if r.rLR.isSome then .err else .ok { r with generics := g, rLR := some ⟨l.left, none, none⟩ }

/-- The check of the prefix: macroslib/src/typemap/typemap_macro/parse.rs:646-685. -/
def prefixOk (l : FLine) : Bool :=
  match l.uniquePrefix with
  | none => true
  | some p =>
    match l.arrow, l.left with
    | some (_, t), some left => p.isPrefixOf t || p.isPrefixOf left
    | some (_, t), none => p.isPrefixOf t
    | none, some left => p.isPrefixOf left
    | none, none => true

/-- The check of temporaries: macroslib/src/typemap/typemap_macro/parse.rs:588-599. -/
def temporariesOk : List Text → List Text → Bool
  | _, [] => true
  | seen, t :: l => if t ∈ seen then false else temporariesOk (seen ++ [t]) l

/-- The code of an `f_type` line: macroslib/src/typemap/typemap_macro/parse.rs:687-720.  Without an arrow a literal is where `;` is expected. -/
def fCodeOf (l : FLine) : Res (Option TypeConvCode) :=
  match l.body with
  | none => .ok none
  | some b =>
    if l.arrow.isSome then
      match l.var with
      | none => .err
      | some v => .ok (some (fromTypemapString b v l.temporaries))
    else .err

/-- `FTypeLeftRightPair` of a line with an arrow. -/
def pairOf (left : Option Text) (right : Text) : FPair :=
  match left with
  | some l => .both l right
  | none => .onlyRight right

/-- `parse_f_type_rule`: macroslib/src/typemap/typemap_macro/parse.rs:613-804. -/
def addF (r : Rule τ γ ω ι α) (l : FLine) : Res (Rule τ γ ω ι α) :=
  if !temporariesOk [] l.temporaries then .err
  else if !prefixOk l then .err
  else (fCodeOf l).bind fun code =>
    match l.arrow with
    | some (true, right) =>
      if r.fLR.any (fun x => x.option = l.option) then .err
      else if l.inputToOutput then .err
      else .ok { r with fLR := r.fLR ++ [⟨l.mods, l.option, pairOf l.left right, l.inputToOutput, l.uniquePrefix, code⟩] }
    | some (false, right) =>
      if r.fRL.any (fun x => x.option = l.option) then .err
      else .ok { r with fRL := r.fRL ++ [⟨l.mods, l.option, pairOf l.left right, l.inputToOutput, l.uniquePrefix, code⟩] }
    | none =>
      if r.fLR.any (fun x => x.option = l.option) then .err
      else
        match l.left with
        | none => .err
        | some left => .ok { r with fLR := r.fLR ++ [⟨l.mods, l.option, .onlyLeft left, l.inputToOutput, l.uniquePrefix, none⟩] }

/-- One turn of the loop of `parse`: macroslib/src/typemap/typemap_macro/parse.rs:60-158. -/
def addLine [DecidableEq γ] (gap : Text) (r : Rule τ γ ω ι α) : Line τ γ ω ι α → Res (Rule τ γ ω ι α)
  | .rType l => addR gap r l
  | .fType l => addF r l
  | .cItems c => if r.cTypes.isSome || r.genericCTypes.isSome then .err else .ok { r with cTypes := some c }
  | .genericCItems c => if r.cTypes.isSome || r.genericCTypes.isSome then .err else .ok { r with genericCTypes := some c }
  | .code m o c => .ok { r with fCode := r.fCode ++ [⟨m, o, c⟩] }
  | .alias a => .ok { r with aliases := r.aliases ++ [a] }
  | .unknownMacro => .err

def addLines [DecidableEq γ] (gap : Text) (r : Rule τ γ ω ι α) : List (Line τ γ ω ι α) → Res (Rule τ γ ω ι α)
  | [] => .ok r
  | l :: ls => (addLine gap r l).bind fun r => addLines gap r ls

/-- `<TypeMapConvRuleInfo as Parse>::parse`: macroslib/src/typemap/typemap_macro/parse.rs:48-193. -/
def parse [DecidableEq γ] (gap : Text) (ls : List (Line τ γ ω ι α)) : Res (Rule τ γ ω ι α) :=
  (addLines gap {} ls).bind fun r =>
    if ls.isEmpty then .err
    else if !r.aliases.isEmpty && r.generics.isNone then .err
    else if r.genericCTypes.isSome && r.generics.isNone then .err
    else .ok r

/-- `GenericTypeConv`: macroslib/src/typemap/ast.rs:424-431, as made by `try_into` (no dependency, no hints). -/
structure Edge (τ γ : Type) where
  fromTy : τ
  toTy : τ
  code : TypeConvCode
  generics : γ

/-- `try_into`: macroslib/src/typemap/typemap_macro.rs:398-465.  The fields are taken out of `self` and put back before it is returned as the error. -/
def tryInto (r : Rule τ γ ω ι α) : Edge τ γ ⊕ Rule τ γ ω ι α :=
  if !r.fLR.isEmpty || !r.fRL.isEmpty || r.cTypes.isSome || r.genericCTypes.isSome || !r.fCode.isEmpty || !r.aliases.isEmpty then .inr r
  else
    match r.generics with
    | none => .inr { r with generics := none }
    | some g =>
      let self : Rule τ γ ω ι α := { r with generics := none, rLR := none, rRL := none }
      match r.rLR, r.rRL with
      | some x, some y => .inr { self with generics := some g, rLR := some x, rRL := some y }
      | none, none => .inr { self with generics := some g }
      | some ⟨a, some b, some c⟩, none => .inl ⟨a, b, c, g⟩
      | none, some ⟨a, some b, some c⟩ => .inl ⟨b, a, c, g⟩
      | some x, none => .inr { self with generics := some g, rLR := some x }
      | none, some y => .inr { self with generics := some g, rRL := some y }

/-- `contains_data_for_language_backend`: macroslib/src/typemap/typemap_macro.rs:175-189. -/
def Rule.backendData (r : Rule τ γ ω ι α) : Bool :=
  r.generics.isSome || !r.fCode.isEmpty || r.cTypes.isSome || r.fLR.any (·.option.isSome) || r.fRL.any (·.option.isSome) ||
    decide (1 < r.fLR.length) || decide (1 < r.fRL.length)

/-- Where rules end up: the generic conversions, the generic rules, the rules kept for the language backend, and those merged at once. -/
structure Store (τ γ ω ι α : Type) where
  edges : List (Edge τ γ) := []
  genericRules : List (Rule τ γ ω ι α) := []
  notMerged : List (Rule τ γ ω ι α) := []
  merged : List (Rule τ γ ω ι α) := []

/-- `may_be_merge_conv_rule`: macroslib/src/typemap/merge.rs:64-83 (what merging does is the subject of `TypeMap/MergeRule.lean`). -/
def file (s : Store τ γ ω ι α) (r : Rule τ γ ω ι α) : Store τ γ ω ι α :=
  if r.generics.isSome then
    match tryInto r with
    | .inl e => { s with edges := s.edges ++ [e] }
    | .inr r => { s with genericRules := s.genericRules ++ [r] }
  else if r.backendData then { s with notMerged := s.notMerged ++ [r] }
  else { s with merged := s.merged ++ [r] }

/-- All rules of a file, in order. -/
def fileAll (s : Store τ γ ω ι α) (rs : List (Rule τ γ ω ι α)) : Store τ γ ω ι α := rs.foldl file s

end Flapi.RuleParse
