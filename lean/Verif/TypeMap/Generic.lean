import Verif.TypeMap.Match
import Verif.TypeMap.ForeignTypes
/-!
# Applicability of generic conversion rules (model)

`nm` stands for `normalize_type` as a string.  The debug assertion at macroslib/src/typemap/ast.rs:413 is not modelled.
-/
namespace Flapi.Ast
open Flapi

/-- A trait path: leading `::` and segments (`syn::Path`). -/
structure TPath where
  lead : Bool
  segs : Segs
deriving DecidableEq

/-- `syn::Path::is_ident` (syn). -/
def TPath.isIdent (p : TPath) (id : Text) : Bool :=
  decide (p.lead = false ∧ p.segs = .cons id .none .nil)

/-- `TraitNamesSet::insert` for every trait bound of a list: macroslib/src/typemap/ty.rs:138-145, macroslib/src/typemap/ast.rs:926-934. -/
def traitNames : Bounds → List TPath → List TPath
  | .nil, acc => acc
  | .trait _ l s r, acc => traitNames r (if ⟨l, s⟩ ∈ acc then acc else acc ++ [⟨l, s⟩])
  | .lt _ r, acc => traitNames r acc

/-- `GenericTypeConv`: macroslib/src/typemap/ast.rs:321-331, without the code; `params` are the type parameters with their inline
bounds, `wh` the `where` predicates on types. -/
structure Generic where
  fromTy : Ty
  toTy : Ty
  params : List (Text × Bounds)
  wh : List (Ty × Bounds) := []
  toHint : Option Text := none
  fromHint : Option Text := none

/-- The inline part of `get_trait_bounds`: macroslib/src/typemap/ast.rs:917-938. -/
def inlineBounds : List (Text × Bounds) → List (Text × List TPath)
  | [] => []
  | (k, b) :: r => if traitNames b [] = [] then inlineBounds r else (k, traitNames b []) :: inlineBounds r

/-- The `where` part of `get_trait_bounds`: macroslib/src/typemap/ast.rs:939-969; `none`: `Ident::new` panics because the printed
type is not an identifier. -/
def whereBounds : List (Ty × Bounds) → Option (List (Text × List TPath))
  | [] => some []
  | (t, b) :: r =>
    match t.paramKey, whereBounds r with
    | some k, some l => some (if traitNames b [] = [] then l else (k, traitNames b []) :: l)
    | _, _ => none

/-- `get_trait_bounds`: macroslib/src/typemap/ast.rs:914-972. -/
def getTraitBounds (g : Generic) : Option (List (Text × List TPath)) :=
  (whereBounds g.wh).map (inlineBounds g.params ++ ·)

/-- `RustTypeS` as far as matching needs it: macroslib/src/typemap/ty.rs:17-25. -/
structure RTy where
  ty : Ty
  name : Text
  impls : List Text

/-- `ImplementsSet::contains_subset`: macroslib/src/typemap/ty.rs:117-129. -/
def containsSubset (impls : List Text) (req : List TPath) : Bool :=
  req.all fun p => impls.any fun id => p.isIdent id

/-- `is_ty_satisfy_trait_bounds`: macroslib/src/typemap/ast.rs:536-555. -/
def satisfies (nm : Ty → Text) (bs : List (Text × List TPath)) (others : Text → Option RTy) (k : Text) (v : Ty) : Bool :=
  match bs.find? (fun b => b.1 = k) with
  | none => true
  | some b =>
    match others (nm v) with
    | none => false
    | some rt => containsSubset rt.impls b.2

/-- The check of all bound parameters: macroslib/src/typemap/ast.rs:386-403 and 424-431. -/
def checkAll (nm : Ty → Text) (bs : List (Text × List TPath)) (others : Text → Option RTy) (m : TyMap) : Bool :=
  m.inner.all fun it =>
    match it.2 with
    | some v => satisfies nm bs others it.1 v
    | none => true

/-- Result of `is_conv_possible`; `panic`: an assertion failed. -/
inductive Conv where
  | panic
  | no
  | yes (toTy : Ty) (name : Text) (m : TyMap)

/-- The map after looking at the goal type: macroslib/src/typemap/ast.rs:406-423. -/
def useGoal (g : Generic) (goal : Option RTy) (m : TyMap) : TyMap :=
  match goal with
  | none => m
  | some gt =>
    let r := matchTy gt.ty g.toTy m
    if r.1 = false ∧ r.2.len = 1 ∧ (r.2.inner.head?.bind (·.2)) = none then
      match g.params.head? with
      | some p => r.2.setMut p.1 (some gt.ty)
      | none => r.2
    else r.2

/-- The hint with the parameter's name replaced by the name of its value: macroslib/src/typemap/ast.rs:440-445 and 463-471;
`none`: the assertion on the number of parameters fails; inner `none`: the parameter is unbound. -/
def hintName (nm : Ty → Text) (m : TyMap) (hint : Text) : Option (Option Text) :=
  match m.inner with
  | [(k, some v)] => some (some (strReplace hint k (nm v)))
  | [(_, none)] => some none
  | _ => none

/-- The target type and its name: macroslib/src/typemap/ast.rs:460-485. -/
def finishTo (nm : Ty → Text) (g : Generic) (m : TyMap) : Conv :=
  match g.toHint with
  | none => .yes (g.toTy.subst m) (FTypes.makeUniqueIfNeed (nm (g.toTy.subst m)) none) m
  | some h =>
    match hintName nm m h with
    | none => .panic
    | some sfx => .yes (g.toTy.subst m) (FTypes.makeUniqueIfNeed (nm (g.toTy.subst m)) sfx) m

/-- The check against `from_foreigner_hint`, then the result: macroslib/src/typemap/ast.rs:434-485. -/
def finishConv (nm : Ty → Text) (g : Generic) (ty : RTy) (m : TyMap) : Conv :=
  match g.fromHint with
  | none => finishTo nm g m
  | some h =>
    match hintName nm m h with
    | none => .panic
    | some none => finishTo nm g m
    | some (some fname) => if ty.name ≠ FTypes.makeUnique (nm g.fromTy) fname then .no else finishTo nm g m

/-- Some parameter has no value yet (`has_unbinded`): macroslib/src/typemap/ast.rs:396-399. -/
def hasUnbound (m : TyMap) : Bool := m.inner.any fun it => it.2.isNone

/-- `GenericTypeConv::is_conv_possible`: macroslib/src/typemap/ast.rs:359-486. -/
def isConvPossible (nm : Ty → Text) (g : Generic) (ty : RTy) (goal : Option RTy) (others : Text → Option RTy) : Conv :=
  match matchTy ty.ty g.fromTy (SubstMap.ofList (g.params.map fun p => (p.1, none))) with
  | (false, _) => .no
  | (true, m1) =>
    match getTraitBounds g with
    | none => .panic
    | some bs =>
      if checkAll nm bs others m1 = false then .no
      else if hasUnbound m1 then
        if checkAll nm bs others (useGoal g goal m1) = false then .no
        else finishConv nm g ty (useGoal g goal m1)
      else finishConv nm g ty m1

end Flapi.Ast
