import Verif.Base.Text
/-!
# `TyParamsSubstMap` (model)
-/
namespace Flapi.SubstMap

/-- `TyParamsSubstMap`: macroslib/src/typemap/ast/subst_map.rs:14-23.  `κ` is `Ident` (compared by its text), `τ` is
`syn::Type`.  The `SmallVec` inline capacity is not observable and not modelled. -/
structure Map (κ τ : Type) where
  inner : List (κ × Option τ) := []

variable {κ τ : Type} [DecidableEq κ]

/-- `inner[idx].ty = ty` for the first item whose key is `k`, `none` if there is no such item
(`iter().position(..)` followed by the indexed assignment): macroslib/src/typemap/ast/subst_map.rs:27. -/
def setFirst (k : κ) (v : Option τ) : List (κ × Option τ) → Option (List (κ × Option τ))
  | [] => none
  | (k', v') :: rest =>
    if k' = k then some ((k', v) :: rest)
    else (setFirst k v rest).map ((k', v') :: ·)

/-- `TyParamsSubstMap::insert`: macroslib/src/typemap/ast/subst_map.rs:26-31. -/
def Map.insert (m : Map κ τ) (k : κ) (v : Option τ) : Map κ τ :=
  match setFirst k v m.inner with
  | some l => ⟨l⟩
  | none => ⟨m.inner ++ [(k, v)]⟩

/-- `TyParamsSubstMap::get`: macroslib/src/typemap/ast/subst_map.rs:40-49. -/
def Map.get (m : Map κ τ) (k : κ) : Option (Option τ) :=
  (m.inner.find? (fun it => it.1 = k)).map (·.2)

/-- Writing `v` through the reference returned by `TyParamsSubstMap::get_mut`, if it returns one:
macroslib/src/typemap/ast/subst_map.rs:50-58. -/
def Map.setMut (m : Map κ τ) (k : κ) (v : Option τ) : Map κ τ :=
  match setFirst k v m.inner with
  | some l => ⟨l⟩
  | none => m

/-- `TyParamsSubstMap::len`: macroslib/src/typemap/ast/subst_map.rs:37-39. -/
def Map.len (m : Map κ τ) : Nat := m.inner.length

/-- `From<TyParamsSubstMap> for TyParamsSubstList`: macroslib/src/typemap/ast/subst_map.rs:63-70. -/
def Map.toList (m : Map κ τ) : List (κ × Option τ) := m.inner

/-- `From<&[(Ident, Option<Type>)]> for TyParamsSubstMap`: macroslib/src/typemap/ast/subst_map.rs:72-80. -/
def ofList (l : List (κ × Option τ)) : Map κ τ :=
  l.foldl (fun m it => m.insert it.1 it.2) {}

/-- One mutation of a substitution map. -/
inductive Op (κ τ : Type)
  | insert (k : κ) (v : Option τ)
  | setMut (k : κ) (v : Option τ)

def step (m : Map κ τ) : Op κ τ → Map κ τ
  | .insert k v => m.insert k v
  | .setMut k v => m.setMut k v

/-- The map after a history of mutations, starting from `TyParamsSubstMap::default()`. -/
def run (ops : List (Op κ τ)) : Map κ τ := ops.foldl step {}

end Flapi.SubstMap
