import Verif.Base.Text
/-!
# `SourceRegistry` (model)
-/
namespace Flapi.SourceRegistry

/-- `SourceCode`: macroslib/src/lib.rs:341-344. -/
structure SourceCode where
  idOfCode : Text
  code : Text
deriving DecidableEq

/-- `SourceId(Option<usize>)`: macroslib/src/source_registry.rs:31-42. -/
abbrev SourceId := Option Nat

/-- `SourceRegistry`: macroslib/src/source_registry.rs:4-6. -/
abbrev Registry := List SourceCode

/-- `SourceRegistry::register`: macroslib/src/source_registry.rs:9-19.  `none` is the panic on a duplicate id. -/
def register (r : Registry) (src : SourceCode) : Option (SourceId × Registry) :=
  if r.any (fun x => x.idOfCode == src.idOfCode) then none
  else some (some r.length, r ++ [src])

/-- `SourceRegistry::src_with_id`: macroslib/src/source_registry.rs:25-27.  `none` is the panic on an invalid id or an
index out of bounds. -/
def srcWithId (r : Registry) (id : SourceId) : Option SourceCode :=
  match id with
  | none => none
  | some i => r[i]?

/-- `SourceRegistry::src`: macroslib/src/source_registry.rs:21-23. -/
def src (r : Registry) (id : SourceId) : Option Text := (srcWithId r id).map (·.code)

/-- Registering a list of sources one after another, stopping at the first panic; yields the ids in order. -/
def registerAll (r : Registry) : List SourceCode → Option (List SourceId × Registry)
  | [] => some ([], r)
  | s :: ss => do
    let (id, r1) ← register r s
    let (ids, r2) ← registerAll r1 ss
    pure (id :: ids, r2)

end Flapi.SourceRegistry
