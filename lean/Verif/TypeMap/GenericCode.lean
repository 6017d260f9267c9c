import Verif.Macro.Scan
import Verif.Core.SubstMap
import Verif.TypeMap.Instantiate
/-!
# The code of a generic conversion (model)

When the search for a conversion uses a generic conversion (`TypeMap/Map.lean`), the code of the new edge is the code of the generic
conversion with `swig_subst_type!(T)` filled in.
-/
namespace Flapi.GenericCode

open Flapi.Macro

/-- Parameters after the first one: macroslib/src/typemap/ast.rs:513-516. -/
def moreParams : List Text → Text
  | [] => []
  | p :: ps => ',' :: ' ' :: (p ++ moreParams ps)

/-- The parameters with `, ` between them: macroslib/src/typemap/ast.rs:509-516. -/
def joinParams : List Text → Text
  | [] => []
  | p :: ps => p ++ moreParams ps

/-- A macro that is not `swig_subst_type!` is written out again: macroslib/src/typemap/ast.rs:507-517. -/
def rewrite (id : Text) (ps : List Text) : Text := id ++ '!' :: '(' :: (joinParams ps ++ [')'])

/-- The closure given to `expand_macroses`: macroslib/src/typemap/ast.rs:492-520; `name` is `normalize_type`, and the error carries
the number of parameters. -/
def expander {τ : Type} (name : τ → Text) (m : SubstMap.Map Text τ) :
    Unit → Text → List Text → Except Nat (Text × Unit) := fun _ id ps =>
  if id = Inst.swigSubstType then
    match ps with
    | [p] =>
      match m.get p with
      | some (some ty) => .ok (name ty, ())
      | _ => .ok (p, ())
    | _ => .error ps.length
  else .ok (rewrite id ps, ())

/-- `code_for_conversion`: macroslib/src/typemap/ast.rs:488-533; an error becomes a panic (521-526). -/
def codeForConversion {τ : Type} (u : Unicode) (name : τ → Text) (m : SubstMap.Map Text τ) (code : Text) : Option Text :=
  match expandMacroses u (expander name m) () code with
  | .ok (t, _) => some t
  | _ => none

end Flapi.GenericCode
