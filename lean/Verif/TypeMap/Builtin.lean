import Verif.TypeMap.Generic
import Verif.TypeMap.GenericCode
import Verif.TypeMap.Convert
/-!
# The conversions every type map starts with (model)

`TypeMap::default()` contains five generic conversions between values, references and boxes.
-/
namespace Flapi.Builtin
open Flapi.Ast Flapi.Template

/-- The type parameter: macroslib/src/typemap.rs:253. -/
def kwT : Text := ['T']
/-- The type `T`. -/
def tyT : Ty := .path none false (.cons kwT .none .nil)
/-- The word `Box`. -/
def kwBox : Text := ['B', 'o', 'x']
/-- The type `Box<T>`: macroslib/src/typemap.rs:283, 292. -/
def boxT : Ty := .path none false (.cons kwBox (.angle (.ty tyT .nil)) .nil)

/-- A generic conversion of the default table. -/
structure Entry where
  gen : Generic
  code : TypeConvCode

/-- `GenericTypeConv::new` (macroslib/src/typemap/ast.rs:341-357) with the parameters `<T>` and `TypeConvCode::new2`; both variables
occur in the codes below, so `params` lists both (macroslib/src/typemap.rs:109-128). -/
def entry (fromTy toTy : Ty) (code : Text) : Entry := ⟨⟨fromTy, toTy, [(kwT, .nil)], [], none, none⟩, ⟨code, [toVar, fromVar]⟩⟩

/-- `T` to `&T`: macroslib/src/typemap.rs:255-263. -/
def borrowRule : Entry := entry tyT (.ref none false tyT) "let mut {to_var}: {to_var_type} = &{from_var};".toList
/-- `T` to `&mut T`: macroslib/src/typemap.rs:264-272. -/
def borrowMutRule : Entry := entry tyT (.ref none true tyT) "let mut {to_var}: {to_var_type} = &mut {from_var};".toList
/-- `&mut T` to `&T`: macroslib/src/typemap.rs:273-281. -/
def shareRule : Entry := entry (.ref none true tyT) (.ref none false tyT) "let mut {to_var}: {to_var_type} = {from_var};".toList
/-- `&Box<T>` to `&T`: macroslib/src/typemap.rs:282-290. -/
def unboxRule : Entry := entry (.ref none false boxT) (.ref none false tyT) "let mut {to_var}: {to_var_type} = {from_var}.as_ref();".toList
/-- `&mut Box<T>` to `&mut T`: macroslib/src/typemap.rs:291-299. -/
def unboxMutRule : Entry := entry (.ref none true boxT) (.ref none true tyT) "let mut {to_var}: {to_var_type} = {from_var}.as_mut();".toList

/-- The default conversions: macroslib/src/typemap.rs:254-300. -/
def defaultRules : List Entry := [borrowRule, borrowMutRule, shareRule, unboxRule, unboxMutRule]

/-- A Rust type of the map as the matcher sees it; the payload is the syntax tree and the traits it is known to implement. -/
def view (r : TMap.RTy (Ty × List Text)) : Ast.RTy := ⟨r.ty.1, r.name, r.ty.2⟩

/-- One generic conversion as the search uses it: macroslib/src/typemap.rs:1198-1216.  A new type implements nothing
(macroslib/src/typemap/ty.rs:44-52); `nm` is `normalize_type`, `u` the character classes of Unicode; a panic is `none`. -/
def ruleOf (u : Macro.Unicode) (nm : Ty → Text) (dep : Nat) (e : Entry) : TMap.Rule (Ty × List Text) Convert.EdgeW :=
  fun frm goal look =>
    match isConvPossible nm e.gen (view frm) (some (view goal)) (fun n => (look n).map view) with
    | .yes t name m =>
      (GenericCode.codeForConversion u nm m e.code.code).map fun c => (⟨name, (t, [])⟩, ⟨⟨c, e.code.params⟩, dep⟩)
    | _ => none

/-- The generic conversions of an otherwise empty type map; entry number `i` owns the (empty) dependency cell `cell + i`. -/
def rules (u : Macro.Unicode) (nm : Ty → Text) (cell : Nat) : List (TMap.Rule (Ty × List Text) Convert.EdgeW) :=
  defaultRules.mapIdx fun i e => ruleOf u nm (cell + i) e

end Flapi.Builtin
