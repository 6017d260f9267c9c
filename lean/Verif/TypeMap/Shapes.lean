import Verif.TypeMap.GenericProps
/-!
# Recognising special shapes of types (model)

The helpers that recognise `Option<X>`, `Result<X, Y>`, `Vec<X>`, a smart pointer and a slice, and the list of lifetimes that is
written after `impl` when a class implements the trait of foreign classes.  `ifOptionReturnSome` and `ifResultReturnOkErr` are in
`Verif.TypeMap.GenericProps`.
-/
namespace Flapi.Shapes
open Flapi Flapi.Ast

/-- `check_if_smart_pointer_return_inner_type`: macroslib/src/typemap/ast.rs:1028-1040.  The pattern is the parsed text `name<T>`; the
name is one identifier (all callers pass `Box`, `Rc`, `Arc`, `RefCell`, `Mutex` or `RwLock`). -/
def smartPointerInner (ty : RTy) (name : Text) : Option Ty :=
  match isConvPossible (fun _ => []) ⟨app1 name (nam kT), nam kT, [(kT, .nil)], [], none, none⟩ ty none (fun _ => none) with
  | .yes t _ _ => some t
  | _ => none

/-- `if_vec_return_elem_type`: macroslib/src/python/mod.rs:1286-1294; `vec` is the identifier `Vec`. -/
def ifVecReturnElem (vec : Text) (ty : RTy) : Option Ty :=
  match isConvPossible (fun _ => []) ⟨app1 vec (nam kT), nam kT, [(kT, .nil)], [], none, none⟩ ty none (fun _ => none) with
  | .yes t _ _ => some t
  | _ => none

/-- `if_ty_result_return_ok_type`: macroslib/src/typemap/ast.rs:1010-1026; `res` is the identifier `Result`. -/
def ifTyResultReturnOk (res : Text) (t : Ty) : Option Ty :=
  match matchTy t (app2 res (nam kT) (nam kE)) (SubstMap.ofList [(kT, none), (kE, none)]) with
  | (true, m) => some ((nam kT).subst m)
  | (false, _) => none

/-- `if_type_slice_return_elem_type`: macroslib/src/python/mod.rs:1266-1284. -/
def ifTypeSliceReturnElem (t : Ty) (acceptMut : Bool) : Option Ty :=
  match t with
  | .ref _ mt e =>
    if mt && !acceptMut then none
    else match e with
      | .slice x => some x
      | _ => none
  | _ => none

mutual
/-- `list_lifetimes`: macroslib/src/typemap/ast.rs:1042-1053: the lifetimes met by the syntax visitor, in its order (lifetimes inside
the opaque parts of the model's types are not seen). -/
def tyLifetimes : Ty → List Text
  | .path _ _ s => segsLifetimes s
  | .ref l _ e => l.toList ++ tyLifetimes e
  | .ptr _ e => tyLifetimes e
  | .slice e => tyLifetimes e
  | .tuple es => tysLifetimes es
  | .implTrait b => boundsLifetimes b
  | .traitObj _ b => boundsLifetimes b
  | .bareFn _ l i o => l ++ (tysLifetimes i ++ retLifetimes o)
  | .array e _ => tyLifetimes e
  | .paren e => tyLifetimes e
  | .other _ => []
/-- See `tyLifetimes`: macroslib/src/typemap/ast.rs:1042-1053. -/
def tysLifetimes : Tys → List Text
  | .nil => []
  | .cons h t => tyLifetimes h ++ tysLifetimes t
/-- See `tyLifetimes`: macroslib/src/typemap/ast.rs:1042-1053. -/
def segsLifetimes : Segs → List Text
  | .nil => []
  | .cons _ a r => argsLifetimes a ++ segsLifetimes r
/-- See `tyLifetimes`: macroslib/src/typemap/ast.rs:1042-1053. -/
def argsLifetimes : Args → List Text
  | .none => []
  | .angle g => gargsLifetimes g
  | .parens i o => tysLifetimes i ++ retLifetimes o
/-- See `tyLifetimes`: macroslib/src/typemap/ast.rs:1042-1053. -/
def gargsLifetimes : GArgs → List Text
  | .nil => []
  | .ty t r => tyLifetimes t ++ gargsLifetimes r
  | .lt l r => l :: gargsLifetimes r
  | .assoc _ t r => tyLifetimes t ++ gargsLifetimes r
  | .const _ r => gargsLifetimes r
/-- See `tyLifetimes`: macroslib/src/typemap/ast.rs:1042-1053. -/
def retLifetimes : Ret → List Text
  | .default => []
  | .ty t => tyLifetimes t
/-- See `tyLifetimes`: macroslib/src/typemap/ast.rs:1042-1053. -/
def boundsLifetimes : Bounds → List Text
  | .nil => []
  | .trait _ _ s r => segsLifetimes s ++ boundsLifetimes r
  | .lt l r => l :: boundsLifetimes r
end

/-- Separated by commas. -/
def commas : List Text → List Tok
  | [] => []
  | [l] => [.lifetime l]
  | l :: r => .lifetime l :: .comma :: commas r

/-- The head of the implementation a class gets, `impl<#(#lifetimes),*> SwigForeignClass for #class_name`:
macroslib/src/cpp/fclass.rs:142-151 and macroslib/src/java_jni/fclass.rs:532-552. -/
def implHead (t : Ty) : List Tok :=
  [.impl_, .lt] ++ commas (tyLifetimes t) ++ [.gt, .ident "SwigForeignClass".toList, .for_] ++ t.toks

end Flapi.Shapes
