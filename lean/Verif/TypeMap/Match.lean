import Verif.TypeMap.Ty
import Verif.Core.SubstMap
import Verif.Base.Replace
/-!
# Matching generic rules against concrete types (model)

Simplifications: see `Ty.lean`; the `unimplemented!` arm for verbatim trait bounds is not modelled (such bounds are not in `Ty`).
-/
namespace Flapi.Ast
open Flapi

/-- `TyParamsSubstMap` over type syntax. -/
abbrev TyMap := SubstMap.Map Text Ty

/-- The string `normalize_type(ty)` as a key of the substitution map: keys are identifiers, so only a type that prints as one
identifier can be one (used at macroslib/src/typemap/ast.rs:811 and 864). -/
def Ty.paramKey (t : Ty) : Option Text :=
  match t.normName with
  | [.ident k] => some k
  | _ => none

/-- Number of segments. -/
def Segs.len : Segs → Nat
  | .nil => 0
  | .cons _ _ r => r.len + 1
/-- Number of types. -/
def Tys.len : Tys → Nat
  | .nil => 0
  | .cons _ r => r.len + 1
/-- Number of arguments. -/
def GArgs.len : GArgs → Nat
  | .nil => 0
  | .ty _ r => r.len + 1
  | .lt _ r => r.len + 1
  | .assoc _ _ r => r.len + 1
  | .const _ r => r.len + 1
/-- Number of bounds. -/
def Bounds.len : Bounds → Nat
  | .nil => 0
  | .trait _ _ _ r => r.len + 1
  | .lt _ r => r.len + 1

/-- The binding of a one-segment path that is a still unbound parameter: macroslib/src/typemap/ast.rs:700-707 and 652-665. -/
def bindPath (s1 : Segs) (t : Ty) (m : TyMap) : Option TyMap :=
  match s1 with
  | .cons id _ .nil => if m.get id = some none then some (m.setMut id (some t)) else none
  | _ => none

/-- The last two arms of `is_second_subst_of_first`: macroslib/src/typemap/ast.rs:667-690. -/
def fallback (p t : Ty) (m : TyMap) : Bool × TyMap :=
  match p with
  | .path _ _ s1 =>
    match bindPath s1 t m with
    | some m' => (true, m')
    | none => (decide (p = t), m)
  | p => (decide (p = t), m)

/-- `real_type_p1` and the updated map in `types_equal_inside_path`: macroslib/src/typemap/ast.rs:811-822. -/
def inside (p t : Ty) (m : TyMap) : Ty × TyMap :=
  match p.paramKey with
  | some k =>
    match m.get k with
    | some (some x) => (x, m)
    | some none => (t, m.setMut k (some t))
    | none => (p, m)
  | none => (p, m)

/-- `is_second_substitude_of_first_path`: macroslib/src/typemap/ast.rs:694-726; `k` is the result of the loop over the segments. -/
def matchPath (s2 s1 : Segs) (ty2 : Ty) (m : TyMap) (k : Bool × TyMap) : Bool × TyMap :=
  match bindPath s1 ty2 m with
  | some m' => (true, m')
  | none => if s1.len = s2.len then k else (false, m)

mutual
/-- `is_second_subst_of_first(ty1 = p, ty2 = t)`: macroslib/src/typemap/ast.rs:558-692. -/
def matchTy : Ty → Ty → TyMap → Bool × TyMap
  | .path q2 l2 s2, p, m =>
    match p with
    | .path _ _ s1 => matchPath s2 s1 (.path q2 l2 s2) m (matchSegs s2 s1 m)
    | p => fallback p (.path q2 l2 s2) m
  | .ref l2 mt2 e2, p, m =>
    match p with
    | .ref _ mt1 e1 => if mt1 = mt2 then matchTy e2 e1 m else (false, m)
    | p => fallback p (.ref l2 mt2 e2) m
  | .ptr mt2 e2, p, m =>
    match p with
    | .ptr mt1 e1 => if mt1 = mt2 then matchTy e2 e1 m else (false, m)
    | p => fallback p (.ptr mt2 e2) m
  | .slice e2, p, m =>
    match p with
    | .slice e1 => matchTy e2 e1 m
    | p => fallback p (.slice e2) m
  | .tuple es2, p, m =>
    match p with
    | .tuple es1 => if es1.len = es2.len then matchTys es2 es1 m else (false, m)
    | p => fallback p (.tuple es2) m
  | .implTrait b2, p, m =>
    match p with
    | .implTrait b1 => if b1.len = b2.len then matchBounds b2 b1 (.implTrait b2) m else (false, m)
    | p => fallback p (.implTrait b2) m
  | .bareFn h2 lts2 i2 o2, p, m =>
    match p with
    | .bareFn h1 _ i1 o1 =>
      if h1 = h2 ∧ i1.len = i2.len then
        match matchTysIn i2 i1 m with
        | (true, m') => matchRet o2 o1 m'
        | r => r
      else (false, m)
    | p => fallback p (.bareFn h2 lts2 i2 o2) m
  | .traitObj d2 b2, p, m => fallback p (.traitObj d2 b2) m
  | .array e2 n2, p, m => fallback p (.array e2 n2) m
  | .paren e2, p, m => fallback p (.paren e2) m
  | .other t2, p, m => fallback p (.other t2) m
termination_by structural t => t
/-- The loop over tuple elements: macroslib/src/typemap/ast.rs:597-602. -/
def matchTys : Tys → Tys → TyMap → Bool × TyMap
  | .cons t ts, .cons p ps, m =>
    match matchTy t p m with
    | (true, m') => matchTys ts ps m'
    | r => r
  | _, _, m => (true, m)
termination_by structural t => t
/-- The loops over function inputs, through `types_equal_inside_path`: macroslib/src/typemap/ast.rs:640-643 and 780-784. -/
def matchTysIn : Tys → Tys → TyMap → Bool × TyMap
  | .cons t ts, .cons p ps, m =>
    match matchTy t (inside p t m).1 (inside p t m).2 with
    | (true, m') => matchTysIn ts ps m'
    | r => r
  | _, _, m => (true, m)
termination_by structural t => t
/-- The loop over segments: macroslib/src/typemap/ast.rs:712-725. -/
def matchSegs : Segs → Segs → TyMap → Bool × TyMap
  | .cons i2 a2 r2, .cons i1 a1 r1, m =>
    if i1 = i2 then
      match matchArgs a2 a1 m with
      | (true, m') => matchSegs r2 r1 m'
      | r => r
    else (false, m)
  | _, _, m => (true, m)
termination_by structural t => t
/-- `is_second_subst_of_first_path_args`: macroslib/src/typemap/ast.rs:733-803. -/
def matchArgs : Args → Args → TyMap → Bool × TyMap
  | .angle g2, .angle g1, m => if g1.len = g2.len then matchG g2 g1 m else (false, m)
  | .parens i2 o2, .parens i1 o1, m =>
    if i1.len = i2.len then
      match matchTysIn i2 i1 m with
      | (true, m') => matchRet o2 o1 m'
      | r => r
    else (false, m)
  | a2, a1, m => (decide (a1 = a2), m)
termination_by structural t => t
/-- The loop over generic arguments: macroslib/src/typemap/ast.rs:746-768; other arguments than types are compared exactly. -/
def matchG : GArgs → GArgs → TyMap → Bool × TyMap
  | .ty t r2, .ty p r1, m =>
    match matchTy t (inside p t m).1 (inside p t m).2 with
    | (true, m') => matchG r2 r1 m'
    | r => r
  | .lt l2 r2, .lt l1 r1, m => if l1 = l2 then matchG r2 r1 m else (false, m)
  | .assoc i2 t2 r2, .assoc i1 t1 r1, m => if i1 = i2 ∧ t1 = t2 then matchG r2 r1 m else (false, m)
  | .const c2 r2, .const c1 r1, m => if c1 = c2 then matchG r2 r1 m else (false, m)
  | .nil, _, m => (true, m)
  | _, .nil, m => (true, m)
  | _, _, m => (false, m)
termination_by structural t => t
/-- `return_type_match`: macroslib/src/typemap/ast.rs:830-853. -/
def matchRet : Ret → Ret → TyMap → Bool × TyMap
  | .default, .default, m => (true, m)
  | .ty t, .ty p, m => matchTy t (inside p t m).1 (inside p t m).2
  | _, _, m => (false, m)
termination_by structural t => t
/-- The loop over `impl Trait` bounds: macroslib/src/typemap/ast.rs:613-636. -/
def matchBounds : Bounds → Bounds → Ty → TyMap → Bool × TyMap
  | .trait may2 _ s2 r2, .trait may1 _ s1 r1, ty2, m =>
    if may1 = may2 then
      match matchPath s2 s1 ty2 m (matchSegs s2 s1 m) with
      | (true, m') => matchBounds r2 r1 ty2 m'
      | r => r
    else (false, m)
  | .lt _ r2, .lt _ r1, ty2, m => matchBounds r2 r1 ty2 m
  | .trait .., .lt .., _, m => (false, m)
  | .lt .., .trait .., _, m => (false, m)
  | _, _, _, m => (true, m)
termination_by structural t => t
end

/-- `subst_map.get(&normalize_type(t))` as a value: macroslib/src/typemap/ast.rs:864. -/
def TyMap.look (m : TyMap) (t : Ty) : Option Ty :=
  match t.paramKey with
  | some k => (m.get k).join
  | none => none

mutual
/-- `replace_all_types_with`: macroslib/src/typemap/ast.rs:855-883. -/
def Ty.subst (m : TyMap) : Ty → Ty
  | .path q l s => (TyMap.look m (.path q l s)).getD (.path q l (s.subst m))
  | .ref l mt e => (TyMap.look m (.ref l mt e)).getD (.ref l mt (e.subst m))
  | .ptr mt e => (TyMap.look m (.ptr mt e)).getD (.ptr mt (e.subst m))
  | .slice e => (TyMap.look m (.slice e)).getD (.slice (e.subst m))
  | .tuple es => (TyMap.look m (.tuple es)).getD (.tuple (es.subst m))
  | .implTrait b => (TyMap.look m (.implTrait b)).getD (.implTrait (b.subst m))
  | .traitObj d b => (TyMap.look m (.traitObj d b)).getD (.traitObj d (b.subst m))
  | .bareFn h l i o => (TyMap.look m (.bareFn h l i o)).getD (.bareFn h l (i.subst m) (o.subst m))
  | .array e n => (TyMap.look m (.array e n)).getD (.array (e.subst m) n)
  | .paren e => (TyMap.look m (.paren e)).getD (.paren (e.subst m))
  | .other t => (TyMap.look m (.other t)).getD (.other t)
/-- See `Ty.subst`. -/
def Tys.subst (m : TyMap) : Tys → Tys
  | .nil => .nil
  | .cons h t => .cons (h.subst m) (t.subst m)
/-- See `Ty.subst`. -/
def Segs.subst (m : TyMap) : Segs → Segs
  | .nil => .nil
  | .cons i a r => .cons i (a.subst m) (r.subst m)
/-- See `Ty.subst`. -/
def Args.subst (m : TyMap) : Args → Args
  | .none => .none
  | .angle g => .angle (g.subst m)
  | .parens i o => .parens (i.subst m) (o.subst m)
/-- See `Ty.subst`. -/
def GArgs.subst (m : TyMap) : GArgs → GArgs
  | .nil => .nil
  | .ty t r => .ty (t.subst m) (r.subst m)
  | .lt l r => .lt l (r.subst m)
  | .assoc i t r => .assoc i (t.subst m) (r.subst m)
  | .const c r => .const c (r.subst m)
/-- See `Ty.subst`. -/
def Ret.subst (m : TyMap) : Ret → Ret
  | .default => .default
  | .ty t => .ty (t.subst m)
/-- See `Ty.subst`. -/
def Bounds.subst (m : TyMap) : Bounds → Bounds
  | .nil => .nil
  | .trait may l s r => .trait may l (s.subst m) (r.subst m)
  | .lt l r => .lt l (r.subst m)
end

end Flapi.Ast
