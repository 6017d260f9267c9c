import Verif.TypeMap.Select
import Verif.TypeMap.Generic
/-!
# From a Rust type to its foreign type: `map_type` of the C++ and Java back ends (model)

Abstract: the instantiation of a generic rule together with the registration of the result (`Env.inst`; modelled in
`Instantiate`/`InstantiateRule` and `MergeRule`), the creation of foreign types from hints (`Env.hints`), source spans, log
messages.  Java null annotations of the result are `Java/Code.lean`'s `mkInfo`.  A Rust stack overflow is `Res.out`: the recursion
`map_type` → `try_new` → `map_type` gets an allowance.
-/
namespace Flapi.MapType
open Flapi Graph TMap Select

/-- The syntax tree and the implemented traits of a Rust type: macroslib/src/typemap/ty.rs:17-25. -/
structure TyD where
  ty : Ast.Ty
  impls : List Text

/-- The part of `TypeMap` used here: macroslib/src/typemap.rs:234-249. -/
structure St (κ : Type) where
  tm : TM TyD κ
  ftypes : List (FTypes.FType Text)
  toCache : Nat → Option Nat
  fromCache : Nat → Option Nat

variable {κ : Type}

/-- A rule without its code, as the searches see it. -/
def bare (r : FTypes.FRule Text) : Select.FRule := ⟨r.rustTy, r.inter.map (·.ty)⟩
/-- A foreign type as the searches see it. -/
def bareFt (f : FTypes.FType Text) : FT := ⟨f.into.map bare, f.frm.map bare⟩
/-- All foreign types as the searches see them. -/
def St.fts (st : St κ) : List FT := st.ftypes.map bareFt

/-- A generic `foreign_typemap!` rule (`TypeMapConvRuleInfo` with generics): macroslib/src/typemap/typemap_macro.rs:46-59.
`simple` is the Rust type of `if_simple_rtype_ftype_map` (133-162, modelled in `MergeRule`), `rtl`/`ltr` the `left_ty` of the two
Rust rules, `params`/`wh` the generics, `cTypes`: it defines C types. -/
structure GRule where
  simple : Option Ast.Ty
  rtl : Option Ast.Ty
  ltr : Option Ast.Ty
  params : List (Text × Ast.Bounds)
  wh : List (Ast.Ty × Ast.Bounds) := []
  cTypes : Bool := false

/-- Diagnostics. -/
inductive Er where
  /-- "Do not know conversion …" -/
  | noConversion (ty : Nat) (d : Dir)
  /-- "No rule to convert foreign type … as input/output type" -/
  | noRule (f : Nat)
  /-- "intermediate type … can not be directly converted" -/
  | notDirect (f : Nat)
  /-- "Can not handle C types for Java/JNI" -/
  | cTypes (i : Nat)
  /-- the instantiation of a rule failed -/
  | inst (msg : Text)
deriving DecidableEq

/-- Outcomes; `out`: the allowance for recursion is used up. -/
inductive Res (α : Type) where
  | ok (a : α)
  | err (e : Er)
  | panic
  | out
deriving DecidableEq

/-- What does not change during a run. -/
structure Env (κ : Type) where
  P : PopFn
  ord : List Nat → List Nat
  rules : List (Rule TyD κ)
  nm : Ast.Ty → Text
  grules : List GRule
  java : Bool
  /-- lines 750-809 of typemap.rs -/
  hints : St κ → Dir → St κ
  /-- macroslib/src/cpp/map_type.rs:61-99, macroslib/src/java_jni/map_type.rs:164-181: instantiate rule number `i` and merge the result -/
  inst : St κ → Nat → Ast.TyMap → Dir → Res (St κ)

/-- The trait that `is_ty_implement_traits` of the C++ back end treats specially: macroslib/src/cpp/map_type.rs:285. -/
def reprC : Text := "SwigTypeIsReprC".toList

/-- `find_foreign_type_related_to_rust_ty`: macroslib/src/typemap.rs:515-537 (whether there is one). -/
def hasRelated (st : St κ) (i : Nat) : Bool := (FTypes.findRelated st.ftypes i).isSome

/-- One trait of `is_ty_implement_traits`: macroslib/src/cpp/map_type.rs:284-295, macroslib/src/java_jni/map_type.rs:225-229. -/
def hasTrait (java : Bool) (st : St κ) (i : Nat) (impls : List Text) (p : Ast.TPath) : Bool :=
  if !java && p.isIdent reprC then hasRelated st i else impls.any fun id => p.isIdent id

/-- `is_ty_implement_traits`: macroslib/src/cpp/map_type.rs:282-304, macroslib/src/java_jni/map_type.rs:223-238. -/
def implTraits (E : Env κ) (st : St κ) (ty : Ast.Ty) (ps : List Ast.TPath) : Bool :=
  match st.tm.names (E.nm ty) with
  | none => false
  | some i =>
    match st.tm.g.nodes[i]? with
    | none => false
    | some r => ps.all (hasTrait E.java st i r.ty.impls)

/-- The Rust type a rule is matched with: macroslib/src/typemap/typemap_macro.rs:205-214. -/
def GRule.side (g : GRule) (d : Dir) : Option Ast.Ty :=
  match g.simple with
  | some t => some t
  | none => if d then g.ltr else g.rtl

/-- The generics of a rule in the form `get_trait_bounds` takes. -/
def GRule.gen (g : GRule) (p : Ast.Ty) : Ast.Generic := { fromTy := p, toTy := p, params := g.params, wh := g.wh }

/-- Result of `is_ty_subst_of_my_generic_rtype`. -/
inductive App where
  | no
  | yes (m : Ast.TyMap)
  | panic

/-- The check of one entry of the trait bounds: macroslib/src/typemap/typemap_macro.rs:227-241. -/
def boundOk (E : Env κ) (st : St κ) (m : Ast.TyMap) (b : Text × List Ast.TPath) : Bool :=
  match m.get b.1 with
  | some (some v) => implTraits E st v b.2
  | _ => false

/-- `is_ty_subst_of_my_generic_rtype`: macroslib/src/typemap/typemap_macro.rs:195-244. -/
def applies (E : Env κ) (st : St κ) (d : Dir) (ty : Ast.Ty) (g : GRule) : App :=
  match g.side d with
  | none => .no
  | some p =>
    match Ast.matchTy ty p (SubstMap.ofList (g.params.map fun q => (q.1, none))) with
    | (false, _) => .no
    | (true, m) =>
      match Ast.getTraitBounds (g.gen p) with
      | none => .panic
      | some bs =>
        if bs.all (boundOk E st m) then .yes m else .no

/-- Result of looking through the generic rules. -/
inductive Pick where
  | none
  | rule (i : Nat) (m : Ast.TyMap)
  | panic

/-- `generic_rules().iter().find_map(..)`: macroslib/src/cpp/map_type.rs:47-54, macroslib/src/java_jni/map_type.rs:144-151. -/
def pick (E : Env κ) (st : St κ) (d : Dir) (ty : Ast.Ty) : Nat → List GRule → Pick
  | _, [] => .none
  | i, g :: gs =>
    match applies E st d ty g with
    | .yes m => .rule i m
    | .panic => .panic
    | .no => pick E st d ty (i + 1) gs

/-- `map_through_conversion_to_foreign`: macroslib/src/typemap.rs:649-915 (as `Select.mapToForeign`, with full foreign types).
Outer `none`: panic. -/
def search (E : Env κ) (st : St κ) (d : Dir) (fast : Bool) (rty : Nat) : Option (Option Nat × St κ) :=
  match (if d then st.toCache else st.fromCache) rty with
  | some f => some (some f, st)
  | none =>
    match fastSearch E.P st.tm.g st.fts d rty with
    | some (_, f) =>
      some (some f, if d then { st with toCache := put st.toCache rty f } else { st with fromCache := put st.fromCache rty f })
    | none =>
      if fast then some (none, st)
      else
        let st1 := E.hints st d
        match deepSearch E.P E.ord E.rules st1.tm st1.fts d rty with
        | none => none
        | some (r, tm) => some (r, { st1 with tm := tm })

/-- The last search and the final diagnostic: macroslib/src/cpp/map_type.rs:101-139, macroslib/src/java_jni/map_type.rs:182-220. -/
def finish (E : Env κ) (st : St κ) (d : Dir) (rty : Nat) : Res (Nat × St κ) :=
  match search E st d false rty with
  | none => .panic
  | some (none, _) => .err (.noConversion rty d)
  | some (some f, st') => .ok (f, st')

/-- The generic part of `do_map_type`: macroslib/src/cpp/map_type.rs:47-139, macroslib/src/java_jni/map_type.rs:144-220. -/
def generic (E : Env κ) (st : St κ) (d : Dir) (rty : Nat) (ty : Ast.Ty) : Res (Nat × St κ) :=
  match pick E st d ty 0 E.grules with
  | .panic => .panic
  | .none => finish E st d rty
  | .rule i m =>
    if E.java && (E.grules[i]?.map (·.cTypes)) == some true then .err (.cTypes i)
    else
      match E.inst st i m d with
      | .ok st' => finish E st' d rty
      | .err e => .err e
      | .panic => .panic
      | .out => .out

/-- `do_map_type`: macroslib/src/cpp/map_type.rs:30-140, macroslib/src/java_jni/map_type.rs:127-221. -/
def doMap (E : Env κ) (st : St κ) (d : Dir) (rty : Nat) : Res (Nat × St κ) :=
  match st.tm.g.nodes[rty]? with
  | none => .panic
  | some r =>
    match search E st d true rty with
    | none => .panic
    | some (some f, st') => .ok (f, st')
    | some (none, st') => generic E st' d rty r.ty.ty

/-- `CppForeignTypeInfo` (macroslib/src/cpp/mod.rs:71-83) and `JavaForeignTypeInfo` (macroslib/src/java_jni/mod.rs:61-66, without annotations):
`name` and `rt` are `base`; `conv` is the type name and the code of the converter. -/
structure Info where
  name : FTypes.UName
  rt : Nat
  conv : Option (FTypes.UName × Text)
  mods : List Text
  i2o : Bool
deriving DecidableEq

/-- The rule of a foreign type for a direction: macroslib/src/cpp/mod.rs:102-105, macroslib/src/java_jni/map_type.rs:40-43. -/
def ruleOf (d : Dir) (f : FTypes.FType Text) : Option (FTypes.FRule Text) := if d then f.into else f.frm

/-- The result when the rule has an intermediate type with direct mapping `i`: macroslib/src/cpp/mod.rs:160-183 (the converter
names the foreign type, the base is the intermediate's), macroslib/src/java_jni/map_type.rs:98-107 (the other way round). -/
def combine (java : Bool) (f : FTypes.FType Text) (it : FTypes.Inter Text) (i : Info) : Info :=
  if java then ⟨f.name, it.ty, some (i.name, it.code), [], false⟩
  else ⟨i.name, it.ty, some (f.name, it.code), f.provided ++ i.mods, it.inputToOutput⟩

/-- `map_type`: macroslib/src/cpp/map_type.rs:19-28 with macroslib/src/cpp/mod.rs:92-184 (`try_new`), macroslib/src/java_jni/map_type.rs:26-125.  Java stops
with `unimplemented!` on modules and on `input_to_output`. -/
def mapType (E : Env κ) : Nat → St κ → Nat → Dir → Res (Info × St κ)
  | 0, _, _, _ => .out
  | n + 1, st, ty, d =>
    match doMap E st d ty with
    | .err e => .err e
    | .panic => .panic
    | .out => .out
    | .ok (f, st1) =>
      match st1.ftypes[f]? with
      | none => .panic
      | some ft =>
        if E.java && !ft.provided.isEmpty then .panic
        else
          match ruleOf d ft with
          | none => .err (.noRule f)
          | some r =>
            match r.inter with
            | none => .ok (⟨ft.name, r.rustTy, none, ft.provided, false⟩, st1)
            | some it =>
              if E.java && it.inputToOutput then .panic
              else
                match mapType E n st1 it.ty d with
                | .err e => .err e
                | .panic => .panic
                | .out => .out
                | .ok (i, st2) =>
                  if i.conv.isSome || it.ty != i.rt then .err (.notDirect f) else .ok (combine E.java ft it i, st2)

end Flapi.MapType
