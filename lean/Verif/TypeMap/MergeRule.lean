import Verif.TypeMap.ForeignTypes
/-!
# Registering one `foreign_typemap!` rule: `TypeMap::merge_conv_rule` (model)

Error texts and spans are dropped.  The state reached when an error is returned is kept, because `merge_conv_rule` works
on `&mut self`.  Foreign names written in a rule carry no hidden prefix (`From<LitStr> for FTypeName`, macroslib/src/typemap/typemap_macro.rs:515-522).
-/
namespace Flapi.FTypes
open Flapi
variable {τ κ : Type}

/-- `RTypeConvRule`: macroslib/src/typemap/typemap_macro.rs:468-473. -/
structure RRule (τ κ : Type) where
  left : τ
  right : Option τ
  code : Option κ

/-- `FTypeLeftRightPair`: macroslib/src/typemap/typemap_macro.rs:485-490. -/
inductive FPair where
  | onlyLeft (n : Text)
  | both (l r : Text)
  | onlyRight (n : Text)
deriving DecidableEq

/-- `FTypeConvRule` (the code comes with its source id): macroslib/src/typemap/typemap_macro.rs:475-483. -/
structure FConv (κ : Type) where
  reqModules : List Text
  hasCfg : Bool
  pair : FPair
  inputToOutput : Bool
  uniquePrefix : Option Text
  code : Option (κ × Option Nat)

/-- `TypeMapConvRuleInfo`; `c_types`/`f_code` only as "present": macroslib/src/typemap/typemap_macro.rs:46-59. -/
structure RuleInfo (τ κ : Type) where
  generic : Bool
  rLR : Option (RRule τ κ)
  rRL : Option (RRule τ κ)
  fLR : List (FConv κ)
  fRL : List (FConv κ)
  hasCTypes : Bool
  hasFCode : Bool

/-- macroslib/src/typemap/typemap_macro.rs:175-189 `contains_data_for_language_backend`. -/
def RuleInfo.backendData (ri : RuleInfo τ κ) : Bool :=
  ri.generic || ri.hasFCode || ri.hasCTypes || ri.fLR.any (·.hasCfg) || ri.fRL.any (·.hasCfg) ||
    decide (ri.fLR.length > 1) || decide (ri.fRL.length > 1)

/-- macroslib/src/typemap/typemap_macro.rs:133-162 `if_simple_rtype_ftype_map`. -/
def RuleInfo.simple (ri : RuleInfo τ κ) : Option (τ × Text × List Text × Option Text) :=
  if ri.rRL.isSome || !ri.fRL.isEmpty || decide (ri.fLR.length > 1) then none
  else
    match ri.rLR, ri.fLR.head? with
    | some ⟨t, none, none⟩, some ⟨m, _, .onlyLeft f, _, p, none⟩ => some (t, f, m, p)
    | _, _ => none

/-- macroslib/src/typemap/typemap_macro.rs:165-173 `if_simple_rtype_ftype_map_no_lang_backend`. -/
def RuleInfo.simpleNoBackend (ri : RuleInfo τ κ) : Option (τ × Text × List Text × Option Text) :=
  if ri.hasFCode || ri.hasCTypes then none else ri.simple

/-- The part of `TypeMap` used: graph, foreign types and the two caches (macroslib/src/typemap.rs:226-249). -/
structure MState (τ κ : Type) where
  tm : TMap.TM τ κ
  st : Storage κ
  cacheTo : Nat → Option Nat
  cacheFrom : Nat → Option Nat

/-- macroslib/src/typemap.rs:1055-1058 `invalidate_conv_for_rust_type`. -/
def MState.invalidate (s : MState τ κ) (t : Nat) : MState τ κ :=
  { s with cacheTo := fun x => if x = t then none else s.cacheTo x,
           cacheFrom := fun x => if x = t then none else s.cacheFrom x }

/-- macroslib/src/typemap.rs:956-962 `find_or_alloc_rust_type`. -/
def MState.findOrAlloc (norm : τ → Text) (s : MState τ κ) (t : τ) : MState τ κ × Nat :=
  ({ s with tm := (findOrAllocSuffix norm s.tm t none).1 }, (findOrAllocSuffix norm s.tm t none).2)

/-- Replace one entry and report the outcome of `set_unique_prefix`: the tail of each arm of
macroslib/src/typemap/merge.rs:295-350 (`provided_by_module = ..; set_unique_prefix(..)?`). -/
def finishFType (s : MState τ κ) (i : Nat) (mods : List Text) (pre : Option Text) (src : Option Nat) : MState τ κ × Out Unit :=
  match s.st.ftypes[i]? with
  | none => (s, .panic)
  | some ft =>
    let r := setUniquePrefix { ft with provided := mods } pre src
    ({ s with st := s.st.modify i fun _ => r.1 }, r.2)

/-- The simple case: macroslib/src/typemap/merge.rs:93-107. -/
def mergeSimple (norm : τ → Text) (src : Option Nat) (s : MState τ κ) (t : τ) (f : Text) (mods : List Text) (pre : Option Text) :
    MState τ κ × Out Unit :=
  let (s1, r) := s.findOrAlloc norm t
  let s2 := s1.invalidate r
  match s2.st.allocNew ⟨f, 0⟩ src r with
  | (st, none) => ({ s2 with st := st }, .err)
  | (st, some i) => finishFType { s2 with st := st } i mods pre src

/-- One of the two Rust-side rules: `left` is converted to `right` when `fwd`, else `right` to `left`
(macroslib/src/typemap/merge.rs:109-131 and 133-154). -/
def mergeRRule (norm : τ → Text) (fwd : Bool) (s : MState τ κ) :
    Option (RRule τ κ) → MState τ κ × Out (Option (Nat × Nat))
  | none => (s, .ok none)
  | some ⟨l, some r, some c⟩ =>
    let (s1, li) := s.findOrAlloc norm l
    let (s2, ri) := s1.findOrAlloc norm r
    let p := if fwd then (li, ri) else (ri, li)
    let s3 := { s2 with tm := TMap.addRule s2.tm p.1 p.2 c }
    ((s3.invalidate p.1).invalidate p.2, .ok (some p))
  | some _ => (s, .err)

/-- One foreign-side rule, `lr` being (type on the left, type on the right) of the corresponding Rust rule
(macroslib/src/typemap/merge.rs:161-219 and 222-291): the foreign name and the conversion rule to store. -/
def mergeFRule (lr : Option (Nat × Nat)) (r : FConv κ) (s : MState τ κ) : MState τ κ × Out (Text × FRule κ) :=
  match r.pair with
  | .onlyLeft _ => (s, .err)
  | .both _ _ => (s, .err)
  | .onlyRight f =>
    match lr with
    | none => (s, .err)
    | some (l, rt) =>
      let s' := (s.invalidate rt).invalidate l
      match r.code with
      | some (c, csrc) => (s', .ok (f, ⟨l, some ⟨r.inputToOutput, rt, c, csrc⟩⟩))
      | none => (s', .ok (f, ⟨rt, none⟩))

/-- The unique prefix in force after both foreign rules were read; `none` = mismatch
(macroslib/src/typemap/merge.rs:191, 247-264). -/
def joinPrefix (a b : Option Text) : Option (Option Text) :=
  match a with
  | some p =>
    match b with
    | some q => if q = p then some (some p) else none
    | none => some (some p)
  | none => some b

/-- Store the rules in the foreign type `f`: macroslib/src/typemap/merge.rs:295-350. -/
def storeRules (src : Option Nat) (s : MState τ κ) (f : Text) (into frm : Option (FRule κ)) (mods : List Text)
    (pre : Option Text) : MState τ κ × Out Unit :=
  match s.st.findOrAlloc ⟨f, 0⟩ src with
  | (st, none) => ({ s with st := st }, .panic)
  | (st, some i) =>
    let s1 := { s with st := st }
    match st.ftypes[i]? with
    | none => (s1, .panic)
    | some ft =>
      if into.all (rewriteAllowed ft.into) then
        let s2 := { s1 with st := s1.st.modify i fun ft => { ft with into := into.or ft.into } }
        if frm.all (rewriteAllowed ft.frm) then
          finishFType { s2 with st := s2.st.modify i fun ft => { ft with frm := frm.or ft.frm } } i mods pre src
        else (s2, .err)
      else (s1, .err)

/-- The foreign-side rule of one direction, if any (`assert!(len() <= 1)`; `remove(0)`):
macroslib/src/typemap/merge.rs:162-163, 221-222. -/
def optFRule (lr : Option (Nat × Nat)) (rs : List (FConv κ)) (s : MState τ κ) :
    MState τ κ × Out (Option (Text × FRule κ)) :=
  match rs with
  | [] => (s, .ok none)
  | [r] =>
    match mergeFRule lr r s with
    | (s', .ok x) => (s', .ok (some x))
    | (s', .err) => (s', .err)
    | (s', .panic) => (s', .panic)
  | _ => (s, .panic)

/-- The final `match (ft_into_from_rust, ft_from_into_rust)`: macroslib/src/typemap/merge.rs:295-351. -/
def storeBoth (src : Option Nat) (s : MState τ κ) (a b : Option (Text × FRule κ)) (mods : List Text) (pre : Option Text) :
    MState τ κ × Out Unit :=
  match a, b with
  | some (f1, r1), some (f2, r2) =>
    if f1 = f2 then storeRules src s f1 (some r1) (some r2) mods pre else (s, .err)
  | some (f, r), none => storeRules src s f (some r) none mods pre
  | none, some (f, r) => storeRules src s f none (some r) mods pre
  | none, none => (s, .ok ())

/-- The non-simple case of `merge_conv_rule`: macroslib/src/typemap/merge.rs:109-354.
(The code compares the prefixes while it reads the second foreign rule, after that rule's own checks but before the cache
invalidation of its types; an error there leaves those cache entries in place, here they are already dropped.) -/
def mergeFull (norm : τ → Text) (src : Option Nat) (s : MState τ κ) (ri : RuleInfo τ κ) : MState τ κ × Out Unit :=
  match mergeRRule norm true s ri.rLR with
  | (s, .err) => (s, .err)
  | (s, .panic) => (s, .panic)
  | (s, .ok lr) =>
    match mergeRRule norm false s ri.rRL with
    | (s, .err) => (s, .err)
    | (s, .panic) => (s, .panic)
    | (s, .ok rl) =>
      match optFRule lr ri.fLR s with
      | (s, .err) => (s, .err)
      | (s, .panic) => (s, .panic)
      | (s, .ok into) =>
        match optFRule (rl.map fun p => (p.2, p.1)) ri.fRL s with
        | (s, .err) => (s, .err)
        | (s, .panic) => (s, .panic)
        | (s, .ok frm) =>
          match joinPrefix (ri.fLR.head?.bind (·.uniquePrefix)) (ri.fRL.head?.bind (·.uniquePrefix)) with
          | none => (s, .err)
          | some pre => storeBoth src s into frm ((ri.fLR ++ ri.fRL).flatMap (·.reqModules)) pre

/-- macroslib/src/typemap/merge.rs:85-355 `merge_conv_rule` (`panic` for the two leading `assert!`s). -/
def mergeConvRule (norm : τ → Text) (src : Option Nat) (s : MState τ κ) (ri : RuleInfo τ κ) : MState τ κ × Out Unit :=
  if ri.backendData || ri.generic then (s, .panic)
  else
    match ri.simpleNoBackend with
    | some (t, f, mods, pre) => mergeSimple norm src s t f mods pre
    | none => mergeFull norm src s ri

/-- What `may_be_merge_conv_rule` does with a rule: macroslib/src/typemap/merge.rs:64-83.  A generic rule is put aside (as
generic edge or generic rule), one that needs the language backend is put aside, others are merged. -/
inductive Dispatch where
  | generic
  | deferred
  | merged
deriving DecidableEq

/-- See `Dispatch`. -/
def mayBeMerge (norm : τ → Text) (src : Option Nat) (s : MState τ κ) (ri : RuleInfo τ κ) : Dispatch × MState τ κ × Out Unit :=
  if ri.generic then (.generic, s, .ok ())
  else if ri.backendData then (.deferred, s, .ok ())
  else (.merged, mergeConvRule norm src s ri)

end Flapi.FTypes
