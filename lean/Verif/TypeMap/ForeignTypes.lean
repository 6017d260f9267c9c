import Verif.TypeMap.Map
/-!
# Foreign type names and their storage (model)

Simplifications: spans are dropped except for the source id; prefix lengths are counted in characters instead of bytes
(the code only ever slices at the end of a string prefix, so both denote the same position).
-/
namespace Flapi.FTypes
open Flapi

/-- `UniqueName`: macroslib/src/typemap/ast.rs:43-47. -/
structure UName where
  value : Text
  prefixLen : Nat
deriving DecidableEq, Repr

/-- macroslib/src/typemap/ast.rs:50-62 `UniqueName::new`; `none` = the `assert!` fails. -/
def UName.new (value pre : Text) : Option UName :=
  if pre.isPrefixOf value then some ⟨value, pre.length⟩ else none

/-- macroslib/src/typemap/ast.rs:63-65 `display`. -/
def UName.display (u : UName) : Text := u.value.drop u.prefixLen

/-- macroslib/src/typemap/ast.rs:72-78 `unique_prefix`. -/
def UName.uniquePrefix (u : UName) : Option Text := if u.prefixLen > 0 then some (u.value.take u.prefixLen) else none

/-- macroslib/src/typemap/ast.rs:79-92 `set_name_prefix`; `none` = the `assert!` fails. -/
def UName.setNamePrefix (u : UName) : Option Text → Option UName
  | some p => if p.isPrefixOf u.value then some { u with prefixLen := p.length } else none
  | none => some { u with prefixLen := 0 }

/-- `ForeignConversionIntermediate` with its code and the code's source: macroslib/src/typemap/ty.rs:182-186. -/
structure Inter (κ : Type) where
  inputToOutput : Bool
  ty : Nat
  code : κ
  codeSrc : Option Nat
deriving DecidableEq, Repr

/-- `ForeignConversionRule`: macroslib/src/typemap/ty.rs:176-179. -/
structure FRule (κ : Type) where
  rustTy : Nat
  inter : Option (Inter κ)
deriving DecidableEq, Repr

/-- `ForeignTypeS` (`src` is the source id of the name's span): macroslib/src/typemap/ty.rs:156-164. -/
structure FType (κ : Type) where
  name : UName
  src : Option Nat
  provided : List Text
  into : Option (FRule κ)
  frm : Option (FRule κ)
deriving DecidableEq, Repr

/-- `ForeignTypesStorage`; the hash map is a function: macroslib/src/typemap/ty.rs:192-195. -/
structure Storage (κ : Type) where
  ftypes : List (FType κ)
  names : Text → Option Nat

variable {κ : Type}

/-- `Default for ForeignTypesStorage`: macroslib/src/typemap/ty.rs:271-278. -/
def Storage.empty : Storage κ := ⟨[], fun _ => none⟩

/-- macroslib/src/typemap/ty.rs:215-232 `add_new_ftype`: new state and `Ok(idx)` (`none` = `Err`). -/
def Storage.addNew (s : Storage κ) (ft : FType κ) : Storage κ × Option Nat :=
  match s.names ft.name.value with
  | some _ => (s, none)
  | none =>
    let idx := s.ftypes.length
    (⟨s.ftypes ++ [ft], TMap.setName s.names ft.name.value idx⟩, some idx)

/-- macroslib/src/typemap/ty.rs:198-213 `alloc_new`. -/
def Storage.allocNew (s : Storage κ) (name : UName) (src : Option Nat) (rustTy : Nat) : Storage κ × Option Nat :=
  s.addNew ⟨name, src, [], some ⟨rustTy, none⟩, some ⟨rustTy, none⟩⟩

/-- macroslib/src/typemap/ty.rs:234-247 `find_or_alloc`; `none` in the index = `panic!("Internal error ..")`. -/
def Storage.findOrAlloc (s : Storage κ) (name : UName) (src : Option Nat) : Storage κ × Option Nat :=
  match s.names name.value with
  | some i => (s, some i)
  | none => s.addNew ⟨name, src, [], none, none⟩

/-- macroslib/src/typemap/ty.rs:249-251 `find_ftype_by_name`. -/
def Storage.findByName (s : Storage κ) (n : Text) : Option Nat := s.names n

/-- `IndexMut<ForeignType>`: macroslib/src/typemap/ty.rs:280-291 (in place modification of one entry). -/
def Storage.modify (s : Storage κ) (i : Nat) (f : FType κ → FType κ) : Storage κ :=
  { s with ftypes := s.ftypes.modify i f }

/-- macroslib/src/typemap/merge.rs:445-457 `ftype_rule_map_rust_type`; `none` = `expect(..)` fails. -/
def mapRule (m : Nat → Option Nat) (r : FRule κ) : Option (FRule κ) :=
  match m r.rustTy with
  | none => none
  | some t =>
    match r.inter with
    | none => some ⟨t, none⟩
    | some i =>
      match m i.ty with
      | none => none
      | some t' => some ⟨t, some { i with ty := t' }⟩

/-- One of the two `if let Some(rule)` blocks of `ftype_map_rust_types`: macroslib/src/typemap/merge.rs:437-442. -/
def mapOptRule (m : Nat → Option Nat) : Option (FRule κ) → Option (Option (FRule κ))
  | none => some none
  | some r => (mapRule m r).map some

/-- macroslib/src/typemap/merge.rs:433-443 `ftype_map_rust_types`. -/
def mapFType (m : Nat → Option Nat) (ft : FType κ) : Option (FType κ) :=
  match mapOptRule m ft.into, mapOptRule m ft.frm with
  | some i, some f => some { ft with into := i, frm := f }
  | _, _ => none

/-- macroslib/src/typemap/merge.rs:459-466 `ftype_merge`. -/
def ftypeMerge (our ext : FType κ) : FType κ :=
  { our with into := ext.into.or our.into, frm := ext.frm.or our.frm }

/-- Result of an operation that can return `Err` or panic; the state reached so far is kept in both. -/
inductive Out (α : Type) where
  | ok (a : α)
  | err
  | panic
deriving DecidableEq, Repr

/-- macroslib/src/typemap/merge.rs:411-431 `add_new_ftypes`. -/
def addNewFtypes (m : Nat → Option Nat) (s : Storage κ) : List (FType κ) → Storage κ × Out Unit
  | [] => (s, .ok ())
  | ft :: fts =>
    match mapFType m ft with
    | none => (s, .panic)
    | some ft' =>
      match s.findByName ft'.name.value with
      | some i => addNewFtypes m (s.modify i fun our => ftypeMerge our ft') fts
      | none =>
        match s.addNew ft' with
        | (s', some _) => addNewFtypes m s' fts
        | (s', none) => (s', .err)

/-- macroslib/src/typemap/merge.rs:476-523 `validate_rule_rewrite`: `true` = `Ok`. -/
def rewriteAllowed (prev : Option (FRule κ)) (new : FRule κ) : Bool :=
  match prev with
  | none => true
  | some p =>
    match p.inter, new.inter with
    | some pi, some ni => !(pi.codeSrc.isSome && decide (pi.codeSrc = ni.codeSrc))
    | _, _ => true

/-- macroslib/src/typemap/merge.rs:525-555 `set_unique_prefix`. -/
def setUniquePrefix (ft : FType κ) (pre : Option Text) (src : Option Nat) : FType κ × Out Unit :=
  let different := decide (pre ≠ ft.name.uniquePrefix)
  if ft.name.uniquePrefix.isSome && different && ft.src.isSome && decide (ft.src = src) then (ft, .err)
  else
    match pre with
    | some p =>
      if p.isPrefixOf ft.name.value then
        match ft.name.setNamePrefix (some p) with
        | some n => ({ ft with name := n }, .ok ())
        | none => (ft, .panic)
      else (ft, .ok ())
    | none =>
      match ft.name.setNamePrefix none with
      | some n => ({ ft with name := n }, .ok ())
      | none => (ft, .panic)

/-- The test of the loop in `find_foreign_type_related_to_rust_ty`: macroslib/src/typemap.rs:520-534. -/
def directBinding (ft : FType κ) (ty : Nat) : Bool :=
  match ft.into, ft.frm with
  | some ⟨a, none⟩, some ⟨b, none⟩ => decide (a = b ∧ a = ty)
  | _, _ => false

/-- macroslib/src/typemap.rs:515-537 `find_foreign_type_related_to_rust_ty`. -/
def findRelated (fts : List (FType κ)) (ty : Nat) : Option Nat := fts.findIdx? fun ft => directBinding ft ty

/-! ## Disambiguated Rust type names -/

/-- macroslib/src/typemap/ty.rs:71-76 `make_unique_typename`. -/
def makeUnique (name suffix : Text) : Text := name ++ Char.ofNat 0 :: suffix

/-- macroslib/src/typemap/ty.rs:78-86 `make_unique_typename_if_need`. -/
def makeUniqueIfNeed (name : Text) : Option Text → Text
  | some s => makeUnique name s
  | none => name

/-- `find_or_alloc_rust_type_with_may_be_suffix`: macroslib/src/typemap.rs:1002-1013 (989-1000 is the `Some` case and
956-962 the `None` case).  `norm` is `normalize_type`. -/
def findOrAllocSuffix {τ κ : Type} (norm : τ → Text) (tm : TMap.TM τ κ) (ty : τ) (suffix : Option Text) : TMap.TM τ κ × Nat :=
  TMap.addNode tm ⟨makeUniqueIfNeed (norm ty) suffix, ty⟩

/-- `typename()` of a type: computed from the syntax tree, not from the internal name
(macroslib/src/typemap/ty.rs:34-52, 88-90). -/
def typename {τ : Type} (pr : τ → Text) (r : TMap.RTy τ) : Text := pr r.ty

end Flapi.FTypes
