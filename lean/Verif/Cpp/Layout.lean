import Verif.Base.Text
/-!
# Layout of C structures and the generated layout test (model)

`do_generate_c_type` writes a C structure (or union) into a header, and either the Rust type itself or a unit test that
compares the user's own Rust type with a `#[repr(C)]` copy of the declaration.  Modelled here: the list of members
written to the header, the checks of the test and what it means that the test compiles and passes.  The layout
`rustc` computes for `#[repr(C)]` types is modelled by the algorithm of the Rust reference (`placeAll`).  Texts, include
lines and the "written only once" rule are in C52.
-/
namespace Flapi.Layout

/-- Size and alignment of a type. -/
structure TL where
  size : Nat
  align : Nat
deriving DecidableEq

/-- `struct` or `union`: `c_type_prefix`, macroslib/src/cpp/cpp_code.rs:249-252, 269-272. -/
inductive Kind
  | struct
  | union
deriving DecidableEq

variable {Ty CTy : Type}

/-- A declared C item: macroslib/src/cpp/cpp_code.rs:242-277. -/
structure Decl (Ty : Type) where
  kind : Kind
  name : Text
  fields : List (Text × Ty)

/-- A Rust type as laid out by the compiler: members with name, type and offset. -/
structure UserTy (Ty : Type) where
  size : Nat
  align : Nat
  fields : List (Text × Ty × Nat)

/-- The least multiple of `a` that is at least `n`, as in the algorithm of the Rust reference. -/
def roundUp (n a : Nat) : Nat := if n % a = 0 then n else n + (a - n % a)

/-- Offsets of `#[repr(C)]` structure members: the algorithm of the Rust reference (padding before each field). -/
def place (tl : Ty → TL) : Nat → List (Text × Ty) → List (Text × Ty × Nat)
  | _, [] => []
  | cur, (n, t) :: l =>
    let off := roundUp cur (tl t).align
    (n, t, off) :: place tl (off + (tl t).size) l

/-- End of the last member. -/
def placeEnd (tl : Ty → TL) : Nat → List (Text × Ty) → Nat
  | cur, [] => cur
  | cur, (_, t) :: l => placeEnd tl (roundUp cur (tl t).align + (tl t).size) l

/-- Alignment of a `#[repr(C)]` type: the largest of its members', at least 1. -/
def alignOf (tl : Ty → TL) (l : List (Text × Ty)) : Nat := l.foldl (fun a f => max a (tl f.2).align) 1

/-- Largest member (unions). -/
def maxSize (tl : Ty → TL) (l : List (Text × Ty)) : Nat := l.foldl (fun a f => max a (tl f.2).size) 0

/-- The type `My{name}` of the layout test, `#[repr(C)]` with the declared fields in the declared order:
macroslib/src/cpp/cpp_code.rs:296-306, 333-335. -/
def reprC (tl : Ty → TL) (d : Decl Ty) : UserTy Ty :=
  match d.kind with
  | .struct => ⟨roundUp (placeEnd tl 0 d.fields) (alignOf tl d.fields), alignOf tl d.fields, place tl 0 d.fields⟩
  | .union => ⟨roundUp (maxSize tl d.fields) (alignOf tl d.fields), alignOf tl d.fields, d.fields.map fun f => (f.1, f.2, 0)⟩

/-- The members written to the C header, each with the C type found for its Rust type; an unmapped type is an error:
macroslib/src/cpp/cpp_code.rs:317-333. -/
def headerFields (cty : Ty → Option CTy) : List (Text × Ty) → Option (List (Text × CTy))
  | [] => some []
  | (n, t) :: l => match cty t, headerFields cty l with
    | some c, some r => some ((n, c) :: r)
    | _, _ => none

/-- One check of the layout test. -/
inductive Check (Ty : Type)
  | sameSize
  | sameAlign
  /-- `check_…_type_fn`: must compile -/
  | fieldType (name : Text) (ty : Ty)
  | sameOffset (name : Text)

/-- The checks for the fields: macroslib/src/cpp/cpp_code.rs:337-354. -/
def fieldChecks : List (Text × Ty) → List (Check Ty)
  | [] => []
  | (n, t) :: l => .fieldType n t :: .sameOffset n :: fieldChecks l

/-- The layout test: macroslib/src/cpp/cpp_code.rs:296-371. -/
def layoutTest (d : Decl Ty) : List (Check Ty) := .sameSize :: .sameAlign :: fieldChecks d.fields

/-- The member called `n`. -/
def UserTy.field (u : UserTy Ty) (n : Text) : Option (Ty × Nat) := (u.fields.find? fun f => f.1 = n).map (·.2)

/-- A check compiles and passes, comparing `our` (`My{name}`) and the user's type.  `check_…_type_fn` returns
`&s.field` as `&T`, and the offset is taken from `&s.field as *const T`: together they compile only if the member has the
type `T`. -/
def Check.passes [DecidableEq Ty] (our user : UserTy Ty) : Check Ty → Bool
  | .sameSize => our.size = user.size
  | .sameAlign => our.align = user.align
  | .fieldType n t => match user.field n with
    | some (t', _) => t' = t
    | none => false
  | .sameOffset n => match our.field n, user.field n with
    | some (_, a), some (_, b) => a = b
    | _, _ => false

/-- The whole test compiles and passes. -/
def testPasses [DecidableEq Ty] (tl : Ty → TL) (d : Decl Ty) (user : UserTy Ty) : Bool :=
  (layoutTest d).all (Check.passes (reprC tl d) user)

/-- How the C items of a rule are merged: macroslib/src/cpp/mod.rs (`MergeCItemsFlags`). -/
inductive Merge
  | defineOnlyCItem
  | defineAlsoRustType
deriving DecidableEq

/-- What goes into the Rust output: the layout test, or the type itself: macroslib/src/cpp/cpp_code.rs:372-382. -/
inductive RustOut (Ty : Type)
  | test (checks : List (Check Ty))
  | item (d : Decl Ty)

/-- macroslib/src/cpp/cpp_code.rs:372-382. -/
def rustOut (f : Merge) (d : Decl Ty) : RustOut Ty :=
  match f with
  | .defineOnlyCItem => .test (layoutTest d)
  | .defineAlsoRustType => .item d

end Flapi.Layout
