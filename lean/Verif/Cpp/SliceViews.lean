/-!
# C++ views of Rust slices (model)

Three classes hand a Rust slice to C++ and back: `RustSlice` (numbers and other plain C data), `RustSliceAccess` (elements reached through a
Rust function) and `RustForeignSlice` (objects of foreign classes).  They do not own the elements.
-/
namespace Flapi.SliceViews

/-- A pointer into a Rust buffer: the buffer and the element. -/
structure Ptr where
  buf : Nat
  off : Nat
deriving DecidableEq

/-- A Rust slice: first element and length.  The pointer of a Rust slice is never null. -/
structure Slice where
  ptr : Ptr
  len : Nat
deriving DecidableEq

/-- The fields of a view and of the C struct it is made from; `none` is `nullptr`. -/
structure View where
  data : Option Ptr
  len : Nat
deriving DecidableEq

/-- The families of views. -/
inductive Kind where
  /-- `RustSlice<const T>`: macroslib/src/cpp/cpp-include.rs:830-861 -/
  | plain
  /-- `RustSlice<T>`: macroslib/src/cpp/cpp-include.rs:863-894 -/
  | plainMut
  /-- `RustForeignSliceConst`: macroslib/src/cpp/cpp-include.rs:720-735 -/
  | object
  /-- `RustForeignSliceMut`: macroslib/src/cpp/cpp-include.rs:813-828 -/
  | objectMut
deriving DecidableEq

/-- Rust to C++, Rust half and C++ half: the C struct gets `as_ptr()` (or `as_mut_ptr()`) and `len()`, the view copies both fields:
macroslib/src/cpp/cpp-include.rs:721-727, 731-732, 814-820, 824-825, 847-852, 857-858, 880-885, 890-891;
macroslib/src/cpp/rust_slice_tmpl.hpp:13-17, macroslib/src/cpp/rust_foreign_slice_impl.hpp:16-21, macroslib/src/cpp/rust_slice_access.hpp:14-18. -/
def ofRust (s : Slice) : View := ⟨some s.ptr, s.len⟩

/-- `reset`: macroslib/src/cpp/rust_slice_tmpl.hpp:52-56, macroslib/src/cpp/rust_foreign_slice_impl.hpp:69-74,
macroslib/src/cpp/rust_slice_access.hpp:44-48. -/
def nullView : View := ⟨none, 0⟩

/-- What the conversion back to a Rust slice does. -/
inductive Res where
  /-- the slice -/
  | ok (s : Slice)
  /-- `assert!` fails -/
  | panic
  /-- `from_raw_parts` gets arguments it forbids: a null pointer, or elements that are not (all) in a live buffer -/
  | ub
deriving DecidableEq

/-- The live Rust buffers, with their lengths. -/
abbrev Heap := Nat → Option Nat

/-- All elements of the slice exist. -/
def inside (h : Heap) (s : Slice) : Bool :=
  match h s.ptr.buf with
  | some n => s.ptr.off + s.len ≤ n
  | none => false

/-- `std::slice::from_raw_parts(_mut)` with the rules of its documentation (an empty slice needs a non-null pointer too).  Simplification: an empty
slice of a buffer that is gone is counted as forbidden as well. -/
def fromRawParts (h : Heap) (v : View) : Res :=
  match v.data with
  | none => .ub
  | some p => if inside h ⟨p, v.len⟩ then .ok ⟨p, v.len⟩ else .ub

/-- C++ to Rust: the view gives its two fields (`as_c`, or slicing to the C struct), Rust checks and rebuilds the slice:
macroslib/src/cpp/cpp-include.rs:728-730, 733-734, 821-823, 826-827, 853-856, 859-860, 886-889, 892-893;
macroslib/src/cpp/rust_slice_tmpl.hpp:43-46. -/
def toRust (h : Heap) (k : Kind) (v : View) : Res :=
  match k with
  | .plain | .plainMut => if v.len = 0 ∨ v.data ≠ none then fromRawParts h v else .panic
  | .object | .objectMut => fromRawParts h v

/-- `operator[]`: the element read; the assertion of the object views (nothing in release builds) stops an index that is too large:
macroslib/src/cpp/rust_slice_tmpl.hpp:37-38, macroslib/src/cpp/rust_foreign_slice_impl.hpp:42-49, macroslib/src/cpp/rust_slice_access.hpp:37-41. -/
def at? (ndebug : Bool) (k : Kind) (v : View) (i : Nat) : Option (Option Ptr) :=
  if !ndebug && (k == .object || k == .objectMut) && !(i < v.len) then none
  else some (v.data.map fun p => ⟨p.buf, p.off + i⟩)

/-- The elements an iteration from `begin()` to `end()` visits: macroslib/src/cpp/rust_slice_tmpl.hpp:39-42. -/
def elements (v : View) : List Ptr :=
  match v.data with
  | none => []
  | some p => (List.range v.len).map fun i => ⟨p.buf, p.off + i⟩

/-- A program state: the C++ variables that hold a view, the live Rust buffers, and (ghost) all slices Rust has handed out. -/
structure State where
  vars : Nat → Option View
  heap : Heap
  handed : List Slice

/-- Set one variable. -/
def put (f : Nat → Option View) (x : Nat) (v : Option View) : Nat → Option View := fun y => if y = x then v else f y

/-- What a program can do with the views of one family. -/
inductive Op where
  /-- Rust makes a buffer -/
  | alloc (b n : Nat)
  /-- Rust frees a buffer -/
  | free (b : Nat)
  /-- a Rust function returns a slice, which initialises the variable -/
  | receive (x : Nat) (s : Slice)
  /-- default construction: macroslib/src/cpp/rust_foreign_slice_impl.hpp:15, macroslib/src/cpp/rust_slice_access.hpp:13 -/
  | new (x : Nat)
  /-- move construction: macroslib/src/cpp/rust_slice_tmpl.hpp:20-26, macroslib/src/cpp/rust_foreign_slice_impl.hpp:24-30,
  macroslib/src/cpp/rust_slice_access.hpp:21-26 -/
  | moveNew (x y : Nat)
  /-- move assignment: macroslib/src/cpp/rust_slice_tmpl.hpp:27-34, macroslib/src/cpp/rust_foreign_slice_impl.hpp:31-38,
  macroslib/src/cpp/rust_slice_access.hpp:27-33 -/
  | moveAssign (x y : Nat)
  /-- end of life: nothing is freed -/
  | drop (x : Nat)

/-- One step; `none`: not a program (a variable that does not exist, a name already in use, a slice of no live buffer).
In both moves the fields are copied first and the source is reset afterwards. -/
def step (st : State) : Op → Option State
  | .alloc b n => if st.heap b = none then some { st with heap := fun c => if c = b then some n else st.heap c } else none
  | .free b => some { st with heap := fun c => if c = b then none else st.heap c }
  | .receive x s =>
    if st.vars x = none ∧ inside st.heap s then some { st with vars := put st.vars x (some (ofRust s)), handed := st.handed ++ [s] } else none
  | .new x => if st.vars x = none then some { st with vars := put st.vars x (some nullView) } else none
  | .moveNew x y =>
    match st.vars x, st.vars y with
    | none, some v => some { st with vars := put (put st.vars x (some v)) y (some nullView) }
    | _, _ => none
  | .moveAssign x y =>
    match st.vars x, st.vars y with
    | some _, some v => some { st with vars := put (put st.vars x (some v)) y (some nullView) }
    | _, _ => none
  | .drop x => some { st with vars := put st.vars x none }

/-- Several steps. -/
def run : State → List Op → Option State
  | st, [] => some st
  | st, o :: os => (step st o).bind fun s => run s os

/-- The beginning. -/
def init : State := ⟨fun _ => none, fun _ => none, []⟩

/-- Whether the pointers of the struct, and the expression that fills it, are `*mut`: macroslib/src/cpp/cpp-include.rs:656-660 and 722-723, 689-693 and
815-816, 836-839 and 848-849, 869-872 and 881-882. -/
def fieldMut : Kind → Bool
  | .plain => false
  | .plainMut => true
  | .object => false
  | .objectMut => true
/-- The expression that fills the field. -/
def exprMut : Kind → Bool
  | .plain => false
  | .plainMut => true
  | .object => false
  | .objectMut => false

end Flapi.SliceViews
