import Verif.Base.Text
/-!
# Slices of Rust objects and their iterators in C++ (model)

Addresses, sizes and differences are machine words of `w` bits; pointer arithmetic is done on the byte address as the generated machine code does
it.  `w` is left open (32 and 64 are the ones in use).
-/
namespace Flapi.SliceIter
variable {w : Nat}

/-- `RustForeignSliceIterator`: macroslib/src/cpp/rust_foreign_slice_iter.hpp:7-131. -/
structure Iter (w : Nat) where
  ptr : BitVec w
  step : BitVec w
  deriving DecidableEq, Repr

/-- `operator*` gives a wrapper around this address: macroslib/src/cpp/rust_foreign_slice_iter.hpp:32-36. -/
def Iter.deref (it : Iter w) : BitVec w := it.ptr

/-- `operator++`: macroslib/src/cpp/rust_foreign_slice_iter.hpp:38-42. -/
def Iter.inc (it : Iter w) : Iter w := ⟨it.ptr + it.step, it.step⟩

/-- `operator--`: macroslib/src/cpp/rust_foreign_slice_iter.hpp:49-53. -/
def Iter.dec (it : Iter w) : Iter w := ⟨it.ptr - it.step, it.step⟩

/-- A `ptrdiff_t` argument, multiplied with the unsigned `step`: macroslib/src/cpp/rust_foreign_slice_iter.hpp:61, 68, 74, 80, 86.  The usual arithmetic
conversions make the factor unsigned, the product is modular. -/
def scaled (n : Int) (step : BitVec w) : BitVec w := BitVec.ofInt w n * step

/-- `operator[]` (the address): macroslib/src/cpp/rust_foreign_slice_iter.hpp:59-64.  In the source the last cast is from `const uint8_t *`, which a C++ compiler
refuses when the member is instantiated; the address is what it would be. -/
def Iter.at (it : Iter w) (n : Int) : BitVec w := it.ptr + scaled n it.step

/-- `operator+=`: macroslib/src/cpp/rust_foreign_slice_iter.hpp:66-70. -/
def Iter.addAssign (it : Iter w) (n : Int) : Iter w := ⟨it.ptr + scaled n it.step, it.step⟩

/-- `operator+`: macroslib/src/cpp/rust_foreign_slice_iter.hpp:72-76. -/
def Iter.add (it : Iter w) (n : Int) : Iter w := ⟨it.ptr + scaled n it.step, it.step⟩

/-- `operator-=`: macroslib/src/cpp/rust_foreign_slice_iter.hpp:78-82. -/
def Iter.subAssign (it : Iter w) (n : Int) : Iter w := ⟨it.ptr - scaled n it.step, it.step⟩

/-- `operator-(ptrdiff_t)`: macroslib/src/cpp/rust_foreign_slice_iter.hpp:84-88. -/
def Iter.sub (it : Iter w) (n : Int) : Iter w := ⟨it.ptr - scaled n it.step, it.step⟩

/-- `operator-(iterator)`: macroslib/src/cpp/rust_foreign_slice_iter.hpp:90-102.  `diff / step` divides a `ptrdiff_t` by an unsigned word: the division is unsigned,
its result is converted to `ptrdiff_t`. -/
def Iter.diff (a b : Iter w) : Int :=
  let d : BitVec w := a.ptr - b.ptr
  if d ≠ 0 then (BitVec.udiv d a.step).toInt else 0

/-- Comparisons: macroslib/src/cpp/rust_foreign_slice_iter.hpp:104-125. -/
def Iter.lt (a b : Iter w) : Bool := BitVec.ult a.ptr b.ptr
def Iter.gt (a b : Iter w) : Bool := BitVec.ult b.ptr a.ptr
def Iter.le (a b : Iter w) : Bool := !a.gt b
def Iter.ge (a b : Iter w) : Bool := !a.lt b
def Iter.eq (a b : Iter w) : Bool := a.ptr == b.ptr
def Iter.ne (a b : Iter w) : Bool := !a.eq b

/-- `RustForeignSlice`: macroslib/src/cpp/rust_foreign_slice_impl.hpp:7-75; `RustForeignVec` has the same accessors with `ELEM_SIZE` in the place of
`step`: macroslib/src/cpp/rust_foreign_vec_impl.hpp:50-109. -/
structure Slice (w : Nat) where
  data : BitVec w
  len : BitVec w
  step : BitVec w
  deriving DecidableEq, Repr

/-- The C struct made of a Rust slice at `base` with elements of `sz` bytes: macroslib/src/cpp/cpp-include.rs:721-727, 814-820. -/
def Slice.ofRust (base len sz : Nat) : Slice w := ⟨BitVec.ofNat w base, BitVec.ofNat w len, BitVec.ofNat w sz⟩

/-- `reset`: macroslib/src/cpp/rust_foreign_slice_impl.hpp:69-74. -/
def Slice.reset : Slice w := ⟨0, 0, 0⟩

/-- `begin`: macroslib/src/cpp/rust_foreign_slice_impl.hpp:50-52. -/
def Slice.begin (s : Slice w) : Iter w := ⟨s.data, s.step⟩

/-- `end`: macroslib/src/cpp/rust_foreign_slice_impl.hpp:54-66. -/
def Slice.end (s : Slice w) : Iter w := ⟨s.data + s.step * s.len, s.step⟩

/-- `size`, `empty`: macroslib/src/cpp/rust_foreign_slice_impl.hpp:40-41. -/
def Slice.size (s : Slice w) : Nat := s.len.toNat
def Slice.isEmpty (s : Slice w) : Bool := s.len == 0

/-- `operator[]`, the address; `none`: the assertion fails: macroslib/src/cpp/rust_foreign_slice_impl.hpp:42-49. -/
def Slice.index (s : Slice w) (i : BitVec w) : Option (BitVec w) := if BitVec.ult i s.len then some (s.data + s.step * i) else none

/-- Move construction and assignment `x = std::move(y)` among named slices: the fields are copied, then the source is reset:
macroslib/src/cpp/rust_foreign_slice_impl.hpp:24-38. -/
def moveAssign (f : Nat → Slice w) (x y : Nat) : Nat → Slice w := fun z => if z = y then Slice.reset else if z = x then f y else f z

/-- The addresses a loop `for (auto it = begin; it != end; ++it)` visits; `none`: more than `fuel` rounds. -/
def loop : Nat → Iter w → Iter w → Option (List (BitVec w))
  | 0, _, _ => none
  | fuel + 1, it, e => if it.ne e then (loop fuel it.inc e).map (it.deref :: ·) else some []

end Flapi.SliceIter
