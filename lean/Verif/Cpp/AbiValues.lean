/-!
# Values that cross the C ABI: options, results, pairs, triples and what they hold (model)

macroslib/src/cpp/cpp-include.rs: the rules for `bool`, `&str`, `Option<T>`, `Result<(), T>`, `Result<T1, T2>`, `(T1, T2)` and `(T1, T2, T3)`, each
with four pieces of code: Rust value to C value, C value to Rust value, C value to C++ value and C++ value to C value.  The rules call each other for
their parts (`swig_from_rust_to_i_type!` and so on): here that is recursion over the type.
-/
namespace Flapi.Abi

/-- Numbers: macroslib/src/cpp/cpp-include.rs:3-96. -/
inductive Num where
  | i8 | u8 | i16 | u16 | i32 | u32 | i64 | u64 | isize | usize | f32 | f64
  | cChar | cShort | cUshort | cInt | cUint | cLong
  deriving DecidableEq, Repr

/-- The Rust types the rules are about. `enum e n`: a foreign enum `e` of `n` items; `cls c`: a foreign class. -/
inductive Ty where
  | num (k : Num)
  | bool
  | enum (e n : Nat)
  | cls (c : Nat)
  | str
  | pair (a b : Ty)
  | triple (a b c : Ty)
  | opt (a : Ty)
  /-- `Result<(), E>` -/
  | voidRes (e : Ty)
  | res (a e : Ty)
  deriving DecidableEq, Repr

/-- Rust values. -/
inductive RVal where
  | num (n : Int)
  | bool (b : Bool)
  | enum (i : Nat)
  /-- object number `o` -/
  | obj (o : Nat)
  | str (s : String)
  | pair (a b : RVal)
  | triple (a b c : RVal)
  | none
  | some (a : RVal)
  | okUnit
  | ok (a : RVal)
  | err (a : RVal)
  deriving DecidableEq

/-- What goes through the C function call. -/
inductive CVal where
  /-- an integer of any kind -/
  | num (n : Int)
  /-- pointer to object number `o` -/
  | ptr (o : Nat)
  /-- `CRustStrView`: the bytes `data` points to, `none` = null pointer (of length 0) -/
  | view (data : Option ByteArray)
  | struct2 (a b : CVal)
  | struct3 (a b c : CVal)
  /-- a union whose member number `m` was written -/
  | union (m : Nat) (v : CVal)
  /-- memory nobody wrote -/
  | uninit
  deriving DecidableEq

/-- Canonical C++ types (typedefs resolved as on 64 bit Linux: `int64_t`, `intptr_t` and `long` are one type). -/
inductive CppTy where
  | schar | uchar | char | short | ushort | int | uint | long | ulong | float | double | bool
  | enum (e : Nat)
  | cls (c : Nat)
  | stringView
  | pair (a b : CppTy)
  | tuple (a b c : CppTy)
  | optional (a : CppTy)
  | variant (a b : CppTy)
  deriving DecidableEq, Repr

/-- C++ values. -/
inductive XVal where
  | num (n : Int)
  | bool (b : Bool)
  | enum (i : Nat)
  | obj (o : Nat)
  /-- `string_view`; `none` = default constructed, data() is null -/
  | view (data : Option ByteArray)
  | pair (a b : XVal)
  | tuple (a b c : XVal)
  | nullopt
  | just (a : XVal)
  /-- a variant that holds a value of type `t` -/
  | variant (t : CppTy) (v : XVal)
  deriving DecidableEq

/-- C++ type of a number: macroslib/src/cpp/cpp-include.rs:3-96. -/
def Num.cpp : Num → CppTy
  | .i8 => .schar | .u8 => .uchar | .i16 => .short | .u16 => .ushort | .i32 => .int | .u32 => .uint
  | .i64 => .long | .u64 => .ulong | .isize => .long | .usize => .ulong | .f32 => .float | .f64 => .double
  | .cChar => .char | .cShort => .short | .cUshort => .ushort | .cInt => .int | .cUint => .uint | .cLong => .long

/-- `swig_f_type!`: macroslib/src/cpp/cpp-include.rs:319, 354, 371, 396, 624, 1126, 1220. -/
def Ty.cpp : Ty → CppTy
  | .num k => k.cpp
  | .bool => .bool
  | .enum e _ => .enum e
  | .cls c => .cls c
  | .str => .stringView
  | .pair a b => .pair a.cpp b.cpp
  | .triple a b c => .tuple a.cpp b.cpp c.cpp
  | .opt a => .optional a.cpp
  | .voidRes e => .optional e.cpp
  | .res a e => .variant a.cpp e.cpp

/-- The member of a union: the one written, else undefined behaviour. -/
def CVal.member (m : Nat) : CVal → Option CVal
  | .union m' v => if m' = m then .some v else .none
  | _ => .none

/-- Rust to C: macroslib/src/cpp/cpp-include.rs:306-313 (pair), 338-347 (triple), 367-369 (bool), 386-388 (`&str`), 600-614 (`Option`), 1104-1121
(`Result<(), T>`), 1201-1219 (`Result`), 238-242 (enum).  `none`: the value does not have the type. -/
def rustToC : Ty → RVal → Option CVal
  | .num _, .num n => .some (.num n)
  | .bool, .bool b => .some (.num (if b then 1 else 0))
  | .enum _ n, .enum i => if i < n then .some (.num i) else .none
  | .cls _, .obj o => .some (.ptr o)
  | .str, .str s => .some (.view (.some s.toUTF8))
  | .pair a b, .pair x y =>
    (rustToC a x).bind fun first => (rustToC b y).bind fun second => .some (.struct2 first second)
  | .triple a b c, .triple x y z =>
    (rustToC a x).bind fun first => (rustToC b y).bind fun second => (rustToC c z).bind fun third => .some (.struct3 first second third)
  | .opt a, .some x => (rustToC a x).bind fun data => .some (.struct2 (.union 0 data) (.num 1))
  | .opt _, .none => .some (.struct2 (.union 1 (.num 0)) (.num 0))
  | .voidRes _, .okUnit => .some (.struct2 (.union 0 (.num 0)) (.num 1))
  | .voidRes e, .err x => (rustToC e x).bind fun err => .some (.struct2 (.union 1 err) (.num 0))
  | .res a _, .ok x => (rustToC a x).bind fun ok => .some (.struct2 (.union 0 ok) (.num 1))
  | .res _ e, .err x => (rustToC e x).bind fun err => .some (.struct2 (.union 1 err) (.num 0))
  | _, _ => .none

/-- C to Rust: macroslib/src/cpp/cpp-include.rs:314-318, 348-353, 371-374, 389-394, 615-622, 1136-1145, 1230-1240, 244-248 (an enum out of range
panics).  `none`: undefined behaviour or panic. -/
def cToRust : Ty → CVal → Option RVal
  | .num _, .num n => .some (.num n)
  | .bool, .num n => .some (.bool (decide (n ≠ 0)))
  | .enum _ n, .num i => if 0 ≤ i ∧ i < n then .some (.enum i.toNat) else .none
  | .cls _, .ptr o => .some (.obj o)
  -- `from_raw_parts` and `from_utf8_unchecked`: a null pointer and bytes that are not UTF-8 are undefined behaviour
  | .str, .view data => data.bind fun bytes => (String.fromUTF8? bytes).bind fun s => .some (.str s)
  | .pair a b, .struct2 first second => (cToRust a first).bind fun p0 => (cToRust b second).bind fun p1 => .some (.pair p0 p1)
  | .triple a b c, .struct3 first second third =>
    (cToRust a first).bind fun p0 => (cToRust b second).bind fun p1 => (cToRust c third).bind fun p2 => .some (.triple p0 p1 p2)
  | .opt a, .struct2 val (.num isSome) =>
    if isSome ≠ 0 then (val.member 0).bind fun data => (cToRust a data).bind fun ret => .some (.some ret) else .some .none
  | .voidRes e, .struct2 data (.num isOk) =>
    if isOk ≠ 0 then .some .okUnit else (data.member 1).bind fun err => (cToRust e err).bind fun x => .some (.err x)
  | .res a e, .struct2 data (.num isOk) =>
    if isOk ≠ 0 then (data.member 0).bind fun ok => (cToRust a ok).bind fun x => .some (.ok x)
    else (data.member 1).bind fun err => (cToRust e err).bind fun x => .some (.err x)
  | _, _ => .none

/-- `std::variant<A, B> { value of type t }`: the alternative of that type; ill-formed when the two types are the same. -/
def mkVariant (a b t : CppTy) (v : XVal) : Option XVal := if a = b then .none else .some (.variant t v)

/-- C to C++: macroslib/src/cpp/cpp-include.rs:319-320, 354-357, 371, 396-397, 402-403, 624-625, 638-639, 1122-1134, 1220-1228, macroslib/src/cpp/fenum.rs:61.
`none`: undefined behaviour, or the C++ code is ill-formed. -/
def cToCpp : Ty → CVal → Option XVal
  | .num _, .num n => .some (.num n)
  | .bool, .num n => .some (.bool (decide (n ≠ 0)))
  | .enum _ _, .num i => .some (.enum i.toNat)
  | .cls _, .ptr o => .some (.obj o)
  | .str, .view data => .some (.view data)
  | .pair a b, .struct2 first second => (cToCpp a first).bind fun x => (cToCpp b second).bind fun y => .some (.pair x y)
  | .triple a b c, .struct3 first second third =>
    (cToCpp a first).bind fun x => (cToCpp b second).bind fun y => (cToCpp c third).bind fun z => .some (.tuple x y z)
  | .opt a, .struct2 val (.num isSome) =>
    if isSome ≠ 0 then (val.member 0).bind fun data => (cToCpp a data).bind fun x => .some (.just x) else .some .nullopt
  | .voidRes e, .struct2 data (.num isOk) =>
    if isOk ≠ 0 then .some .nullopt else (data.member 1).bind fun err => (cToCpp e err).bind fun x => .some (.just x)
  | .res a e, .struct2 data (.num isOk) =>
    if isOk ≠ 0 then (data.member 0).bind fun ok => (cToCpp a ok).bind fun x => mkVariant a.cpp e.cpp a.cpp x
    else (data.member 1).bind fun err => (cToCpp e err).bind fun x => mkVariant a.cpp e.cpp e.cpp x
  | _, _ => .none

/-- C++ to C: macroslib/src/cpp/cpp-include.rs:321-322, 358-363, 374, 398-399, 404, 626-636, 640-650, 1147-1178, 1242-1276, macroslib/src/cpp/fenum.rs:75.
`none`: undefined behaviour, or the C++ code is ill-formed: `std::tuple` has no members `first`, `second`, `third`; `std::get_if<T>` needs the
alternatives to be different types. -/
def cppToC : Ty → XVal → Option CVal
  | .num _, .num n => .some (.num n)
  | .bool, .bool b => .some (.num (if b then 1 else 0))
  | .enum _ _, .enum i => .some (.num i)
  | .cls _, .obj o => .some (.ptr o)
  | .str, .view data => .some (.view data)
  | .pair a b, .pair x y => (cppToC a x).bind fun first => (cppToC b y).bind fun second => .some (.struct2 first second)
  | .triple _ _ _, .tuple _ _ _ => .none
  | .opt a, .just x => (cppToC a x).bind fun data => .some (.struct2 (.union 0 data) (.num 1))
  | .opt _, .nullopt => .some (.struct2 .uninit (.num 0))
  | .voidRes _, .nullopt => .some (.struct2 .uninit (.num 1))
  | .voidRes e, .just x => (cppToC e x).bind fun err => .some (.struct2 (.union 1 err) (.num 0))
  | .res a e, .variant t x =>
    if a.cpp = e.cpp then .none
    else if t = a.cpp then (cppToC a x).bind fun ok => .some (.struct2 (.union 0 ok) (.num 1))
    else (cppToC e x).bind fun err => .some (.struct2 (.union 1 err) (.num 0))
  | _, _ => .none

/-- A pointer to a class wrapper as `Option<&T>`: `($p != nullptr) ? static_cast<Opaque *>(*$p) : nullptr`, then `if !p.is_null() { Some } else { None }`:
macroslib/src/cpp/cpp-include.rs:545-555, 568-578.  The argument: null, or a wrapper, whose `self_` may be null. -/
def optRefIn (p : Option (Option Nat)) : Option Nat :=
  match p with
  | some self => self
  | none => none

end Flapi.Abi
