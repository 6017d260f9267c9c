import Verif.Base.Replace
/-!
# Names of the C structs made for generic rules (model)

Each use of a generic rule (`Option<T>`, `(T1, T2)`, `Vec<T>`, …) needs C types of its own: their names are put together by `swig_concat_idents!` from
a keyword and the texts of the types of the parts, and a C type is written to its header only if none with that name is there.
-/
namespace Flapi.Alias

/-- Types used at the C level that are not made by a generic rule: macroslib/src/cpp/cpp-include.rs:3-96, 127, 412, 659, 794, 952 and
`c_void` behind pointers. -/
inductive Leaf where
  | i8 | u8 | i16 | u16 | i32 | u32 | i64 | u64 | isize | usize | f32 | f64
  | cChar | cShort | cUshort | cInt | cUint | cLong | cVoid
  | rustString | strView | objectSlice | objectMutSlice | foreignVec
  deriving DecidableEq, Repr

/-- Types with one parameter: pointers (macroslib/src/cpp/cpp-include.rs:260-268), `Option` (582), `Result<(), T>` (1085), slices (831, 864), `Vec` (897). -/
inductive Un where
  | constPtr | mutPtr | option | voidRes | slice | sliceMut | vec
  deriving DecidableEq, Repr

/-- Two parameters: macroslib/src/cpp/cpp-include.rs:295 and 1182. -/
inductive Bin where
  | pair | res
  deriving DecidableEq, Repr

/-- The type that stands for a Rust type at the C level (`swig_i_type!`). -/
inductive IT where
  | leaf (l : Leaf)
  /-- a type of the user's own, with `#[repr(C)]` -/
  | user (name : Text)
  | un (k : Un) (a : IT)
  | bin (k : Bin) (a b : IT)
  /-- macroslib/src/cpp/cpp-include.rs:326 -/
  | triple (a b c : IT)
  deriving DecidableEq, Repr

/-- `:: std :: os :: raw ::` -/
def osRaw : Text := [':', ':', ' ', 's', 't', 'd', ' ', ':', ':', ' ', 'o', 's', ' ', ':', ':', ' ', 'r', 'a', 'w', ' ', ':', ':']
/-- `std :: os :: raw ::` -/
def osRaw2 : Text := ['s', 't', 'd', ' ', ':', ':', ' ', 'o', 's', ' ', ':', ':', ' ', 'r', 'a', 'w', ' ', ':', ':']

/-- The text of a token stream (`DisplayToTokens`: macroslib/src/typemap/ast.rs:1055-1064) of a leaf. -/
def Leaf.text : Leaf → Text
  | .i8 => "i8".toList | .u8 => "u8".toList | .i16 => "i16".toList | .u16 => "u16".toList
  | .i32 => "i32".toList | .u32 => "u32".toList | .i64 => "i64".toList | .u64 => "u64".toList
  | .isize => "isize".toList | .usize => "usize".toList | .f32 => "f32".toList | .f64 => "f64".toList
  | .cChar => osRaw ++ " c_char".toList | .cShort => osRaw ++ " c_short".toList | .cUshort => osRaw ++ " c_ushort".toList
  | .cInt => osRaw ++ " c_int".toList | .cUint => osRaw ++ " c_uint".toList | .cLong => osRaw ++ " c_long".toList
  | .cVoid => osRaw ++ " c_void".toList
  | .rustString => "CRustString".toList | .strView => "CRustStrView".toList
  | .objectSlice => "CRustObjectSlice".toList | .objectMutSlice => "CRustObjectMutSlice".toList
  | .foreignVec => "CRustForeignVec".toList

def isAlnum (c : Char) : Bool := ('a' ≤ c ∧ c ≤ 'z') ∨ ('A' ≤ c ∧ c ≤ 'Z') ∨ ('0' ≤ c ∧ c ≤ '9')

/-- One character: itself if it can be part of a name, else its number: macroslib/src/typemap/typemap_macro.rs:597-603. -/
def escChar (c : Char) : Text := if isAlnum c ∨ c = '_' then [c] else dec c.toNat

/-- `properly_escape_str_as_type`: macroslib/src/typemap/typemap_macro.rs:592-605. -/
def escape (s : Text) : Text := (strReplace (strReplace s osRaw []) osRaw2 []).flatMap escChar

/-- Keyword of a generic rule: macroslib/src/cpp/cpp-include.rs:582, 831, 864, 897, 1085. Pointers are no aliases. -/
def Un.keyword : Un → Text
  | .constPtr => "* const ".toList
  | .mutPtr => "* mut ".toList
  | .option => "CRustOption".toList
  | .voidRes => "CRustVoidOkResult".toList
  | .slice => "CRustSlice".toList
  | .sliceMut => "CRustSliceMut".toList
  | .vec => "CRustVec".toList

/-- macroslib/src/cpp/cpp-include.rs:295, 1182. -/
def Bin.keyword : Bin → Text
  | .pair => "CRustPair".toList
  | .res => "CRustResult".toList

/-- The parts of a `swig_concat_idents!`: macroslib/src/typemap/typemap_macro.rs:607-613 (`Concat`, `Ident`; types already looked up and displayed). -/
def concatIdents (parts : List Text) : Text := parts.flatten

/-- The name of the alias: `concat_idents`, then `properly_escape_str_as_type`: macroslib/src/typemap/typemap_macro.rs:555-590, 615-646. -/
def aliasName (parts : List Text) : Text := escape (concatIdents parts)

/-- Text of a C-level type. -/
def IT.display : IT → Text
  | .leaf l => l.text
  | .user n => n
  | .un k a =>
    match k with
    | .constPtr => k.keyword ++ a.display
    | .mutPtr => k.keyword ++ a.display
    | _ => aliasName [k.keyword, a.display]
  | .bin k a b => aliasName [k.keyword, a.display, b.display]
  | .triple a b c => aliasName ["CRustTuple3".toList, a.display, b.display, c.display]

/-- The C struct a type is, if it is one made by a generic rule. -/
def IT.structName : IT → Option Text
  | .un .constPtr _ => none
  | .un .mutPtr _ => none
  | .leaf _ => none
  | .user _ => none
  | t => some t.display

/-- The C union that goes with it: macroslib/src/cpp/cpp-include.rs:583, 1086, 1183. -/
def IT.unionName : IT → Option Text
  | .un .option a => some (aliasName ["CRustOptionUnion".toList, a.display])
  | .un .voidRes a => some (aliasName ["CRustVoidOkResultUnion".toList, a.display])
  | .bin .res a b => some (aliasName ["CRustResultUnion".toList, a.display, b.display])
  | _ => none

/-- The fields of the struct, as texts of types: macroslib/src/cpp/cpp-include.rs:301-304, 332-336, 595-598, 835-839, 868-872, 904-909, 1099-1102,
1196-1199. -/
def IT.fields : IT → List Text
  | .un .option a => [aliasName ["CRustOptionUnion".toList, a.display], "u8".toList]
  | .un .voidRes a => [aliasName ["CRustVoidOkResultUnion".toList, a.display], "u8".toList]
  | .bin .res a b => [aliasName ["CRustResultUnion".toList, a.display, b.display], "u8".toList]
  | .bin .pair a b => [a.display, b.display]
  | .triple a b c => [a.display, b.display, c.display]
  | .un .slice a => ["* const ".toList ++ a.display, "usize".toList]
  | .un .sliceMut a => ["* mut ".toList ++ a.display, "usize".toList]
  | .un .vec a => ["* const ".toList ++ a.display, "usize".toList, "usize".toList]
  | _ => []

/-- `do_generate_c_type` for a struct, as far as names and fields go: macroslib/src/cpp/cpp_code.rs:279-296, 404 (nothing happens when an item of this
name is there already). -/
def genStruct (hdr : List (Text × List Text)) (t : IT) : List (Text × List Text) :=
  match t.structName with
  | none => hdr
  | some n => if hdr.any (fun d => d.1 = n) then hdr else hdr ++ [(n, t.fields)]

/-- All types used in a project, in any order. -/
def genAll (ts : List IT) : List (Text × List Text) := ts.foldl genStruct []

end Flapi.Alias
