import Verif.Cpp.Args
/-!
# The headers generated for classes and interfaces, and what a C++ compiler sees when some of them are included (model)
-/
namespace Flapi.HeaderGraph

open Flapi.Cpp (TypeInfo MethodSig Converter requiredIncludes classIncludes)

/-- What matters of a header line: an `#include`, with its argument as written; the declaration of a C++ class without its body
(`X_fwd.hpp`); the `typedef` of the opaque C type of a class; the C functions (or the C struct of callbacks) of an item; the body of
its C++ class; and the bodies of the member functions.  The marker `#pragma once` is in every header
(macroslib/src/cpp/fclass.rs:719, 743, 759, 1071, 1119, 1157, macroslib/src/cpp/finterface.rs:388, 551), so it is part of the preprocessor's rule. -/
inductive Item where
  | incl (what : Text)
  | decl (cls : Text)
  | typedef (cls : Text)
  | cfuns (unit : Text)
  | cls (unit : Text)
  | impl (unit : Text)
  deriving DecidableEq

/-- A type in a signature: what the generator knows of it, the generated C++ classes its C++ name mentions and the opaque C types its C
name mentions: macroslib/src/cpp/mod.rs:78-83. -/
structure Ty where
  info : TypeInfo
  cpp : List Text
  c : List Text

/-- The types of a method: macroslib/src/cpp/mod.rs:193-196. -/
structure Sig where
  input : List Ty
  output : Ty

/-- What `cpp_list_required_includes` sees of a signature: macroslib/src/cpp/cpp_code.rs:174-190. -/
def Sig.plain (s : Sig) : MethodSig := ⟨s.output.info, s.input.map (·.info)⟩

/-- The types of a signature. -/
def Sig.types (s : Sig) : List Ty := s.input ++ [s.output]

/-- A class or a callback interface with the signatures of its methods: macroslib/src/types.rs:15-23, 269-275.  `staticOnly`:
macroslib/src/cpp/fclass.rs:100-103. -/
structure Entity where
  name : Text
  iface : Bool
  staticOnly : Bool
  sigs : List Sig

/-- The C++ classes mentioned by an item. -/
def Entity.cppNames (u : Entity) : List Text := u.sigs.flatMap fun s => s.types.flatMap (·.cpp)

/-- The opaque C types mentioned by an item. -/
def Entity.cNames (u : Entity) : List Text := u.sigs.flatMap fun s => s.types.flatMap (·.c)

/-- `"X.hpp"`, with the quotes: macroslib/src/cpp/cpp_code.rs:158-160, macroslib/src/cpp/fclass.rs:63, macroslib/src/cpp/finterface.rs:612-614. -/
def hppName (x : Text) : Text := '"' :: (x ++ ".hpp\"".toList)

/-- `"c_X.h"`, with the quotes: macroslib/src/cpp/cpp_code.rs:162-164, macroslib/src/cpp/fclass.rs:64, macroslib/src/cpp/finterface.rs:608-610. -/
def chName (x : Text) : Text := "\"c_".toList ++ x ++ ".h\"".toList

/-- `"X_fwd.hpp"`: macroslib/src/cpp/fclass.rs:82. -/
def fwdName (x : Text) : Text := '"' :: (x ++ "_fwd.hpp\"".toList)

/-- `"X_impl.hpp"`: macroslib/src/cpp/fclass.rs:714. -/
def implName (x : Text) : Text := '"' :: (x ++ "_impl.hpp\"".toList)

/-- The type `X` of a class in a signature, by value or by reference: its own header is `"X.hpp"`
(macroslib/src/cpp/map_class_self_type.rs:259, 295, 323, 350, 384, 416) and the C pointer type it is converted through adds `"c_X.h"`
(macroslib/src/cpp/map_class_self_type.rs:93, 110, macroslib/src/cpp/mod.rs:160). -/
def classTy (x : Text) (typename cname : Text) (code : Flapi.Template.TypeConvCode) : Ty :=
  ⟨⟨cname, [hppName x, chName x], some ⟨typename, code⟩, false⟩, [x], [x]⟩

/-- The argument type `std::unique_ptr<I>` of an interface: macroslib/src/cpp/finterface.rs:98-103 with `"c_I.h"` of the C pointer type
(macroslib/src/cpp/finterface.rs:60-69, macroslib/src/cpp/mod.rs:160).  The C name is `const struct C_I * const`, which needs no declaration. -/
def ifaceTy (i : Text) (typename cname : Text) (code : Flapi.Template.TypeConvCode) : Ty :=
  ⟨⟨cname, [hppName i, "<memory>".toList, "<utility>".toList, chName i], some ⟨typename, code⟩, false⟩, [i], []⟩

/-- The includes of the C++ header of an item.  A class leaves out its own headers (macroslib/src/cpp/fclass.rs:62-65), an interface does
not (macroslib/src/cpp/finterface.rs:31). -/
def includesOf (u : Entity) : List Text :=
  if u.iface then requiredIncludes (u.sigs.map Sig.plain) else classIncludes u.name (u.sigs.map Sig.plain)

/-- The C++ header.  A class: macroslib/src/cpp/fclass.rs:1111-1192 (includes, own C header, class) and 705-739 (member functions, here
unless they get a header of their own).  An interface: macroslib/src/cpp/finterface.rs:543-597; its member functions are in the class body. -/
def hppFile (separate : Bool) (u : Entity) : List Item :=
  (includesOf u).map .incl ++ .incl (chName u.name) ::
    (if u.iface || !separate then [.cls u.name, .impl u.name] else [.cls u.name])

/-- The C header.  A class: macroslib/src/cpp/fclass.rs:1060-1096, and the prototypes.  An interface: macroslib/src/cpp/finterface.rs:385-400.
It includes no generated header. -/
def chFile (u : Entity) : List Item :=
  (if u.iface || u.staticOnly then [] else [.typedef u.name]) ++ [.cfuns u.name]

/-- All headers of one item with the names under which they can be included: macroslib/src/cpp/fclass.rs:78-83, 713-735, 741-772,
macroslib/src/cpp/finterface.rs:378-382. -/
def unitFiles (separate : Bool) (u : Entity) : List (Text × List Item) :=
  [(chName u.name, chFile u), (hppName u.name, hppFile separate u)] ++
    (if u.iface then [] else
      (fwdName u.name, [.decl u.name]) ::
        if separate then [(implName u.name, [.incl (hppName u.name), .impl u.name])] else [])

/-- All generated headers. -/
def files (separate : Bool) (us : List Entity) : List (Text × List Item) := us.flatMap (unitFiles separate)

/-- The contents of a header; `none` for headers that are not generated from an item (`<memory>`, the fixed support headers). -/
def content (fs : List (Text × List Item)) (n : Text) : Option (List Item) := (fs.find? (·.1 = n)).map (·.2)

/-- `true` for `#include` lines. -/
def Item.isInclude : Item → Bool
  | .incl _ => true
  | _ => false

/-- What the C++ preprocessor makes of some lines, with the headers seen so far: an `#include` of a header seen before (all have
`#pragma once`) or of a foreign header gives nothing, otherwise the expansion of its contents. -/
inductive Pre (fs : List (Text × List Item)) : List Item → List Text → List Item → List Text → Prop where
  | nil (v : List Text) : Pre fs [] v [] v
  | keep {i : Item} {is : List Item} {v out v' : _} : i.isInclude = false → Pre fs is v out v' → Pre fs (i :: is) v (i :: out) v'
  | foreign {n : Text} {is : List Item} {v out v' : _} : content fs n = none → Pre fs is v out v' → Pre fs (.incl n :: is) v out v'
  | seen {n : Text} {is : List Item} {v out v' : _} : n ∈ v → Pre fs is v out v' → Pre fs (.incl n :: is) v out v'
  | enter {n : Text} {is body : List Item} {v o1 v1 o2 v2 : _} : n ∉ v → content fs n = some body → Pre fs body (n :: v) o1 v1 →
      Pre fs is v1 o2 v2 → Pre fs (.incl n :: is) v (o1 ++ o2) v2

/-- The same as a function, for examples; the number bounds the steps. -/
def runPre (fs : List (Text × List Item)) : Nat → List Item → List Text → Option (List Item × List Text)
  | _, [], v => some ([], v)
  | 0, _ :: _, _ => none
  | k + 1, .incl n :: is, v =>
    match content fs n with
    | none => runPre fs k is v
    | some body =>
      if n ∈ v then runPre fs k is v
      else do
        let (o1, v1) ← runPre fs k body (n :: v)
        let (o2, v2) ← runPre fs k is v1
        some (o1 ++ o2, v2)
  | k + 1, i :: is, v => do
    let (o, v') ← runPre fs k is v
    some (i :: o, v')

end Flapi.HeaderGraph
