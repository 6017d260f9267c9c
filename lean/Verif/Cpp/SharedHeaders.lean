import Verif.Base.Replace
/-!
# C items and foreign code in shared C++ headers (model)

Several conversion rules, and several instances of generic rules, write into the same header files.  Declaring one C item
maps the types of its fields or parameters, and mapping a type may instantiate further rules, i.e. write further items and
code before the first one is finished.  What happens during one such mapping is a tree (`Use`); theorems quantify over all
trees, so nothing is assumed about which rules exist or which of them apply.

Texts are written as chunks; `Chunk.text` says what a chunk looks like in the file.  Error texts and spans are dropped: an
error ends the generation (`none`).  The iteration order of the hash set of include files is the arbitrary function `ord`.
-/
namespace Flapi.Headers
open Flapi

mutual
/-- Something that writes into a header: macroslib/src/cpp/mod.rs:503-528 and 555-570. -/
inductive Op where
  /-- `merge_c_types`; `also`: `MergeCItemsFlags::DefineAlsoRustType` -/
  | merge (h : Text) (also : Bool) (items : Items)
  /-- one `ForeignCode`, `sel`: its option is the configured one (or it has none); the text is before the replacement of the
  namespace -/
  | code (m : Text) (sel : Bool) (t : Text)
/-- A sequence of such steps. -/
inductive Ops where
  | nil
  | cons (o : Op) (r : Ops)
/-- `CItem`: macroslib/src/typemap/typemap_macro.rs:62-67. -/
inductive Item where
  /-- a structure or union; `wf`: its fields have names -/
  | ty (union : Bool) (name : Text) (wf : Bool) (fs : Fields)
  /-- a function; `wf`: its parameters can be parsed and there is no `self` -/
  | fn (name : Text) (wf : Bool) (ret : Ret) (args : Fields)
  | static (name : Text) (u : Use)
/-- `CItems::items`. -/
inductive Items where
  | nil
  | cons (i : Item) (r : Items)
/-- Named fields or parameters. -/
inductive Fields where
  | nil
  | cons (name : Text) (u : Use) (r : Fields)
/-- A return type. -/
inductive Ret where
  | void
  | ty (u : Use)
/-- One call of `map_repr_c_type` (macroslib/src/cpp/map_type.rs:306-330): what it wrote on the way, whether it succeeded,
the C name it found and the modules that provide it. -/
inductive Use where
  | mk (nested : Ops) (ok : Bool) (cname : Text) (mods : List Text)
end

/-- A piece of a header. -/
inductive Chunk where
  /-- the beginning of every shared header -/
  | head
  | incl (m : Text)
  | openC
  | closeC
  /-- the declaration of an item -/
  | decl (id text : Text)
  /-- foreign code of a rule -/
  | code (text : Text)
deriving DecidableEq

/-- The text of a chunk: macroslib/src/cpp/mod.rs:13-24 and macroslib/src/cpp/cpp_code.rs:386-408; `w`: pointer width in bytes.
The header ends in blanks before its next piece, as in the code. -/
def Chunk.text (w : Text) : Chunk → Text
  | .head => "// Automatically generated by flapigen\n#pragma once\n\n//for (u)intX_t types\n#include <stdint.h>\n\n#ifdef __cplusplus\nstatic_assert(sizeof(uintptr_t) == sizeof(uint8_t) * ".toList ++ w ++
      ",\n   \"our conversion usize <-> uintptr_t is wrong\");\n#endif\n            ".toList
  | .incl m => "#include ".toList ++ m ++ "\n".toList
  | .openC => "\n#ifdef __cplusplus\nextern \"C\" {\n#endif\n".toList
  | .closeC => "\n#ifdef __cplusplus\n} // extern \"C\" {\n#endif\n".toList
  | .decl _ t => t
  | .code t => t

/-- `FileWriteCache` as used here: macroslib/src/file_cache.rs:12-20. -/
structure File where
  chunks : List Chunk
  defined : List Text

/-- What is added to the generated Rust code for a C item: macroslib/src/cpp/cpp_code.rs:223, 232, 371-381. -/
inductive RustOut where
  /-- the item itself -/
  | item (id : Text)
  /-- a test that the user's type has the layout written in the header -/
  | layoutTest (id : Text)
deriving DecidableEq

/-- The parts of `CppContext` involved: macroslib/src/cpp/mod.rs:303-314; `reg`: the C name of the foreign type known for a
Rust type of that name. -/
structure St where
  files : Text → Option File
  cache : List (Text × Text)
  rust : List RustOut
  reg : Text → Option Text

/-- The environment: namespace and hash order. -/
structure Cfg where
  ns : Text
  ord : List Text → List Text

/-- `file_for_module!`: macroslib/src/cpp/mod.rs:1-30. -/
def St.file (s : St) (h : Text) : File := (s.files h).getD ⟨[.head], []⟩

/-- Replace a file. -/
def St.setFile (s : St) (h : Text) (f : File) : St := { s with files := fun x => if x = h then some f else s.files x }

/-- `file_for_module!` followed by nothing. -/
def St.touch (s : St) (h : Text) : St := s.setFile h (s.file h)

/-- Writing to the file of a module. -/
def St.write (s : St) (h : Text) (cs : List Chunk) : St :=
  s.setFile h { s.file h with chunks := (s.file h).chunks ++ cs }

/-- `define_item`: macroslib/src/file_cache.rs:69-71. -/
def St.define (s : St) (h id : Text) : St := s.setFile h { s.file h with defined := id :: (s.file h).defined }

/-- `is_item_defined`: macroslib/src/file_cache.rs:74-76. -/
def St.isDefined (s : St) (h id : Text) : Bool := decide (id ∈ (s.file h).defined)

/-- `"struct "` or `"union "` and the name: macroslib/src/cpp/cpp_code.rs:288, macroslib/src/cpp/mod.rs:431. -/
def tyId (union : Bool) (name : Text) : Text := (if union then "union ".toList else "struct ".toList) ++ name
/-- macroslib/src/cpp/cpp_code.rs:217. -/
def fnId (name : Text) : Text := "fn ".toList ++ name
/-- macroslib/src/cpp/cpp_code.rs:227. -/
def staticId (name : Text) : Text := "static ".toList ++ name

/-- One item of `register_c_type`: macroslib/src/cpp/mod.rs:430-469. -/
def registerItem (s : St) (h : Text) : Item → Option St
  | .ty u name _ _ =>
    if s.isDefined h (tyId u name) then some s
    else
      match s.reg name with
      | some c => if c ≠ tyId u name then none else some s
      | none => some { s with reg := fun x => if x = name then some (tyId u name) else s.reg x }
  | _ => some s

/-- `register_c_type`: macroslib/src/cpp/mod.rs:424-471. -/
def registerItems (s : St) (h : Text) : Items → Option St
  | .nil => some s
  | .cons i r =>
    match registerItem s h i with
    | none => none
    | some s' => registerItems s' h r

/-- The include lines: macroslib/src/cpp/cpp_code.rs:386-390, 539-543. -/
def includeChunks (cfg : Cfg) (h : Text) (incs : List Text) : List Chunk :=
  ((cfg.ord incs).filter fun m => m ≠ "\"".toList ++ h ++ "\"".toList).map .incl

/-- One field line: macroslib/src/cpp/cpp_code.rs:334. -/
def fieldLine (f : Text × Text) : Text := "    ".toList ++ f.2 ++ " ".toList ++ f.1 ++ ";\n".toList

/-- The text of a structure or union: macroslib/src/cpp/cpp_code.rs:311, 334, 352. -/
def structText (id : Text) (fs : List (Text × Text)) : Text :=
  id ++ " {\n".toList ++ (fs.map fieldLine).flatten ++ "};\n".toList

/-- One parameter: macroslib/src/cpp/cpp_code.rs:520-528. -/
def argText (f : Text × Text) : Text := f.2 ++ " ".toList ++ f.1

/-- The text of a function declaration: macroslib/src/cpp/cpp_code.rs:480-534. -/
def fnText (ret name : Text) (args : List (Text × Text)) : Text :=
  ret ++ " ".toList ++ name ++ "(".toList ++ (List.intersperse ", ".toList (args.map argText)).flatten ++ ");".toList

/-- The text of a constant: macroslib/src/cpp/cpp_code.rs:441-446. -/
def staticText (ty name : Text) : Text := "extern const ".toList ++ ty ++ " ".toList ++ name ++ ";\n".toList

/-- `cfg.namespace_name` put in: macroslib/src/cpp/mod.rs:516-517. -/
def nsMark : Text := "$RUST_SWIG_USER_NAMESPACE".toList

/-- One `ForeignCode` of a rule: macroslib/src/cpp/mod.rs:503-526, 535-547. -/
def addCode (cfg : Cfg) (s : St) (m : Text) (sel : Bool) (t : Text) : St :=
  let s := s.touch m
  if sel then
    let raw := strReplace t nsMark cfg.ns
    if (m, raw) ∈ s.cache then s
    else ({ s with cache := (m, raw) :: s.cache } : St).write m [Chunk.code raw]
  else s

mutual
/-- `merge_rule`'s steps: macroslib/src/cpp/mod.rs:499-528, 555-570. -/
def execOp (cfg : Cfg) : Op → St → Option St
  | .merge h also items, s =>
    match registerItems (s.touch h) h items with
    | none => none
    | some s' => execItems cfg h also items s'
  | .code m sel t, s => some (addCode cfg s m sel t)
/-- One after the other. -/
def execOps (cfg : Cfg) : Ops → St → Option St
  | .nil, s => some s
  | .cons o r, s =>
    match execOp cfg o s with
    | none => none
    | some s' => execOps cfg r s'
/-- `generate_c_type`: macroslib/src/cpp/cpp_code.rs:192-241. -/
def execItems (cfg : Cfg) (h : Text) (also : Bool) : Items → St → Option St
  | .nil, s => some s
  | .cons i r, s =>
    match execItem cfg h also i s with
    | none => none
    | some s' => execItems cfg h also r s'
/-- `do_generate_c_type`, `add_func_forward_decl`, `add_const_forward_decl`: macroslib/src/cpp/cpp_code.rs:213-237,
279-412, 414-458, 460-555. -/
def execItem (cfg : Cfg) (h : Text) (also : Bool) : Item → St → Option St
  | .ty u name wf fs, s =>
    if s.isDefined h (tyId u name) then some (s.touch h)
    else if wf = false then none
    else
      match execFields cfg fs (s.touch h) with
      | none => none
      | some (s1, lines, incs) =>
        let s2 : St := { s1 with rust := s1.rust ++ [if also then RustOut.item (tyId u name) else RustOut.layoutTest (tyId u name)] }
        let s3 := s2.write h (includeChunks cfg h incs ++
          [Chunk.openC, Chunk.decl (tyId u name) (structText (tyId u name) lines), Chunk.closeC])
        some (s3.define h (tyId u name))
  | .fn name wf ret args, s =>
    if s.isDefined h (fnId name) then some (s.touch h)
    else if wf = false then none
    else
      match execRet cfg ret (s.write h [Chunk.openC]) with
      | none => none
      | some (s1, rt, incs1) =>
        match execFields cfg args s1 with
        | none => none
        | some (s2, lines, incs2) =>
          let s3 := s2.write h (includeChunks cfg h (incs1 ++ incs2) ++
            [Chunk.decl (fnId name) (fnText rt name lines), Chunk.closeC])
          let s4 : St := { s3 with rust := s3.rust ++ [RustOut.item (fnId name)] }
          some (s4.define h (fnId name))
  | .static name use, s =>
    if s.isDefined h (staticId name) then some (s.touch h)
    else
      match execUse cfg use (s.write h [Chunk.openC]) with
      | none => none
      | some (s1, c, _) =>
        let s2 := s1.write h [Chunk.decl (staticId name) (staticText c name), Chunk.closeC]
        let s3 : St := { s2 with rust := s2.rust ++ [RustOut.item (staticId name)] }
        some (s3.define h (staticId name))
/-- The loop over fields or parameters: C names and the modules they need. -/
def execFields (cfg : Cfg) : Fields → St → Option (St × List (Text × Text) × List Text)
  | .nil, s => some (s, [], [])
  | .cons n u r, s =>
    match execUse cfg u s with
    | none => none
    | some (s1, c, m) =>
      match execFields cfg r s1 with
      | none => none
      | some (s2, ls, ms) => some (s2, (n, c) :: ls, m ++ ms)
/-- The return type: macroslib/src/cpp/cpp_code.rs:483-499. -/
def execRet (cfg : Cfg) : Ret → St → Option (St × Text × List Text)
  | .void, s => some (s, "void".toList, [])
  | .ty u, s => execUse cfg u s
/-- `map_repr_c_type`. -/
def execUse (cfg : Cfg) : Use → St → Option (St × Text × List Text)
  | .mk nested ok c mods, s =>
    match execOps cfg nested s with
    | none => none
    | some s' => if ok then some (s', c, mods) else none
end

/-- The state before generation starts (macroslib/src/cpp/mod.rs:326-342), with the foreign types known then. -/
def St.start (reg : Text → Option Text) : St := ⟨fun _ => none, [], [], reg⟩

end Flapi.Headers
