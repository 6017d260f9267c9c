import Verif.Base.Text
/-!
# Removing stale generated files (model)

A directory is the list of its entries in the (arbitrary) order `read_dir` yields them.  `removable` is an oracle: an
entry that cannot be removed (a sub-directory, missing permission) makes `fs::remove_file` fail.
-/
namespace Flapi.Stale

/-- An entry of the output directory. -/
structure Entry where
  name : Text
  content : Text
  removable : Bool
deriving DecidableEq

/-- Text after the last dot and whether something precedes that dot (`rsplitn(2, '.')`). -/
def afterLastDot : Text → Option (Text × Text)
  | [] => none
  | c :: t =>
    match afterLastDot t with
    | some (b, a) => some (c :: b, a)
    | none => if c == '.' then some ([], t) else none

/-- `Path::extension` of a file name (std): macroslib/src/cpp/mod.rs:373, macroslib/src/java_jni/mod.rs:216. -/
def extension (name : Text) : Option Text :=
  if name == "..".toList then none
  else
    match afterLastDot name with
    | none => none
    | some (b, a) => if b.isEmpty then none else some a

/-- `remove_files_if`: macroslib/src/typemap/utils.rs:348-373.  `todo` are the entries not yet visited, `kept` the visited
ones that stay; the flag tells success. -/
def removeIf (filter : Text → Bool) : List Entry → List Entry × Bool
  | [] => ([], true)
  | e :: todo =>
    if filter e.name then
      if e.removable then removeIf filter todo
      else (e :: todo, false)
    else
      let (l, ok) := removeIf filter todo
      (e :: l, ok)

/-- The C++ filter: macroslib/src/cpp/mod.rs:372-379. -/
def cppStale (generated : List Text) (name : Text) : Bool :=
  match extension name with
  | some ext => (ext == "h".toList || ext == "hpp".toList) && !generated.contains name
  | none => false

/-- The Java filter: macroslib/src/java_jni/mod.rs:215-222. -/
def javaStale (generated : List Text) (name : Text) : Bool :=
  match extension name with
  | some ext => ext == "java".toList && !generated.contains name
  | none => false

/-- The `remove_not_generated_files` switch: macroslib/src/cpp/mod.rs:371, macroslib/src/java_jni/mod.rs:214. -/
def cleanUp (enabled : Bool) (filter : Text → Bool) (dir : List Entry) : List Entry × Bool :=
  if enabled then removeIf filter dir else (dir, true)

end Flapi.Stale
