import Verif.Base.Replace
/-!
# C symbol names and the C++ spelling of return types (model)
-/
namespace Flapi.CppNames

/-- `MethodAccess`: macroslib/src/types.rs:194-198. -/
inductive Access where
  | priv
  | pub
  | prot
  deriving DecidableEq, Repr

/-- The three prefixes of macroslib/src/cpp/mod.rs:398-402. -/
def Access.pfx : Access → Text
  | .priv => "private_".toList
  | .prot => "protected_".toList
  | .pub => []

/-- `do_c_func_name`: macroslib/src/cpp/mod.rs:391-406. -/
def cFuncName (a : Access) (cls func : Text) : Text := a.pfx ++ cls ++ '_' :: func

/-- The parts of `ForeignMethod` that decide the exported symbol: macroslib/src/types.rs:90-99.
`dummy` is `is_dummy_constructor()` (macroslib/src/types.rs:155-157). -/
structure Method where
  access : Access
  shortName : Text
  ctor : Bool
  dummy : Bool
  deriving DecidableEq, Repr

/-- The parts of `ForeignClassInfo` that decide the exported symbols. -/
structure Class where
  name : Text
  methods : List Method
  copyDerived : Bool
  smartPtrCopyDerived : Bool
  deriving DecidableEq, Repr

/-- A constructor without body exports nothing: macroslib/src/cpp/fclass.rs:546-552; all the other methods are exported
under `c_func_name` (macroslib/src/cpp/mod.rs:387-389). -/
def methodSymbols (c : Class) : List Text :=
  (c.methods.filter fun m => !(m.ctor && m.dummy)).map fun m => cFuncName m.access c.name m.shortName

/-- `format!("{}_delete", class.name)`: macroslib/src/cpp/fclass.rs:612; produced when the class has a constructor, also a
dummy one (macroslib/src/cpp/fclass.rs:543, 602). -/
def destructorSymbols (c : Class) : List Text :=
  if c.methods.any (·.ctor) then [c.name ++ "_delete".toList] else []

/-- The clone function generated for a smart pointer class: macroslib/src/cpp/fclass.rs:1330-1352. -/
def cloneSymbols (c : Class) : List Text :=
  if !c.copyDerived && c.smartPtrCopyDerived then [cFuncName .priv c.name "clone".toList] else []

/-- All `#[no_mangle]` functions produced for one class. -/
def Class.symbols (c : Class) : List Text := methodSymbols c ++ destructorSymbols c ++ cloneSymbols c

/-- The searched text of macroslib/src/cpp/fclass.rs:349. -/
def structKw : Text := "struct".toList

/-- `cpp_ret_type.display().replace("struct", "")`: macroslib/src/cpp/fclass.rs:348-349. -/
def cppRetType (display : Text) : Text := strReplace display structKw []

end Flapi.CppNames
