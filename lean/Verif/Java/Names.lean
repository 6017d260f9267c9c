import Verif.Base.Replace
/-!
# JNI symbol names and method signatures (model)
-/
namespace Flapi.JavaNames

/-- One step of `escape_underscore`: macroslib/src/java_jni/rust_code.rs:74-80. -/
def escChar (c : Char) : Text :=
  if c = '.' then ['_']
  else if c = '[' then ['_', '3']
  else if c = '_' then ['_', '1']
  else if c = ';' then ['_', '2']
  else [c]

/-- `escape_underscore`: macroslib/src/java_jni/rust_code.rs:72-82. -/
def esc (s : Text) : Text := s.flatMap escChar

/-- `java_type_to_jni_sig_map` (an `FxHashMap`), as an association list whose first match counts:
macroslib/src/java_jni/mod.rs:50. -/
abbrev SigMap := List (Text × Text)

/-- `FxHashMap::get`. -/
def SigMap.get (m : SigMap) (k : Text) : Option Text := List.lookup k m

/-- `FxHashMap::insert` (the former value, if any, is hidden). -/
def SigMap.insert (m : SigMap) (k v : Text) : SigMap := (k, v) :: m

/-- The scalar entries: macroslib/src/java_jni/rust_code.rs:21-37. -/
def scalarSigs : SigMap :=
  [("String".toList, "Ljava.lang.String;".toList), ("Byte".toList, "Ljava.lang.Byte".toList),
   ("Short".toList, "Ljava.lang.Short".toList), ("Integer".toList, "Ljava.lang.Integer".toList),
   ("Long".toList, "Ljava.lang.Long".toList), ("Float".toList, "Ljava.lang.Float".toList),
   ("Double".toList, "Ljava.lang.Double".toList), ("boolean".toList, "Z".toList), ("byte".toList, "B".toList),
   ("char".toList, "C".toList), ("double".toList, "D".toList), ("float".toList, "F".toList), ("int".toList, "I".toList),
   ("long".toList, "J".toList), ("object".toList, "L".toList), ("short".toList, "S".toList), ("void".toList, "V".toList)]

/-- The element types of the array entries: macroslib/src/java_jni/rust_code.rs:38. -/
def arrayElems : List Text :=
  ["char".toList, "byte".toList, "double".toList, "float".toList, "int".toList, "long".toList, "short".toList,
   "boolean".toList]

/-- `predefined_java_type_to_jni_sig`: macroslib/src/java_jni/rust_code.rs:19-46.  The `expect` of line 41 holds: every
element type has a scalar entry. -/
def predefined : SigMap :=
  arrayElems.foldl (fun m e => SigMap.insert m (e ++ " []".toList) ('[' :: (scalarSigs.get e).getD [])) scalarSigs

/-- `java_class_full_name`: macroslib/src/java_jni/mod.rs:260-265. -/
def classFullName (pkg cls : Text) : Text := pkg ++ '.' :: cls

/-- A generated type that gets entries in the table. -/
inductive Reg where
  | cls (name : Text)
  | enum (name : Text)
  deriving DecidableEq, Repr

/-- The entries added after a class (macroslib/src/java_jni/fclass.rs:53-68) or an enum
(macroslib/src/java_jni/fenum.rs:87-94) was generated. -/
def register (pkg : Text) (m : SigMap) : Reg → SigMap
  | .cls n =>
    SigMap.insert (SigMap.insert m n ('L' :: classFullName pkg n ++ ";".toList)) (n ++ " []".toList)
      ("[L".toList ++ classFullName pkg n ++ ";".toList)
  | .enum n => SigMap.insert m n ('L' :: classFullName pkg n ++ ";".toList)

/-- The table after some classes and enums were generated: macroslib/src/java_jni/mod.rs:190, 200-212. -/
def table (pkg : Text) (regs : List Reg) : SigMap := regs.foldl (register pkg) predefined

/-- The annotations of macroslib/src/java_jni/java_code.rs:146-148. -/
def nonNull : Text := "@NonNull".toList
def nullable : Text := "@Nullable".toList

/-- `filter_null_annotation`: macroslib/src/java_jni/java_code.rs:146-148. -/
def filterNull (t : Text) : Text := strReplace (strReplace t nonNull []) nullable []

/-- `str::trim` (std).  Simplified: only ASCII white space is trimmed, Rust trims all Unicode white space. -/
def trim (t : Text) : Text := ((t.dropWhile Char.isWhitespace).reverse.dropWhile Char.isWhitespace).reverse

/-- `java_type_to_jni_signature`: macroslib/src/java_jni/rust_code.rs:48-59. -/
def typeSig (m : SigMap) (ty : Text) : Option Text :=
  if strContains ty nonNull || strContains ty nullable then m.get (trim (filterNull ty)) else m.get ty

/-- The parts of `JavaForeignTypeInfo` used here: macroslib/src/java_jni/mod.rs:61-98.  `converter` is
(`java_transition_type`, whether `converter` is empty). -/
structure ArgTy where
  name : Text
  converter : Option (Text × Bool)
  deriving DecidableEq, Repr

/-- Type of the native parameter: macroslib/src/java_jni/rust_code.rs:95-99. -/
def ArgTy.native (a : ArgTy) : Text :=
  match a.converter with
  | some (t, _) => t
  | none => a.name

/-- `MethodVariant`: macroslib/src/types.rs:200-205 (self variants are irrelevant here). -/
inductive Variant where
  | constructor
  | method
  | static
  deriving DecidableEq, Repr

/-- The loop over the arguments: macroslib/src/java_jni/rust_code.rs:94-114. -/
def escArgs (m : SigMap) : List ArgTy → Option Text
  | [] => some []
  | a :: l => do
    let s ← typeSig m a.native
    let r ← escArgs m l
    pure (esc s ++ r)

/-- `generate_jni_func_name`: macroslib/src/java_jni/rust_code.rs:61-118.  `none` is the "unknown java type" error. -/
def jniFuncName (m : SigMap) (pkg cls meth : Text) (v : Variant) (args : List ArgTy) (overloaded : Bool) : Option Text :=
  let short := "Java_".toList ++ esc pkg ++ '_' :: esc cls ++ '_' :: esc meth
  if overloaded then do
    let s ← escArgs m args
    pure (short ++ "__".toList ++ (if v = .method then ['J'] else []) ++ s)
  else some short

/-- `sig.replace('.', "/")`: macroslib/src/java_jni/rust_code.rs:135. -/
def slashes (s : Text) : Text := s.map fun c => if c = '.' then '/' else c

/-- The loop over the arguments: macroslib/src/java_jni/rust_code.rs:124-137. -/
def sigArgs (m : SigMap) : List Text → Option Text
  | [] => some []
  | a :: l => do
    let s ← typeSig m (trim (filterNull a))
    let r ← sigArgs m l
    pure (slashes s ++ r)

/-- `jni_method_signature`: macroslib/src/java_jni/rust_code.rs:120-148, given the names of the argument types and of the
result type.  `none` is the panic "Unknown type". -/
def methodSignature (m : SigMap) (args : List Text) (ret : Text) : Option Text := do
  let a ← sigArgs m args
  let r ← typeSig m ret
  pure ('(' :: a ++ ')' :: r)

/-! ## Methods of one class -/

/-- The parts of a method that decide its native name. -/
structure Method where
  variant : Variant
  shortName : Text
  dummy : Bool
  args : List ArgTy
  out : ArgTy
  deriving DecidableEq, Repr

/-- The `converter.is_empty()` test of macroslib/src/java_jni/mod.rs:240-250. -/
def ArgTy.needConv (a : ArgTy) : Bool :=
  match a.converter with
  | some (_, isEmpty) => !isEmpty
  | none => false

/-- `method_name`: macroslib/src/java_jni/mod.rs:239-258. -/
def Method.nativeName (m : Method) : Text :=
  let needConv := m.args.any ArgTy.needConv || m.out.needConv
  match m.variant with
  | .static => if !needConv then m.shortName else "do_".toList ++ m.shortName
  | .method => "do_".toList ++ m.shortName
  | .constructor => "init".toList

/-- `gen_fnames[&java_method_name] > 1`: macroslib/src/java_jni/fclass.rs:510-514, 608. -/
def overloaded (ms : List Method) (m : Method) : Bool := (ms.map Method.nativeName).count m.nativeName > 1

/-- The exported function of one method: macroslib/src/java_jni/fclass.rs:607-617; a dummy constructor exports nothing
(lines 671-673) although its name is computed. -/
def methodSymbol (t : SigMap) (pkg cls : Text) (ms : List Method) (m : Method) : Option Text :=
  jniFuncName t pkg cls m.nativeName m.variant m.args (overloaded ms m)

/-- The loop of `generate_rust_code` over the methods, keeping only the exported names:
macroslib/src/java_jni/fclass.rs:606-695. -/
def methodSymbols (t : SigMap) (pkg cls : Text) (all : List Method) : List Method → Option (List Text)
  | [] => some []
  | m :: l => do
    let s ← methodSymbol t pkg cls all m
    let r ← methodSymbols t pkg cls all l
    pure (if m.variant = .constructor && m.dummy then r else s :: r)

/-- The destructor: macroslib/src/java_jni/fclass.rs:697-728. -/
def destructorSymbol (t : SigMap) (pkg cls : Text) : Option Text :=
  jniFuncName t pkg cls "do_delete".toList .static [⟨"long".toList, none⟩] false

/-- All functions exported for a class: macroslib/src/java_jni/fclass.rs:504-754. -/
def classSymbols (t : SigMap) (pkg cls : Text) (ms : List Method) : Option (List Text) := do
  let l ← methodSymbols t pkg cls ms ms
  if ms.any (·.variant = .constructor) then
    let d ← destructorSymbol t pkg cls
    pure (l ++ [d])
  else pure l

end Flapi.JavaNames
