import Verif.Lang.Register
/-! # Registration of an exported class in the C++ back end (model) -/
namespace Flapi.CppRegister

open Flapi.Exported (lit)
open Flapi.Register

/-- `*mut ::std::os::raw::c_void`, told apart by the type of the objects: macroslib/src/cpp/map_class_self_type.rs:26-31. -/
def voidPtr (d : Desc) : Key := ⟨lit "* mut :: std :: os :: raw :: c_void", some d.thisTy⟩
/-- `*const ::std::os::raw::c_void`, likewise: macroslib/src/cpp/map_class_self_type.rs:33-38. -/
def constPtr (d : Desc) : Key := ⟨lit "* const :: std :: os :: raw :: c_void", some d.thisTy⟩

/-- `c_class_type`: macroslib/src/cpp/cpp_code.rs:63-65. -/
def opaqueTy (c : Class) : Text := c.name ++ lit "Opaque"
/-- `"{cpp_header_name}"`: macroslib/src/cpp/cpp_code.rs:158-160. -/
def hpp (c : Class) : List Text := [lit "\"" ++ c.name ++ lit ".hpp\""]
/-- `"{c_header_name}"`: macroslib/src/cpp/cpp_code.rs:162-164. -/
def ch (c : Class) : List Text := [lit "\"c_" ++ c.name ++ lit ".h\""]

/-- `register_intermediate_pointer_types`: macroslib/src/cpp/map_class_self_type.rs:82-122. -/
def pointerCmds (c : Class) (d : Desc) : List Cmd :=
  [.ftype c.src [] (opaqueTy c ++ lit " *") (ch c) (some ⟨voidPtr d, none⟩) (some ⟨voidPtr d, none⟩),
   .ftype c.src [] (lit "const " ++ opaqueTy c ++ lit " *") (ch c) (some ⟨constPtr d, none⟩) (some ⟨constPtr d, none⟩)]

/-- `assert!(!{from_var}.is_null());` -/
def notNull : Text := lit "assert!(!" ++ fv ++ lit ".is_null());\n"

/-- `*const c_void -> &"class"`: macroslib/src/cpp/map_class_self_type.rs:134-152. -/
def borrowCode (d : Desc) : Text :=
  lit "\n    " ++ notNull ++ lit "    let " ++ tv ++ lit ": " ++ refOf d.inner ++ lit " = unsafe { &*(" ++ fv ++ lit " as *const " ++
    d.inner ++ lit ") };\n"
/-- `*mut c_void -> &mut "class"`: macroslib/src/cpp/map_class_self_type.rs:154-172. -/
def borrowMutCode (d : Desc) : Text :=
  lit "\n    " ++ notNull ++ lit "    let " ++ tv ++ lit ": " ++ mutRefOf d.inner ++ lit " = unsafe { &mut *(" ++ fv ++ lit " as *mut " ++
    d.inner ++ lit ") };\n"
/-- `*mut c_void -> *mut "class"`: macroslib/src/cpp/map_class_self_type.rs:181-197. -/
def castCode (d : Desc) : Text :=
  lit "\n            " ++ notNull ++ lit "            let " ++ tv ++ lit ": " ++ mutPtrOf d.inner ++ lit " = " ++ fv ++ lit " as " ++
    mutPtrOf d.inner ++ lit ";\n        "
/-- `*mut "class" -> "class"`: macroslib/src/cpp/map_class_self_type.rs:199-204. -/
def takeCode (d : Desc) : Text := lit "\n" ++ unpack d ++ lit "\n"
/-- `"class" -> *mut void`: macroslib/src/cpp/map_class_self_type.rs:206-221. -/
def giveCode (d : Desc) : Text :=
  lit "let " ++ tv ++ lit ": " ++ (voidPtr d).ty ++ lit " = <" ++ d.thisTy ++ lit ">::box_object(" ++ fv ++ lit ");"
/-- `&"class" -> *const void`: macroslib/src/cpp/map_class_self_type.rs:223-238. -/
def lendCode (d : Desc) : Text :=
  lit "let " ++ tv ++ lit ": " ++ (constPtr d).ty ++ lit " = (" ++ fv ++ lit " as *const " ++ d.inner ++ lit ") as " ++ (constPtr d).ty ++ lit ";"

/-- `register_rust_ty_conversion_rules`: macroslib/src/cpp/map_class_self_type.rs:124-241. -/
def ruleCmds (d : Desc) : List Cmd :=
  [.rule (constPtr d) (key (refOf d.inner)) (borrowCode d),
   .rule (voidPtr d) (key (mutRefOf d.inner)) (borrowMutCode d),
   .alloc (key (mutPtrOf d.inner)) [],
   .rule (voidPtr d) (key (mutPtrOf d.inner)) (castCode d),
   .rule (key (mutPtrOf d.inner)) (key d.thisTy) (takeCode d),
   .rule (key d.thisTy) (voidPtr d) (giveCode d),
   .rule (key (refOf d.inner)) (constPtr d) (lendCode d)]

/-- Passing a pointer to a C function: macroslib/src/cpp/map_class_self_type.rs:296-310, 352-364. -/
def castIn (c : Class) : Text := lit "static_cast<" ++ opaqueTy c ++ lit " *>(" ++ fv ++ lit ")"
/-- The same for `const`: macroslib/src/cpp/map_class_self_type.rs:296-310. -/
def castConstIn (c : Class) : Text := lit "static_cast<const " ++ opaqueTy c ++ lit " *>(" ++ fv ++ lit ")"
/-- A C++ object from a pointer: macroslib/src/cpp/map_class_self_type.rs:262-274. -/
def wrapOut (c : Class) : Text := c.name ++ lit "(static_cast<" ++ opaqueTy c ++ lit " *>(" ++ fv ++ lit "))"
/-- A C++ reference object from a pointer: macroslib/src/cpp/map_class_self_type.rs:324-339. -/
def wrapRefOut (c : Class) : Text := c.name ++ lit "Ref{ static_cast<const " ++ opaqueTy c ++ lit " *>(" ++ fv ++ lit ") }"
/-- The C++ object gives its pointer away: macroslib/src/cpp/map_class_self_type.rs:280-284. -/
def releaseIn : Text := fv ++ lit ".release()"

/-- `register_main_foreign_types`: macroslib/src/cpp/map_class_self_type.rs:243-439. -/
def mainCmds (c : Class) (d : Desc) : List Cmd :=
  [.ftype c.src [] c.name (hpp c) (some ⟨key d.thisTy, some (voidPtr d, wrapOut c)⟩) (some ⟨key d.thisTy, some (voidPtr d, releaseIn)⟩),
   .ftype c.src [] (lit "const " ++ c.name ++ lit " &") (hpp c) none (some ⟨key (refOf d.inner), some (constPtr d, castConstIn c)⟩)] ++
  (if c.has "PlainClass" then []
   else [.ftype c.src [] (c.name ++ lit "Ref") (hpp c) (some ⟨key (refOf d.inner), some (constPtr d, wrapRefOut c)⟩) none]) ++
  [.ftype c.src [] (c.name ++ lit " &") (hpp c) none (some ⟨key (mutRefOf d.inner), some (voidPtr d, castIn c)⟩)] ++
  (if d.selfTy ≠ d.thisTy then
    [.alloc (key (mutRefOf d.selfTy)) [],
     .ftype c.src (lit "/**/") (c.name ++ lit " &") (hpp c) none (some ⟨key (mutRefOf d.selfTy), some (voidPtr d, castIn c)⟩),
     .alloc (key (refOf d.selfTy)) [],
     .ftype c.src (lit "/**/") (lit "const " ++ c.name ++ lit " &") (hpp c) none
       (some ⟨key (refOf d.selfTy), some (constPtr d, castConstIn c)⟩)]
   else [])

/-- `register_typemap_for_self_type`: macroslib/src/cpp/map_class_self_type.rs:18-80. -/
def selfTypeCmds (c : Class) (d : Desc) : List Cmd :=
  [.alloc (voidPtr d) [], .alloc (constPtr d) [], .alloc (key d.inner) [], .alloc (key (refOf d.inner)) [],
   .alloc (key (mutRefOf d.inner)) []] ++
  pointerCmds c d ++ ruleCmds d ++ [.alloc (key d.selfTy) []] ++ mainCmds c d

/-- The checks of `register_class`: macroslib/src/cpp/mod.rs:258-296. -/
def check (c : Class) (d : Desc) : Except Err Unit :=
  if c.has "SmartPtrCopy" then
    if d.isShared then
      if c.cloneMethod then .error .hasClone else .ok ()
    else .error .notShared
  else .ok ()

/-- `register_class`: macroslib/src/cpp/mod.rs:230-300.  Left out: `validate_class` (C25) and a warning. -/
def registerClass (st : St) (c : Class) : Except Err St :=
  match c.desc with
  | some d => do
    let st1 ← run st [.alloc (key d.thisTy) c.traits]
    check c d
    run st1 (selfTypeCmds c d ++ [.alloc (key c.selfTyAsTy) []])
  | none => run st [.alloc (key c.selfTyAsTy) []]

/-- All classes are registered before any code is generated: macroslib/src/cpp/mod.rs:344-348. -/
def registerAll : St → List Class → Except Err St
  | st, [] => .ok st
  | st, c :: cs => do
    let st ← registerClass st c
    registerAll st cs

end Flapi.CppRegister
