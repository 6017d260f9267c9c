import Verif.Base.Text
/-!
# User extension callbacks (model)
-/
namespace Flapi.Extension

/-- A class-level (or enum-level) handler: `Box<dyn Fn(&mut Vec<u8>, &str)>`, macroslib/src/extension.rs:8,15. -/
abbrev ClassCb := Text → Text → Text

/-- `MethodVariant` is only passed through to the callback; a number stands for it. -/
structure MethodInfo where
  className : Text
  methodName : Text
  variant : Nat
deriving DecidableEq

/-- macroslib/src/extension.rs:14. -/
abbrev MethodCb := Text → MethodInfo → Text

/-- A method as seen by the extension code: `short_name()`, `variant` and `unknown_attrs`. -/
structure Method where
  shortName : Text
  variant : Nat
  unknownAttrs : List Text

/-- A class as seen by the extension code (the fields of `ForeignClassInfo` that are used). -/
structure Class where
  name : Text
  deriveList : List Text
  methods : List Method

/-- `FxHashMap::get` on a table of handlers. -/
def lookup {α} (t : List (Text × α)) (k : Text) : Option α := (t.find? (·.1 == k)).map (·.2)

/-- The error value of `extend_foreign_class`/`extend_foreign_enum` (source position dropped). -/
inductive Err
  | unknownDerive (cls derive : Text)
  | unknownMethodAttr (cls method attr : Text)
deriving DecidableEq

/-- First loop of `extend_foreign_class`: macroslib/src/extension.rs:30-46. -/
def extendDerives (cls : Text) (reserved : List Text) (hs : List (Text × ClassCb)) :
    List Text → Text → Except Err Text
  | [], cnt => .ok cnt
  | d :: ds, cnt =>
    if reserved.contains d then extendDerives cls reserved hs ds cnt
    else match lookup hs d with
      | some cb => extendDerives cls reserved hs ds (cb cnt cls)
      | none => .error (.unknownDerive cls d)

/-- Inner loop over the unknown attributes of one method: macroslib/src/extension.rs:49-71. -/
def extendAttrs (cls : Text) (m : Method) (hs : List (Text × MethodCb)) : List Text → Text → Except Err Text
  | [], cnt => .ok cnt
  | a :: as, cnt =>
    match lookup hs a with
    | some cb => extendAttrs cls m hs as (cb cnt ⟨cls, m.shortName, m.variant⟩)
    | none => .error (.unknownMethodAttr cls m.shortName a)

/-- Second loop: macroslib/src/extension.rs:48-72. -/
def extendMethods (cls : Text) (hs : List (Text × MethodCb)) : List Method → Text → Except Err Text
  | [], cnt => .ok cnt
  | m :: ms, cnt =>
    match extendAttrs cls m hs m.unknownAttrs cnt with
    | .ok cnt' => extendMethods cls hs ms cnt'
    | .error e => .error e

/-- `extend_foreign_class`: macroslib/src/extension.rs:23-74. -/
def extendForeignClass (c : Class) (reserved : List Text) (chs : List (Text × ClassCb))
    (mhs : List (Text × MethodCb)) (cnt : Text) : Except Err Text :=
  match extendDerives c.name reserved chs c.deriveList cnt with
  | .ok cnt' => extendMethods c.name mhs c.methods cnt'
  | .error e => .error e

/-- `extend_foreign_enum`: macroslib/src/extension.rs:76-97 (no reserved derives). -/
def extendForeignEnum (name : Text) (derives : List Text) (hs : List (Text × ClassCb)) (cnt : Text) :
    Except Err Text :=
  extendDerives name [] hs derives cnt

/-- `KNOWN_CLASS_DERIVES`: macroslib/src/lib.rs:75-81. -/
def knownClassDerives : List Text :=
  ["Clone".toList, "Copy".toList, "SmartPtrCopy".toList, "PlainClass".toList, "camelCaseAliases".toList]

/-- Reserved derives passed by the Java backend: macroslib/src/java_jni/fclass.rs:493 (the C++ backend passes all of
`KNOWN_CLASS_DERIVES`: macroslib/src/cpp/fclass.rs:781). -/
def javaReserved : List Text := ["Clone".toList, "Copy".toList, "SmartPtrCopy".toList]

/-- `register_class_attribute_callback`: macroslib/src/lib.rs:471-487; `none` is a panic. -/
def registerClassCb (t : List (Text × ClassCb)) (name : Text) (cb : ClassCb) : Option (List (Text × ClassCb)) :=
  if knownClassDerives.contains name then none
  else if (lookup t name).isSome then none
  else some ((name, cb) :: t)

/-- `register_enum_attribute_callback` / `register_method_attribute_callback`: macroslib/src/lib.rs:492-523. -/
def registerPlainCb {α} (t : List (Text × α)) (name : Text) (cb : α) : Option (List (Text × α)) :=
  if (lookup t name).isSome then none else some ((name, cb) :: t)

end Flapi.Extension
