import Verif.Base.Text
/-!
# Cache of JNI classes, methods and fields (model)

The generator scans the finished Rust code for `swig_jni_find_class!` and `swig_jni_get_*_id!` calls
(macroslib/src/java_jni/find_cache.rs) and appends `static mut` variables, `JNI_OnLoad` and `JNI_OnUnload`
(macroslib/src/java_jni/rust_code.rs:150-327).  The model has the scan, and an execution semantics of the two generated
functions over an abstract JVM.
-/
namespace Flapi.FindCache

/-- The four kinds of cached members: macroslib/src/java_jni/find_cache.rs:145-148. -/
inductive Kind where
  | method | staticMethod | staticField | field
  deriving DecidableEq, Repr

/-- `JniClassItemWithId`: macroslib/src/java_jni/find_cache.rs:77-83. -/
structure Item where
  id : Text
  classId : Text
  name : Text
  sig : Text
  deriving DecidableEq, Repr

/-- `JniFindClass`: macroslib/src/java_jni/find_cache.rs:53-60. -/
structure FindClass where
  id : Text
  path : Text
  methods : List Item
  staticMethods : List Item
  staticFields : List Item
  fields : List Item
  deriving DecidableEq, Repr

/-- The vector selected by `$sub_calls`: macroslib/src/java_jni/find_cache.rs:175-187. -/
def FindClass.items (c : FindClass) : Kind → List Item
  | .method => c.methods
  | .staticMethod => c.staticMethods
  | .staticField => c.staticFields
  | .field => c.fields

/-- `find_class.$sub_calls.push(..)`: macroslib/src/java_jni/find_cache.rs:132-134. -/
def FindClass.push (c : FindClass) (k : Kind) (x : Item) : FindClass :=
  match k with
  | .method => { c with methods := c.methods ++ [x] }
  | .staticMethod => { c with staticMethods := c.staticMethods ++ [x] }
  | .staticField => { c with staticFields := c.staticFields ++ [x] }
  | .field => { c with fields := c.fields ++ [x] }

/-- A macro call in the generated code, in the order the visitor meets them (macros inside macro arguments are not
visited).  Calls that do not parse make the generator panic and are left out. -/
inductive Use where
  | findClass (id path : Text)
  | member (k : Kind) (x : Item)
  deriving DecidableEq, Repr

/-- `calls` (hash map keyed by the id; the order of the list is not meaningful) and whether `errors` is non-empty:
macroslib/src/java_jni/find_cache.rs:10-13, 138-141. -/
structure St where
  calls : List FindClass
  failed : Bool
  deriving DecidableEq, Repr

/-- `calls.get(&id)`. -/
def get (calls : List FindClass) (id : Text) : Option FindClass := calls.find? (·.id = id)

/-- `calls.insert(id, c)` / writing through `get_mut`. -/
def put (calls : List FindClass) (c : FindClass) : List FindClass :=
  match calls with
  | [] => [c]
  | d :: l => if d.id = c.id then c :: l else d :: put l c

/-- A fresh `JniFindClass` as made by its parser: macroslib/src/java_jni/find_cache.rs:61-75. -/
def newClass (id path : Text) : FindClass := ⟨id, path, [], [], [], []⟩

/-- `visit_macro`: macroslib/src/java_jni/find_cache.rs:144-189 with `add_jni_method_id!` (105-136).  `none` is a panic. -/
def step (s : St) : Use → Option St
  | .findClass id path =>
    match get s.calls id with
    | some c => if c ≠ newClass id path then some { s with failed := true } else some { s with calls := put s.calls (newClass id path) }
    | none => some { s with calls := put s.calls (newClass id path) }
  | .member k x =>
    match get s.calls x.classId with
    | none => none
    | some c =>
      if (c.items k).any (fun e => e.name = x.name && e.sig = x.sig && x.id ≠ e.id) then none
      else if (c.items k).any (fun e => e = x) then some s
      else some { s with calls := put s.calls (c.push k x) }

/-- The visit of the whole file. -/
def run : St → List Use → Option St
  | s, [] => some s
  | s, u :: l => (step s u).bind fun s => run s l

/-- `generate_load_unload_jni_funcs` up to the check for errors (a panic): macroslib/src/java_jni/rust_code.rs:160-170. -/
def collect (us : List Use) : Option (List FindClass) :=
  match run ⟨[], false⟩ us with
  | some s => if s.failed then none else some s.calls
  | none => none

/-- All members of a class with the kind, in the order of the generated code: macroslib/src/java_jni/rust_code.rs:179-268. -/
def FindClass.all (c : FindClass) : List (Kind × Item) :=
  c.methods.map (Kind.method, ·) ++ c.staticMethods.map (Kind.staticMethod, ·) ++
  c.staticFields.map (Kind.staticField, ·) ++ c.fields.map (Kind.field, ·)

/-- `global_vars`: macroslib/src/java_jni/find_cache.rs:16-49; names of the `static mut` items that are declared. -/
def globalVars (calls : List FindClass) : List Text :=
  calls.flatMap fun c => c.id :: c.all.map (·.2.id)

/-! ## Execution of the generated functions -/

/-- Values of the static variables. -/
inductive Val where
  | null
  /-- a global reference (`jclass`) -/
  | ref (h : Nat)
  /-- a `jmethodID`/`jfieldID` -/
  | mem (m : Nat)
  deriving DecidableEq, Repr

/-- The JVM as seen by the two functions: name lookups (failing lookups return null) and whether the n-th `NewGlobalRef`
succeeds. -/
structure Jvm where
  findClass : Text → Option Nat
  lookup : Kind → Nat → Text → Text → Option Nat
  newGlobal : Nat → Bool

/-- The state: static variables, live global references (handle, class), number of live local references, next fresh
handle, and the variables written so far. -/
structure World where
  vars : Text → Val
  globals : List (Nat × Nat)
  locals : Nat
  next : Nat
  log : List Text

/-- `#id = value` on a static variable. -/
def World.set (w : World) (id : Text) (v : Val) : World :=
  { w with vars := fun x => if x = id then v else w.vars x, log := w.log ++ [id] }

/-- One `Get*ID` block: macroslib/src/java_jni/rust_code.rs:179-268; `none` is the failed `assert!`. -/
def getId (jvm : Jvm) (cls : Nat) (w : World) (kx : Kind × Item) : Option World :=
  match jvm.lookup kx.1 cls kx.2.name kx.2.sig with
  | none => none
  | some m => some (w.set kx.2.id (.mem m))

/-- Execution of a list of blocks. -/
def getIds (jvm : Jvm) (cls : Nat) : World → List (Kind × Item) → Option World
  | w, [] => some w
  | w, x :: l => (getId jvm cls w x).bind fun w => getIds jvm cls w l

/-- The block for one class in `JNI_OnLoad`: macroslib/src/java_jni/rust_code.rs:257-274. -/
def loadClass (jvm : Jvm) (w : World) (c : FindClass) : Option World :=
  match jvm.findClass c.path with
  | none => none
  | some cls =>
    let w := { w with locals := w.locals + 1 }
    if jvm.newGlobal w.next then
      let h := w.next
      let w := { w with globals := (h, cls) :: w.globals, next := h + 1 }
      let w := { w with locals := w.locals - 1 }
      getIds jvm cls (w.set c.id (.ref h)) c.all
    else none

/-- `JNI_OnLoad`: macroslib/src/java_jni/rust_code.rs:279-297; `order` is the iteration order of the hash map. -/
def load (jvm : Jvm) : World → List FindClass → Option World
  | w, [] => some w
  | w, c :: l => (loadClass jvm w c).bind fun w => load jvm w l

/-- The block for one class in `JNI_OnUnload`: macroslib/src/java_jni/rust_code.rs:280-282.  Deleting something that is not
a live global reference is undefined behaviour (`none`). -/
def unloadClass (w : World) (c : FindClass) : Option World :=
  match w.vars c.id with
  | .ref h =>
    if w.globals.any (·.1 = h) then
      some ({ w with globals := w.globals.filter (·.1 ≠ h) }.set c.id .null)
    else none
  | _ => none

/-- `JNI_OnUnload`: macroslib/src/java_jni/rust_code.rs:302-318. -/
def unload : World → List FindClass → Option World
  | w, [] => some w
  | w, c :: l => (unloadClass w c).bind fun w => unload w l

end Flapi.FindCache
