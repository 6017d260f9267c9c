import Verif.Lang.Register
import Verif.Lang.Enum
import Verif.Java.Names
/-!
# Registration of an exported enum in the C++ and the Java back end (model)

Enums enter the type map when their code is generated, not before.
-/
namespace Flapi.EnumRegister

open Flapi.Exported (lit)
open Flapi.Register
open Flapi.JavaNames (SigMap)

/-- `ForeignEnumInfo` (macroslib/src/types.rs:248-254) without comments and derives. -/
structure EnumI where
  name : Text
  items : List Enum.Item
  src : Option Nat

/-- Why the generation of an enum fails. -/
inductive Failure
  /-- "Too many items in enum" -/
  | tooMany
  /-- its code could not be generated or written (extension callbacks, input/output, a derive without callback) -/
  | code
  /-- registration refused -/
  | register (e : Err)
  /-- "Internal Error: type 'jint' unknown" -/
  | noJint
  deriving DecidableEq

/-- A registration step whose failure ends the generation. -/
def reg (st : St) (cs : List Cmd) : Except Failure St :=
  match run st cs with
  | .ok s => .ok s
  | .error e => .error (.register e)

/-- `u32` -/
def u32 : Key := key (lit "u32")
/-- `jint` -/
def jint : Key := key (lit "jint")
/-- `jobject` -/
def jobject : Key := key (lit "jobject")

/-- The Rust type of the enum, with the trait that opens it to the conversions of the C++ library: macroslib/src/cpp/fenum.rs:31-37. -/
def cppTypeCmds (e : EnumI) : List Cmd := [.alloc (key e.name) [lit "SwigForeignEnum"]]

/-- `static_cast<Name>(var)`: macroslib/src/cpp/fenum.rs:57-64. -/
def cppInto (e : EnumI) : Text := lit "static_cast<" ++ e.name ++ lit ">(" ++ fv ++ lit ")"
/-- `static_cast<uint32_t>(var)`: macroslib/src/cpp/fenum.rs:72-75. -/
def cppFrom : Text := lit "static_cast<uint32_t>(" ++ fv ++ lit ")"
/-- `"Name.hpp"` in quotes: macroslib/src/cpp/fenum.rs:50-52, macroslib/src/cpp/cpp_code.rs:166-168. -/
def cppModule (e : EnumI) : Text := lit "\"" ++ e.name ++ lit ".hpp\""

/-- The foreign type: macroslib/src/cpp/fenum.rs:45-80. -/
def cppFtCmds (e : EnumI) : List Cmd :=
  [.alloc u32 [],
   .ftype e.src [] e.name [cppModule e] (some ⟨key e.name, some (u32, cppInto e)⟩) (some ⟨key e.name, some (u32, cppFrom)⟩)]

/-- `generate_enum` of the C++ back end as far as the type map is concerned: macroslib/src/cpp/fenum.rs:20-82.  `codeOk` says whether the
code of the enum (lines 39-43) was generated and written. -/
def cppEnum (codeOk : Bool) (st : St) (e : EnumI) : Except Failure St :=
  if Enum.cppAccepted e.items then do
    let st ← reg st (cppTypeCmds e)
    if codeOk then reg st (cppFtCmds e) else .error .code
  else .error .tooMany

/-- The Rust type of the enum: macroslib/src/java_jni/fenum.rs:23, 38-44. -/
def javaTypeCmds (e : EnumI) : List Cmd := [.alloc (key e.name) [lit "SwigForeignCLikeEnum"]]

/-- `Name out = Name.fromInt(var);`: macroslib/src/java_jni/fenum.rs:59-68. -/
def javaInto (e : EnumI) : Text :=
  lit "        " ++ e.name ++ lit " " ++ tv ++ lit " = " ++ e.name ++ lit ".fromInt(" ++ fv ++ lit ");"
/-- `int out = var.getValue();`: macroslib/src/java_jni/fenum.rs:76-79. -/
def javaFrom : Text := lit "        int " ++ tv ++ lit " = " ++ fv ++ lit ".getValue();"
/-- `<jobject>::swig_from(var, env)`: macroslib/src/java_jni/fenum.rs:268-281. -/
def javaObj : Text := lit "let mut " ++ tv ++ lit ": jobject = <jobject>::swig_from(" ++ fv ++ lit ", env);"

/-- The foreign type (macroslib/src/java_jni/fenum.rs:52-83) and the conversion used by callbacks (lines 209-213, 263-284). -/
def javaFtCmds (e : EnumI) : List Cmd :=
  [.ftype e.src [] e.name [] (some ⟨key e.name, some (jint, javaInto e)⟩) (some ⟨key e.name, some (jint, javaFrom)⟩),
   .alloc jobject [], .rule (key e.name) jobject javaObj]

/-- `generate_enum` of the Java back end as far as the type map and the table of signatures are concerned:
macroslib/src/java_jni/fenum.rs:25-97. -/
def javaEnum (codeOk : Bool) (pkg : Text) (w : St × SigMap) (e : EnumI) : Except Failure (St × SigMap) :=
  if Enum.javaAccepted e.items then do
    let st ← reg w.1 (javaTypeCmds e)
    if codeOk then
      if (st.tm.names jint.name).isNone then .error .noJint else do
      let st ← reg st (javaFtCmds e)
      .ok (st, JavaNames.register pkg w.2 (.enum e.name))
    else .error .code
  else .error .tooMany

/-- Several enums one after the other, in the order of their declarations: macroslib/src/cpp/mod.rs:346-356. -/
def cppEnums (st : St) : List EnumI → Except Failure St
  | [] => .ok st
  | e :: es => do
    let st ← cppEnum true st e
    cppEnums st es

/-- The same for Java: macroslib/src/java_jni/mod.rs:200-212. -/
def javaEnums (pkg : Text) (w : St × SigMap) : List EnumI → Except Failure (St × SigMap)
  | [] => .ok w
  | e :: es => do
    let w ← javaEnum true pkg w e
    javaEnums pkg w es

end Flapi.EnumRegister
