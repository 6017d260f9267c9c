import Verif.Base.Text
/-!
# Doc comments and enum files as text (model)

How doc comments of the DSL are written to C++, C, Java and Python code, and the complete text of the files generated for
a `foreign_enum!` (without the text that user extension handlers add, which C07 is about).
-/
namespace Flapi.Comments

/-- `str::trim` (std).  `ws` is `char::is_whitespace`. -/
def trim (ws : Char → Bool) (t : Text) : Text := ((t.dropWhile ws).reverse.dropWhile ws).reverse

/-- Four blanks: macroslib/src/cpp/cpp_code.rs:34, macroslib/src/java_jni/java_code.rs:75, 80, 89. -/
def blanks4 : Text := [' ', ' ', ' ', ' ']

/-- The indentation pushed unless the comment is a class comment: macroslib/src/cpp/cpp_code.rs:33-35. -/
def indent (classComments : Bool) : Text := if classComments then [] else blanks4

/-- Loop of `doc_comments_to_c_comments` from index `i`: macroslib/src/cpp/cpp_code.rs:29-37. -/
def docToCLoop (ws : Char → Bool) (cls : Bool) : Nat → List Text → Text
  | _, [] => []
  | i, c :: cs => (if i ≠ 0 then ['\n'] else []) ++ indent cls ++ ('/' :: '/' :: trim ws c) ++ docToCLoop ws cls (i + 1) cs

/-- `doc_comments_to_c_comments`: macroslib/src/cpp/cpp_code.rs:24-39. -/
def docToC (ws : Char → Bool) (cs : List Text) (cls : Bool) : Text := docToCLoop ws cls 0 cs

/-- Loop of `doc_comments_to_java_comments` from index `i` for `n` comments in all:
macroslib/src/java_jni/java_code.rs:70-93. -/
def docToJavaLoop (ws : Char → Bool) (cls : Bool) (n : Nat) : Nat → List Text → Text
  | _, [] => []
  | i, c :: cs =>
    (if i ≠ 0 then ['\n'] else []) ++ indent cls ++
      (if i = 0 then ['/', '*', '*', '\n'] ++ indent cls else []) ++
      ([' ', '*', ' '] ++ trim ws c) ++
      (if i = n - 1 then '\n' :: indent cls ++ [' ', '*', '/'] else []) ++ docToJavaLoop ws cls n (i + 1) cs

/-- `doc_comments_to_java_comments`: macroslib/src/java_jni/java_code.rs:64-95. -/
def docToJava (ws : Char → Bool) (cs : List Text) (cls : Bool) : Text := docToJavaLoop ws cls cs.length 0 cs

/-- `[String]::join` (std). -/
def join (sep : Text) : List Text → Text
  | [] => []
  | [a] => a
  | a :: b :: l => a ++ sep ++ join sep (b :: l)

/-- The doc comment text of a Python method, handed to the Rust lexer: macroslib/src/python/mod.rs:356-359. -/
def docToPython (cs : List Text) : Text := ['/', '/', '/', ' '] ++ join ['\n', '/', '/', '/', ' '] cs

/-! ### Enum files -/

/-- `ForeignEnumItem` as far as the foreign text goes: macroslib/src/types.rs:263-267. -/
structure Item where
  name : Text
  docs : List Text

/-- `ForeignEnumInfo` as far as the foreign text goes: macroslib/src/types.rs:247-254. -/
structure EnumInfo where
  name : Text
  docs : List Text
  items : List Item

/-- `if !doc_comments.is_empty() && !doc_comments.ends_with('\n') { doc_comments.push('\n'); }`:
macroslib/src/cpp/fenum.rs:113-115, 174-176, macroslib/src/java_jni/fenum.rs:122-124. -/
def closeLine (t : Text) : Text := if t ≠ [] ∧ t.getLast? ≠ some '\n' then t ++ ['\n'] else t

/-- First lines of the C++ header of an enum: macroslib/src/cpp/fenum.rs:98-101. -/
def cppHead1 : Text := "// Automatically generated by flapigen\n#pragma once\n\nnamespace ".toList

/-- Items of the C++ header from index `i` of `n`: macroslib/src/cpp/fenum.rs:110-129. -/
def cppItems (ws : Char → Bool) (n : Nat) : Nat → List Item → Text
  | _, [] => []
  | i, it :: its =>
    closeLine (docToC ws it.docs true) ++ it.name ++ [' ', '=', ' '] ++ dec i ++ (if i = n - 1 then [] else [',']) ++
      ['\n'] ++ cppItems ws n (i + 1) its

/-- The C++ header of an enum: macroslib/src/cpp/fenum.rs:96-138. -/
def cppEnumFile (ws : Char → Bool) (ns : Text) (e : EnumInfo) : Text :=
  cppHead1 ++ ns ++ [' ', '{', '\n'] ++ docToC ws e.docs true ++ ['\n', 'e', 'n', 'u', 'm', ' '] ++ e.name ++
    [' ', '{', '\n'] ++ cppItems ws e.items.length 0 e.items ++
    (['}', ';', '\n', '}', ' ', '/', '/', ' ', 'n', 'a', 'm', 'e', 's', 'p', 'a', 'c', 'e', ' '] ++ ns ++ ['\n', '\n'])

/-- First lines of the C header of an enum: macroslib/src/cpp/fenum.rs:160-161. -/
def cHead1 : Text := "// Automatically generated by flapigen\n#pragma once\n\n".toList

/-- Items of the C header from index `i` of `n`: macroslib/src/cpp/fenum.rs:171-191. -/
def cItems (ws : Char → Bool) (name : Text) (n : Nat) : Nat → List Item → Text
  | _, [] => []
  | i, it :: its =>
    closeLine (docToC ws it.docs true) ++ blanks4 ++ name ++ ['_'] ++ it.name ++ [' ', '=', ' '] ++ dec i ++
      (if i ≠ n - 1 then [',', '\n'] else []) ++ ['\n'] ++ cItems ws name n (i + 1) its

/-- The C header of an enum: macroslib/src/cpp/fenum.rs:158-202. -/
def cEnumFile (ws : Char → Bool) (e : EnumInfo) : Text :=
  cHead1 ++ docToC ws e.docs true ++ ['\n', '\n', 'e', 'n', 'u', 'm', ' '] ++ e.name ++ [' ', '{', '\n'] ++
    cItems ws e.name e.items.length 0 e.items ++
    (['}', ';', '\n', '\n', 't', 'y', 'p', 'e', 'd', 'e', 'f', ' ', 'e', 'n', 'u', 'm', ' '] ++ e.name ++ [' ', 'C'] ++ e.name ++
      [';', '\n', '\n'])

/-- First line of the Java file: macroslib/src/java_jni/fenum.rs:108-109. -/
def javaHead1 : Text := "// Automatically generated by flapigen\npackage ".toList

/-- Comments of a Java enum constant: macroslib/src/java_jni/fenum.rs:120-126. -/
def javaItemDocs (ws : Char → Bool) (docs : List Text) : Text :=
  let d := docToJava ws docs false
  if d ≠ [] then closeLine d ++ blanks4 else d

/-- Constants of the Java enum from index `i` of `n`: macroslib/src/java_jni/fenum.rs:119-136. -/
def javaItems (ws : Char → Bool) (n : Nat) : Nat → List Item → Text
  | _, [] => []
  | i, it :: its =>
    blanks4 ++ javaItemDocs ws it.docs ++ it.name ++ ['('] ++ dec i ++ [')', if i = n - 1 then ';' else ',', '\n'] ++
      javaItems ws n (i + 1) its

/-- Field, constructor and getter: macroslib/src/java_jni/fenum.rs:138-150 (up to the enum's name, after it, and after the
second mention of it). -/
def javaMid1 : Text := "\n    private final int value;\n    ".toList
/-- macroslib/src/java_jni/fenum.rs:141-145. -/
def javaMid2 : Text :=
  "(int value) {\n        this.value = value;\n    }\n    public final int getValue() { return value; }\n    /*package*/ static ".toList
/-- macroslib/src/java_jni/fenum.rs:145. -/
def javaMid3 : Text := " fromInt(int x) {\n        switch (x) {".toList
/-- macroslib/src/java_jni/fenum.rs:155. -/
def javaCase1 : Text := "\n            case ".toList
/-- macroslib/src/java_jni/fenum.rs:155. -/
def javaCase2 : Text := ": return ".toList
/-- macroslib/src/java_jni/fenum.rs:165. -/
def javaEnd1 : Text := "\n            default: throw new Error(\"Invalid value for enum ".toList
/-- macroslib/src/java_jni/fenum.rs:165-168. -/
def javaEnd2 : Text := ": \" + x);\n        }\n    }\n}\n".toList

/-- The `case` lines from index `i`: macroslib/src/java_jni/fenum.rs:152-161. -/
def javaCases : Nat → List Item → Text
  | _, [] => []
  | i, it :: its => javaCase1 ++ dec i ++ javaCase2 ++ it.name ++ [';'] ++ javaCases (i + 1) its

/-- The Java file of an enum: macroslib/src/java_jni/fenum.rs:103-171. -/
def javaEnumFile (ws : Char → Bool) (pkg : Text) (e : EnumInfo) : Text :=
  javaHead1 ++ pkg ++ [';', '\n', '\n'] ++ docToJava ws e.docs true ++
    ['\n', 'p', 'u', 'b', 'l', 'i', 'c', ' ', 'e', 'n', 'u', 'm', ' '] ++ e.name ++ [' ', '{', '\n'] ++
    javaItems ws e.items.length 0 e.items ++
    (javaMid1 ++ e.name ++ javaMid2 ++ e.name ++ javaMid3 ++ javaCases 0 e.items ++ javaEnd1 ++ e.name ++ javaEnd2)

end Flapi.Comments
