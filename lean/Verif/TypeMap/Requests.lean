import Verif.TypeMap.Instantiate
/-!
# How the C++ and Java back ends answer the helper macros of generic rules (model)

While a generic `foreign_typemap!` rule is instantiated, every helper macro in it (`swig_i_type!`, `swig_f_type!`,
`swig_from_rust_to_i_type!`, …) is a question to the back end, which answers by mapping the type in question
(`map_type`, C65).  Here: the answers, on top of an arbitrary mapping, and the foreign sides of the compound rules that come
with flapigen.  Left out: panics inside the mapping, spans, the text of error messages.
-/
namespace Flapi.Requests
open Flapi Flapi.Macro Flapi.Template Flapi.Inst

/-- `CppForeignTypeInfo` (macroslib/src/cpp/mod.rs:71-83), `JavaForeignTypeInfo` (macroslib/src/java_jni/mod.rs:61-66): `name` and `rt` are `base`,
`conv` is the type name and the code of `cpp_converter`/`java_converter`, `mods` is `provided_by_module`. -/
structure Info where
  name : FTypes.UName
  rt : PTy
  conv : Option (FTypes.UName × Text)
  mods : List Text
deriving DecidableEq

/-- What the answers are built from: `mapTy` is `find_or_alloc_rust_type` followed by `map_type`, `conv` is `convert_rust_types` with the
appending of the helper items it needs (macroslib/src/cpp/map_type.rs:185-193). -/
structure World (σ : Type) where
  mapTy : σ → PTy → Dir → Except Er Info × σ
  conv : σ → (src dst : PTy) → (inVar outVar : Text) → Except Er Text × σ

variable {σ : Type}

/-- A question whose failure is passed on, and what is done with the answer. -/
def andAsk {α β : Type} (r : Except Er α × σ) (f : α → σ → Except Er β × σ) : Except Er β × σ :=
  match r with
  | (.ok a, s) => f a s
  | (.error e, s) => (.error e, s)

/-- macroslib/src/cpp/map_type.rs:151. -/
def output : Text := "output".toList
/-- macroslib/src/cpp/map_type.rs:152. -/
def input : Text := "input".toList
/-- macroslib/src/cpp/map_type.rs:234. -/
def structBlank : Text := "struct ".toList
/-- macroslib/src/cpp/map_type.rs:234. -/
def unionBlank : Text := "union ".toList
/-- macroslib/src/java_jni/map_type.rs:288. -/
def noNullAnnotations : Text := "NoNullAnnotations".toList

/-- `arg_direction`: macroslib/src/cpp/map_type.rs:149-159. -/
def argDir (d : Dir) : Option Text → Except Er Dir
  | none => .ok d
  | some p => if p = output then .ok .outgoing else if p = input then .ok .incoming else .error .backend

/-- `swig_from_rust_to_i_type`: macroslib/src/cpp/map_type.rs:173-195, macroslib/src/java_jni/map_type.rs:250-272. -/
def rustToI (W : World σ) (s : σ) (t : PTy) (x y : Text) : Except Er Text × σ :=
  andAsk (W.mapTy s t .outgoing) fun i s' => W.conv s' t i.rt x y

/-- `swig_from_i_type_to_rust`: macroslib/src/cpp/map_type.rs:196-218. -/
def iToRust (W : World σ) (s : σ) (t : PTy) (x y : Text) : Except Er Text × σ :=
  andAsk (W.mapTy s t .incoming) fun i s' => W.conv s' i.rt t x y

/-- The name used for a C++ type inside other names: macroslib/src/cpp/map_type.rs:227-237.  `none`: `UniqueName::new` panics. -/
def cppShown (i : Info) : Option FTypes.UName :=
  let f := match i.conv with
    | some c => c.1
    | none => i.name
  FTypes.UName.new (strReplace (strReplace f.value structBlank []) unionBlank []) (f.uniquePrefix.getD [])

/-- The foreign code that converts the variable `x`: macroslib/src/cpp/map_type.rs:240-254 and 255-269. -/
def cppCode (i : Info) (x : Text) : Text :=
  match i.conv with
  | some c => strReplace c.2 fromVar x
  | none => x

/-- `TypeMapConvRuleInfoExpanderHelper for CppContextForArg`: macroslib/src/cpp/map_type.rs:162-270.  The panic of `cppShown` is reported as an
error. -/
def cppB (W : World σ) (d : Dir) : Backend σ where
  iType s t o :=
    match argDir d o with
    | .error e => (.error e, s)
    | .ok d' => andAsk (W.mapTy s t d') fun i s' => (.ok i.rt, s')
  fType s t o :=
    match argDir d o with
    | .error e => (.error e, s)
    | .ok d' => andAsk (W.mapTy s t d') fun i s' =>
      match cppShown i with
      | some n => (.ok ⟨n.value, n.display, i.mods⟩, s')
      | none => (.error .backend, s')
  rustToI := rustToI W
  iToRust := iToRust W
  foreignToI s t x := andAsk (W.mapTy s t .incoming) fun i s' => (.ok (cppCode i x), s')
  foreignFromI s t x := andAsk (W.mapTy s t .outgoing) fun i s' => (.ok (cppCode i x), s')

/-- The Java code that converts `x`, macroslib/src/java_jni/map_type.rs:309-323: nothing, if no conversion is needed. -/
def javaCode (i : Info) (x : Text) : Text :=
  match i.conv with
  | some c => strReplace c.2 fromVar x
  | none => []

/-- The name of a Java type inside other names: macroslib/src/java_jni/map_type.rs:287-303.  `noNull` is `filter_null_annotation` followed by `trim`
(Java/Code.lean); an invalid argument is noticed only after the mapping. -/
def javaShown (noNull : Text → Text) (i : Info) : Option Text → Except Er FName
  | none => .ok ⟨i.name.value, i.name.display, []⟩
  | some p =>
    if p = noNullAnnotations then .ok ⟨noNull i.name.display, noNull i.name.display, []⟩ else .error .backend

/-- `TypeMapConvRuleInfoExpanderHelper for JavaContextForArg`: macroslib/src/java_jni/map_type.rs:240-324.  `unimplemented!()` is an error. -/
def javaB (noNull : Text → Text) (W : World σ) (d : Dir) : Backend σ where
  iType s t _ := andAsk (W.mapTy s t d) fun i s' => (.ok i.rt, s')
  fType s t o := andAsk (W.mapTy s t d) fun i s' => (javaShown noNull i o, s')
  rustToI := rustToI W
  iToRust s _ _ _ := (.error .backend, s)
  foreignToI s _ _ := (.error .backend, s)
  foreignFromI s t x := andAsk (W.mapTy s t .outgoing) fun i s' => (.ok (javaCode i x), s')

/-! ### Foreign sides of the compound rules -/

/-- A foreign side `($p:f_type, option = cfg, req_modules = mods) => "name" "code"` as it is parsed
(macroslib/src/typemap/typemap_macro/parse.rs:687-720, modelled by `fromTypemapString`). -/
def side (mods : List String) (cfg : Option String) (pair : FTypes.FPair) (code : String) : FConv :=
  ⟨none, mods.map String.toList, cfg.map String.toList, pair, false, some (fromTypemapString code.toList ['p'] [])⟩

/-- macroslib/src/cpp/cpp-include.rs:319-320. -/
def pairOut : FConv :=
  side ["\"CRustPairModule!().h\"", "<utility>"] none (.onlyRight "std::pair<swig_f_type!(T1), swig_f_type!(T2)>".toList)
    "std::make_pair(swig_foreign_from_i_type!(T1, $p.first), swig_foreign_from_i_type!(T2, $p.second))"

/-- macroslib/src/cpp/cpp-include.rs:321-322. -/
def pairIn : FConv :=
  side ["\"CRustPairModule!().h\"", "<utility>"] none (.onlyRight "std::pair<swig_f_type!(T1), swig_f_type!(T2)>".toList)
    "swig_f_type!(CRustPair!()) { swig_foreign_to_i_type!(T1, $p.first), swig_foreign_to_i_type!(T2, $p.second) }"

/-- macroslib/src/cpp/cpp-include.rs:354-357 (a line break is one blank here). -/
def tupleOut : FConv :=
  side ["\"CRustTuple3Module!().h\"", "<tuple>"] none
    (.onlyRight "std::tuple<swig_f_type!(T1), swig_f_type!(T2), swig_f_type!(T3)>".toList)
    "std::make_tuple(swig_foreign_from_i_type!(T1, $p.first), swig_foreign_from_i_type!(T2, $p.second), swig_foreign_from_i_type!(T3, $p.third))"

/-- macroslib/src/cpp/cpp-include.rs:358-363 (a line break is one blank here). -/
def tupleIn : FConv :=
  side ["\"CRustTuple3Module!().h\"", "<tuple>"] none
    (.onlyRight "std::tuple<swig_f_type!(T1), swig_f_type!(T2), swig_f_type!(T3)>".toList)
    "swig_f_type!(CRustTuple3!()) { swig_foreign_to_i_type!(T1, $p.first), swig_foreign_to_i_type!(T2, $p.second), swig_foreign_to_i_type!(T3, $p.third), }"

/-- macroslib/src/cpp/cpp-include.rs:638-639. -/
def optionOut : FConv :=
  side ["\"rust_option.h\"", "<optional>"] (some "CppOptional::Std17") (.onlyRight "std::optional<swig_f_type!(T)>".toList)
    "($p.is_some != 0) ? std::optional<swig_f_type!(T)>(swig_foreign_from_i_type!(T, $p.val.data)) : std::optional<swig_f_type!(T)>()"

/-- macroslib/src/cpp/cpp-include.rs:640-650 (a line break is one blank here). -/
def optionIn : FConv :=
  side ["\"rust_option.h\"", "<optional>"] (some "CppOptional::Std17") (.onlyRight "std::optional<swig_f_type!(T)>".toList)
    "[](std::optional<swig_f_type!(T)> p) -> CRustOpt!() { CRustOpt!() out; if (p.has_value()) { out.val.data = swig_foreign_to_i_type!(T, (*p)); out.is_some = 1; } else { out.is_some = 0; } return out; }(std::move($p))"

/-- macroslib/src/cpp/cpp-include.rs:624-625. -/
def boostOut : FConv :=
  side ["\"rust_option.h\"", "<boost/optional.hpp>"] (some "CppOptional::Boost") (.onlyRight "boost::optional<swig_f_type!(T)>".toList)
    "($p.is_some != 0) ? boost::optional<swig_f_type!(T)>(swig_foreign_from_i_type!(T, $p.val.data)) : boost::optional<swig_f_type!(T)>()"

/-- The two Java rules for fallible results, macroslib/src/java_jni/jni-include.rs:487-488 (`e` = `&str`) and 504-505 (`e` = `String`). -/
def resultOut (e : Text) : FConv :=
  ⟨some ("/*Result<swig_subst_type!(T), ".toList ++ e ++ ">*/".toList), [], none,
    .onlyRight ("/*Result<swig_subst_type!(T), ".toList ++ e ++ ">*/swig_f_type!(T)".toList), false,
    some (fromTypemapString "swig_foreign_from_i_type!(T, $p)".toList ['p'] [])⟩

end Flapi.Requests
