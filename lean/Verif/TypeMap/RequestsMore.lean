import Verif.TypeMap.RequestsNested
/-!
# The answers of the back ends: directions, fallible results in Java, limits (C69)
-/
namespace Flapi.Requests
open Flapi Flapi.Macro Flapi.Template Flapi.Inst

variable {σ : Type}

theorem argDir_some (d : Dir) (p : Text) : argDir d (some p) = if p = output then .ok .outgoing else if p = input then .ok .incoming else .error .backend := rfl
theorem argDir_output (d : Dir) : argDir d (some output) = .ok .outgoing := by rw [argDir_some, if_pos rfl]
theorem argDir_input (d : Dir) : argDir d (some input) = .ok .incoming := by rw [argDir_some, if_neg (by decide), if_pos rfl]

/-! ## Theorems -/

/-- **C69**: in C++ the two sides of the boundary agree, in a context of any direction `d`: the type that `swig_i_type!(T, output)` names is the
type `swig_from_rust_to_i_type!` converts a `T` to, the type `swig_i_type!(T, input)` names is the one `swig_from_i_type_to_rust!` makes a `T` from, and
without an argument the type is the one for `d`. -/
theorem C69_boundary (W : World σ) (d : Dir) (t : PTy) (o i c : Info) (ho : Maps W t .outgoing o) (hi : Maps W t .incoming i) (hd : Maps W t d c) (s : σ) (x y : Text) :
    (∃ s', (cppB W d).iType s t (some "output".toList) = (.ok o.rt, s') ∧ (cppB W d).rustToI s t x y = W.conv s' t o.rt x y) ∧
    (∃ s', (cppB W d).iType s t (some "input".toList) = (.ok i.rt, s') ∧ (cppB W d).iToRust s t x y = W.conv s' i.rt t x y) ∧
    ∃ s', (cppB W d).iType s t none = (.ok c.rt, s') := by
  obtain ⟨s1, h1⟩ := ho s
  obtain ⟨s2, h2⟩ := hi s
  obtain ⟨s3, h3⟩ := hd s
  have e1 : argDir d (some "output".toList) = .ok .outgoing := argDir_output d
  have e2 : argDir d (some "input".toList) = .ok .incoming := argDir_input d
  refine ⟨⟨s1, ?_, ?_⟩, ⟨s2, ?_, ?_⟩, s3, ?_⟩
  · simp only [cppB, e1, h1, andAsk]
  · simp only [cppB, rustToI, h1, andAsk]
  · simp only [cppB, e2, h2, andAsk]
  · simp only [cppB, iToRust, h2, andAsk]
  · simp only [cppB, argDir, h3, andAsk]

/-- **C69**: another second argument of `swig_i_type!` or `swig_f_type!` is an error in C++, and nothing is mapped. -/
theorem C69_bad_direction (W : World σ) (d : Dir) (t : PTy) (s : σ) (p : Text) (h1 : p ≠ "output".toList) (h2 : p ≠ "input".toList) :
    (cppB W d).iType s t (some p) = (.error .backend, s) ∧ (cppB W d).fType s t (some p) = (.error .backend, s) := by
  have e : argDir d (some p) = .error .backend := (if_neg (c := p = output) h1).trans (if_neg (c := p = input) h2)
  simp only [cppB, e, and_self]

/-- **C69**: if a type in question cannot be mapped, every question about it fails with that error. -/
theorem C69_unmapped (W : World σ) (d : Dir) (t : PTy) (s s' : σ) (e : Er) (h : ∀ d, W.mapTy s t d = (.error e, s')) (x y : Text) :
    (cppB W d).iType s t none = (.error e, s') ∧ (cppB W d).fType s t none = (.error e, s') ∧
    (cppB W d).rustToI s t x y = (.error e, s') ∧ (cppB W d).iToRust s t x y = (.error e, s') ∧
    (cppB W d).foreignToI s t x = (.error e, s') ∧ (cppB W d).foreignFromI s t x = (.error e, s') := by
  simp only [cppB, argDir, rustToI, iToRust, h, andAsk, and_self]

theorem fNameJava {env : Env} {noNull : Text → Text} {W : World σ} {d : Dir} {al : List Alias} {p : Text} {t : PTy} {i : Info}
    (hp : fTypeArg env al p = .ok t) (hm : Maps W t d i) (s : σ) (m : List Text) :
    ∃ s', nameExp env (javaB noNull W d) al (s, m) swigFType [p] = .ok (i.name.value, (s', m ++ [])) := by
  obtain ⟨s', h⟩ := hm s
  refine ⟨s', ?_⟩
  unfold nameExp
  rw [if_pos rfl]
  simp only [callFType, oneOrTwo, hp]
  have e : (javaB noNull W d).fType s t none = (.ok ⟨i.name.value, i.name.display, []⟩, s') := by
    show andAsk (W.mapTy s t d) _ = _
    rw [h]
    rfl
  rw [e]
  rfl

theorem substName {env : Env} {B : Backend σ} {al : List Alias} {p : Text} {t : PTy} (hp : findTypeParam env p = .ok t) (s : σ) (m : List Text) :
    ∃ s', nameExp env B al (s, m) swigSubstType [p] = .ok (env.norm t, (s', m ++ [])) := by
  refine ⟨s, ?_⟩
  unfold nameExp
  rw [if_neg (by decide), if_pos rfl]
  simp only [hp, List.append_nil]

theorem fromJava {env : Env} {noNull : Text → Text} {W : World σ} {d : Dir} {al : List Alias} {p x : Text} {t : PTy} {i : Info}
    (hp : findTypeParam env p = .ok t) (hm : Maps W t .outgoing i) (s : σ) :
    ∃ s', foreignExp env (javaB noNull W d) al s swigForeignFromI [p, x] = .ok (javaCode i x, s') := by
  obtain ⟨s', h⟩ := hm s
  refine ⟨s', ?_⟩
  unfold foreignExp
  rw [if_neg (by decide), if_neg (by decide), if_pos (Or.inr rfl)]
  simp only [hp]
  rw [if_neg (by decide)]
  show ask (andAsk (W.mapTy s t _) _) _ = _
  rw [h]
  rfl

/-- **C69**: asked for the Java code that converts a variable `x` of type `T`, a generic rule gets `T`'s own conversion with `x` in the place
of its input (written `{from_var}` there). -/
theorem C69_java_helper (env : Env) (noNull : Text → Text) (W : World σ) (d : Dir) (al : List Alias) (p x a b : Text) (t : PTy) (i : Info) (r : FTypes.UName × Text)
    (hp : Param env (String.ofList p) t) (hm : Maps W t .outgoing i) (hc : i.conv = some r) (hr : r.2 = a ++ "{from_var}".toList ++ b)
    (ha : '{' ∉ a) (hb : '{' ∉ b) (s : σ) :
    ∃ s', foreignExp env (javaB noNull W d) al s swigForeignFromI [p, x] = .ok (a ++ x ++ b, s') := by
  have p1 : findTypeParam env p = .ok t := by
    have := findTypeParam_param hp
    simpa using this
  obtain ⟨s', h⟩ := fromJava (noNull := noNull) (d := d) (al := al) (x := x) p1 hm s
  refine ⟨s', ?_⟩
  rw [h]
  have e : javaCode i x = a ++ x ++ b := by
    unfold javaCode
    rw [hc]
    have hf : fromVar = hole := hole_eq.symm
    simp only [hf]
    rw [hr, ← hole_eq, List.append_assoc]
    rw [replace_no_brace ha, replace_hole]
    have := replace_no_brace hb x []
    rw [List.append_nil] at this
    rw [this, strReplace_nil _ _ hole_ne, List.append_nil, List.append_assoc]
  rw [e]

theorem read_result_prefix_str : readLit ("/*Result<swig_subst_type!(T), ".toList ++ "&str".toList ++ ">*/".toList) =
    some [.txt "/*Result<".toList, .call swigSubstType ["T".toList], .txt ", &str>*/".toList] := by decide +kernel
theorem read_result_prefix_string : readLit ("/*Result<swig_subst_type!(T), ".toList ++ "String".toList ++ ">*/".toList) =
    some [.txt "/*Result<".toList, .call swigSubstType ["T".toList], .txt ", String>*/".toList] := by decide +kernel
theorem read_result_name_str : readLit ("/*Result<swig_subst_type!(T), ".toList ++ "&str".toList ++ ">*/swig_f_type!(T)".toList) =
    some [.txt "/*Result<".toList, .call swigSubstType ["T".toList], .txt ", &str>*/".toList, .call swigFType ["T".toList], .txt []] := by decide +kernel
theorem read_result_name_string : readLit ("/*Result<swig_subst_type!(T), ".toList ++ "String".toList ++ ">*/swig_f_type!(T)".toList) =
    some [.txt "/*Result<".toList, .call swigSubstType ["T".toList], .txt ", String>*/".toList, .call swigFType ["T".toList], .txt []] := by decide +kernel
theorem result_code (e : Text) : (resultOut e).code = some ⟨"swig_foreign_from_i_type!(T, {from_var})".toList, ["{from_var}".toList]⟩ := by
  have h : fromTypemapString "swig_foreign_from_i_type!(T, $p)".toList ['p'] [] = ⟨"swig_foreign_from_i_type!(T, {from_var})".toList, ["{from_var}".toList]⟩ := by
    have := side_code (mods := []) (cfg := none) (pair := .onlyRight []) (code := "swig_foreign_from_i_type!(T, $p)") _ "swig_foreign_from_i_type!(T, {from_var})".toList rfl
      (by decide +kernel) (by decide +kernel) (by decide +kernel)
    exact Option.some.inj this
  unfold resultOut
  rw [h]
theorem read_result_code : readLit "swig_foreign_from_i_type!(T, {from_var})".toList =
    some [.txt [], .call swigForeignFromI ["T".toList, "{from_var}".toList], .txt []] := by decide +kernel

/-- **C69**: in Java a fallible result looks like the result itself (the name differs from `T`'s only by a hidden prefix), and is converted as `T` is. -/
theorem C69_java_result (env : Env) (noNull : Text → Text) (W : World σ) (al : List Alias) (e : String) (he : e = "&str" ∨ e = "String") (t : PTy) (i : Info)
    (hp : Param env "T" t) (hm : Maps W t .outgoing i) (s : σ) :
    ∃ r s', expandFConv env (javaB noNull W .outgoing) al s (resultOut e.toList) = .ok (r, s') ∧
      r.uniquePrefix = some (cat ["/*Result<".toList, env.norm t, ", ".toList, e.toList, ">*/".toList]) ∧
      r.pair = .onlyRight (cat ["/*Result<".toList, env.norm t, ", ".toList, e.toList, ">*/".toList] ++ i.name.value) ∧
      r.code = some ⟨javaCode i "{from_var}".toList, ["{from_var}".toList]⟩ := by
  have p1 := findTypeParam_param hp
  have f1 := fTypeArg_param (al := al) p1 rfl
  have hcode : ∀ s, ∃ s', expandForeignCode env (javaB noNull W .outgoing) al s "swig_foreign_from_i_type!(T, {from_var})".toList =
      .ok (javaCode i "{from_var}".toList, s') := fun s => by
    have := expand_fills (u := env.u) (exp := foreignExp env (javaB noNull W .outgoing) al) read_result_code (.txt (.call (fromJava p1 hm) (.last _))) s
    simp only [List.nil_append, List.append_nil] at this
    exact this
  have key : ∀ (c : Text), (∀ s m0, ∃ s', expandName env (javaB noNull W .outgoing) al (s, m0) ("/*Result<swig_subst_type!(T), ".toList ++ e.toList ++ ">*/".toList) =
        .ok ("/*Result<".toList ++ (env.norm t ++ c), (s', m0 ++ []))) →
      (∀ s m0, ∃ s', expandName env (javaB noNull W .outgoing) al (s, m0) ("/*Result<swig_subst_type!(T), ".toList ++ e.toList ++ ">*/swig_f_type!(T)".toList) =
        .ok ("/*Result<".toList ++ (env.norm t ++ (c ++ i.name.value)), (s', m0 ++ []))) →
      c = ", ".toList ++ (e.toList ++ ">*/".toList) →
      ∃ r s', expandFConv env (javaB noNull W .outgoing) al s (resultOut e.toList) = .ok (r, s') ∧
      r.uniquePrefix = some (cat ["/*Result<".toList, env.norm t, ", ".toList, e.toList, ">*/".toList]) ∧
      r.pair = .onlyRight (cat ["/*Result<".toList, env.norm t, ", ".toList, e.toList, ">*/".toList] ++ i.name.value) ∧
      r.code = some ⟨javaCode i "{from_var}".toList, ["{from_var}".toList]⟩ := by
    intro c hpre hname hc
    obtain ⟨s1, e1⟩ := hname s []
    obtain ⟨s2, e2⟩ := hcode s1
    obtain ⟨s3, e3⟩ := hpre s2 []
    have hv : "/*Result<".toList ++ (env.norm t ++ c) = cat ["/*Result<".toList, env.norm t, ", ".toList, e.toList, ">*/".toList] := by
      rw [hc]
      simp only [cat, List.flatten_cons, List.flatten_nil, List.append_nil]
    have hw : "/*Result<".toList ++ (env.norm t ++ (c ++ i.name.value)) =
        cat ["/*Result<".toList, env.norm t, ", ".toList, e.toList, ">*/".toList] ++ i.name.value := by
      rw [← hv]
      simp only [List.append_assoc]
    rw [hv] at e3
    rw [hw] at e1
    refine ⟨⟨some (cat ["/*Result<".toList, env.norm t, ", ".toList, e.toList, ">*/".toList]), [], none,
      .onlyRight (cat ["/*Result<".toList, env.norm t, ", ".toList, e.toList, ">*/".toList] ++ i.name.value), false,
      some ⟨javaCode i "{from_var}".toList, ["{from_var}".toList]⟩⟩, s3, ?_, rfl, rfl, rfl⟩
    have h1 : (resultOut e.toList).pair = .onlyRight ("/*Result<swig_subst_type!(T), ".toList ++ e.toList ++ ">*/swig_f_type!(T)".toList) := rfl
    have h2 : (resultOut e.toList).uniquePrefix = some ("/*Result<swig_subst_type!(T), ".toList ++ e.toList ++ ">*/".toList) := rfl
    have h3 : (resultOut e.toList).reqModules = [] := rfl
    have h4 : (resultOut e.toList).cfg = none := rfl
    have h5 : (resultOut e.toList).inputToOutput = false := rfl
    unfold expandFConv
    rw [h1, h2, h3, h4, h5, result_code]
    simp only [expandPair, e1, andThen, expandFConvCode, e2, expandModules, expandPrefix, e3, List.append_nil, retainNew]
  rcases he with rfl | rfl
  · refine key ", &str>*/".toList ?_ ?_ (by decide)
    · intro s m0
      have := expandName_fills read_result_prefix_str (.txt (.call (substName (B := javaB noNull W .outgoing) (al := al) p1) (.last _))) s m0
      simpa only [List.append_nil] using this
    · intro s m0
      have := expandName_fills read_result_name_str (.txt (.call (substName (B := javaB noNull W .outgoing) (al := al) p1) (.txt (.call (fNameJava f1 hm) (.last _))))) s m0
      simpa only [List.append_nil] using this
  · refine key ", String>*/".toList ?_ ?_ (by decide)
    · intro s m0
      have := expandName_fills read_result_prefix_string (.txt (.call (substName (B := javaB noNull W .outgoing) (al := al) p1) (.last _))) s m0
      simpa only [List.append_nil] using this
    · intro s m0
      have := expandName_fills read_result_name_string (.txt (.call (substName (B := javaB noNull W .outgoing) (al := al) p1) (.txt (.call (fNameJava f1 hm) (.last _))))) s m0
      simpa only [List.append_nil] using this

/-! ## Findings -/

/-- **C69 (finding)**: Java ignores the second argument of `swig_i_type!`, also an invalid one. -/
theorem C69_finding_java_direction (noNull : Text → Text) (W : World σ) (d : Dir) (s : σ) (t : PTy) (o : Option Text) :
    (javaB noNull W d).iType s t o = (javaB noNull W d).iType s t none := rfl

/-- **C69 (finding)**: the Java back end can answer no question of a rule that converts incoming values by code. -/
theorem C69_finding_java_incoming (noNull : Text → Text) (W : World σ) (d : Dir) (s : σ) (t : PTy) (x y : Text) :
    (javaB noNull W d).iToRust s t x y = (.error .backend, s) ∧ (javaB noNull W d).foreignToI s t x = (.error .backend, s) := ⟨rfl, rfl⟩

/-- **C69 (finding)**: the keywords are removed wherever their letters are followed by a blank: a parameter of a class `Construct` by reference, and a
class `Reunion`. -/
theorem C69_finding_keyword_in_name :
    (cppShown ⟨⟨"const Construct &".toList, 0⟩, .node [] .nil, none, []⟩).map (·.value) = some "const Con&".toList ∧
    (cppShown ⟨⟨"Reunion *".toList, 0⟩, .node [] .nil, none, []⟩).map (·.value) = some "Re*".toList := by decide +kernel

/-! ## The theorems apply -/

/-- `i32`, shown as `int32_t`. -/
def intInfo : Info := ⟨⟨"int32_t".toList, 0⟩, name "i32".toList, none, ["<stdint.h>".toList]⟩
/-- A class `Foo`, for which the user sees an object that owns the pointer. -/
def fooInfo : Info := ⟨⟨"FooOpaque *".toList, 0⟩, name "FooOpaque".toList, some (⟨"Foo".toList, 0⟩, "Foo({from_var})".toList), ["\"Foo.hpp\"".toList]⟩
/-- `(i32, Foo)`, as the theorem on pairs says. -/
def pairInfo : Info :=
  ⟨⟨"CRustPairi32FooOpaque".toList, 0⟩, name "CRustPairi32FooOpaque".toList, some (⟨"std::pair<int32_t, Foo>".toList, 0⟩,
    "std::make_pair({from_var}.first, Foo({from_var}.second))".toList), ["<utility>".toList]⟩
/-- `Option<(i32, Foo)>`. -/
def optInfo : Info :=
  ⟨⟨"CRustOpt".toList, 0⟩, name "CRustOpt".toList, some (⟨"std::optional<std::pair<int32_t, Foo>>".toList, 0⟩,
    "({from_var}.is_some != 0) ? std::optional<std::pair<int32_t, Foo>>(std::make_pair({from_var}.val.data.first, Foo({from_var}.val.data.second))) : std::optional<std::pair<int32_t, Foo>>()".toList), []⟩
/-- A mapping that counts the questions. -/
def demoWorld : World Nat where
  mapTy s t _ := (if t = name "i32".toList then .ok intInfo else if t = name "Foo".toList then .ok fooInfo else if t = name "Pair".toList then .ok pairInfo else .error .backend, s + 1)
  conv s _ _ x y := (.ok (y ++ " = ".toList ++ x ++ ";".toList), s + 1)
/-- `T1 = i32, T2 = Foo, T = Pair`. -/
def demoEnv : Env where
  u := asciiOnly
  norm _ := "i32".toList
  disp _ := "CRustPairi32FooOpaque".toList
  parse _ := none
  params p := if p = "T1".toList then some (name "i32".toList) else if p = "T2".toList then some (name "Foo".toList)
    else if p = "T".toList then some (name "Pair".toList) else none
/-- The alias of the header. -/
def demoAliases : List Alias := [⟨"CRustPairModule".toList, name "CRustPairi32FooOpaque".toList, []⟩]
theorem demo_int : Maps demoWorld (name "i32".toList) .outgoing intInfo := fun s => ⟨s + 1, by simp only [demoWorld, if_pos]⟩
theorem demo_foo : Maps demoWorld (name "Foo".toList) .outgoing fooInfo := fun s => ⟨s + 1, by
  simp only [demoWorld]; rw [if_neg (by decide), if_pos trivial]⟩
theorem demo_pair : Maps demoWorld (name "Pair".toList) .outgoing pairInfo := fun s => ⟨s + 1, by
  simp only [demoWorld]; rw [if_neg (by decide), if_neg (by decide), if_pos trivial]⟩
theorem demo_t1 : Param demoEnv "T1" (name "i32".toList) := by unfold Param demoEnv; decide
theorem demo_t2 : Param demoEnv "T2" (name "Foo".toList) := by unfold Param demoEnv; decide
theorem demo_t : Param demoEnv "T" (name "Pair".toList) := by unfold Param demoEnv; decide

theorem noTag_of {i : Info} (h1 : strContains (userType i).value "struct ".toList = false) (h2 : strContains (userType i).value "union ".toList = false) : NoTag i := by
  refine ⟨fun h => ?_, fun h => ?_⟩
  · rw [(strContains_iff _ _).2 h] at h1; cases h1
  · rw [(strContains_iff _ _).2 h] at h2; cases h2

theorem demo_leaf_int : LeafOk intInfo :=
  ⟨noTag_of (by decide +kernel) (by decide +kernel), by decide +kernel, fun c h => by cases h⟩
theorem demo_leaf_foo : LeafOk fooInfo := by
  refine ⟨noTag_of (by decide +kernel) (by decide +kernel), by decide +kernel, fun c h => ?_⟩
  cases h
  exact noOpenEnd_snoc "Foo({from_var}".toList ')' paren_hole

theorem demo_pair_instance : ∃ r s', expandFConv demoEnv (cppB demoWorld .outgoing) demoAliases 0 pairOut = .ok (r, s') ∧ Reports pairInfo r := by
  obtain ⟨r, s', h, hr⟩ := C69_pair_out demoEnv demoWorld demoAliases _ _ _ _ ⟨"CRustPairModule".toList, name "CRustPairi32FooOpaque".toList, []⟩ demo_t1 demo_int demo_leaf_int.1
    demo_t2 demo_foo demo_leaf_foo.1 rfl 0
  exact ⟨r, s', h, _, _, ["{from_var}".toList], rfl, by rw [hr.2.2.1]; decide +kernel, by rw [hr.2.2.2.2.1]; decide +kernel⟩

example : ∃ i, BuiltOut (.opt (.pair (.leaf intInfo) (.leaf fooInfo))) i ∧ applied i "ret".toList =
    "(ret.is_some != 0) ? std::optional<std::pair<int32_t, Foo>>(std::make_pair(ret.val.data.first, Foo(ret.val.data.second))) : std::optional<std::pair<int32_t, Foo>>()".toList := by
  obtain ⟨r, s', h, hr⟩ := demo_pair_instance
  have hp : BuiltOut (.pair (.leaf intInfo) (.leaf fooInfo)) pairInfo :=
    .pair (.leaf demo_leaf_int) (.leaf demo_leaf_foo) demo_t1 demo_t2 demo_int demo_foo rfl h hr
  obtain ⟨r2, s2, h2, hr2⟩ := C69_option_out demoEnv demoWorld demoAliases _ _ demo_t demo_pair (built_inv hp).noTag 0
  have hr2' : Reports optInfo r2 := ⟨_, _, ["{from_var}".toList], rfl, by rw [hr2.2.2.1]; decide +kernel, by rw [hr2.2.2.2.2.1]; decide +kernel⟩
  refine ⟨optInfo, .opt hp demo_t demo_pair h2 hr2', ?_⟩
  decide +kernel

/-- The text of the foreign side of `Result<i32, String>` in Java. -/
example : ∃ r s', expandFConv demoEnv (javaB id demoWorld .outgoing) [] 0 (resultOut "String".toList) = .ok (r, s') := by
  obtain ⟨r, s', h, -⟩ := C69_java_result demoEnv id demoWorld [] "String" (Or.inr rfl) _ _ demo_t demo_pair 0
  exact ⟨r, s', h⟩

end Flapi.Requests
