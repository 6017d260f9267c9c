import Verif.TypeMap.RequestsMore
/-!
# Nested compound types passed to Rust (C69)

`RequestsNested` is about results; here are the arguments.
-/
namespace Flapi.Requests
open Flapi Flapi.Macro Flapi.Template Flapi.Inst

variable {σ : Type}

/-! ## Specification -/

/-- A nesting of pairs, triples and optional values that is passed to Rust; each compound type crosses the boundary as a C structure, whose
C++ name is given first. -/
inductive ShapeIn where
  | leaf (i : Info)
  | pair (c : Text) (a b : ShapeIn)
  | triple (c : Text) (x y z : ShapeIn)
  | opt (c : Text) (a : ShapeIn)

/-- The C++ type of a nesting. -/
def ShapeIn.type : ShapeIn → Text
  | .leaf i => (userType i).value
  | .pair _ a b => cat ["std::pair<".toList, a.type, ", ".toList, b.type, ">".toList]
  | .triple _ a b c => cat ["std::tuple<".toList, a.type, ", ".toList, b.type, ", ".toList, c.type, ">".toList]
  | .opt _ a => cat ["std::optional<".toList, a.type, ">".toList]

/-- The C++ expression that makes the boundary value out of the user's value `x`: a structure is made of the converted components; an optional
value is converted by a lambda function, which converts what is inside if there is something. -/
def ShapeIn.give : ShapeIn → Text → Text
  | .leaf i, x => applied i x
  | .pair n a b, x =>
    cat [n, " { ".toList, a.give (x ++ ".first".toList), ", ".toList, b.give (x ++ ".second".toList), " }".toList]
  | .triple n a b c, x =>
    cat [n, " { ".toList, a.give (x ++ ".first".toList), ", ".toList, b.give (x ++ ".second".toList), ", ".toList,
      c.give (x ++ ".third".toList), ", }".toList]
  | .opt n a, x =>
    cat ["[](std::optional<".toList, a.type, "> p) -> ".toList, n, " { ".toList, n, " out; if (p.has_value()) { out.val.data = ".toList,
      a.give "(*p)".toList, "; out.is_some = 1; } else { out.is_some = 0; } return out; }(std::move(".toList, x, "))".toList]

/-- The mapping of a nesting: that of a compound type is an instance of its rule, instantiated by a back end that maps the component
types as nestings. -/
inductive BuiltIn : ShapeIn → Info → Prop
  | leaf {i : Info} : LeafOk i → BuiltIn (.leaf i) i
  | pair {σ : Type} {a b : ShapeIn} {i1 i2 i ia : Info} {env : Env} {W : World σ} {al : List Alias} {t1 t2 : PTy} {s s' : σ} {r : FConv}
    {am aa : Alias} :
    BuiltIn a i1 → BuiltIn b i2 → Param env "T1" t1 → Param env "T2" t2 → Maps W t1 .incoming i1 → Maps W t2 .incoming i2 →
    findAlias al "CRustPairModule".toList = some am → findAlias al "CRustPair".toList = some aa →
    Maps W aa.value .incoming ia → LeafOk ia →
    expandFConv env (cppB W .incoming) al s pairIn = .ok (r, s') → Reports i r → BuiltIn (.pair (userType ia).value a b) i
  | triple {σ : Type} {a b c : ShapeIn} {i1 i2 i3 i ia : Info} {env : Env} {W : World σ} {al : List Alias} {t1 t2 t3 : PTy} {s s' : σ}
    {r : FConv} {am aa : Alias} :
    BuiltIn a i1 → BuiltIn b i2 → BuiltIn c i3 → Param env "T1" t1 → Param env "T2" t2 → Param env "T3" t3 →
    Maps W t1 .incoming i1 → Maps W t2 .incoming i2 → Maps W t3 .incoming i3 →
    findAlias al "CRustTuple3Module".toList = some am → findAlias al "CRustTuple3".toList = some aa →
    Maps W aa.value .incoming ia → LeafOk ia →
    expandFConv env (cppB W .incoming) al s tupleIn = .ok (r, s') → Reports i r → BuiltIn (.triple (userType ia).value a b c) i
  | opt {σ : Type} {a : ShapeIn} {i1 i : Info} {env : Env} {W : World σ} {al : List Alias} {t1 : PTy} {s s' : σ} {r : FConv} {aa : Alias} :
    BuiltIn a i1 → Param env "T" t1 → Maps W t1 .incoming i1 →
    findAlias al "CRustOpt".toList = some aa → '{' ∉ env.disp aa.value →
    expandFConv env (cppB W .incoming) al s optionIn = .ok (r, s') → Reports i r → BuiltIn (.opt (env.disp aa.value) a) i

/-! ## Helpers -/

/-- A text in which no placeholder begins, ends or stands. -/
theorem replace_inert_lit {w : Text} (hw : Inert hole w) (x B : Text) : strReplace (w ++ B) hole x = w ++ strReplace B hole x :=
  strReplace_inert _ _ _ _ hole_ne hw

theorem inert_of_check {w : Text} (h : ∀ n < w.length, ¬ hole <+: w.drop n ∧ ¬ w.drop n <+: hole) : Inert hole w := by
  intro s hs hsx
  obtain ⟨q, rfl⟩ := hsx
  have hl : 0 < s.length := List.length_pos_iff.2 hs
  have := h q.length (by simp; omega)
  simpa using this

theorem lit_brace : Inert hole (lit " { ") := by
  apply inert_of_check; unfold lit; rw [hole_eq]; decide
theorem lit_out : Inert hole (lit " out; if (p.has_value()) { out.val.data = ") := by
  apply inert_of_check; unfold lit; rw [hole_eq]; decide +kernel
theorem lit_tail : Inert hole (lit "; out.is_some = 1; } else { out.is_some = 0; } return out; }(std::move(") := by
  apply inert_of_check; unfold lit; rw [hole_eq]; decide +kernel
theorem lit_tailHole : lit "; out.is_some = 1; } else { out.is_some = 0; } return out; }(std::move({from_var}))" =
    lit "; out.is_some = 1; } else { out.is_some = 0; } return out; }(std::move(" ++ (hole ++ lit "))") := by
  unfold lit; rw [hole_eq]; decide +kernel
theorem lit_closeBrace_no : '{' ∉ lit " }" := by unfold lit; decide
theorem lit_closeBrace3_no : '{' ∉ lit ", }" := by unfold lit; decide
theorem lit_close2_no : '{' ∉ lit "))" := by unfold lit; decide
theorem lit_lambda_no : '{' ∉ lit "[](std::optional<" := by unfold lit; decide
theorem lit_arrow_no : '{' ∉ lit "> p) -> " := by unfold lit; decide
theorem lit_closeBrace : lit " }" = [' '] ++ ['}'] := by unfold lit; decide
theorem lit_closeBrace3 : lit ", }" = [',', ' '] ++ ['}'] := by unfold lit; decide
theorem lit_close2 : lit "))" = [')'] ++ [')'] := by unfold lit; decide
theorem brace_hole : '}' ∉ hole.dropLast := by rw [hole_eq]; decide
theorem lit_star : lit "(*p)" = ['(', '*', 'p', ')'] := by unfold lit; decide
theorem lit_star_no : '{' ∉ lit "(*p)" := by unfold lit; decide

/-- A component that was converted with a text without placeholder has no placeholder left. -/
theorem applied_done {i : Info} (ho : CodeOk i) (x B : Text) :
    strReplace (applied i (lit "(*p)") ++ B) hole x = applied i (lit "(*p)") ++ strReplace B hole x := by
  rw [applied_hole]
  cases hc : i.conv with
  | none => exact replace_no_brace lit_star_no _ _
  | some c =>
    refine replace_twice _ _ _ ⟨'(', ['*', 'p', ')'], lit_star, ?_⟩ (fun B => replace_no_brace lit_star_no _ _) c.2.length c.2 B
      (Nat.le_refl _) (ho c hc)
    unfold holeRest; decide

theorem fill_pair_in {i1 i2 : Info} {n : Text} (hn : '{' ∉ n) (o1 : CodeOk i1) (o2 : CodeOk i2) (x : Text) :
    strReplace (cat [n, lit " { ", applied i1 (lit "{from_var}.first"), lit ", ", applied i2 (lit "{from_var}.second"), lit " }"]) hole x =
      cat [n, lit " { ", applied i1 (x ++ lit ".first"), lit ", ", applied i2 (x ++ lit ".second"), lit " }"] := by
  simp only [cat, List.flatten_cons, List.flatten_nil, List.append_nil]
  rw [lit_first, lit_second, replace_no_brace hn, replace_inert_lit lit_brace, applied_twice o1 lit_first_no, replace_no_brace lit_comma_no,
    applied_twice o2 lit_second_no, replace_last lit_closeBrace_no]

theorem fill_triple_in {i1 i2 i3 : Info} {n : Text} (hn : '{' ∉ n) (o1 : CodeOk i1) (o2 : CodeOk i2) (o3 : CodeOk i3) (x : Text) :
    strReplace (cat [n, lit " { ", applied i1 (lit "{from_var}.first"), lit ", ", applied i2 (lit "{from_var}.second"), lit ", ",
        applied i3 (lit "{from_var}.third"), lit ", }"]) hole x =
      cat [n, lit " { ", applied i1 (x ++ lit ".first"), lit ", ", applied i2 (x ++ lit ".second"), lit ", ",
        applied i3 (x ++ lit ".third"), lit ", }"] := by
  simp only [cat, List.flatten_cons, List.flatten_nil, List.append_nil]
  rw [lit_first, lit_second, lit_third, replace_no_brace hn, replace_inert_lit lit_brace, applied_twice o1 lit_first_no,
    replace_no_brace lit_comma_no, applied_twice o2 lit_second_no, replace_no_brace lit_comma_no, applied_twice o3 lit_third_no,
    replace_last lit_closeBrace3_no]

theorem fill_opt_in {i1 : Info} {t n : Text} (ht : '{' ∉ t) (hn : '{' ∉ n) (o1 : CodeOk i1) (x : Text) :
    strReplace (cat [lit "[](std::optional<", t, lit "> p) -> ", n, lit " { ", n, lit " out; if (p.has_value()) { out.val.data = ",
        applied i1 (lit "(*p)"), lit "; out.is_some = 1; } else { out.is_some = 0; } return out; }(std::move({from_var}))"]) hole x =
      cat [lit "[](std::optional<", t, lit "> p) -> ", n, lit " { ", n, lit " out; if (p.has_value()) { out.val.data = ",
        applied i1 (lit "(*p)"), lit "; out.is_some = 1; } else { out.is_some = 0; } return out; }(std::move(", x, lit "))"] := by
  simp only [cat, List.flatten_cons, List.flatten_nil, List.append_nil]
  rw [lit_tailHole, replace_no_brace lit_lambda_no, replace_no_brace ht, replace_no_brace lit_arrow_no, replace_no_brace hn,
    replace_inert_lit lit_brace, replace_no_brace hn, replace_inert_lit lit_out, applied_done o1, replace_inert_lit lit_tail, replace_hole,
    replace_last lit_close2_no]

theorem codeOk_brace {i : Info} {u : FTypes.UName} {c A : Text} (h : i.conv = some (u, c)) (hc : c = A ++ ['}']) : CodeOk i := by
  intro c' h'
  rw [h] at h'
  cases h'
  rw [hc]
  exact noOpenEnd_snoc _ _ brace_hole

theorem codeOk_in6 {i : Info} {u : FTypes.UName} {a b c d e f : Text} (h : i.conv = some (u, cat [a, b, c, d, e, f ++ ['}']])) : CodeOk i :=
  codeOk_brace (A := cat [a, b, c, d, e, f]) h (by simp only [cat, List.flatten_cons, List.flatten_nil, List.append_nil, List.append_assoc])

theorem codeOk_in8 {i : Info} {u : FTypes.UName} {a b c d e f g k : Text}
    (h : i.conv = some (u, cat [a, b, c, d, e, f, g, k ++ ['}']])) : CodeOk i :=
  codeOk_brace (A := cat [a, b, c, d, e, f, g, k]) h
    (by simp only [cat, List.flatten_cons, List.flatten_nil, List.append_nil, List.append_assoc])

theorem codeOk_in9 {i : Info} {u : FTypes.UName} {a b c d e f g k l m n : Text}
    (h : i.conv = some (u, cat [a, b, c, d, e, f, g, k, l ++ (m ++ (n ++ [')']))])) : CodeOk i :=
  codeOk_of (A := cat [a, b, c, d, e, f, g, k, l, m, n]) h
    (by simp only [cat, List.flatten_cons, List.flatten_nil, List.append_nil, List.append_assoc])

/-- What holds of the mapping of every nesting. -/
structure InvIn (sh : ShapeIn) (i : Info) : Prop where
  ty : (userType i).value = sh.type
  gv : ∀ x, applied i x = sh.give x
  tag : NoWord sh.type
  brace : '{' ∉ sh.type
  code : CodeOk i

theorem InvIn.noTag {sh : ShapeIn} {i : Info} (h : InvIn sh i) : NoTag i := (noTag_iff h.ty).2 h.tag

theorem builtIn_inv {sh : ShapeIn} {i : Info} (h : BuiltIn sh i) : InvIn sh i := by
  induction h with
  | leaf h => exact ⟨rfl, fun _ => rfl, (noTag_iff rfl).1 h.1, h.2.1, h.2.2⟩
  | pair _ _ p1 p2 m1 m2 hma haa ma la he hr I1 I2 =>
    obtain ⟨r', s'', e, is⟩ := C69_pair_in _ _ _ _ _ _ _ _ _ _ p1 m1 I1.noTag p2 m2 I2.noTag hma haa ma la.1 _
    have hd := det (f := fun s => expandFConv _ _ _ s pairIn) he e
    cases hd
    obtain ⟨hn, u, hc⟩ := userType_reports hr is
    simp only [toList_lit] at hn hc
    rw [show ∀ (l : List Text), cat (lit "" :: l) = cat l from fun l => by
      simp only [cat, List.flatten_cons]; unfold lit; rfl] at hc
    refine ⟨?_, fun x => ?_, ⟨?_, ?_⟩, ?_, ?_⟩
    · rw [hn, I1.ty, I2.ty]; simp only [ShapeIn.type, toList_lit]
    · rw [applied_of hc, fill_pair_in la.2.1 I1.code I2.code, I1.gv, I2.gv]; simp only [ShapeIn.give, toList_lit]
    · simp only [ShapeIn.type, toList_lit, cat, List.flatten_cons, List.flatten_nil, List.append_nil]
      exact pair_type_word word_struct I1.tag.1 I2.tag.1 lit_pairOpen' lit_comma lit_gt
    · simp only [ShapeIn.type, toList_lit, cat, List.flatten_cons, List.flatten_nil, List.append_nil]
      exact pair_type_word word_union I1.tag.2 I2.tag.2 lit_pairOpen' lit_comma lit_gt
    · simp only [ShapeIn.type, toList_lit, cat, List.flatten_cons, List.flatten_nil, List.append_nil, List.mem_append, not_or]
      exact ⟨lit_pairOpen_no, I1.brace, lit_comma_no, I2.brace, lit_gt_no⟩
    · rw [lit_closeBrace] at hc
      exact codeOk_in6 hc
  | triple _ _ _ p1 p2 p3 m1 m2 m3 hma haa ma la he hr I1 I2 I3 =>
    obtain ⟨r', s'', e, is⟩ := C69_triple_in _ _ _ _ _ _ _ _ _ _ _ _ p1 m1 I1.noTag p2 m2 I2.noTag p3 m3 I3.noTag hma haa ma la.1 _
    have hd := det (f := fun s => expandFConv _ _ _ s tupleIn) he e
    cases hd
    obtain ⟨hn, u, hc⟩ := userType_reports hr is
    simp only [toList_lit] at hn hc
    rw [show ∀ (l : List Text), cat (lit "" :: l) = cat l from fun l => by
      simp only [cat, List.flatten_cons]; unfold lit; rfl] at hc
    refine ⟨?_, fun x => ?_, ⟨?_, ?_⟩, ?_, ?_⟩
    · rw [hn, I1.ty, I2.ty, I3.ty]; simp only [ShapeIn.type, toList_lit]
    · rw [applied_of hc, fill_triple_in la.2.1 I1.code I2.code I3.code, I1.gv, I2.gv, I3.gv]; simp only [ShapeIn.give, toList_lit]
    · simp only [ShapeIn.type, toList_lit, cat, List.flatten_cons, List.flatten_nil, List.append_nil]
      exact triple_type_word word_struct I1.tag.1 I2.tag.1 I3.tag.1 lit_tupleOpen' lit_comma lit_gt
    · simp only [ShapeIn.type, toList_lit, cat, List.flatten_cons, List.flatten_nil, List.append_nil]
      exact triple_type_word word_union I1.tag.2 I2.tag.2 I3.tag.2 lit_tupleOpen' lit_comma lit_gt
    · simp only [ShapeIn.type, toList_lit, cat, List.flatten_cons, List.flatten_nil, List.append_nil, List.mem_append, not_or]
      exact ⟨lit_tupleOpen_no, I1.brace, lit_comma_no, I2.brace, lit_comma_no, I3.brace, lit_gt_no⟩
    · rw [lit_closeBrace3] at hc
      exact codeOk_in8 hc
  | opt _ p1 m1 haa hb he hr I1 =>
    obtain ⟨r', s'', e, is⟩ := C69_option_in _ _ _ _ _ _ p1 m1 I1.noTag haa _
    have hd := det (f := fun s => expandFConv _ _ _ s optionIn) he e
    cases hd
    obtain ⟨hn, u, hc⟩ := userType_reports hr is
    simp only [toList_lit] at hn hc
    refine ⟨?_, fun x => ?_, ⟨?_, ?_⟩, ?_, ?_⟩
    · rw [hn, I1.ty]; simp only [ShapeIn.type, toList_lit]
    · rw [applied_of hc, I1.ty, fill_opt_in I1.brace hb I1.code, I1.gv]; simp only [ShapeIn.give, toList_lit]
    · simp only [ShapeIn.type, toList_lit, cat, List.flatten_cons, List.flatten_nil, List.append_nil]
      exact opt_type_word word_struct I1.tag.1 lit_optOpen' lit_gt
    · simp only [ShapeIn.type, toList_lit, cat, List.flatten_cons, List.flatten_nil, List.append_nil]
      exact opt_type_word word_union I1.tag.2 lit_optOpen' lit_gt
    · simp only [ShapeIn.type, toList_lit, cat, List.flatten_cons, List.flatten_nil, List.append_nil, List.mem_append, not_or]
      exact ⟨lit_optOpen_no, I1.brace, lit_gt_no⟩
    · rw [lit_tailHole, lit_close2] at hc
      exact codeOk_in9 hc

/-- **C69**: the C++ type of an argument that is built of pairs, triples and optional values, to any depth, is that nesting of `std::pair`,
`std::tuple` and `std::optional` of the leaves' types, and the expression that its boundary value is made with is the same nesting of C structures,
applied to the user's value: each component is converted by its own code in its own place. -/
theorem C69_nested_in (sh : ShapeIn) (i : Info) (h : BuiltIn sh i) :
    (userType i).value = sh.type ∧ ∀ x, applied i x = sh.give x := ⟨(builtIn_inv h).ty, (builtIn_inv h).gv⟩

/-! ## Non-vacuity: `Option<(i32, Foo)>` as an argument -/

/-- `Foo` passed by value: its converter takes the pointer. -/
def fooIn : Info := ⟨⟨"FooOpaque *".toList, 0⟩, name "FooOpaque".toList, some (⟨"Foo".toList, 0⟩, "{from_var}.release()".toList), []⟩
/-- The structure the pair crosses the boundary as. -/
def pairC : Info := ⟨⟨"CRustPairi32FooOpaque".toList, 0⟩, name "CRustPairi32FooOpaque".toList, none, []⟩
/-- What the rule for pairs makes of `(i32, Foo)`. -/
def pairArg : Info := ⟨⟨"CRustPairi32FooOpaque".toList, 0⟩, name "CRustPairi32FooOpaque".toList,
  some (⟨"std::pair<int32_t, Foo>".toList, 0⟩, "CRustPairi32FooOpaque { {from_var}.first, {from_var}.second.release() }".toList), []⟩
/-- What the rule for options makes of that. -/
def optArg : Info := ⟨⟨"COpt".toList, 0⟩, name "COpt".toList,
  some (⟨"std::optional<std::pair<int32_t, Foo>>".toList, 0⟩,
    "[](std::optional<std::pair<int32_t, Foo>> p) -> CRustPairi32FooOpaque { CRustPairi32FooOpaque out; if (p.has_value()) { out.val.data = CRustPairi32FooOpaque { (*p).first, (*p).second.release() }; out.is_some = 1; } else { out.is_some = 0; } return out; }(std::move({from_var}))".toList), []⟩

/-- A world that knows them. -/
def inWorld : World Nat where
  mapTy s t _ :=
    if t = name "i32".toList then (.ok intInfo, s + 1)
    else if t = name "Foo".toList then (.ok fooIn, s + 1)
    else if t = name "Pair".toList then (.ok pairArg, s + 1)
    else (.ok pairC, s + 1)
  conv s _ _ _ _ := (.ok [], s)

theorem in_int : Maps inWorld (name "i32".toList) .incoming intInfo := fun s => ⟨s + 1, by simp only [inWorld, if_pos]⟩
theorem in_foo : Maps inWorld (name "Foo".toList) .incoming fooIn := fun s => ⟨s + 1, by
  simp only [inWorld]; rw [if_neg (by decide), if_pos trivial]⟩
theorem in_pair : Maps inWorld (name "Pair".toList) .incoming pairArg := fun s => ⟨s + 1, by
  simp only [inWorld]; rw [if_neg (by decide), if_neg (by decide), if_pos trivial]⟩
theorem in_c : Maps inWorld (name "CRustPairi32FooOpaque".toList) .incoming pairC := fun s => ⟨s + 1, by
  simp only [inWorld]; rw [if_neg (by decide), if_neg (by decide), if_neg (by decide)]⟩

/-- The aliases of the two rules. -/
def inAliases : List Alias :=
  [⟨"CRustPairModule".toList, name "CRustPairi32FooOpaque".toList, []⟩, ⟨"CRustPair".toList, name "CRustPairi32FooOpaque".toList, []⟩,
    ⟨"CRustOpt".toList, name "COpt".toList, []⟩]

theorem in_a1 : findAlias inAliases "CRustPairModule".toList = some ⟨"CRustPairModule".toList, name "CRustPairi32FooOpaque".toList, []⟩ :=
  (findAlias_iff _ _ _).2 .here
theorem in_a2 : findAlias inAliases "CRustPair".toList = some ⟨"CRustPair".toList, name "CRustPairi32FooOpaque".toList, []⟩ :=
  (findAlias_iff _ _ _).2 (.there (by decide) .here)
theorem in_a3 : findAlias inAliases "CRustOpt".toList = some ⟨"CRustOpt".toList, name "COpt".toList, []⟩ :=
  (findAlias_iff _ _ _).2 (.there (by decide) (.there (by decide) .here))

theorem in_leaf_foo : LeafOk fooIn := by
  refine ⟨noTag_of (by decide +kernel) (by decide +kernel), by decide +kernel, fun c h => ?_⟩
  cases h
  exact noOpenEnd_snoc "{from_var}.release(".toList ')' paren_hole
theorem in_leaf_c : LeafOk pairC :=
  ⟨noTag_of (by decide +kernel) (by decide +kernel), by decide +kernel, fun c h => by cases h⟩

example : ∃ n m i, BuiltIn (.opt n (.pair m (.leaf intInfo) (.leaf fooIn))) i ∧ applied i "x".toList =
    "[](std::optional<std::pair<int32_t, Foo>> p) -> CRustPairi32FooOpaque { CRustPairi32FooOpaque out; if (p.has_value()) { out.val.data = CRustPairi32FooOpaque { (*p).first, (*p).second.release() }; out.is_some = 1; } else { out.is_some = 0; } return out; }(std::move(x))".toList := by
  obtain ⟨r, s', h, hr⟩ := C69_pair_in demoEnv inWorld inAliases _ _ _ _ ⟨"CRustPairModule".toList, name "CRustPairi32FooOpaque".toList, []⟩
    ⟨"CRustPair".toList, name "CRustPairi32FooOpaque".toList, []⟩ pairC demo_t1 in_int demo_leaf_int.1 demo_t2 in_foo in_leaf_foo.1
    in_a1 in_a2 in_c in_leaf_c.1 0
  have hr1 : Reports pairArg r := ⟨_, _, ["{from_var}".toList], rfl, by rw [hr.2.2.1]; decide +kernel, by rw [hr.2.2.2.2.1]; decide +kernel⟩
  have hp := BuiltIn.pair (.leaf demo_leaf_int) (.leaf in_leaf_foo) demo_t1 demo_t2 in_int in_foo (al := inAliases)
    (am := ⟨"CRustPairModule".toList, name "CRustPairi32FooOpaque".toList, []⟩)
    (aa := ⟨"CRustPair".toList, name "CRustPairi32FooOpaque".toList, []⟩) in_a1 in_a2 in_c in_leaf_c h hr1
  obtain ⟨r2, s2, h2, hr2⟩ := C69_option_in demoEnv inWorld inAliases _ _ ⟨"CRustOpt".toList, name "COpt".toList, []⟩ demo_t in_pair
    (builtIn_inv hp).noTag in_a3 0
  have hr2' : Reports optArg r2 := ⟨_, _, ["{from_var}".toList], rfl, by rw [hr2.2.2.1]; decide +kernel, by rw [hr2.2.2.2.2.1]; decide +kernel⟩
  refine ⟨_, _, optArg, .opt (al := inAliases) (aa := ⟨"CRustOpt".toList, name "COpt".toList, []⟩) hp demo_t in_pair in_a3
    (by decide +kernel) h2 hr2', ?_⟩
  decide +kernel

end Flapi.Requests
