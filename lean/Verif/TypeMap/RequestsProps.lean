import Verif.TypeMap.Requests
import Verif.TypeMap.InstantiateRule
import Verif.Macro.Literal
/-!
# Helper macros in generic rules are answered by the mapping of the type in question (C69)
-/
namespace Flapi.Requests
open Flapi Flapi.Macro Flapi.Template Flapi.Inst

variable {σ : Type}

/-! ## Specification -/

/-- Whenever it is asked, the mapping of the Rust type `t` in direction `d` is `i`. -/
def Maps (W : World σ) (t : PTy) (d : Dir) (i : Info) : Prop := ∀ s, ∃ s', W.mapTy s t d = (.ok i, s')

/-- The type the user of the foreign side sees in C++: that of the converter, if there is one. -/
def userType (i : Info) : FTypes.UName :=
  match i.conv with
  | some c => c.1
  | none => i.name

/-- The C++ name contains no `struct` or `union` keyword. -/
def NoTag (i : Info) : Prop := ¬ "struct ".toList <:+: (userType i).value ∧ ¬ "union ".toList <:+: (userType i).value

/-- The C++ expression that converts the variable `x`: the conversion code with `x` put in, or `x` itself. -/
def applied (i : Info) (x : Text) : Text :=
  match i.conv with
  | some c => strReplace c.2 "{from_var}".toList x
  | none => x

/-- Texts one after the other. -/
def cat (l : List Text) : Text := l.flatten

/-- The type parameter `p` stands for `t`. -/
def Param (env : Env) (p : String) (t : PTy) : Prop := env.params p.toList = some t

/-! ## Helpers -/

theorem maps_next {W : World σ} {t : PTy} {d : Dir} {i : Info} (h : Maps W t d i) : ∃ n : σ → σ, ∀ s, W.mapTy s t d = (.ok i, n s) :=
  ⟨fun s => (h s).choose, fun s => (h s).choose_spec⟩

theorem userType_shown (i : Info) (h : NoTag i) : ∃ n, cppShown i = some n ∧ n.value = (userType i).value := by
  have e : cppShown i = FTypes.UName.new (strReplace (strReplace (userType i).value "struct ".toList []) "union ".toList [])
      ((userType i).uniquePrefix.getD []) := rfl
  rw [e, strReplace_absent _ _ _ h.1, strReplace_absent _ _ _ h.2]
  refine ⟨⟨(userType i).value, ((userType i).uniquePrefix.getD []).length⟩, ?_, rfl⟩
  unfold FTypes.UName.new
  rw [if_pos]
  unfold FTypes.UName.uniquePrefix
  split
  · exact List.isPrefixOf_iff_prefix.2 (List.take_prefix _ _)
  · simp

theorem findTypeParam_param {env : Env} {p : String} {t : PTy} (h : Param env p t) : findTypeParam env p.toList = .ok t := by
  unfold findTypeParam
  rw [h]

/-- `l`, with every call replaced by an answer that does not depend on the state, is `o`. -/
inductive Fills {τ ε : Type} (exp : τ → Text → List Text → Except ε (Text × τ)) : List Token → Text → Prop
  | last (t : Text) : Fills exp [.txt t] (t ++ [])
  | txt {t : Text} {l : List Token} {o : Text} : Fills exp l o → Fills exp (.txt t :: l) (t ++ o)
  | call {id : Text} {ps : List Text} {t : Text} {l : List Token} {o : Text} :
    (∀ s, ∃ s', exp s id ps = .ok (t, s')) → Fills exp l o → Fills exp (.call id ps :: l) (t ++ o)

theorem runTokens_fills {τ ε : Type} {exp : τ → Text → List Text → Except ε (Text × τ)} {l : List Token} {o : Text}
    (h : Fills exp l o) : ∀ s, ∃ s', runTokens exp s l = .ok (o, s') := by
  induction h with
  | last t => exact fun s => ⟨s, by simp [runTokens]⟩
  | txt _ ih =>
    intro s
    obtain ⟨s', h⟩ := ih s
    exact ⟨s', by simp only [runTokens, h]⟩
  | call ha _ ih =>
    intro s
    obtain ⟨s1, h1⟩ := ha s
    obtain ⟨s', h⟩ := ih s1
    exact ⟨s', by simp only [runTokens, h1, h]⟩

theorem expand_fills {τ ε : Type} {u : Unicode} {exp : τ → Text → List Text → Except ε (Text × τ)} {code : Text} {l : List Token}
    {o : Text} (hl : readLit code = some l) (h : Fills exp l o) (s : τ) : ∃ s', expandMacroses u exp s code = .ok (o, s') := by
  obtain ⟨s', hr⟩ := runTokens_fills h s
  exact ⟨s', by rw [expandMacroses_lit u exp s code l hl, hr]; rfl⟩

/-- The same for type names, with the modules collected. -/
inductive FillsM (exp : σ × List Text → Text → List Text → Except Er (Text × (σ × List Text))) : List Token → Text → List Text → Prop
  | last (t : Text) : FillsM exp [.txt t] (t ++ []) []
  | txt {t : Text} {l : List Token} {o : Text} {m : List Text} : FillsM exp l o m → FillsM exp (.txt t :: l) (t ++ o) m
  | call {id : Text} {ps : List Text} {t : Text} {m1 : List Text} {l : List Token} {o : Text} {m : List Text} :
    (∀ s m, ∃ s', exp (s, m) id ps = .ok (t, (s', m ++ m1))) → FillsM exp l o m → FillsM exp (.call id ps :: l) (t ++ o) (m1 ++ m)

theorem runTokens_fillsM {exp : σ × List Text → Text → List Text → Except Er (Text × (σ × List Text))} {l : List Token} {o : Text}
    {m : List Text} (h : FillsM exp l o m) : ∀ s m0, ∃ s', runTokens exp (s, m0) l = .ok (o, (s', m0 ++ m)) := by
  induction h with
  | last t => exact fun s m0 => ⟨s, by simp [runTokens]⟩
  | txt _ ih =>
    intro s m0
    obtain ⟨s', h⟩ := ih s m0
    exact ⟨s', by simp only [runTokens, h]⟩
  | call ha _ ih =>
    intro s m0
    obtain ⟨s1, h1⟩ := ha s m0
    rename_i m1 _ _ _ _
    obtain ⟨s', h⟩ := ih s1 (m0 ++ m1)
    exact ⟨s', by simp only [runTokens, h1, h, List.append_assoc]⟩

theorem expandName_fills {env : Env} {B : Backend σ} {al : List Alias} {code : Text} {l : List Token} {o : Text} {m : List Text}
    (hl : readLit code = some l) (h : FillsM (nameExp env B al) l o m) (s : σ) (m0 : List Text) :
    ∃ s', expandName env B al (s, m0) code = .ok (o, (s', m0 ++ m)) := by
  obtain ⟨s', hr⟩ := runTokens_fillsM h s m0
  exact ⟨s', by unfold expandName; rw [expandMacroses_lit _ _ _ code l hl, hr]; rfl⟩

/-! ### Answers of the C++ back end -/

theorem callFType_cpp {env : Env} {W : World σ} {d : Dir} {al : List Alias} {p : Text} {t : PTy} {i : Info}
    (hp : fTypeArg env al p = .ok t) (hm : Maps W t d i) (hn : NoTag i) (s : σ) :
    ∃ f s', callFType env (cppB W d) al s [p] = .ok (f, s') ∧ f.value = (userType i).value ∧ f.mods = i.mods := by
  obtain ⟨s', h⟩ := hm s
  obtain ⟨n, h1, h2⟩ := userType_shown i hn
  refine ⟨⟨n.value, n.display, i.mods⟩, s', ?_, h2, rfl⟩
  simp only [callFType, oneOrTwo, hp]
  show ask (andAsk (W.mapTy s t d) _) id = _
  rw [h]
  simp only [andAsk, h1, ask, id]

/-- `p` is not written like an alias. -/
def PlainArg (u : Unicode) (p : Text) : Prop := aliasForm u p = none

theorem fTypeArg_param {env : Env} {al : List Alias} {p : Text} {t : PTy} (hp : findTypeParam env p = .ok t)
    (ha : aliasForm env.u p = none) : fTypeArg env al p = .ok t := by
  unfold fTypeArg
  rw [ha]
  exact hp

theorem ans_f {env : Env} {W : World σ} {d : Dir} {al : List Alias} {p : Text} {t : PTy} {i : Info}
    (hp : fTypeArg env al p = .ok t) (hm : Maps W t d i) (hn : NoTag i) (s : σ) :
    ∃ s', foreignExp env (cppB W d) al s swigFType [p] = .ok ((userType i).value, s') := by
  obtain ⟨f, s', h1, h2, _⟩ := callFType_cpp hp hm hn s
  exact ⟨s', by unfold foreignExp; rw [if_pos rfl, h1]; simp only [h2]⟩

theorem ans_fName {env : Env} {W : World σ} {d : Dir} {al : List Alias} {p : Text} {t : PTy} {i : Info}
    (hp : fTypeArg env al p = .ok t) (hm : Maps W t d i) (hn : NoTag i) (s : σ) (m : List Text) :
    ∃ s', nameExp env (cppB W d) al (s, m) swigFType [p] = .ok ((userType i).value, (s', m ++ i.mods)) := by
  obtain ⟨f, s', h1, h2, h3⟩ := callFType_cpp hp hm hn s
  exact ⟨s', by unfold nameExp; rw [if_pos rfl, h1]; simp only [h2, h3]⟩

theorem ans_from {env : Env} {W : World σ} {d : Dir} {al : List Alias} {p x : Text} {t : PTy} {i : Info}
    (hp : findTypeParam env p = .ok t) (hm : Maps W t .outgoing i) (s : σ) :
    ∃ s', foreignExp env (cppB W d) al s swigForeignFromI [p, x] = .ok (applied i x, s') := by
  obtain ⟨s', h⟩ := hm s
  refine ⟨s', ?_⟩
  unfold foreignExp
  rw [if_neg (by decide), if_neg (by decide), if_pos (Or.inr rfl)]
  simp only [hp]
  rw [if_neg (by decide)]
  show ask (andAsk (W.mapTy s t _) _) _ = _
  rw [h]
  rfl

theorem ans_to {env : Env} {W : World σ} {d : Dir} {al : List Alias} {p x : Text} {t : PTy} {i : Info}
    (hp : findTypeParam env p = .ok t) (hm : Maps W t .incoming i) (s : σ) :
    ∃ s', foreignExp env (cppB W d) al s swigForeignToI [p, x] = .ok (applied i x, s') := by
  obtain ⟨s', h⟩ := hm s
  refine ⟨s', ?_⟩
  unfold foreignExp
  rw [if_neg (by decide), if_neg (by decide), if_pos (Or.inl rfl)]
  simp only [hp]
  rw [if_pos trivial]
  show ask (andAsk (W.mapTy s t _) _) _ = _
  rw [h]
  rfl

/-- `id` is not one of the helper macros. -/
def OwnName (id : Text) : Prop :=
  id ≠ swigFType ∧ id ≠ swigIType ∧ id ≠ swigForeignToI ∧ id ≠ swigForeignFromI

theorem ans_alias {env : Env} {B : Backend σ} {al : List Alias} {id : Text} {ps : List Text} {a : Alias} (hn : OwnName id)
    (ha : findAlias al id = some a) (s : σ) : ∃ s', foreignExp env B al s id ps = .ok (env.disp a.value, s') := by
  refine ⟨s, ?_⟩
  unfold foreignExp
  rw [if_neg hn.1, if_neg hn.2.1, if_neg (fun h => h.elim hn.2.2.1 hn.2.2.2), ha]

theorem expandModule_lit {env : Env} {al : List Alias} {m o : Text} {l : List Token} (hl : readLit m = some l)
    (h : Fills (modExp env al) l o) : expandModule env al m = .ok o := by
  obtain ⟨s', h⟩ := expand_fills (u := env.u) hl h ()
  unfold expandModule
  rw [h]

theorem ans_mod {env : Env} {al : List Alias} {id : Text} {a : Alias} (ha : findAlias al id = some a) (s : Unit) :
    ∃ s', modExp env al s id [] = .ok (env.disp a.value, s') := ⟨s, by simp [modExp, ha]⟩

/-- The parts of a foreign side put together. -/
theorem expandFConv_eq {env : Env} {B : Backend σ} {al : List Alias} {r : FConv} {n code n' code' : Text} {ps : List Text}
    {m : List Text} {ms : List Text} (hr : r.pair = .onlyRight n) (hc : r.code = some ⟨code, ps⟩) (hu : r.uniquePrefix = none)
    (h1 : ∀ s m0, ∃ s', expandName env B al (s, m0) n = .ok (n', (s', m0 ++ m)))
    (h2 : ∀ s, ∃ s', expandForeignCode env B al s code = .ok (code', s')) (h3 : expandModules env al r.reqModules = .ok ms) (s : σ) :
    ∃ s', expandFConv env B al s r =
      .ok (⟨none, retainNew [] (m ++ ms), r.cfg, .onlyRight n', r.inputToOutput, some ⟨code', ps⟩⟩, s') := by
  obtain ⟨s1, e1⟩ := h1 s []
  obtain ⟨s2, e2⟩ := h2 s1
  refine ⟨s2, ?_⟩
  simp only [List.nil_append] at e1
  simp only [expandFConv, hr, expandPair, e1, andThen, hc, expandFConvCode, e2, h3, hu, expandPrefix]

theorem expandModules_two {env : Env} {al : List Alias} {a b a' b' : Text} (h1 : expandModule env al a = .ok a')
    (h2 : expandModule env al b = .ok b') : expandModules env al [a, b] = .ok [a', b'] := by
  simp only [expandModules, h1, h2, andThen]

/-! ### The rules with the back end's answers put in -/

/-- A foreign side with name `n` and code `c` that needs exactly the modules `ms`. -/
def Is (r : FConv) (cfg : Option Text) (n c : Text) (ms : List Text) : Prop :=
  r.uniquePrefix = none ∧ r.cfg = cfg ∧ r.pair = .onlyRight n ∧ r.inputToOutput = false ∧ r.code = some ⟨c, ["{from_var}".toList]⟩ ∧
    (∀ m, m ∈ r.reqModules ↔ m ∈ ms) ∧ r.reqModules.Nodup

theorem is_of {env : Env} {B : Backend σ} {al : List Alias} {r : FConv} {n code n' code' : Text}
    {m : List Text} {ms : List Text} (hr : r.pair = .onlyRight n) (hc : r.code = some ⟨code, ["{from_var}".toList]⟩)
    (hu : r.uniquePrefix = none) (hi : r.inputToOutput = false) {cfg : Option Text} (hg : r.cfg = cfg) {rm : List Text} (hm : r.reqModules = rm)
    (h1 : ∀ s m0, ∃ s', expandName env B al (s, m0) n = .ok (n', (s', m0 ++ m)))
    (h2 : ∀ s, ∃ s', expandForeignCode env B al s code = .ok (code', s')) (h3 : expandModules env al rm = .ok ms) (s : σ) :
    ∃ r' s', expandFConv env B al s r = .ok (r', s') ∧ Is r' cfg n' code' (m ++ ms) := by
  obtain ⟨s', h⟩ := expandFConv_eq hr hc hu h1 h2 (hm ▸ h3) s
  refine ⟨_, s', h, rfl, hg, rfl, hi, rfl, fun x => ?_, retainNew_nodup _ _⟩
  rw [retainNew_mem]
  simp

/-- The header of an alias: `"Name.h"`. -/
def aliasHeader (env : Env) (a : Alias) : Text := cat ["\"".toList, env.disp a.value, ".h\"".toList]

theorem fills_one {τ ε : Type} {exp : τ → Text → List Text → Except ε (Text × τ)} (t : Text) : Fills exp [.txt t] t := by
  have := Fills.last (exp := exp) t
  rwa [List.append_nil] at this

theorem side_code {mods : List String} {cfg : Option String} {pair : FTypes.FPair} {code : String} (c c' : Text) (h : code.toList = c)
    (h1 : repl "$out".toList toVarType toVar false 0 (repl ['$', 'p'] fromVar fromVar false 0 c) = c')
    (h2 : strContains c' toVarType = false) (h3 : strContains c' toVar = false) :
    (side mods cfg pair code).code = some ⟨c', [fromVar]⟩ := by
  have e : replaceFirstAndOther (strReplace code.toList ['$', 'p'] fromVar) "$out".toList toVarType toVar = c' := by
    rw [replaceFirstAndOther_eq_repl _ _ _ _ (by decide), strReplace_eq_repl _ _ _ (by decide), h, h1]
  unfold side fromTypemapString
  simp only [e, h2, h3]
  rfl

theorem fTypeArg_alias {env : Env} {al : List Alias} {p n : Text} {a : Alias} (hp : aliasForm env.u p = some n)
    (ha : findAlias al n = some a) : fTypeArg env al p = .ok a.value := by
  unfold fTypeArg
  rw [hp]
  simp only [ha]

theorem aliasForm_ascii (u : Unicode) (p : Text) (h : p.all ascii = true) : aliasForm u p = aliasForm asciiOnly p := by
  unfold aliasForm
  split
  · rename_i r hr
    rw [trim_ascii u asciiOnly]
    intro c hc
    refine List.all_eq_true.1 h c (List.mem_reverse.1 ?_)
    rw [hr]
    simp [List.mem_reverse.1 hc]
  · rfl

theorem lit_pair_out_name : "std::pair<swig_f_type!(T1), swig_f_type!(T2)>".toList =
    ['s', 't', 'd', ':', ':', 'p', 'a', 'i', 'r', '<', 's', 'w', 'i', 'g', '_', 'f', '_', 't', 'y', 'p', 'e', '!', '(', 'T', '1', ')', ',', ' ', 's', 'w', 'i', 'g', '_', 'f', '_', 't', 'y', 'p', 'e', '!', '(', 'T', '2', ')', '>'] := by
  decide +kernel

theorem lit_pair_out_src : "std::make_pair(swig_foreign_from_i_type!(T1, $p.first), swig_foreign_from_i_type!(T2, $p.second))".toList =
    ['s', 't', 'd', ':', ':', 'm', 'a', 'k', 'e', '_', 'p', 'a', 'i', 'r', '(', 's', 'w', 'i', 'g', '_', 'f', 'o', 'r', 'e', 'i', 'g', 'n', '_', 'f', 'r', 'o', 'm', '_', 'i', '_', 't', 'y', 'p', 'e', '!', '(', 'T', '1', ',', ' ', '$', 'p', '.', 'f', 'i', 'r', 's', 't', ')', ',', ' ', 's', 'w', 'i', 'g', '_', 'f', 'o', 'r', 'e', 'i', 'g', 'n', '_', 'f', 'r', 'o', 'm', '_', 'i', '_', 't', 'y', 'p', 'e', '!', '(', 'T', '2', ',', ' ', '$', 'p', '.', 's', 'e', 'c', 'o', 'n', 'd', ')', ')'] := by
  decide +kernel

theorem lit_pair_out_code : "std::make_pair(swig_foreign_from_i_type!(T1, {from_var}.first), swig_foreign_from_i_type!(T2, {from_var}.second))".toList =
    ['s', 't', 'd', ':', ':', 'm', 'a', 'k', 'e', '_', 'p', 'a', 'i', 'r', '(', 's', 'w', 'i', 'g', '_', 'f', 'o', 'r', 'e', 'i', 'g', 'n', '_', 'f', 'r', 'o', 'm', '_', 'i', '_', 't', 'y', 'p', 'e', '!', '(', 'T', '1', ',', ' ', '{', 'f', 'r', 'o', 'm', '_', 'v', 'a', 'r', '}', '.', 'f', 'i', 'r', 's', 't', ')', ',', ' ', 's', 'w', 'i', 'g', '_', 'f', 'o', 'r', 'e', 'i', 'g', 'n', '_', 'f', 'r', 'o', 'm', '_', 'i', '_', 't', 'y', 'p', 'e', '!', '(', 'T', '2', ',', ' ', '{', 'f', 'r', 'o', 'm', '_', 'v', 'a', 'r', '}', '.', 's', 'e', 'c', 'o', 'n', 'd', ')', ')'] := by
  decide +kernel

theorem read_pair_out_name : readLit "std::pair<swig_f_type!(T1), swig_f_type!(T2)>".toList =
    some [.txt "std::pair<".toList, .call swigFType ["T1".toList], .txt ", ".toList, .call swigFType ["T2".toList], .txt ">".toList] := by
  rw [lit_pair_out_name]
  decide +kernel

theorem read_pair_out_code : pairOut.code = some ⟨"std::make_pair(swig_foreign_from_i_type!(T1, {from_var}.first), swig_foreign_from_i_type!(T2, {from_var}.second))".toList, ["{from_var}".toList]⟩ := by
  rw [lit_pair_out_code]
  exact side_code _ _ lit_pair_out_src (by decide +kernel) (by decide +kernel) (by decide +kernel)

theorem read_pair_out : readLit "std::make_pair(swig_foreign_from_i_type!(T1, {from_var}.first), swig_foreign_from_i_type!(T2, {from_var}.second))".toList =
    some [.txt "std::make_pair(".toList,
      .call swigForeignFromI ["T1".toList, "{from_var}.first".toList],
      .txt ", ".toList,
      .call swigForeignFromI ["T2".toList, "{from_var}.second".toList],
      .txt ")".toList] := by
  rw [lit_pair_out_code]
  decide +kernel

/-- **C69**: a pair for C++: the type is `std::pair` of the component types, and each component is converted by its own conversion. -/
theorem C69_pair_out (env : Env) (W : World σ) (al : List Alias) (t1 t2 : PTy) (i1 i2 : Info) (am : Alias)
    (h1 : Param env "T1" t1) (m1 : Maps W t1 .outgoing i1) (n1 : NoTag i1)
    (h2 : Param env "T2" t2) (m2 : Maps W t2 .outgoing i2) (n2 : NoTag i2)
    (hma : findAlias al "CRustPairModule".toList = some am) (s : σ) :
    ∃ r s', expandFConv env (cppB W .outgoing) al s pairOut = .ok (r, s') ∧ Is r none
      (cat ["std::pair<".toList, (userType i1).value, ", ".toList, (userType i2).value, ">".toList])
      (cat ["std::make_pair(".toList, applied i1 "{from_var}.first".toList, ", ".toList, applied i2 "{from_var}.second".toList, ")".toList])
      (i1.mods ++ i2.mods ++ [aliasHeader env am, "<utility>".toList]) := by
  have p1 := findTypeParam_param h1
  have f1 := fTypeArg_param (al := al) p1 rfl
  have p2 := findTypeParam_param h2
  have f2 := fTypeArg_param (al := al) p2 rfl
  obtain ⟨r, s', h, hr⟩ := is_of (r := pairOut) rfl read_pair_out_code rfl rfl (cfg := none) rfl (rm := ["\"CRustPairModule!().h\"".toList, "<utility>".toList]) rfl
    (expandName_fills read_pair_out_name (.txt (.call (ans_fName f1 m1 n1) (.txt (.call (ans_fName f2 m2 n2) (.last _))))))
    (fun s => expand_fills read_pair_out (.txt (.call (ans_from p1 m1) (.txt (.call (ans_from p2 m2) (.last _))))) s)
    (expandModules_two (expandModule_lit (o := aliasHeader env am) (l := [.txt "\"".toList, .call "CRustPairModule".toList [], .txt ".h\"".toList]) (by decide +kernel)
      (.txt (.call (ans_mod hma) (.last _))))
      (expandModule_lit (o := "<utility>".toList) (l := [.txt "<utility>".toList]) (by decide +kernel) (fills_one _))) s
  refine ⟨r, s', h, ?_⟩
  simp only [cat, List.flatten_cons, List.flatten_nil]
  simpa only [List.append_assoc, List.nil_append] using hr

theorem lit_pair_in_name : "std::pair<swig_f_type!(T1), swig_f_type!(T2)>".toList =
    ['s', 't', 'd', ':', ':', 'p', 'a', 'i', 'r', '<', 's', 'w', 'i', 'g', '_', 'f', '_', 't', 'y', 'p', 'e', '!', '(', 'T', '1', ')', ',', ' ', 's', 'w', 'i', 'g', '_', 'f', '_', 't', 'y', 'p', 'e', '!', '(', 'T', '2', ')', '>'] := by
  decide +kernel

theorem lit_pair_in_src : "swig_f_type!(CRustPair!()) { swig_foreign_to_i_type!(T1, $p.first), swig_foreign_to_i_type!(T2, $p.second) }".toList =
    ['s', 'w', 'i', 'g', '_', 'f', '_', 't', 'y', 'p', 'e', '!', '(', 'C', 'R', 'u', 's', 't', 'P', 'a', 'i', 'r', '!', '(', ')', ')', ' ', '{', ' ', 's', 'w', 'i', 'g', '_', 'f', 'o', 'r', 'e', 'i', 'g', 'n', '_', 't', 'o', '_', 'i', '_', 't', 'y', 'p', 'e', '!', '(', 'T', '1', ',', ' ', '$', 'p', '.', 'f', 'i', 'r', 's', 't', ')', ',', ' ', 's', 'w', 'i', 'g', '_', 'f', 'o', 'r', 'e', 'i', 'g', 'n', '_', 't', 'o', '_', 'i', '_', 't', 'y', 'p', 'e', '!', '(', 'T', '2', ',', ' ', '$', 'p', '.', 's', 'e', 'c', 'o', 'n', 'd', ')', ' ', '}'] := by
  decide +kernel

theorem lit_pair_in_code : "swig_f_type!(CRustPair!()) { swig_foreign_to_i_type!(T1, {from_var}.first), swig_foreign_to_i_type!(T2, {from_var}.second) }".toList =
    ['s', 'w', 'i', 'g', '_', 'f', '_', 't', 'y', 'p', 'e', '!', '(', 'C', 'R', 'u', 's', 't', 'P', 'a', 'i', 'r', '!', '(', ')', ')', ' ', '{', ' ', 's', 'w', 'i', 'g', '_', 'f', 'o', 'r', 'e', 'i', 'g', 'n', '_', 't', 'o', '_', 'i', '_', 't', 'y', 'p', 'e', '!', '(', 'T', '1', ',', ' ', '{', 'f', 'r', 'o', 'm', '_', 'v', 'a', 'r', '}', '.', 'f', 'i', 'r', 's', 't', ')', ',', ' ', 's', 'w', 'i', 'g', '_', 'f', 'o', 'r', 'e', 'i', 'g', 'n', '_', 't', 'o', '_', 'i', '_', 't', 'y', 'p', 'e', '!', '(', 'T', '2', ',', ' ', '{', 'f', 'r', 'o', 'm', '_', 'v', 'a', 'r', '}', '.', 's', 'e', 'c', 'o', 'n', 'd', ')', ' ', '}'] := by
  decide +kernel

theorem read_pair_in_name : readLit "std::pair<swig_f_type!(T1), swig_f_type!(T2)>".toList =
    some [.txt "std::pair<".toList, .call swigFType ["T1".toList], .txt ", ".toList, .call swigFType ["T2".toList], .txt ">".toList] := by
  rw [lit_pair_in_name]
  decide +kernel

theorem read_pair_in_code : pairIn.code = some ⟨"swig_f_type!(CRustPair!()) { swig_foreign_to_i_type!(T1, {from_var}.first), swig_foreign_to_i_type!(T2, {from_var}.second) }".toList, ["{from_var}".toList]⟩ := by
  rw [lit_pair_in_code]
  exact side_code _ _ lit_pair_in_src (by decide +kernel) (by decide +kernel) (by decide +kernel)

theorem read_pair_in : readLit "swig_f_type!(CRustPair!()) { swig_foreign_to_i_type!(T1, {from_var}.first), swig_foreign_to_i_type!(T2, {from_var}.second) }".toList =
    some [.txt "".toList,
      .call swigFType ["CRustPair!()".toList],
      .txt " { ".toList,
      .call swigForeignToI ["T1".toList, "{from_var}.first".toList],
      .txt ", ".toList,
      .call swigForeignToI ["T2".toList, "{from_var}.second".toList],
      .txt " }".toList] := by
  rw [lit_pair_in_code]
  decide +kernel

/-- **C69**: a pair from C++. -/
theorem C69_pair_in (env : Env) (W : World σ) (al : List Alias) (t1 t2 : PTy) (i1 i2 : Info) (am : Alias) (aa : Alias) (ia : Info)
    (h1 : Param env "T1" t1) (m1 : Maps W t1 .incoming i1) (n1 : NoTag i1)
    (h2 : Param env "T2" t2) (m2 : Maps W t2 .incoming i2) (n2 : NoTag i2)
    (hma : findAlias al "CRustPairModule".toList = some am)
    (ha : findAlias al "CRustPair".toList = some aa) (ma : Maps W aa.value .incoming ia) (na : NoTag ia) (s : σ) :
    ∃ r s', expandFConv env (cppB W .incoming) al s pairIn = .ok (r, s') ∧ Is r none
      (cat ["std::pair<".toList, (userType i1).value, ", ".toList, (userType i2).value, ">".toList])
      (cat ["".toList, (userType ia).value, " { ".toList, applied i1 "{from_var}.first".toList, ", ".toList, applied i2 "{from_var}.second".toList, " }".toList])
      (i1.mods ++ i2.mods ++ [aliasHeader env am, "<utility>".toList]) := by
  have p1 := findTypeParam_param h1
  have f1 := fTypeArg_param (al := al) p1 rfl
  have p2 := findTypeParam_param h2
  have f2 := fTypeArg_param (al := al) p2 rfl
  have fa : fTypeArg env al "CRustPair!()".toList = .ok aa.value := fTypeArg_alias (n := "CRustPair".toList) (by rw [aliasForm_ascii _ _ (by decide)]; decide +kernel) ha
  obtain ⟨r, s', h, hr⟩ := is_of (r := pairIn) rfl read_pair_in_code rfl rfl (cfg := none) rfl (rm := ["\"CRustPairModule!().h\"".toList, "<utility>".toList]) rfl
    (expandName_fills read_pair_in_name (.txt (.call (ans_fName f1 m1 n1) (.txt (.call (ans_fName f2 m2 n2) (.last _))))))
    (fun s => expand_fills read_pair_in (.txt (.call (ans_f fa ma na) (.txt (.call (ans_to p1 m1) (.txt (.call (ans_to p2 m2) (.last _))))))) s)
    (expandModules_two (expandModule_lit (o := aliasHeader env am) (l := [.txt "\"".toList, .call "CRustPairModule".toList [], .txt ".h\"".toList]) (by decide +kernel)
      (.txt (.call (ans_mod hma) (.last _))))
      (expandModule_lit (o := "<utility>".toList) (l := [.txt "<utility>".toList]) (by decide +kernel) (fills_one _))) s
  refine ⟨r, s', h, ?_⟩
  simp only [cat, List.flatten_cons, List.flatten_nil]
  simpa only [List.append_assoc, List.nil_append] using hr

theorem lit_triple_out_name : "std::tuple<swig_f_type!(T1), swig_f_type!(T2), swig_f_type!(T3)>".toList =
    ['s', 't', 'd', ':', ':', 't', 'u', 'p', 'l', 'e', '<', 's', 'w', 'i', 'g', '_', 'f', '_', 't', 'y', 'p', 'e', '!', '(', 'T', '1', ')', ',', ' ', 's', 'w', 'i', 'g', '_', 'f', '_', 't', 'y', 'p', 'e', '!', '(', 'T', '2', ')', ',', ' ', 's', 'w', 'i', 'g', '_', 'f', '_', 't', 'y', 'p', 'e', '!', '(', 'T', '3', ')', '>'] := by
  decide +kernel

theorem lit_triple_out_src : "std::make_tuple(swig_foreign_from_i_type!(T1, $p.first), swig_foreign_from_i_type!(T2, $p.second), swig_foreign_from_i_type!(T3, $p.third))".toList =
    ['s', 't', 'd', ':', ':', 'm', 'a', 'k', 'e', '_', 't', 'u', 'p', 'l', 'e', '(', 's', 'w', 'i', 'g', '_', 'f', 'o', 'r', 'e', 'i', 'g', 'n', '_', 'f', 'r', 'o', 'm', '_', 'i', '_', 't', 'y', 'p', 'e', '!', '(', 'T', '1', ',', ' ', '$', 'p', '.', 'f', 'i', 'r', 's', 't', ')', ',', ' ', 's', 'w', 'i', 'g', '_', 'f', 'o', 'r', 'e', 'i', 'g', 'n', '_', 'f', 'r', 'o', 'm', '_', 'i', '_', 't', 'y', 'p', 'e', '!', '(', 'T', '2', ',', ' ', '$', 'p', '.', 's', 'e', 'c', 'o', 'n', 'd', ')', ',', ' ', 's', 'w', 'i', 'g', '_', 'f', 'o', 'r', 'e', 'i', 'g', 'n', '_', 'f', 'r', 'o', 'm', '_', 'i', '_', 't', 'y', 'p', 'e', '!', '(', 'T', '3', ',', ' ', '$', 'p', '.', 't', 'h', 'i', 'r', 'd', ')', ')'] := by
  decide +kernel

theorem lit_triple_out_code : "std::make_tuple(swig_foreign_from_i_type!(T1, {from_var}.first), swig_foreign_from_i_type!(T2, {from_var}.second), swig_foreign_from_i_type!(T3, {from_var}.third))".toList =
    ['s', 't', 'd', ':', ':', 'm', 'a', 'k', 'e', '_', 't', 'u', 'p', 'l', 'e', '(', 's', 'w', 'i', 'g', '_', 'f', 'o', 'r', 'e', 'i', 'g', 'n', '_', 'f', 'r', 'o', 'm', '_', 'i', '_', 't', 'y', 'p', 'e', '!', '(', 'T', '1', ',', ' ', '{', 'f', 'r', 'o', 'm', '_', 'v', 'a', 'r', '}', '.', 'f', 'i', 'r', 's', 't', ')', ',', ' ', 's', 'w', 'i', 'g', '_', 'f', 'o', 'r', 'e', 'i', 'g', 'n', '_', 'f', 'r', 'o', 'm', '_', 'i', '_', 't', 'y', 'p', 'e', '!', '(', 'T', '2', ',', ' ', '{', 'f', 'r', 'o', 'm', '_', 'v', 'a', 'r', '}', '.', 's', 'e', 'c', 'o', 'n', 'd', ')', ',', ' ', 's', 'w', 'i', 'g', '_', 'f', 'o', 'r', 'e', 'i', 'g', 'n', '_', 'f', 'r', 'o', 'm', '_', 'i', '_', 't', 'y', 'p', 'e', '!', '(', 'T', '3', ',', ' ', '{', 'f', 'r', 'o', 'm', '_', 'v', 'a', 'r', '}', '.', 't', 'h', 'i', 'r', 'd', ')', ')'] := by
  decide +kernel

theorem read_triple_out_name : readLit "std::tuple<swig_f_type!(T1), swig_f_type!(T2), swig_f_type!(T3)>".toList =
    some [.txt "std::tuple<".toList, .call swigFType ["T1".toList], .txt ", ".toList, .call swigFType ["T2".toList], .txt ", ".toList, .call swigFType ["T3".toList], .txt ">".toList] := by
  rw [lit_triple_out_name]
  decide +kernel

theorem read_triple_out_code : tupleOut.code = some ⟨"std::make_tuple(swig_foreign_from_i_type!(T1, {from_var}.first), swig_foreign_from_i_type!(T2, {from_var}.second), swig_foreign_from_i_type!(T3, {from_var}.third))".toList, ["{from_var}".toList]⟩ := by
  rw [lit_triple_out_code]
  exact side_code _ _ lit_triple_out_src (by decide +kernel) (by decide +kernel) (by decide +kernel)

theorem read_triple_out : readLit "std::make_tuple(swig_foreign_from_i_type!(T1, {from_var}.first), swig_foreign_from_i_type!(T2, {from_var}.second), swig_foreign_from_i_type!(T3, {from_var}.third))".toList =
    some [.txt "std::make_tuple(".toList,
      .call swigForeignFromI ["T1".toList, "{from_var}.first".toList],
      .txt ", ".toList,
      .call swigForeignFromI ["T2".toList, "{from_var}.second".toList],
      .txt ", ".toList,
      .call swigForeignFromI ["T3".toList, "{from_var}.third".toList],
      .txt ")".toList] := by
  rw [lit_triple_out_code]
  decide +kernel

/-- **C69**: a triple for C++. -/
theorem C69_triple_out (env : Env) (W : World σ) (al : List Alias) (t1 t2 t3 : PTy) (i1 i2 i3 : Info) (am : Alias)
    (h1 : Param env "T1" t1) (m1 : Maps W t1 .outgoing i1) (n1 : NoTag i1)
    (h2 : Param env "T2" t2) (m2 : Maps W t2 .outgoing i2) (n2 : NoTag i2)
    (h3 : Param env "T3" t3) (m3 : Maps W t3 .outgoing i3) (n3 : NoTag i3)
    (hma : findAlias al "CRustTuple3Module".toList = some am) (s : σ) :
    ∃ r s', expandFConv env (cppB W .outgoing) al s tupleOut = .ok (r, s') ∧ Is r none
      (cat ["std::tuple<".toList, (userType i1).value, ", ".toList, (userType i2).value, ", ".toList, (userType i3).value, ">".toList])
      (cat ["std::make_tuple(".toList, applied i1 "{from_var}.first".toList, ", ".toList, applied i2 "{from_var}.second".toList, ", ".toList, applied i3 "{from_var}.third".toList, ")".toList])
      (i1.mods ++ i2.mods ++ i3.mods ++ [aliasHeader env am, "<tuple>".toList]) := by
  have p1 := findTypeParam_param h1
  have f1 := fTypeArg_param (al := al) p1 rfl
  have p2 := findTypeParam_param h2
  have f2 := fTypeArg_param (al := al) p2 rfl
  have p3 := findTypeParam_param h3
  have f3 := fTypeArg_param (al := al) p3 rfl
  obtain ⟨r, s', h, hr⟩ := is_of (r := tupleOut) rfl read_triple_out_code rfl rfl (cfg := none) rfl (rm := ["\"CRustTuple3Module!().h\"".toList, "<tuple>".toList]) rfl
    (expandName_fills read_triple_out_name (.txt (.call (ans_fName f1 m1 n1) (.txt (.call (ans_fName f2 m2 n2) (.txt (.call (ans_fName f3 m3 n3) (.last _))))))))
    (fun s => expand_fills read_triple_out (.txt (.call (ans_from p1 m1) (.txt (.call (ans_from p2 m2) (.txt (.call (ans_from p3 m3) (.last _))))))) s)
    (expandModules_two (expandModule_lit (o := aliasHeader env am) (l := [.txt "\"".toList, .call "CRustTuple3Module".toList [], .txt ".h\"".toList]) (by decide +kernel)
      (.txt (.call (ans_mod hma) (.last _))))
      (expandModule_lit (o := "<tuple>".toList) (l := [.txt "<tuple>".toList]) (by decide +kernel) (fills_one _))) s
  refine ⟨r, s', h, ?_⟩
  simp only [cat, List.flatten_cons, List.flatten_nil]
  simpa only [List.append_assoc, List.nil_append] using hr

theorem lit_triple_in_name : "std::tuple<swig_f_type!(T1), swig_f_type!(T2), swig_f_type!(T3)>".toList =
    ['s', 't', 'd', ':', ':', 't', 'u', 'p', 'l', 'e', '<', 's', 'w', 'i', 'g', '_', 'f', '_', 't', 'y', 'p', 'e', '!', '(', 'T', '1', ')', ',', ' ', 's', 'w', 'i', 'g', '_', 'f', '_', 't', 'y', 'p', 'e', '!', '(', 'T', '2', ')', ',', ' ', 's', 'w', 'i', 'g', '_', 'f', '_', 't', 'y', 'p', 'e', '!', '(', 'T', '3', ')', '>'] := by
  decide +kernel

theorem lit_triple_in_src : "swig_f_type!(CRustTuple3!()) { swig_foreign_to_i_type!(T1, $p.first), swig_foreign_to_i_type!(T2, $p.second), swig_foreign_to_i_type!(T3, $p.third), }".toList =
    ['s', 'w', 'i', 'g', '_', 'f', '_', 't', 'y', 'p', 'e', '!', '(', 'C', 'R', 'u', 's', 't', 'T', 'u', 'p', 'l', 'e', '3', '!', '(', ')', ')', ' ', '{', ' ', 's', 'w', 'i', 'g', '_', 'f', 'o', 'r', 'e', 'i', 'g', 'n', '_', 't', 'o', '_', 'i', '_', 't', 'y', 'p', 'e', '!', '(', 'T', '1', ',', ' ', '$', 'p', '.', 'f', 'i', 'r', 's', 't', ')', ',', ' ', 's', 'w', 'i', 'g', '_', 'f', 'o', 'r', 'e', 'i', 'g', 'n', '_', 't', 'o', '_', 'i', '_', 't', 'y', 'p', 'e', '!', '(', 'T', '2', ',', ' ', '$', 'p', '.', 's', 'e', 'c', 'o', 'n', 'd', ')', ',', ' ', 's', 'w', 'i', 'g', '_', 'f', 'o', 'r', 'e', 'i', 'g', 'n', '_', 't', 'o', '_', 'i', '_', 't', 'y', 'p', 'e', '!', '(', 'T', '3', ',', ' ', '$', 'p', '.', 't', 'h', 'i', 'r', 'd', ')', ',', ' ', '}'] := by
  decide +kernel

theorem lit_triple_in_code : "swig_f_type!(CRustTuple3!()) { swig_foreign_to_i_type!(T1, {from_var}.first), swig_foreign_to_i_type!(T2, {from_var}.second), swig_foreign_to_i_type!(T3, {from_var}.third), }".toList =
    ['s', 'w', 'i', 'g', '_', 'f', '_', 't', 'y', 'p', 'e', '!', '(', 'C', 'R', 'u', 's', 't', 'T', 'u', 'p', 'l', 'e', '3', '!', '(', ')', ')', ' ', '{', ' ', 's', 'w', 'i', 'g', '_', 'f', 'o', 'r', 'e', 'i', 'g', 'n', '_', 't', 'o', '_', 'i', '_', 't', 'y', 'p', 'e', '!', '(', 'T', '1', ',', ' ', '{', 'f', 'r', 'o', 'm', '_', 'v', 'a', 'r', '}', '.', 'f', 'i', 'r', 's', 't', ')', ',', ' ', 's', 'w', 'i', 'g', '_', 'f', 'o', 'r', 'e', 'i', 'g', 'n', '_', 't', 'o', '_', 'i', '_', 't', 'y', 'p', 'e', '!', '(', 'T', '2', ',', ' ', '{', 'f', 'r', 'o', 'm', '_', 'v', 'a', 'r', '}', '.', 's', 'e', 'c', 'o', 'n', 'd', ')', ',', ' ', 's', 'w', 'i', 'g', '_', 'f', 'o', 'r', 'e', 'i', 'g', 'n', '_', 't', 'o', '_', 'i', '_', 't', 'y', 'p', 'e', '!', '(', 'T', '3', ',', ' ', '{', 'f', 'r', 'o', 'm', '_', 'v', 'a', 'r', '}', '.', 't', 'h', 'i', 'r', 'd', ')', ',', ' ', '}'] := by
  decide +kernel

theorem read_triple_in_name : readLit "std::tuple<swig_f_type!(T1), swig_f_type!(T2), swig_f_type!(T3)>".toList =
    some [.txt "std::tuple<".toList, .call swigFType ["T1".toList], .txt ", ".toList, .call swigFType ["T2".toList], .txt ", ".toList, .call swigFType ["T3".toList], .txt ">".toList] := by
  rw [lit_triple_in_name]
  decide +kernel

theorem read_triple_in_code : tupleIn.code = some ⟨"swig_f_type!(CRustTuple3!()) { swig_foreign_to_i_type!(T1, {from_var}.first), swig_foreign_to_i_type!(T2, {from_var}.second), swig_foreign_to_i_type!(T3, {from_var}.third), }".toList, ["{from_var}".toList]⟩ := by
  rw [lit_triple_in_code]
  exact side_code _ _ lit_triple_in_src (by decide +kernel) (by decide +kernel) (by decide +kernel)

theorem read_triple_in : readLit "swig_f_type!(CRustTuple3!()) { swig_foreign_to_i_type!(T1, {from_var}.first), swig_foreign_to_i_type!(T2, {from_var}.second), swig_foreign_to_i_type!(T3, {from_var}.third), }".toList =
    some [.txt "".toList,
      .call swigFType ["CRustTuple3!()".toList],
      .txt " { ".toList,
      .call swigForeignToI ["T1".toList, "{from_var}.first".toList],
      .txt ", ".toList,
      .call swigForeignToI ["T2".toList, "{from_var}.second".toList],
      .txt ", ".toList,
      .call swigForeignToI ["T3".toList, "{from_var}.third".toList],
      .txt ", }".toList] := by
  rw [lit_triple_in_code]
  decide +kernel

/-- **C69**: a triple from C++. -/
theorem C69_triple_in (env : Env) (W : World σ) (al : List Alias) (t1 t2 t3 : PTy) (i1 i2 i3 : Info) (am : Alias) (aa : Alias) (ia : Info)
    (h1 : Param env "T1" t1) (m1 : Maps W t1 .incoming i1) (n1 : NoTag i1)
    (h2 : Param env "T2" t2) (m2 : Maps W t2 .incoming i2) (n2 : NoTag i2)
    (h3 : Param env "T3" t3) (m3 : Maps W t3 .incoming i3) (n3 : NoTag i3)
    (hma : findAlias al "CRustTuple3Module".toList = some am)
    (ha : findAlias al "CRustTuple3".toList = some aa) (ma : Maps W aa.value .incoming ia) (na : NoTag ia) (s : σ) :
    ∃ r s', expandFConv env (cppB W .incoming) al s tupleIn = .ok (r, s') ∧ Is r none
      (cat ["std::tuple<".toList, (userType i1).value, ", ".toList, (userType i2).value, ", ".toList, (userType i3).value, ">".toList])
      (cat ["".toList, (userType ia).value, " { ".toList, applied i1 "{from_var}.first".toList, ", ".toList, applied i2 "{from_var}.second".toList, ", ".toList, applied i3 "{from_var}.third".toList, ", }".toList])
      (i1.mods ++ i2.mods ++ i3.mods ++ [aliasHeader env am, "<tuple>".toList]) := by
  have p1 := findTypeParam_param h1
  have f1 := fTypeArg_param (al := al) p1 rfl
  have p2 := findTypeParam_param h2
  have f2 := fTypeArg_param (al := al) p2 rfl
  have p3 := findTypeParam_param h3
  have f3 := fTypeArg_param (al := al) p3 rfl
  have fa : fTypeArg env al "CRustTuple3!()".toList = .ok aa.value := fTypeArg_alias (n := "CRustTuple3".toList) (by rw [aliasForm_ascii _ _ (by decide)]; decide +kernel) ha
  obtain ⟨r, s', h, hr⟩ := is_of (r := tupleIn) rfl read_triple_in_code rfl rfl (cfg := none) rfl (rm := ["\"CRustTuple3Module!().h\"".toList, "<tuple>".toList]) rfl
    (expandName_fills read_triple_in_name (.txt (.call (ans_fName f1 m1 n1) (.txt (.call (ans_fName f2 m2 n2) (.txt (.call (ans_fName f3 m3 n3) (.last _))))))))
    (fun s => expand_fills read_triple_in (.txt (.call (ans_f fa ma na) (.txt (.call (ans_to p1 m1) (.txt (.call (ans_to p2 m2) (.txt (.call (ans_to p3 m3) (.last _))))))))) s)
    (expandModules_two (expandModule_lit (o := aliasHeader env am) (l := [.txt "\"".toList, .call "CRustTuple3Module".toList [], .txt ".h\"".toList]) (by decide +kernel)
      (.txt (.call (ans_mod hma) (.last _))))
      (expandModule_lit (o := "<tuple>".toList) (l := [.txt "<tuple>".toList]) (by decide +kernel) (fills_one _))) s
  refine ⟨r, s', h, ?_⟩
  simp only [cat, List.flatten_cons, List.flatten_nil]
  simpa only [List.append_assoc, List.nil_append] using hr

theorem lit_option_out_name : "std::optional<swig_f_type!(T)>".toList =
    ['s', 't', 'd', ':', ':', 'o', 'p', 't', 'i', 'o', 'n', 'a', 'l', '<', 's', 'w', 'i', 'g', '_', 'f', '_', 't', 'y', 'p', 'e', '!', '(', 'T', ')', '>'] := by
  decide +kernel

theorem lit_option_out_src : "($p.is_some != 0) ? std::optional<swig_f_type!(T)>(swig_foreign_from_i_type!(T, $p.val.data)) : std::optional<swig_f_type!(T)>()".toList =
    ['(', '$', 'p', '.', 'i', 's', '_', 's', 'o', 'm', 'e', ' ', '!', '=', ' ', '0', ')', ' ', '?', ' ', 's', 't', 'd', ':', ':', 'o', 'p', 't', 'i', 'o', 'n', 'a', 'l', '<', 's', 'w', 'i', 'g', '_', 'f', '_', 't', 'y', 'p', 'e', '!', '(', 'T', ')', '>', '(', 's', 'w', 'i', 'g', '_', 'f', 'o', 'r', 'e', 'i', 'g', 'n', '_', 'f', 'r', 'o', 'm', '_', 'i', '_', 't', 'y', 'p', 'e', '!', '(', 'T', ',', ' ', '$', 'p', '.', 'v', 'a', 'l', '.', 'd', 'a', 't', 'a', ')', ')', ' ', ':', ' ', 's', 't', 'd', ':', ':', 'o', 'p', 't', 'i', 'o', 'n', 'a', 'l', '<', 's', 'w', 'i', 'g', '_', 'f', '_', 't', 'y', 'p', 'e', '!', '(', 'T', ')', '>', '(', ')'] := by
  decide +kernel

theorem lit_option_out_code : "({from_var}.is_some != 0) ? std::optional<swig_f_type!(T)>(swig_foreign_from_i_type!(T, {from_var}.val.data)) : std::optional<swig_f_type!(T)>()".toList =
    ['(', '{', 'f', 'r', 'o', 'm', '_', 'v', 'a', 'r', '}', '.', 'i', 's', '_', 's', 'o', 'm', 'e', ' ', '!', '=', ' ', '0', ')', ' ', '?', ' ', 's', 't', 'd', ':', ':', 'o', 'p', 't', 'i', 'o', 'n', 'a', 'l', '<', 's', 'w', 'i', 'g', '_', 'f', '_', 't', 'y', 'p', 'e', '!', '(', 'T', ')', '>', '(', 's', 'w', 'i', 'g', '_', 'f', 'o', 'r', 'e', 'i', 'g', 'n', '_', 'f', 'r', 'o', 'm', '_', 'i', '_', 't', 'y', 'p', 'e', '!', '(', 'T', ',', ' ', '{', 'f', 'r', 'o', 'm', '_', 'v', 'a', 'r', '}', '.', 'v', 'a', 'l', '.', 'd', 'a', 't', 'a', ')', ')', ' ', ':', ' ', 's', 't', 'd', ':', ':', 'o', 'p', 't', 'i', 'o', 'n', 'a', 'l', '<', 's', 'w', 'i', 'g', '_', 'f', '_', 't', 'y', 'p', 'e', '!', '(', 'T', ')', '>', '(', ')'] := by
  decide +kernel

theorem read_option_out_name : readLit "std::optional<swig_f_type!(T)>".toList =
    some [.txt "std::optional<".toList, .call swigFType ["T".toList], .txt ">".toList] := by
  rw [lit_option_out_name]
  decide +kernel

theorem read_option_out_code : optionOut.code = some ⟨"({from_var}.is_some != 0) ? std::optional<swig_f_type!(T)>(swig_foreign_from_i_type!(T, {from_var}.val.data)) : std::optional<swig_f_type!(T)>()".toList, ["{from_var}".toList]⟩ := by
  rw [lit_option_out_code]
  exact side_code _ _ lit_option_out_src (by decide +kernel) (by decide +kernel) (by decide +kernel)

theorem read_option_out : readLit "({from_var}.is_some != 0) ? std::optional<swig_f_type!(T)>(swig_foreign_from_i_type!(T, {from_var}.val.data)) : std::optional<swig_f_type!(T)>()".toList =
    some [.txt "({from_var}.is_some != 0) ? std::optional<".toList,
      .call swigFType ["T".toList],
      .txt ">(".toList,
      .call swigForeignFromI ["T".toList, "{from_var}.val.data".toList],
      .txt ") : std::optional<".toList,
      .call swigFType ["T".toList],
      .txt ">()".toList] := by
  rw [lit_option_out_code]
  decide +kernel

/-- **C69**: an optional value for C++17. -/
theorem C69_option_out (env : Env) (W : World σ) (al : List Alias) (t1 : PTy) (i1 : Info)
    (h1 : Param env "T" t1) (m1 : Maps W t1 .outgoing i1) (n1 : NoTag i1) (s : σ) :
    ∃ r s', expandFConv env (cppB W .outgoing) al s optionOut = .ok (r, s') ∧ Is r (some "CppOptional::Std17".toList)
      (cat ["std::optional<".toList, (userType i1).value, ">".toList])
      (cat ["({from_var}.is_some != 0) ? std::optional<".toList, (userType i1).value, ">(".toList, applied i1 "{from_var}.val.data".toList, ") : std::optional<".toList, (userType i1).value, ">()".toList])
      (i1.mods ++ ["\"rust_option.h\"".toList, "<optional>".toList]) := by
  have p1 := findTypeParam_param h1
  have f1 := fTypeArg_param (al := al) p1 rfl
  obtain ⟨r, s', h, hr⟩ := is_of (r := optionOut) rfl read_option_out_code rfl rfl (cfg := (some "CppOptional::Std17".toList)) rfl (rm := ["\"rust_option.h\"".toList, "<optional>".toList]) rfl
    (expandName_fills read_option_out_name (.txt (.call (ans_fName f1 m1 n1) (.last _))))
    (fun s => expand_fills read_option_out (.txt (.call (ans_f f1 m1 n1) (.txt (.call (ans_from p1 m1) (.txt (.call (ans_f f1 m1 n1) (.last _))))))) s)
    (expandModules_two (expandModule_lit (o := "\"rust_option.h\"".toList) (l := [.txt "\"rust_option.h\"".toList]) (by decide +kernel) (fills_one _))
      (expandModule_lit (o := "<optional>".toList) (l := [.txt "<optional>".toList]) (by decide +kernel) (fills_one _))) s
  refine ⟨r, s', h, ?_⟩
  simp only [cat, List.flatten_cons, List.flatten_nil]
  simpa only [List.append_assoc, List.nil_append] using hr

theorem lit_option_in_name : "std::optional<swig_f_type!(T)>".toList =
    ['s', 't', 'd', ':', ':', 'o', 'p', 't', 'i', 'o', 'n', 'a', 'l', '<', 's', 'w', 'i', 'g', '_', 'f', '_', 't', 'y', 'p', 'e', '!', '(', 'T', ')', '>'] := by
  decide +kernel

theorem lit_option_in_src : "[](std::optional<swig_f_type!(T)> p) -> CRustOpt!() { CRustOpt!() out; if (p.has_value()) { out.val.data = swig_foreign_to_i_type!(T, (*p)); out.is_some = 1; } else { out.is_some = 0; } return out; }(std::move($p))".toList =
    ['[', ']', '(', 's', 't', 'd', ':', ':', 'o', 'p', 't', 'i', 'o', 'n', 'a', 'l', '<', 's', 'w', 'i', 'g', '_', 'f', '_', 't', 'y', 'p', 'e', '!', '(', 'T', ')', '>', ' ', 'p', ')', ' ', '-', '>', ' ', 'C', 'R', 'u', 's', 't', 'O', 'p', 't', '!', '(', ')', ' ', '{', ' ', 'C', 'R', 'u', 's', 't', 'O', 'p', 't', '!', '(', ')', ' ', 'o', 'u', 't', ';', ' ', 'i', 'f', ' ', '(', 'p', '.', 'h', 'a', 's', '_', 'v', 'a', 'l', 'u', 'e', '(', ')', ')', ' ', '{', ' ', 'o', 'u', 't', '.', 'v', 'a', 'l', '.', 'd', 'a', 't', 'a', ' ', '=', ' ', 's', 'w', 'i', 'g', '_', 'f', 'o', 'r', 'e', 'i', 'g', 'n', '_', 't', 'o', '_', 'i', '_', 't', 'y', 'p', 'e', '!', '(', 'T', ',', ' ', '(', '*', 'p', ')', ')', ';', ' ', 'o', 'u', 't', '.', 'i', 's', '_', 's', 'o', 'm', 'e', ' ', '=', ' ', '1', ';', ' ', '}', ' ', 'e', 'l', 's', 'e', ' ', '{', ' ', 'o', 'u', 't', '.', 'i', 's', '_', 's', 'o', 'm', 'e', ' ', '=', ' ', '0', ';', ' ', '}', ' ', 'r', 'e', 't', 'u', 'r', 'n', ' ', 'o', 'u', 't', ';', ' ', '}', '(', 's', 't', 'd', ':', ':', 'm', 'o', 'v', 'e', '(', '$', 'p', ')', ')'] := by
  decide +kernel

theorem lit_option_in_code : "[](std::optional<swig_f_type!(T)> p) -> CRustOpt!() { CRustOpt!() out; if (p.has_value()) { out.val.data = swig_foreign_to_i_type!(T, (*p)); out.is_some = 1; } else { out.is_some = 0; } return out; }(std::move({from_var}))".toList =
    ['[', ']', '(', 's', 't', 'd', ':', ':', 'o', 'p', 't', 'i', 'o', 'n', 'a', 'l', '<', 's', 'w', 'i', 'g', '_', 'f', '_', 't', 'y', 'p', 'e', '!', '(', 'T', ')', '>', ' ', 'p', ')', ' ', '-', '>', ' ', 'C', 'R', 'u', 's', 't', 'O', 'p', 't', '!', '(', ')', ' ', '{', ' ', 'C', 'R', 'u', 's', 't', 'O', 'p', 't', '!', '(', ')', ' ', 'o', 'u', 't', ';', ' ', 'i', 'f', ' ', '(', 'p', '.', 'h', 'a', 's', '_', 'v', 'a', 'l', 'u', 'e', '(', ')', ')', ' ', '{', ' ', 'o', 'u', 't', '.', 'v', 'a', 'l', '.', 'd', 'a', 't', 'a', ' ', '=', ' ', 's', 'w', 'i', 'g', '_', 'f', 'o', 'r', 'e', 'i', 'g', 'n', '_', 't', 'o', '_', 'i', '_', 't', 'y', 'p', 'e', '!', '(', 'T', ',', ' ', '(', '*', 'p', ')', ')', ';', ' ', 'o', 'u', 't', '.', 'i', 's', '_', 's', 'o', 'm', 'e', ' ', '=', ' ', '1', ';', ' ', '}', ' ', 'e', 'l', 's', 'e', ' ', '{', ' ', 'o', 'u', 't', '.', 'i', 's', '_', 's', 'o', 'm', 'e', ' ', '=', ' ', '0', ';', ' ', '}', ' ', 'r', 'e', 't', 'u', 'r', 'n', ' ', 'o', 'u', 't', ';', ' ', '}', '(', 's', 't', 'd', ':', ':', 'm', 'o', 'v', 'e', '(', '{', 'f', 'r', 'o', 'm', '_', 'v', 'a', 'r', '}', ')', ')'] := by
  decide +kernel

theorem read_option_in_name : readLit "std::optional<swig_f_type!(T)>".toList =
    some [.txt "std::optional<".toList, .call swigFType ["T".toList], .txt ">".toList] := by
  rw [lit_option_in_name]
  decide +kernel

theorem read_option_in_code : optionIn.code = some ⟨"[](std::optional<swig_f_type!(T)> p) -> CRustOpt!() { CRustOpt!() out; if (p.has_value()) { out.val.data = swig_foreign_to_i_type!(T, (*p)); out.is_some = 1; } else { out.is_some = 0; } return out; }(std::move({from_var}))".toList, ["{from_var}".toList]⟩ := by
  rw [lit_option_in_code]
  exact side_code _ _ lit_option_in_src (by decide +kernel) (by decide +kernel) (by decide +kernel)

theorem read_option_in : readLit "[](std::optional<swig_f_type!(T)> p) -> CRustOpt!() { CRustOpt!() out; if (p.has_value()) { out.val.data = swig_foreign_to_i_type!(T, (*p)); out.is_some = 1; } else { out.is_some = 0; } return out; }(std::move({from_var}))".toList =
    some [.txt "[](std::optional<".toList,
      .call swigFType ["T".toList],
      .txt "> p) -> ".toList,
      .call "CRustOpt".toList [],
      .txt " { ".toList,
      .call "CRustOpt".toList [],
      .txt " out; if (p.has_value()) { out.val.data = ".toList,
      .call swigForeignToI ["T".toList, "(*p)".toList],
      .txt "; out.is_some = 1; } else { out.is_some = 0; } return out; }(std::move({from_var}))".toList] := by
  rw [lit_option_in_code]
  decide +kernel

/-- **C69**: an optional value from C++17. -/
theorem C69_option_in (env : Env) (W : World σ) (al : List Alias) (t1 : PTy) (i1 : Info) (aa : Alias)
    (h1 : Param env "T" t1) (m1 : Maps W t1 .incoming i1) (n1 : NoTag i1)
    (ha : findAlias al "CRustOpt".toList = some aa) (s : σ) :
    ∃ r s', expandFConv env (cppB W .incoming) al s optionIn = .ok (r, s') ∧ Is r (some "CppOptional::Std17".toList)
      (cat ["std::optional<".toList, (userType i1).value, ">".toList])
      (cat ["[](std::optional<".toList, (userType i1).value, "> p) -> ".toList, env.disp aa.value, " { ".toList, env.disp aa.value, " out; if (p.has_value()) { out.val.data = ".toList, applied i1 "(*p)".toList, "; out.is_some = 1; } else { out.is_some = 0; } return out; }(std::move({from_var}))".toList])
      (i1.mods ++ ["\"rust_option.h\"".toList, "<optional>".toList]) := by
  have p1 := findTypeParam_param h1
  have f1 := fTypeArg_param (al := al) p1 rfl
  obtain ⟨r, s', h, hr⟩ := is_of (r := optionIn) rfl read_option_in_code rfl rfl (cfg := (some "CppOptional::Std17".toList)) rfl (rm := ["\"rust_option.h\"".toList, "<optional>".toList]) rfl
    (expandName_fills read_option_in_name (.txt (.call (ans_fName f1 m1 n1) (.last _))))
    (fun s => expand_fills read_option_in (.txt (.call (ans_f f1 m1 n1) (.txt (.call (ans_alias (by unfold OwnName; decide) ha) (.txt (.call (ans_alias (by unfold OwnName; decide) ha) (.txt (.call (ans_to p1 m1) (.last _))))))))) s)
    (expandModules_two (expandModule_lit (o := "\"rust_option.h\"".toList) (l := [.txt "\"rust_option.h\"".toList]) (by decide +kernel) (fills_one _))
      (expandModule_lit (o := "<optional>".toList) (l := [.txt "<optional>".toList]) (by decide +kernel) (fills_one _))) s
  refine ⟨r, s', h, ?_⟩
  simp only [cat, List.flatten_cons, List.flatten_nil]
  simpa only [List.append_assoc, List.nil_append] using hr

theorem lit_boost_out_name : "boost::optional<swig_f_type!(T)>".toList =
    ['b', 'o', 'o', 's', 't', ':', ':', 'o', 'p', 't', 'i', 'o', 'n', 'a', 'l', '<', 's', 'w', 'i', 'g', '_', 'f', '_', 't', 'y', 'p', 'e', '!', '(', 'T', ')', '>'] := by
  decide +kernel

theorem lit_boost_out_src : "($p.is_some != 0) ? boost::optional<swig_f_type!(T)>(swig_foreign_from_i_type!(T, $p.val.data)) : boost::optional<swig_f_type!(T)>()".toList =
    ['(', '$', 'p', '.', 'i', 's', '_', 's', 'o', 'm', 'e', ' ', '!', '=', ' ', '0', ')', ' ', '?', ' ', 'b', 'o', 'o', 's', 't', ':', ':', 'o', 'p', 't', 'i', 'o', 'n', 'a', 'l', '<', 's', 'w', 'i', 'g', '_', 'f', '_', 't', 'y', 'p', 'e', '!', '(', 'T', ')', '>', '(', 's', 'w', 'i', 'g', '_', 'f', 'o', 'r', 'e', 'i', 'g', 'n', '_', 'f', 'r', 'o', 'm', '_', 'i', '_', 't', 'y', 'p', 'e', '!', '(', 'T', ',', ' ', '$', 'p', '.', 'v', 'a', 'l', '.', 'd', 'a', 't', 'a', ')', ')', ' ', ':', ' ', 'b', 'o', 'o', 's', 't', ':', ':', 'o', 'p', 't', 'i', 'o', 'n', 'a', 'l', '<', 's', 'w', 'i', 'g', '_', 'f', '_', 't', 'y', 'p', 'e', '!', '(', 'T', ')', '>', '(', ')'] := by
  decide +kernel

theorem lit_boost_out_code : "({from_var}.is_some != 0) ? boost::optional<swig_f_type!(T)>(swig_foreign_from_i_type!(T, {from_var}.val.data)) : boost::optional<swig_f_type!(T)>()".toList =
    ['(', '{', 'f', 'r', 'o', 'm', '_', 'v', 'a', 'r', '}', '.', 'i', 's', '_', 's', 'o', 'm', 'e', ' ', '!', '=', ' ', '0', ')', ' ', '?', ' ', 'b', 'o', 'o', 's', 't', ':', ':', 'o', 'p', 't', 'i', 'o', 'n', 'a', 'l', '<', 's', 'w', 'i', 'g', '_', 'f', '_', 't', 'y', 'p', 'e', '!', '(', 'T', ')', '>', '(', 's', 'w', 'i', 'g', '_', 'f', 'o', 'r', 'e', 'i', 'g', 'n', '_', 'f', 'r', 'o', 'm', '_', 'i', '_', 't', 'y', 'p', 'e', '!', '(', 'T', ',', ' ', '{', 'f', 'r', 'o', 'm', '_', 'v', 'a', 'r', '}', '.', 'v', 'a', 'l', '.', 'd', 'a', 't', 'a', ')', ')', ' ', ':', ' ', 'b', 'o', 'o', 's', 't', ':', ':', 'o', 'p', 't', 'i', 'o', 'n', 'a', 'l', '<', 's', 'w', 'i', 'g', '_', 'f', '_', 't', 'y', 'p', 'e', '!', '(', 'T', ')', '>', '(', ')'] := by
  decide +kernel

theorem read_boost_out_name : readLit "boost::optional<swig_f_type!(T)>".toList =
    some [.txt "boost::optional<".toList, .call swigFType ["T".toList], .txt ">".toList] := by
  rw [lit_boost_out_name]
  decide +kernel

theorem read_boost_out_code : boostOut.code = some ⟨"({from_var}.is_some != 0) ? boost::optional<swig_f_type!(T)>(swig_foreign_from_i_type!(T, {from_var}.val.data)) : boost::optional<swig_f_type!(T)>()".toList, ["{from_var}".toList]⟩ := by
  rw [lit_boost_out_code]
  exact side_code _ _ lit_boost_out_src (by decide +kernel) (by decide +kernel) (by decide +kernel)

theorem read_boost_out : readLit "({from_var}.is_some != 0) ? boost::optional<swig_f_type!(T)>(swig_foreign_from_i_type!(T, {from_var}.val.data)) : boost::optional<swig_f_type!(T)>()".toList =
    some [.txt "({from_var}.is_some != 0) ? boost::optional<".toList,
      .call swigFType ["T".toList],
      .txt ">(".toList,
      .call swigForeignFromI ["T".toList, "{from_var}.val.data".toList],
      .txt ") : boost::optional<".toList,
      .call swigFType ["T".toList],
      .txt ">()".toList] := by
  rw [lit_boost_out_code]
  decide +kernel

/-- **C69**: an optional value for C++ with boost. -/
theorem C69_boost_out (env : Env) (W : World σ) (al : List Alias) (t1 : PTy) (i1 : Info)
    (h1 : Param env "T" t1) (m1 : Maps W t1 .outgoing i1) (n1 : NoTag i1) (s : σ) :
    ∃ r s', expandFConv env (cppB W .outgoing) al s boostOut = .ok (r, s') ∧ Is r (some "CppOptional::Boost".toList)
      (cat ["boost::optional<".toList, (userType i1).value, ">".toList])
      (cat ["({from_var}.is_some != 0) ? boost::optional<".toList, (userType i1).value, ">(".toList, applied i1 "{from_var}.val.data".toList, ") : boost::optional<".toList, (userType i1).value, ">()".toList])
      (i1.mods ++ ["\"rust_option.h\"".toList, "<boost/optional.hpp>".toList]) := by
  have p1 := findTypeParam_param h1
  have f1 := fTypeArg_param (al := al) p1 rfl
  obtain ⟨r, s', h, hr⟩ := is_of (r := boostOut) rfl read_boost_out_code rfl rfl (cfg := (some "CppOptional::Boost".toList)) rfl (rm := ["\"rust_option.h\"".toList, "<boost/optional.hpp>".toList]) rfl
    (expandName_fills read_boost_out_name (.txt (.call (ans_fName f1 m1 n1) (.last _))))
    (fun s => expand_fills read_boost_out (.txt (.call (ans_f f1 m1 n1) (.txt (.call (ans_from p1 m1) (.txt (.call (ans_f f1 m1 n1) (.last _))))))) s)
    (expandModules_two (expandModule_lit (o := "\"rust_option.h\"".toList) (l := [.txt "\"rust_option.h\"".toList]) (by decide +kernel) (fills_one _))
      (expandModule_lit (o := "<boost/optional.hpp>".toList) (l := [.txt "<boost/optional.hpp>".toList]) (by decide +kernel) (fills_one _))) s
  refine ⟨r, s', h, ?_⟩
  simp only [cat, List.flatten_cons, List.flatten_nil]
  simpa only [List.append_assoc, List.nil_append] using hr

end Flapi.Requests
