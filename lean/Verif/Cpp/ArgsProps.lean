import Verif.Cpp.Args
import Verif.Core.TemplateProps
/-!
# Parameter lists, argument conversions (C49) and includes (C22) of generated C++ code
-/
namespace Flapi.Cpp

open Flapi.Template Flapi.NameGen

/-! ## Specification -/

/-- Texts separated by `", "`. -/
def commaJoin : List Text → Text
  | [] => []
  | [a] => a
  | a :: b :: l => a ++ (comma ++ commaJoin (b :: l))

/-! ## Lemmas -/

theorem commaJoin_cons (a : Text) (l : List Text) (h : l ≠ []) : commaJoin (a :: l) = a ++ (comma ++ commaJoin l) := by
  cases l with
  | nil => exact absurd rfl h
  | cons => rfl

theorem commaJoin_snoc (l : List Text) (a : Text) (h : l ≠ []) : commaJoin (l ++ [a]) = commaJoin l ++ (comma ++ a) := by
  induction l with
  | nil => exact absurd rfl h
  | cons b l ih =>
    cases l with
    | nil => rfl
    | cons c l =>
      rw [List.cons_append, commaJoin_cons _ _ (by simp), ih (by simp), commaJoin_cons b (c :: l) (by simp)]
      simp

theorem commaJoin_nonempty {l : List Text} (hne : ∀ x ∈ l, x ≠ []) : (commaJoin l).isEmpty = l.isEmpty := by
  cases l with
  | nil => rfl
  | cons a l =>
    have := hne a (by simp)
    cases l with
    | nil => cases a <;> simp_all [commaJoin]
    | cons b l => cases a <;> simp_all [commaJoin]

theorem cArgsLoop_eq (l : List (TypeInfo × Text)) : ∀ (done : List Text), (∀ x ∈ done, x ≠ []) →
    cArgsLoop (commaJoin done) l = commaJoin (done ++ l.map fun p => p.1.name ++ ' ' :: p.2) := by
  induction l with
  | nil => intro done _; simp [cArgsLoop]
  | cons p l ih =>
    obtain ⟨t, n⟩ := p
    intro done hd
    have step : (if (commaJoin done).isEmpty then commaJoin done else commaJoin done ++ comma) ++ (t.name ++ ' ' :: n) =
        commaJoin (done ++ [t.name ++ ' ' :: n]) := by
      rw [commaJoin_nonempty hd]
      cases done with
      | nil => rfl
      | cons d ds =>
        rw [commaJoin_snoc _ _ (by simp)]
        simp
    rw [cArgsLoop]
    simp only [step]
    rw [ih]
    · simp
    · intro x hx
      rcases List.mem_append.1 hx with hx | hx
      · exact hd x hx
      · rw [List.mem_singleton] at hx; subst hx; simp

theorem cppArgsLoop_eq (l : List (TypeInfo × Text)) : ∀ (done : List Text), (∀ x ∈ done, x ≠ []) →
    cppArgsLoop (commaJoin done) l =
      commaJoin (done ++ (l.filter fun p => !p.1.inputToOutput).map fun p => p.1.cppName ++ ' ' :: p.2) := by
  induction l with
  | nil => intro done _; simp [cppArgsLoop]
  | cons p l ih =>
    obtain ⟨t, n⟩ := p
    intro done hd
    rw [cppArgsLoop]
    cases hio : t.inputToOutput with
    | true => simp only [if_true]; rw [ih done hd]; simp [hio]
    | false =>
      have step : (if (commaJoin done).isEmpty then commaJoin done else commaJoin done ++ comma) ++
          (t.cppName ++ ' ' :: n) = commaJoin (done ++ [t.cppName ++ ' ' :: n]) := by
        rw [commaJoin_nonempty hd]
        cases done with
        | nil => rfl
        | cons d ds =>
          rw [commaJoin_snoc _ _ (by simp)]
          simp
      simp only [Bool.false_eq_true, if_false, step]
      rw [ih]
      · simp [hio]
      · intro x hx
        rcases List.mem_append.1 hx with hx | hx
        · exact hd x hx
        · rw [List.mem_singleton] at hx; subst hx; simp

/-- `cppSubst` only puts new names in front. -/
theorem collectVals_suffix (fromName toType toName : Text) : ∀ (params : List Text) (known : List Text) (vals known' : List Text),
    collectVals (cppSubst fromName toType toName) known params = some (vals, known') →
    known <:+ known' ∧ (known.Nodup → known'.Nodup) := by
  intro params
  induction params with
  | nil => intro known vals known' h; simp [collectVals] at h; obtain ⟨rfl, rfl⟩ := h; exact ⟨List.suffix_refl _, id⟩
  | cons p ps ih =>
    intro known vals known' h
    simp only [collectVals, Option.bind_eq_bind, Option.bind_eq_some_iff, Option.pure_def, Option.some.injEq,
      Prod.exists, Prod.mk.injEq] at h
    obtain ⟨v, s1, h1, vs, s2, h2, rfl, rfl⟩ := h
    obtain ⟨hs, hn⟩ := ih _ _ _ h2
    have key : known <:+ s1 ∧ (known.Nodup → s1.Nodup) := by
      cases hc : classify p with
      | name n =>
        rw [hc] at h1
        have e : s1 = known := by
          simp only [cppSubst] at h1
          split at h1
          · simp at h1; exact h1.2.symm
          · split at h1
            · simp at h1; exact h1.2.symm
            · split at h1
              · simp at h1; exact h1.2.symm
              · simp at h1
        subst e
        exact ⟨List.suffix_refl _, id⟩
      | tmp t =>
        rw [hc] at h1
        simp only [cppSubst, Option.bind_eq_bind, Option.bind_eq_some_iff, Option.pure_def, Option.some.injEq,
          Prod.mk.injEq] at h1
        obtain ⟨n, hn', rfl, rfl⟩ := h1
        exact ⟨List.suffix_cons _ _, fun hk => List.nodup_cons.2 ⟨C01_fresh _ _ _ hn', hk⟩⟩
    exact ⟨key.1.trans hs, fun hk => hn (key.2 hk)⟩

theorem convVar_suffix {c : TypeConvCode} {i : Nat} {known : List Text} {v : Option Text} {known' : List Text}
    (h : convVar c i known = some (v, known')) :
    known <:+ known' ∧ (known.Nodup → known'.Nodup) ∧ (∀ x, v = some x → x ∉ known ∧ x ∈ known') ∧
      (v = none ↔ (c.hasParam toVarType = false ∧ c.hasParam toVar = false)) := by
  unfold convVar at h
  split at h
  · rename_i hp
    simp only [Option.bind_eq_bind, Option.bind_eq_some_iff, Option.pure_def, Option.some.injEq, Prod.mk.injEq] at h
    obtain ⟨n, hn, rfl, rfl⟩ := h
    have := C01_fresh _ _ _ hn
    refine ⟨List.suffix_cons _ _, fun hk => List.nodup_cons.2 ⟨this, hk⟩, ?_, ?_⟩
    · intro x hx; cases hx; exact ⟨this, by simp⟩
    · simp only [Bool.or_eq_true] at hp
      constructor
      · exact fun hh => nomatch hh
      · rintro ⟨h1, h2⟩; rw [h1, h2] at hp; rcases hp with hp | hp <;> cases hp
  · rename_i hp
    cases h
    refine ⟨List.suffix_refl _, id, fun x hx => (nomatch hx), ?_⟩
    simp only [Bool.not_eq_true, Bool.or_eq_false_iff] at hp
    simp [hp]

theorem convArg_suffix {t : TypeInfo} {n : Text} {i : Nat} {known : List Text} {d a : Text} {known' : List Text}
    (h : convArg t n i known = some (d, a, known')) : known <:+ known' ∧ (known.Nodup → known'.Nodup) := by
  unfold convArg at h
  split at h
  · cases h; exact ⟨List.suffix_refl _, id⟩
  · rename_i conv _
    simp only [Option.bind_eq_bind, Option.bind_eq_some_iff, Prod.exists] at h
    obtain ⟨v, k1, h1, code, k2, h2, h3⟩ := h
    have hk : known' = k2 := by
      split at h3 <;> (simp only [Option.pure_def, Option.some.injEq, Prod.mk.injEq] at h3; exact h3.2.2.symm)
    subst hk
    obtain ⟨s1, n1, -⟩ := convVar_suffix h1
    simp only [TypeConvCode.generateWithSubst, Option.bind_eq_bind, Option.bind_eq_some_iff, Prod.exists, Option.pure_def,
      Option.some.injEq, Prod.mk.injEq] at h2
    obtain ⟨vals, k3, hc, -, rfl⟩ := h2
    obtain ⟨s2, n2⟩ := collectVals_suffix _ _ _ _ _ _ _ hc
    exact ⟨s1.trans s2, fun hk => n2 (n1 hk)⟩

theorem convArgsLoop_eq (l : List (TypeInfo × Text)) : ∀ (dd aa : List Text) (known : List Text)
    (deps args : Text) (known' : List Text),
    convArgsLoop dd.flatten (commaJoin aa) aa.length known l = some (deps, args, known') →
    ∃ ds as : List Text, ds.length = l.length ∧ as.length = l.length ∧ deps = (dd ++ ds).flatten ∧
      args = commaJoin (aa ++ as) ∧ known <:+ known' ∧ (known.Nodup → known'.Nodup) ∧
      ∀ i t n, l[i]? = some (t, n) → ∃ d a kb ka, ds[i]? = some d ∧ as[i]? = some a ∧
        convArg t n (aa.length + i) kb = some (d, a, ka) ∧ known <:+ kb ∧ ka <:+ known' := by
  induction l with
  | nil =>
    intro dd aa known deps args known' h
    simp only [convArgsLoop, Option.some.injEq, Prod.mk.injEq] at h
    obtain ⟨rfl, rfl, rfl⟩ := h
    exact ⟨[], [], rfl, rfl, by simp, by simp, List.suffix_refl _, id, by simp⟩
  | cons p l ih =>
    obtain ⟨t, n⟩ := p
    intro dd aa known deps args known' h
    simp only [convArgsLoop, Option.bind_eq_bind, Option.bind_eq_some_iff, Prod.exists] at h
    obtain ⟨d, a, k1, hc, h⟩ := h
    have e1 : dd.flatten ++ d = (dd ++ [d]).flatten := by simp
    have e2 : (if aa.length > 0 then commaJoin aa ++ comma else commaJoin aa) ++ a = commaJoin (aa ++ [a]) := by
      cases aa with
      | nil => rfl
      | cons x xs => rw [commaJoin_snoc _ _ (by simp)]; simp
    have e3 : aa.length + 1 = (aa ++ [a]).length := by simp
    rw [e1, e2, e3] at h
    obtain ⟨ds, as, hd, ha, rfl, rfl, hs, hn, hall⟩ := ih _ _ _ _ _ _ h
    obtain ⟨hs1, hn1⟩ := convArg_suffix hc
    refine ⟨d :: ds, a :: as, by simp [hd], by simp [ha], by simp, by simp, hs1.trans hs, fun hk => hn (hn1 hk), ?_⟩
    intro i t' n' hi
    cases i with
    | zero =>
      cases hi
      exact ⟨d, a, known, k1, rfl, rfl, hc, List.suffix_refl _, hs⟩
    | succ i =>
      obtain ⟨d', a', kb, ka, h1, h2, h3, h4, h5⟩ := hall i t' n' hi
      refine ⟨d', a', kb, ka, h1, h2, ?_, hs1.trans h4, h5⟩
      rw [← h3]
      congr 1
      simp; omega

theorem collectVals_plain (n ty v : Text) : ∀ (params k1 vals k3 : List Text),
    (∀ p ∈ params, p ∈ [fromVar, toVarType, toVar]) →
    collectVals (cppSubst n ty v) k1 params = some (vals, k3) →
    vals = params.map (fun tok => if tok = fromVar then n else if tok = toVarType then ty else v) ∧ k3 = k1 := by
  intro params
  induction params with
  | nil => intro k1 vals k3 _ hc; simp [collectVals] at hc; obtain ⟨rfl, rfl⟩ := hc; exact ⟨rfl, rfl⟩
  | cons p params ih =>
    intro k1 vals k3 hp hc
    simp only [collectVals, Option.bind_eq_bind, Option.bind_eq_some_iff, Option.pure_def, Option.some.injEq,
      Prod.exists, Prod.mk.injEq] at hc
    obtain ⟨w, s1, hc1, vs, s2, hc2, rfl, rfl⟩ := hc
    have hp0 := hp p (by simp)
    simp only [List.mem_cons, List.not_mem_nil, or_false] at hp0
    have hcl : classify p = .name p := by rcases hp0 with rfl | rfl | rfl <;> rfl
    rw [hcl] at hc1
    simp only [cppSubst] at hc1
    have h12 : toVarType ≠ fromVar := by decide
    have h13 : toVar ≠ fromVar := by decide
    have h23 : toVar ≠ toVarType := by decide
    have : w = (if p = fromVar then n else if p = toVarType then ty else v) ∧ s1 = k1 := by
      rcases hp0 with rfl | rfl | rfl
      · simp only [if_true, Option.some.injEq, Prod.mk.injEq] at hc1
        exact ⟨by rw [if_pos rfl]; exact hc1.1.symm, hc1.2.symm⟩
      · simp only [h12, if_false, if_true, Option.some.injEq, Prod.mk.injEq] at hc1
        exact ⟨by rw [if_neg h12, if_pos rfl]; exact hc1.1.symm, hc1.2.symm⟩
      · simp only [h13, h23, if_false, if_true, Option.some.injEq, Prod.mk.injEq] at hc1
        exact ⟨by rw [if_neg h13, if_neg h23]; exact hc1.1.symm, hc1.2.symm⟩
    obtain ⟨rfl, rfl⟩ := this
    obtain ⟨rfl, e⟩ := ih s1 vs _ (fun q hq => hp q (by simp [hq])) hc2
    exact ⟨rfl, e⟩

/-! ## C49 -/

/-- **C49**: the C prototype lists every argument once, in order, with its C type and its own name. -/
theorem C49_c_parameters (m : MethodSig) (names : List Text) :
    cArgsWithTypes m names false = commaJoin ((m.input.zip names).map fun p => p.1.name ++ ' ' :: p.2) := by
  have := cArgsLoop_eq (m.input.zip names) [] (by simp)
  simp only [commaJoin, List.nil_append] at this
  simp [cArgsWithTypes, this]

/-- **C49**: when more parameters follow, a comma is added exactly if there is something before it. -/
theorem C49_c_parameters_comma (m : MethodSig) (names : List Text) :
    cArgsWithTypes m names true = (m.input.zip names).flatMap fun p => p.1.name ++ ' ' :: p.2 ++ ", ".toList := by
  have := cArgsLoop_eq (m.input.zip names) [] (by simp)
  simp only [commaJoin, List.nil_append] at this
  simp only [cArgsWithTypes, this]
  generalize m.input.zip names = l
  have hj : ∀ l : List (TypeInfo × Text), l ≠ [] → commaJoin (l.map fun p => p.1.name ++ ' ' :: p.2) ++ comma =
      l.flatMap fun p => p.1.name ++ ' ' :: p.2 ++ ", ".toList := by
    intro l
    induction l with
    | nil => intro h; exact absurd rfl h
    | cons a l ih =>
      intro _
      cases l with
      | nil => simp [commaJoin, comma]
      | cons b l =>
        rw [List.map_cons, commaJoin_cons _ _ (by simp), List.flatMap_cons, ← ih (by simp)]
        simp [comma]
  have he := commaJoin_nonempty (l := l.map fun p => p.1.name ++ ' ' :: p.2) (by
    intro x hx
    obtain ⟨p, -, rfl⟩ := List.mem_map.1 hx
    simp)
  rw [he]
  cases l with
  | nil => rfl
  | cons a l => simpa using hj (a :: l) (by simp)

/-- **C49**: the C++ method lists every argument once, in order, with the type shown to the user — except the one that
is returned instead (`input_to_output`). -/
theorem C49_cpp_parameters (m : MethodSig) (names : List Text) :
    cppArgsWithTypes m names =
      commaJoin (((m.input.zip names).filter fun p => !p.1.inputToOutput).map fun p =>
        (match p.1.converter with | some c => c.typename | none => p.1.name) ++ ' ' :: p.2) := by
  have := cppArgsLoop_eq (m.input.zip names) [] (by simp)
  simp only [commaJoin, List.nil_append] at this
  exact this

/-- **C49**: the call made by the C++ wrapper has exactly one expression per argument, in order; the code before the call
is the concatenation of one (possibly empty) block per argument, in order; block and expression number `i` are produced
from argument `i` alone, with the names known at that point. -/
theorem C49_one_expression_per_argument (m : MethodSig) (known names : List Text) (deps args : Text) (known' : List Text)
    (h : convertArgs m known names = some (deps, args, known')) :
    ∃ ds as : List Text, ds.length = (m.input.zip names).length ∧ as.length = (m.input.zip names).length ∧
      deps = ds.flatten ∧ args = commaJoin as ∧
      ∀ i t n, m.input[i]? = some t → names[i]? = some n → ∃ d a kb ka, ds[i]? = some d ∧ as[i]? = some a ∧
        convArg t n i kb = some (d, a, ka) ∧ known <:+ kb ∧ ka <:+ known' := by
  have h' : convArgsLoop ([] : List Text).flatten (commaJoin []) ([] : List Text).length known (m.input.zip names) =
      some (deps, args, known') := h
  obtain ⟨ds, as, h1, h2, h3, h4, -, -, h5⟩ := convArgsLoop_eq _ _ _ _ _ _ _ h'
  refine ⟨ds, as, h1, h2, by simpa using h3, by simpa using h4, ?_⟩
  intro i t n hi hn
  have := h5 i t n (by rw [List.getElem?_zip_eq_some]; exact ⟨hi, hn⟩)
  simpa using this

/-- **C49**: all variables introduced by the conversions of one call are pairwise different and different from the
argument names and everything else known before. -/
theorem C49_introduced_names_distinct (m : MethodSig) (known names : List Text) (deps args : Text) (known' : List Text)
    (hk : known.Nodup) (h : convertArgs m known names = some (deps, args, known')) :
    ∃ new, known' = new ++ known ∧ new.Nodup ∧ ∀ x ∈ new, x ∉ known := by
  have h' : convArgsLoop ([] : List Text).flatten (commaJoin []) ([] : List Text).length known (m.input.zip names) =
      some (deps, args, known') := h
  obtain ⟨ds, as, -, -, -, -, ⟨new, rfl⟩, hn, -⟩ := convArgsLoop_eq _ _ _ _ _ _ _ h'
  have := hn hk
  rw [List.nodup_append] at this
  exact ⟨new, rfl, this.1, fun x hx hxk => this.2.2 x hx x hxk rfl⟩

/-- **C49**: an argument without converter is passed as it is. -/
theorem C49_plain_argument (t : TypeInfo) (n : Text) (i : Nat) (known : List Text) (h : t.converter = none) :
    convArg t n i known = some ([], n, known) := by
  simp [convArg, h]

/-- **C49**: an argument with a converter: the conversion template, with the input placeholder replaced by *this*
argument's name and the output placeholder by a new variable, is either the call expression itself or — when the
template declares a variable — the block before the call, the call then taking that variable. -/
theorem C49_converted_argument (t : TypeInfo) (conv : Converter) (ps : List Piece) (n : Text) (i : Nat)
    (known : List Text) (d a : Text) (known' : List Text) (hconv : t.converter = some conv)
    (hcode : conv.code.code = render ps)
    (hpar : ∀ p ∈ conv.code.params, p ∈ [fromVar, toVarType, toVar])
    (hph : ∀ tok, Piece.ph tok ∈ ps → tok ∈ conv.code.params)
    (hlit : ∀ x, Piece.lit x ∈ ps → ∀ tok ∈ [fromVar, toVarType, toVar], Inert tok x)
    (hn : '{' ∉ n) (ht : '{' ∉ t.name)
    (h : convArg t n i known = some (d, a, known')) :
    ∃ v, ((toVarType ∈ conv.code.params ∨ toVar ∈ conv.code.params) → v ∉ known ∧ v ∈ known') ∧
      (toVarType ∈ conv.code.params → a = "std::move(".toList ++ v ++ ")".toList ∧
        d = instantiate (fun tok => if tok = fromVar then n else if tok = toVarType then t.name ++ ' ' :: v else v) ps) ∧
      (toVarType ∉ conv.code.params → d = [] ∧
        a = instantiate (fun tok => if tok = fromVar then n else if tok = toVarType then t.name ++ ' ' :: v else v) ps) := by
  unfold convArg at h
  rw [hconv] at h
  simp only [Option.bind_eq_bind, Option.bind_eq_some_iff, Prod.exists] at h
  obtain ⟨var, k1, h1, code, k2, h2, h3⟩ := h
  obtain ⟨hs1, hn1, hv1, hv2⟩ := convVar_suffix h1
  simp only [TypeConvCode.generateWithSubst, Option.bind_eq_bind, Option.bind_eq_some_iff, Prod.exists, Option.pure_def,
    Option.some.injEq, Prod.mk.injEq] at h2
  obtain ⟨vals, k3, hc, hcode', rfl⟩ := h2
  -- the values chosen
  have hvals := collectVals_plain _ _ _ _ _ _ _ hpar hc
  obtain ⟨rfl, rfl⟩ := hvals
  -- '{' is in no value
  have hdig : ∀ m : Nat, '{' ∉ dec m := fun m hm => by have := dec_isDigit hm; revert this; decide
  have hvb : '{' ∉ var.getD [] := by
    unfold convVar at h1
    split at h1
    · simp only [Option.bind_eq_bind, Option.bind_eq_some_iff, Option.pure_def, Option.some.injEq, Prod.mk.injEq] at h1
      obtain ⟨w, hw, rfl, rfl⟩ := h1
      simp only [Option.getD_some]
      have hw' := C01_least _ _ _ hw
      by_cases hm : ('a' :: dec i) ∈ known
      · obtain ⟨j, e, -⟩ := hw'.2 hm
        rw [e]; simp [hdig]
      · rw [hw'.1 hm]; simp [hdig]
    · cases h1; simp
  have hinst : seqReplace conv.code.code (conv.code.params.zip (conv.code.params.map
      (fun tok => if tok = fromVar then n else if tok = toVarType then t.name ++ ' ' :: var.getD [] else var.getD []))) =
      instantiate (fun tok => if tok = fromVar then n else if tok = toVarType then t.name ++ ' ' :: var.getD [] else var.getD []) ps := by
    have hbrace : ∀ tok ∈ [fromVar, toVarType, toVar], ∀ x : Text, '{' ∉ x → Inert tok x := by
      intro tok ht' x hx
      simp only [List.mem_cons, List.not_mem_nil, or_false] at ht'
      rcases ht' with rfl | rfl | rfl <;> exact inert_of_not_mem '{' _ _ hx
    have hzip : ∀ (f : Text → Text) (l : List Text), l.zip (l.map f) = l.map fun x => (x, f x) := by
      intro f l; induction l with
      | nil => rfl
      | cons x l ih => simp [ih]
    rw [hzip, hcode, C09_sequential_is_simultaneous]
    · -- value lookup
      have hval : ∀ (f : Text → Text) (l : List Text) (tok : Text), tok ∈ l → valueOf (l.map fun x => (x, f x)) tok = f tok := by
        intro f l tok hm
        induction l with
        | nil => simp at hm
        | cons x l ih =>
          by_cases hx : x = tok
          · subst hx; simp [valueOf]
          · have : tok ∈ l := by
              rcases List.mem_cons.1 hm with h | h
              · exact absurd h.symm hx
              · exact h
            have := ih this
            simpa [valueOf, hx] using this
      have : ∀ (σ τ : Text → Text) (qs : List Piece), (∀ tok, Piece.ph tok ∈ qs → σ tok = τ tok) →
          instantiate σ qs = instantiate τ qs := by
        intro σ τ qs hq
        induction qs with
        | nil => rfl
        | cons q qs ih =>
          cases q with
          | lit x => simp only [instantiate]; rw [ih fun tok ht' => hq tok (by simp [ht'])]
          | ph x => simp only [instantiate]; rw [hq x (by simp), ih fun tok ht' => hq tok (by simp [ht'])]
      exact this _ _ _ fun tok ht' => hval _ _ _ (hph tok ht')
    · intro p hp
      obtain ⟨x, hx, rfl⟩ := List.mem_map.1 hp
      have := hpar x hx
      simp only [List.mem_cons, List.not_mem_nil, or_false] at this
      dsimp only
      rcases this with rfl | rfl | rfl <;> decide
    · intro p hp q hq
      obtain ⟨x, hx, rfl⟩ := List.mem_map.1 hp
      obtain ⟨y, hy, rfl⟩ := List.mem_map.1 hq
      apply hbrace x (hpar x hx)
      split
      · exact hn
      · split
        · simp only [List.mem_append, List.mem_cons, not_or]
          exact ⟨ht, by decide, hvb⟩
        · exact hvb
    · intro x hx p hp
      obtain ⟨y, hy, rfl⟩ := List.mem_map.1 hp
      exact hlit x hx y (hpar y hy)
    · intro x hx p hp
      obtain ⟨y, hy, rfl⟩ := List.mem_map.1 hp
      have h1 := hpar x (hph x hx)
      have h2 := hpar y hy
      by_cases e : x = y
      · exact Or.inl e
      · right
        simp only [List.mem_cons, List.not_mem_nil, or_false] at h1 h2
        dsimp only
        rcases h1 with rfl | rfl | rfl <;> rcases h2 with rfl | rfl | rfl <;>
          first | exact absurd rfl e | exact (inertB_iff _ _).1 (by decide)
  rw [hinst] at hcode'
  refine ⟨var.getD [], ?_, ?_, ?_⟩
  · intro hor
    cases hvar : var with
    | none =>
      exfalso
      obtain ⟨e1, e2⟩ := hv2.1 hvar
      simp only [TypeConvCode.hasParam, List.contains_eq_mem, decide_eq_false_iff_not] at e1 e2
      rcases hor with h | h
      · exact e1 h
      · exact e2 h
    | some w =>
      have := hv1 w hvar
      refine ⟨this.1, ?_⟩
      have hk : known' = k3 := by
        split at h3 <;> (simp only [Option.pure_def, Option.some.injEq, Prod.mk.injEq] at h3; exact h3.2.2.symm)
      rw [hk]; exact this.2
  · intro hm
    have : conv.code.hasParam toVarType = true := by simpa [TypeConvCode.hasParam] using hm
    rw [this] at h3
    simp only [if_true, Option.pure_def, Option.some.injEq, Prod.mk.injEq] at h3
    exact ⟨h3.2.1.symm, by rw [← h3.1, ← hcode']⟩
  · intro hm
    have : conv.code.hasParam toVarType = false := by simpa [TypeConvCode.hasParam] using hm
    rw [this] at h3
    simp only [Bool.false_eq_true, if_false, Option.pure_def, Option.some.injEq, Prod.mk.injEq] at h3
    exact ⟨h3.1.symm, by rw [← h3.2.1, ← hcode']⟩

/-! ## C22 -/

theorem retainUnique_spec (l : List Text) : ∀ seen : List Text,
    (retainUnique seen l).Nodup ∧ (∀ x, x ∈ retainUnique seen l ↔ x ∈ l ∧ x ∉ seen) ∧ (retainUnique seen l).Sublist l := by
  induction l with
  | nil => intro seen; simp [retainUnique]
  | cons a l ih =>
    intro seen
    rw [retainUnique]
    by_cases ha : a ∈ seen
    · have := ih seen
      simp only [List.contains_iff_mem, ha, if_true]
      refine ⟨this.1, fun x => ?_, this.2.2.cons _⟩
      rw [this.2.1, List.mem_cons]
      constructor
      · rintro ⟨h1, h2⟩; exact ⟨Or.inr h1, h2⟩
      · rintro ⟨rfl | h1, h2⟩
        · exact absurd ha h2
        · exact ⟨h1, h2⟩
    · have := ih (a :: seen)
      simp only [List.contains_iff_mem, ha, if_false]
      refine ⟨List.nodup_cons.2 ⟨fun h => ((this.2.1 a).1 h).2 (by simp), this.1⟩, fun x => ?_, this.2.2.cons_cons _⟩
      rw [List.mem_cons, List.mem_cons, this.2.1]
      simp only [List.mem_cons, not_or]
      constructor
      · rintro (rfl | ⟨h1, h2, h3⟩)
        · exact ⟨Or.inl rfl, ha⟩
        · exact ⟨Or.inr h1, h3⟩
      · rintro ⟨h1, h2⟩
        by_cases hx : x = a
        · exact Or.inl hx
        · rcases h1 with h1 | h1
          · exact absurd h1 hx
          · exact Or.inr ⟨h1, hx, h2⟩

theorem retainUnique_first (l : List Text) : ∀ seen : List Text, ∀ a b x y, l = a ++ x :: b → x ∉ a → x ∉ seen →
    y ∈ retainUnique seen l → y ∈ a ++ [x] ∨ (∃ p q, retainUnique seen l = p ++ x :: q ∧ y ∈ q) := by
  induction l with
  | nil => intro seen a b x y h; cases a <;> cases h
  | cons c l ih =>
    intro seen a b x y h hxa hxs hy
    cases a with
    | nil =>
      simp only [List.nil_append, List.cons.injEq] at h
      obtain ⟨rfl, rfl⟩ := h
      rw [retainUnique] at hy ⊢
      simp only [List.contains_iff_mem, hxs, if_false] at hy ⊢
      rcases List.mem_cons.1 hy with rfl | hy
      · exact Or.inl (by simp)
      · exact Or.inr ⟨[], _, rfl, hy⟩
    | cons a' a =>
      simp only [List.cons_append, List.cons.injEq] at h
      obtain ⟨rfl, h⟩ := h
      simp only [List.mem_cons, not_or] at hxa
      rw [retainUnique] at hy ⊢
      by_cases hc : c ∈ seen
      · simp only [List.contains_iff_mem, hc, if_true] at hy ⊢
        rcases ih seen a b x y h hxa.2 hxs hy with h' | h'
        · exact Or.inl (by simp at h' ⊢; exact Or.inr h')
        · exact Or.inr h'
      · simp only [List.contains_iff_mem, hc, if_false] at hy ⊢
        rcases List.mem_cons.1 hy with rfl | hy
        · exact Or.inl (by simp)
        · rcases ih (c :: seen) a b x y h hxa.2 (by simp [hxa.1, hxs]) hy with h' | ⟨p, q, h1, h2⟩
          · exact Or.inl (by simp at h' ⊢; exact Or.inr h')
          · exact Or.inr ⟨c :: p, q, by rw [h1]; rfl, h2⟩

/-- An include is needed by a method: by one of its arguments or by its result. -/
def Needs (m : MethodSig) (inc : Text) : Prop := inc ∈ m.output.modules ∨ ∃ t ∈ m.input, inc ∈ t.modules

theorem mem_collect (ms : List MethodSig) (inc : Text) : inc ∈ collectIncludes ms ↔ ∃ m ∈ ms, Needs m inc := by
  induction ms with
  | nil => simp [collectIncludes]
  | cons m ms ih =>
    simp only [collectIncludes, List.mem_append, ih, List.mem_flatMap, Needs]
    rw [or_comm (a := ∃ a, a ∈ m.input ∧ inc ∈ a.modules)]
    constructor
    · rintro (h | ⟨m', hm, h⟩)
      · exact ⟨m, by simp, h⟩
      · exact ⟨m', by simp [hm], h⟩
    · rintro ⟨m', hm, h⟩
      rcases List.mem_cons.1 hm with rfl | hm
      · exact Or.inl h
      · exact Or.inr ⟨m', hm, h⟩

/-- **C22**: the includes of a class are exactly those some argument or result needs, minus the class's own headers. -/
theorem C22_exactly_needed (cls : Text) (ms : List MethodSig) (inc : Text) :
    inc ∈ classIncludes cls ms ↔ (∃ m ∈ ms, Needs m inc) ∧ inc ≠ '"' :: (cls ++ ".hpp\"".toList) ∧
      inc ≠ "\"c_".toList ++ cls ++ ".h\"".toList := by
  rw [classIncludes, List.mem_filter, requiredIncludes, (retainUnique_spec _ _).2.1, mem_collect]
  simp

/-- **C22**: each appears once. -/
theorem C22_each_once (cls : Text) (ms : List MethodSig) : (classIncludes cls ms).Nodup :=
  (retainUnique_spec _ _).1.filter _

/-- **C22**: in the order of use: a sub-sequence of all uses (methods in order; arguments before the result). -/
theorem C22_in_order (cls : Text) (ms : List MethodSig) :
    (classIncludes cls ms).Sublist (ms.flatMap fun m => m.input.flatMap (·.modules) ++ m.output.modules) := by
  have e : collectIncludes ms = ms.flatMap fun m => m.input.flatMap (·.modules) ++ m.output.modules := by
    induction ms with
    | nil => rfl
    | cons m ms ih => simp [collectIncludes, ih]
  rw [← e]
  exact List.filter_sublist.trans (retainUnique_spec _ _).2.2

/-- **C22**: more precisely in the order of *first* use: if an include is first used at some place, then every other
include of the list that comes before it has been used earlier. -/
theorem C22_first_use_order (ms : List MethodSig) (a b : List Text) (x y : Text) (h : collectIncludes ms = a ++ x :: b)
    (hx : x ∉ a) (p q : List Text) (hp : requiredIncludes ms = p ++ x :: q) (hy : y ∈ p) : y ∈ a := by
  have hnd := (retainUnique_spec (collectIncludes ms) []).1
  have hxn : x ∉ ([] : List Text) := by simp
  have hy' : y ∈ requiredIncludes ms := by rw [hp]; simp [hy]
  have hnd' : (p ++ x :: q).Nodup := by rw [← hp]; exact hnd
  rw [List.nodup_append] at hnd'
  rcases retainUnique_first _ [] a b x y h hx hxn hy' with h' | ⟨p', q', h1, h2⟩
  · rcases List.mem_append.1 h' with h' | h'
    · exact h'
    · rw [List.mem_singleton] at h'
      exact absurd h' (hnd'.2.2 y hy x (by simp))
  · exfalso
    have h1 : p ++ x :: q = p' ++ x :: q' := hp.symm.trans h1
    -- x occurs once, so the two decompositions agree
    have hxp : x ∉ p := fun hm => hnd'.2.2 x hm x (by simp) rfl
    have hxq : x ∉ q := (List.nodup_cons.1 hnd'.2.1).1
    have hpp : p = p' := by
      have hnd2 : (p' ++ x :: q').Nodup := by rw [← h1, ← hp]; exact hnd
      rw [List.nodup_append] at hnd2
      have hxp' : x ∉ p' := fun hm => hnd2.2.2 x hm x (by simp) rfl
      have e1 : ∀ (l r : List Text), x ∉ l → (l ++ x :: r).takeWhile (· != x) = l := by
        intro l r hl
        induction l with
        | nil => simp [List.takeWhile_cons]
        | cons c l ih =>
          have : c ≠ x := by rintro rfl; exact hl (by simp)
          simp [List.takeWhile_cons, this]
          exact ih fun hm => hl (by simp [hm])
      rw [← e1 p q hxp, ← e1 p' q' hxp', h1]
    subst hpp
    have hqq : q = q' := by simpa using h1
    subst hqq
    exact hnd'.2.2 y hy y (by simp [h2]) rfl

/-! ## Non-vacuity -/

/-- An argument type converted by a declaration. -/
def sampleArg : TypeInfo :=
  ⟨"struct CRustStr".toList, ["\"rust_str.h\"".toList], some ⟨"std::string".toList,
    fromTypemapString "$out = f($p);".toList "p".toList []⟩, false⟩
/-- An argument type converted by an expression. -/
def sampleArg2 : TypeInfo :=
  ⟨"char".toList, [], some ⟨"bool".toList, fromTypemapString "$p ? 1 : 0".toList "p".toList []⟩, false⟩
/-- A type that needs no conversion. -/
def samplePlain : TypeInfo := ⟨"int32_t".toList, ["<stdint.h>".toList, "\"rust_str.h\"".toList], none, false⟩
/-- A method with three arguments. -/
def sampleSig : MethodSig := ⟨samplePlain, [sampleArg, sampleArg2, samplePlain]⟩

example : convertArgs sampleSig ["a0".toList, "b".toList, "c".toList] ["a0".toList, "b".toList, "c".toList] =
    some ("struct CRustStr a00 = f(a0);".toList, "std::move(a00), b ? 1 : 0, c".toList,
      ["a00".toList, "a0".toList, "b".toList, "c".toList]) := by decide

example : cppArgsWithTypes sampleSig ["a0".toList, "b".toList, "c".toList] =
    "std::string a0, bool b, int32_t c".toList := by decide

example : classIncludes "Foo".toList [sampleSig, sampleSig] = ["\"rust_str.h\"".toList, "<stdint.h>".toList] := by decide

end Flapi.Cpp
