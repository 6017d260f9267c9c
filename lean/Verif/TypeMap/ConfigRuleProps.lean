import Verif.TypeMap.ConfigRule
/-!
# Conditional alternatives of a rule (C21)
-/
namespace Flapi.Config

/-! ## Specification -/

/-- An alternative applies: it is unconditional or its option is chosen. -/
def Applies {α} (options : List Text) (c : Cond α) : Prop := ∀ o, c.cfg = some o → o ∈ options

/-! ## Lemmas -/

theorem inForce_iff {α} (options : List Text) (c : Cond α) : c.inForce options = true ↔ Applies options c := by
  unfold Cond.inForce Applies
  cases c.cfg <;> simp

theorem badOption_none {α} (avail : List Text) (l : List (Cond α)) :
    badOption avail l = none ↔ ∀ c ∈ l, ∀ o, c.cfg = some o → o ∈ avail := by
  induction l with
  | nil => simp [badOption]
  | cons c l ih =>
    rw [badOption]
    cases h : c.cfg with
    | none => simp [ih, h]
    | some o =>
      simp only [List.forall_mem_cons, h, Option.some.injEq]
      split
      · rename_i hm
        rw [ih]
        simp only [List.contains_iff_mem] at hm
        constructor
        · exact fun hh => ⟨fun o' ho => ho ▸ hm, hh⟩
        · exact fun hh => hh.2
      · rename_i hm
        simp only [List.contains_iff_mem] at hm
        exact ⟨fun hh => (nomatch hh), fun hh => absurd (hh.1 o rfl) hm⟩

/-! ## Theorems -/

/-- **C21**: the configuration step succeeds exactly when at most one alternative applies. -/
theorem C21_accepts_iff {α} (options : List Text) (rules : List (Cond α)) :
    (configure options rules).2 = none ↔ (rules.filter (Cond.inForce options)).length ≤ 1 := by
  unfold configure
  split <;> rename_i h
  · simp [h]
  · simp [h]
  · rename_i r rest hne
    rw [h]
    cases rest with
    | nil => exact absurd rfl hne
    | cons => simp

/-- **C21**: two applicable alternatives at different places are refused. -/
theorem C21_two_applicable_rejected {α} (options : List Text) (a b c : List (Cond α)) (r s : Cond α)
    (hr : Applies options r) (hs : Applies options s) :
    (configure options (a ++ r :: b ++ s :: c)).2 ≠ none := by
  rw [Ne, C21_accepts_iff]
  simp [(inForce_iff options r).2 hr, (inForce_iff options s).2 hs]
  omega

/-- **C21**: if exactly one alternative applies it is kept with its content unchanged (only its condition, which holds,
is dropped), and nothing else is kept. -/
theorem C21_survivor_unmodified {α} (options : List Text) (a b : List (Cond α)) (r : Cond α)
    (hr : Applies options r) (ha : ∀ x ∈ a, ¬ Applies options x) (hb : ∀ x ∈ b, ¬ Applies options x) :
    configure options (a ++ r :: b) = ([⟨none, r.body⟩], none) := by
  have hfa : a.filter (Cond.inForce options) = [] := by
    rw [List.filter_eq_nil_iff]; intro x hx hf; exact ha x hx ((inForce_iff _ _).1 hf)
  have hfb : b.filter (Cond.inForce options) = [] := by
    rw [List.filter_eq_nil_iff]; intro x hx hf; exact hb x hx ((inForce_iff _ _).1 hf)
  simp [configure, hfa, hfb, (inForce_iff options r).2 hr]

/-- **C21**: if no alternative applies the rule simply has no foreign side in that direction. -/
theorem C21_none_applies {α} (options : List Text) (rules : List (Cond α)) (h : ∀ x ∈ rules, ¬ Applies options x) :
    configure options rules = ([], none) := by
  have : rules.filter (Cond.inForce options) = [] := by
    rw [List.filter_eq_nil_iff]; intro x hx hf; exact h x hx ((inForce_iff _ _).1 hf)
  simp [configure, this]

/-- **C21**: whatever is kept by a successful configuration is the content of an alternative that applies. -/
theorem C21_kept_applies {α} (options : List Text) (rules l : List (Cond α)) (h : configure options rules = (l, none)) :
    ∀ x ∈ l, x.cfg = none ∧ ∃ r ∈ rules, Applies options r ∧ x.body = r.body := by
  intro x hx
  unfold configure at h
  have key : ∀ y, y ∈ rules.filter (Cond.inForce options) → y ∈ rules ∧ Applies options y := by
    intro y hy
    rw [List.mem_filter] at hy
    exact ⟨hy.1, (inForce_iff _ _).1 hy.2⟩
  split at h <;> rename_i hf
  · cases h; simp at hx
  · rename_i r
    cases h
    have := key r (by rw [hf]; simp)
    rw [List.mem_singleton] at hx
    subst hx
    exact ⟨rfl, r, this.1, this.2, rfl⟩
  · cases h

/-- **C21**: a rule is refused for an unknown option exactly if it mentions one. -/
theorem C21_unknown_option {α β} (avail options : List Text) (r : Rule α β) :
    (∃ o, configureRule avail options r = .badOption o) ↔
      ∃ o, o ∉ avail ∧ ((∃ c ∈ r.ltr, c.cfg = some o) ∨ (∃ c ∈ r.rtl, c.cfg = some o) ∨ ∃ c ∈ r.fcode, c.cfg = some o) := by
  have hv : validate avail r = none ↔ badOption avail r.ltr = none ∧ badOption avail r.rtl = none ∧
      badOption avail r.fcode = none := by
    unfold validate
    cases h1 : badOption avail r.ltr with
    | some o => simp
    | none => cases h2 : badOption avail r.rtl <;> simp
  have hcr : (∃ o, configureRule avail options r = .badOption o) ↔ validate avail r ≠ none := by
    unfold configureRule
    cases h1 : validate avail r with
    | some o => simp
    | none =>
      simp only [ne_eq, not_true_eq_false, iff_false, not_exists]
      intro o
      split
      · exact fun h => nomatch h
      · split <;> exact fun h => nomatch h
  rw [hcr, Ne, hv]
  simp only [badOption_none]
  constructor
  · intro h
    by_cases h1 : ∀ c ∈ r.ltr, ∀ o, c.cfg = some o → o ∈ avail
    · by_cases h2 : ∀ c ∈ r.rtl, ∀ o, c.cfg = some o → o ∈ avail
      · have h3 : ¬ ∀ c ∈ r.fcode, ∀ o, c.cfg = some o → o ∈ avail := fun h3 => h ⟨h1, h2, h3⟩
        grind
      · grind
    · grind
  · grind

/-- **C21**: in every C++ configuration exactly one of the two alternatives for each feature applies. -/
theorem C21_cpp_exactly_one {α} (cfg : CppCfg) (name : Std → Text)
    (hn : name = optionalName ∨ name = variantName ∨ name = strViewName) (a b : α) :
    ∃ x, (x = a ∨ x = b) ∧
      configure (cppOptions cfg) [⟨some (name .std17), a⟩, ⟨some (name .boost), b⟩] = ([⟨none, x⟩], none) := by
  have dec : ∀ (o v s : Std), ∀ n ∈ [optionalName, variantName, strViewName],
      ((cppOptions ⟨o, v, s⟩).contains (n .std17) && !(cppOptions ⟨o, v, s⟩).contains (n .boost)) ||
      (!(cppOptions ⟨o, v, s⟩).contains (n .std17) && (cppOptions ⟨o, v, s⟩).contains (n .boost)) := by
    intro o v s
    cases o <;> cases v <;> cases s <;> decide
  obtain ⟨o, v, s⟩ := cfg
  have := dec o v s name (by simp; rcases hn with h | h | h <;> simp [h])
  cases h1 : (cppOptions ⟨o, v, s⟩).contains (name .std17) <;>
    cases h2 : (cppOptions ⟨o, v, s⟩).contains (name .boost) <;>
    simp only [h1, h2] at this
  · cases this
  · exact ⟨b, Or.inr rfl, by simp [configure, Cond.inForce, h1, h2, -List.contains_eq_mem, List.filter_cons]⟩
  · exact ⟨a, Or.inl rfl, by simp [configure, Cond.inForce, h1, h2, -List.contains_eq_mem, List.filter_cons]⟩
  · cases this

/-- **C21**: and it is the one the configuration names: the `Boost` alternative of a feature applies iff the configuration chooses Boost for
that feature. -/
theorem C21_cpp_follows_config {α} (cfg : CppCfg) (a b : α) :
    configure (cppOptions cfg) [⟨some "CppOptional::Std17".toList, a⟩, ⟨some "CppOptional::Boost".toList, b⟩] =
      ([⟨none, if cfg.optional = .boost then b else a⟩], none) ∧
    configure (cppOptions cfg) [⟨some "CppVariant::Std17".toList, a⟩, ⟨some "CppVariant::Boost".toList, b⟩] =
      ([⟨none, if cfg.variant = .boost then b else a⟩], none) ∧
    configure (cppOptions cfg) [⟨some "CppStrView::Std17".toList, a⟩, ⟨some "CppStrView::Boost".toList, b⟩] =
      ([⟨none, if cfg.strView = .boost then b else a⟩], none) := by
  have key : ∀ (x y : Text) (p : Bool), (cppOptions cfg).contains x = !p → (cppOptions cfg).contains y = p →
      configure (cppOptions cfg) [⟨some x, a⟩, ⟨some y, b⟩] = ([⟨none, if p then b else a⟩], none) := by
    intro x y p h1 h2
    cases p <;> simp only [configure, Cond.inForce, h1, h2, List.filter_cons, List.filter_nil] <;> rfl
  obtain ⟨o, v, s⟩ := cfg
  refine ⟨?_, ?_, ?_⟩
  · have := key "CppOptional::Std17".toList "CppOptional::Boost".toList (decide (o = .boost))
      (by cases o <;> cases v <;> cases s <;> decide) (by cases o <;> cases v <;> cases s <;> decide)
    cases o <;> exact this
  · have := key "CppVariant::Std17".toList "CppVariant::Boost".toList (decide (v = .boost))
      (by cases o <;> cases v <;> cases s <;> decide) (by cases o <;> cases v <;> cases s <;> decide)
    cases v <;> exact this
  · have := key "CppStrView::Std17".toList "CppStrView::Boost".toList (decide (s = .boost))
      (by cases o <;> cases v <;> cases s <;> decide) (by cases o <;> cases v <;> cases s <;> decide)
    cases s <;> exact this

/-- **C21**: a rule is accepted exactly if it mentions no unknown option and in neither direction two alternatives apply; then each
direction gets what its own alternatives give. -/
theorem C21_rule_directions {α β} (avail options : List Text) (r : Rule α β) (l l' : List (Cond α)) :
    configureRule avail options r = .ok l l' ↔
      validate avail r = none ∧ configure options r.ltr = (l, none) ∧ configure options r.rtl = (l', none) := by
  unfold configureRule
  cases validate avail r with
  | some o => simp
  | none =>
    obtain ⟨x, ex⟩ := configure options r.ltr
    obtain ⟨y, ey⟩ := configure options r.rtl
    cases ex <;> cases ey <;> simp

/-- **C21**: and so for Java with and without null annotations. -/
theorem C21_java_exactly_one {α} (annot : Bool) (a b : α) :
    configure (javaOptions annot) [⟨some "NullAnnotations".toList, a⟩, ⟨some "NoNullAnnotations".toList, b⟩] =
      ([⟨none, if annot then a else b⟩], none) := by
  have h1 : (javaOptions true).contains "NullAnnotations".toList = true := by decide
  have h2 : (javaOptions true).contains "NoNullAnnotations".toList = false := by decide
  have h3 : (javaOptions false).contains "NullAnnotations".toList = false := by decide
  have h4 : (javaOptions false).contains "NoNullAnnotations".toList = true := by decide
  cases annot <;>
    simp only [configure, Cond.inForce, h1, h2, h3, h4, List.filter_cons, List.filter_nil, if_true, if_false,
      Bool.false_eq_true]

/-! ## Non-vacuity -/

example : configureRule (β := Unit) cppAvail (cppOptions ⟨.boost, .std17, .std17⟩)
    ⟨[⟨some (optionalName .std17), 1⟩, ⟨some (optionalName .boost), 2⟩], [⟨none, 3⟩], []⟩ = .ok [⟨none, 2⟩] [⟨none, 3⟩] := by
  decide

example : configureRule (β := Unit) cppAvail (cppOptions ⟨.boost, .std17, .std17⟩)
    ⟨[⟨none, 1⟩, ⟨some (optionalName .boost), 2⟩], [], []⟩ = .ambiguous := by decide

example : configureRule (β := Unit) javaAvail (javaOptions true) ⟨[⟨some "Nope".toList, 1⟩], [], []⟩ =
    .badOption "Nope".toList := by decide

end Flapi.Config
