import Verif.TypeMap.InstantiateRule
/-!
# When a generic `foreign_typemap!` rule can be instantiated (C59)

`C59_instance` says what an instance looks like if there is one.  Here: there is one, whenever every part that is
instantiated makes sense.
-/
namespace Flapi.Inst
open Flapi Flapi.Macro Flapi.Template

variable {σ : Type}

/-! ## What makes sense -/

/-- The declared aliases make sense: each is an alias expression about known parameters, and, whatever the backend answers,
its escaped text is a type. -/
def AliasesMakeSense (env : Env) (B : Backend σ) (decls : List (Text × Option Item)) : Prop :=
  ∀ d ∈ decls, ∃ it, d.2 = some it ∧ (∃ t m, AliasText env B it t m) ∧
    ∀ t m, AliasText env B it t m → ∃ ty, env.parse (escapeAsType t) = some ty

/-- Rust conversion code makes sense: every macro call in it does, and what it becomes still uses one of the variables
`{to_var}` and `{from_var}`. -/
structure CodeMakesSense (env : Env) (B : Backend σ) (al : List Alias) (c : TypeConvCode) : Prop where
  calls : ∃ out, Becomes env.u (RustCall env B al) c.code out
  vars : ∀ out, Becomes env.u (RustCall env B al) c.code out →
    "{to_var}".toList <:+: out ∨ "{from_var}".toList <:+: out

/-- A foreign type name makes sense: every macro call in it does. -/
def NameMakesSense (env : Env) (B : Backend σ) (al : List Alias) (n : Text) : Prop :=
  ∃ out m, BecomesM env.u (NameCall env B al) n out m

/-- A foreign-side rule makes sense: all its texts do. -/
structure FConvMakesSense (env : Env) (B : Backend σ) (al : List Alias) (r : FConv) : Prop where
  names : match r.pair with
    | .onlyLeft n => NameMakesSense env B al n
    | .onlyRight n => NameMakesSense env B al n
    | .both l r => NameMakesSense env B al l ∧ NameMakesSense env B al r
  code : ∀ c, r.code = some c → ∃ out, Becomes env.u (ForeignCall env B al) c.code out
  mods : ∀ m ∈ r.reqModules, ∃ out, Becomes env.u (ModCall env al) m out
  pre : ∀ p, r.uniquePrefix = some p → NameMakesSense env B al p

/-- One direction of a rule makes sense. -/
structure SideMakesSense (env : Env) (B : Backend σ) (al : List Alias) (r : Option RRule) (f : List FConv) : Prop where
  code : ∀ x c, r = some x → x.code = some c → CodeMakesSense env B al c
  foreign : ∀ x ∈ f, FConvMakesSense env B al x

/-! ## Lemmas -/

theorem andThen_some {α β : Type} {x : Out Er α} {f : α → Out Er β} {a : α} {b : β} (h1 : x = .ok a) (h2 : f a = .ok b) :
    andThen x f = .ok b := by
  subst h1; exact h2

mutual
theorem concatIdents_complete (env : Env) (B : Backend σ) (hB : B.Total) :
    ∀ (i : Item) (s : σ) (m t : _) (td md : _), AliasText env B i td md → ∃ r, concatIdents env B i (s, m, t) = .ok r
  | .ident id, s, m, t, _, _, _ => by simp only [concatIdents]; exact ⟨_, rfl⟩
  | .iType id o, s, m, t, _, _, h => by
    cases h
    rename_i ty _ hm _
    obtain ⟨a, s', ha⟩ := hB.iType s ty o
    simp only [concatIdents, (findTypeParam_iff _ _ _).2 hm, ha, ask]
    exact ⟨_, rfl⟩
  | .fType id, s, m, t, _, _, .fType (t := ty) hm _ => by
    obtain ⟨a, s', ha⟩ := hB.fType s ty none
    simp only [concatIdents, (findTypeParam_iff _ _ _).2 hm, ha, ask]
    exact ⟨_, rfl⟩
  | .concat is, s, m, t, _, _, h => by
    cases h with
    | concat h => simp only [concatIdents]; exact concatAll_complete env B hB is s m t _ _ h
theorem concatAll_complete (env : Env) (B : Backend σ) (hB : B.Total) :
    ∀ (is : List Item) (s : σ) (m t : _) (td md : _), AliasTexts env B is td md → ∃ r, concatAll env B is (s, m, t) = .ok r
  | [], s, m, t, _, _, _ => by simp only [concatAll]; exact ⟨_, rfl⟩
  | i :: is, s, m, t, _, _, h => by
    cases h with
    | cons h1 h2 =>
      obtain ⟨⟨s1, m1, t1⟩, e⟩ := concatIdents_complete env B hB i s m t _ _ h1
      simp only [concatAll, e]
      exact concatAll_complete env B hB is s1 m1 t1 _ _ h2
end

theorem buildAliases_complete (env : Env) (B : Backend σ) (hB : B.Total) (decls : List (Text × Option Item)) (s : σ)
    (h : AliasesMakeSense env B decls) : ∃ r, buildAliases env B decls s = .ok r := by
  induction decls generalizing s with
  | nil => simp only [buildAliases]; exact ⟨_, rfl⟩
  | cons d r ih =>
    obtain ⟨n, it⟩ := d
    obtain ⟨i, hi, ⟨td, md, ht⟩, hp⟩ := h (n, it) (by simp)
    simp only at hi
    subst hi
    obtain ⟨⟨s1, m1, t1⟩, e⟩ := concatIdents_complete env B hB i s [] [] td md ht
    obtain ⟨td', md', h1, h2, h3⟩ := concatIdents_sound env B i s [] [] s1 m1 t1 e
    simp only [List.nil_append] at h1 h2
    subst h1 h2
    obtain ⟨ty, hty⟩ := hp _ _ h3
    obtain ⟨⟨l, s2⟩, e2⟩ := ih s1 (fun d hd => h d (by simp [hd]))
    simp only [buildAliases, e, hty, e2]
    exact ⟨_, rfl⟩

theorem expandCode_complete (env : Env) (B : Backend σ) (hB : B.Total) (al : List Alias) (s : σ) (c : Option TypeConvCode)
    (ha : ∀ x, c = some x → Ascii x.code) (h : ∀ x, c = some x → CodeMakesSense env B al x) :
    ∃ r, expandCode env B al s c = .ok r := by
  cases c with
  | none => exact ⟨_, rfl⟩
  | some c =>
    obtain ⟨⟨t, s1⟩, e⟩ := (C59_rust_code_accepted env B hB al s c.code (ha c rfl)).2 (h c rfl).calls
    have hv := (h c rfl).vars t (C59_rust_code env B al s s1 c.code t (ha c rfl) e)
    have hne : foundParams t ≠ [] := by
      rcases hv with hv | hv
      · have : toVar ∈ foundParams t := (foundParams_mem t toVar).2 ⟨by simp, hv⟩
        exact List.ne_nil_of_mem this
      · have : fromVar ∈ foundParams t := (foundParams_mem t fromVar).2 ⟨by simp, hv⟩
        exact List.ne_nil_of_mem this
    refine ⟨_, andThen_some e (b := (some ⟨t, foundParams t⟩, s1)) ?_⟩
    have hn : TypeConvCode.new t = some ⟨t, foundParams t⟩ := by
      rw [TypeConvCode.new, if_neg]
      simpa using hne
    simp only [hn]

theorem expandName_complete (env : Env) (B : Backend σ) (hB : B.Total) (al : List Alias) (s : σ × List Text) (n : Text)
    (ha : Ascii n) (h : NameMakesSense env B al n) : ∃ r, expandName env B al s n = .ok r :=
  (C59_type_name_accepted env B hB al s n ha).2 h

theorem expandModules_complete (env : Env) (al : List Alias) (ms : List Text) (ha : ∀ m ∈ ms, Ascii m)
    (h : ∀ m ∈ ms, ∃ out, Becomes env.u (ModCall env al) m out) : ∃ r, expandModules env al ms = .ok r := by
  induction ms with
  | nil => exact ⟨_, rfl⟩
  | cons m ms ih =>
    obtain ⟨m', e⟩ := (C59_module_name env al m (ha m (by simp))).2.2 (h m (by simp))
    obtain ⟨r, e2⟩ := ih (fun x hx => ha x (by simp [hx])) (fun x hx => h x (by simp [hx]))
    exact ⟨m' :: r, andThen_some e (andThen_some e2 rfl)⟩

theorem expandFConv_complete (env : Env) (B : Backend σ) (hB : B.Total) (al : List Alias) (s : σ) (r : FConv) (ha : r.Ascii)
    (h : FConvMakesSense env B al r) : ∃ x, expandFConv env B al s r = .ok x := by
  have h1 : ∃ x, expandPair env B al (s, []) r.pair = .ok x := by
    have hp := ha.pair
    have hn := h.names
    cases hq : r.pair with
    | onlyLeft n =>
      rw [hq] at hp hn
      obtain ⟨⟨n', s'⟩, e⟩ := expandName_complete env B hB al (s, []) n hp hn
      exact ⟨_, andThen_some e rfl⟩
    | onlyRight n =>
      rw [hq] at hp hn
      obtain ⟨⟨n', s'⟩, e⟩ := expandName_complete env B hB al (s, []) n hp hn
      exact ⟨_, andThen_some e rfl⟩
    | both l r =>
      rw [hq] at hp hn
      obtain ⟨⟨n', s'⟩, e⟩ := expandName_complete env B hB al (s, []) l hp.1 hn.1
      obtain ⟨⟨n2, s2⟩, e2⟩ := expandName_complete env B hB al s' r hp.2 hn.2
      exact ⟨_, andThen_some e (andThen_some e2 rfl)⟩
  obtain ⟨⟨pair, s1⟩, e1⟩ := h1
  have h2 : ∃ x, expandFConvCode env B al s1.1 r.code = .ok x := by
    cases hc : r.code with
    | none => exact ⟨_, rfl⟩
    | some c =>
      obtain ⟨⟨t, s'⟩, e⟩ := (C59_foreign_code_accepted env B hB al s1.1 c.code (ha.code c hc)).2 (h.code c hc)
      exact ⟨_, andThen_some e rfl⟩
  obtain ⟨⟨code, s2⟩, e2⟩ := h2
  obtain ⟨ms, e3⟩ := expandModules_complete env al r.reqModules ha.mods h.mods
  have h4 : ∃ x, expandPrefix env B al s2 r.uniquePrefix = .ok x := by
    cases hc : r.uniquePrefix with
    | none => exact ⟨_, rfl⟩
    | some p =>
      obtain ⟨⟨t, s'⟩, e⟩ := expandName_complete env B hB al (s2, []) p (ha.pre p hc) (h.pre p hc)
      exact ⟨_, andThen_some e rfl⟩
  obtain ⟨⟨pre, s3⟩, e4⟩ := h4
  exact ⟨_, andThen_some e1 (andThen_some e2 (andThen_some e3 (andThen_some e4 rfl)))⟩

theorem expandFConvs_complete (env : Env) (B : Backend σ) (hB : B.Total) (al : List Alias) (s : σ) (rs : List FConv)
    (ha : ∀ r ∈ rs, r.Ascii) (h : ∀ r ∈ rs, FConvMakesSense env B al r) : ∃ x, expandFConvs env B al s rs = .ok x := by
  induction rs generalizing s with
  | nil => exact ⟨_, rfl⟩
  | cons r rs ih =>
    obtain ⟨⟨r', s'⟩, e⟩ := expandFConv_complete env B hB al s r (ha r (by simp)) (h r (by simp))
    obtain ⟨⟨rs', s''⟩, e2⟩ := ih s' (fun x hx => ha x (by simp [hx])) (fun x hx => h x (by simp [hx]))
    exact ⟨_, andThen_some e (andThen_some e2 rfl)⟩

theorem expandSide_complete (env : Env) (B : Backend σ) (hB : B.Total) (al : List Alias) (w : Bool) (s : σ) (r : Option RRule)
    (f : List FConv) (ha : ∀ x c, r = some x → x.code = some c → Ascii c.code) (haf : ∀ x ∈ f, x.Ascii)
    (h : w = true → SideMakesSense env B al r f) : ∃ x, expandSide env B al w s r f = .ok x := by
  cases w with
  | false => exact ⟨_, rfl⟩
  | true =>
    obtain ⟨h1, h2⟩ := h rfl
    have hr : ∃ x, expandRRule env B al s r = .ok x := by
      cases r with
      | none => exact ⟨_, rfl⟩
      | some r =>
        rcases r with ⟨l, rt, c⟩
        have hc := fun s' => expandCode_complete env B hB al s' c (fun x hx => ha _ x rfl hx) (fun x hx => h1 _ x rfl hx)
        cases rt with
        | none =>
          obtain ⟨⟨c', s'⟩, e⟩ := hc (expandType env B al s l).2
          exact ⟨_, andThen_some e rfl⟩
        | some t =>
          obtain ⟨⟨c', s'⟩, e⟩ := hc (expandType env B al (expandType env B al s l).2 t).2
          exact ⟨_, andThen_some e rfl⟩
    obtain ⟨⟨r', s'⟩, e⟩ := hr
    obtain ⟨⟨f', s''⟩, e2⟩ := expandFConvs_complete env B hB al s' f haf h2
    exact ⟨((r', f'), s''), andThen_some (f := fun (x : Option RRule × σ) =>
      andThen (expandFConvs env B al x.2 f) fun (y : List FConv × σ) => .ok ((x.1, y.1), y.2)) e (andThen_some e2 rfl)⟩

theorem expandFCode_complete (env : Env) (B : Backend σ) (hB : B.Total) (al : List Alias) (s : σ) (cs : List FCode)
    (ha : ∀ c ∈ cs, Ascii c.code ∧ Ascii c.module)
    (h : ∀ c ∈ cs, (∃ out, Becomes env.u (ModCall env al) c.module out) ∧ ∃ out, Becomes env.u (ForeignCall env B al) c.code out) :
    ∃ x, expandFCode env B al s cs = .ok x := by
  induction cs generalizing s with
  | nil => exact ⟨_, rfl⟩
  | cons c cs ih =>
    have hc := ha c (by simp)
    obtain ⟨m, e1⟩ := (C59_module_name env al c.module hc.2).2.2 (h c (by simp)).1
    obtain ⟨⟨t, s'⟩, e2⟩ := (C59_foreign_code_accepted env B hB al s c.code hc.1).2 (h c (by simp)).2
    obtain ⟨⟨r, s2⟩, e3⟩ := ih s' (fun x hx => ha x (by simp [hx])) (fun x hx => h x (by simp [hx]))
    exact ⟨_, andThen_some e1 (andThen_some e2 (andThen_some e3 rfl))⟩

/-! ## The theorems -/

/-- **C59**: a generic rule can be instantiated in a direction whenever its aliases make sense and, with the aliases they
stand for, the conversions of this direction (for a naming-only rule: its name) and its foreign code do.  What it says
about the other direction does not matter, and neither do its types. -/
theorem C59_instance_accepted {κ : Type} (env : Env) (B : Backend σ) (hB : B.Total) (d : Dir) (s : σ) (r : Rule κ)
    (hg : r.generic = true) (ha : r.Ascii) (hal : AliasesMakeSense env B r.aliases)
    (hlr : ∀ al, AliasesAre env B r.aliases al → (d = .outgoing ∨ OnlyNames r) → SideMakesSense env B al r.rLR r.fLR)
    (hrl : ∀ al, AliasesAre env B r.aliases al → d = .incoming → SideMakesSense env B al r.rRL r.fRL)
    (hfc : ∀ al, AliasesAre env B r.aliases al → ∀ c ∈ r.fCode,
      (∃ out, Becomes env.u (ModCall env al) c.module out) ∧ ∃ out, Becomes env.u (ForeignCall env B al) c.code out) :
    ∃ r' s', substGenericParams env B d s r = .ok (r', s') := by
  obtain ⟨⟨al, s1⟩, e1⟩ := buildAliases_complete env B hB r.aliases s hal
  have hA := C59_aliases env B _ _ _ _ e1
  obtain ⟨⟨⟨a, b⟩, s2⟩, e2⟩ := expandSide_complete env B hB al (decide (d = .outgoing) || r.isSimple) s1 r.rLR r.fLR ha.lr ha.flr
    (fun h => hlr al hA (by simpa only [Bool.or_eq_true, decide_eq_true_eq, isSimple_iff] using h))
  obtain ⟨⟨⟨a', b'⟩, s3⟩, e3⟩ := expandSide_complete env B hB al (decide (d = .incoming)) s2 r.rRL r.fRL ha.rl ha.frl
    (fun h => hrl al hA (by simpa only [decide_eq_true_eq] using h))
  obtain ⟨⟨fc, s4⟩, e4⟩ := expandFCode_complete env B hB al s3 r.fCode ha.fcode (hfc al hA)
  refine ⟨⟨false, a, a', b, b', none, none, fc, []⟩, s4, ?_⟩
  rw [substGenericParams, if_neg (by simp [hg])]
  refine andThen_some (a := (al, s1)) (by rw [e1]; rfl) ?_
  exact andThen_some e2 (andThen_some e3 (andThen_some e4 rfl))

/-- **C59**: and in an instance that was made everything that was instantiated makes sense: the aliases are alias
expressions about known parameters whose texts are types, and all calls in the code, names and modules of the
instantiated directions and in the foreign code are understood. -/
theorem C59_instance_only_if {κ : Type} (env : Env) (B : Backend σ) (d : Dir) (s s' : σ) (r r' : Rule κ) (ha : r.Ascii)
    (h : substGenericParams env B d s r = .ok (r', s')) :
    r.generic = true ∧ ∃ al, AliasesAre env B r.aliases al ∧
      (d = .outgoing ∨ OnlyNames r →
        (∀ x c, r.rLR = some x → x.code = some c → ∃ out, Becomes env.u (RustCall env B al) c.code out ∧
          ("{to_var}".toList <:+: out ∨ "{from_var}".toList <:+: out)) ∧ ∀ x ∈ r.fLR, FConvMakesSense env B al x) ∧
      (d = .incoming →
        (∀ x c, r.rRL = some x → x.code = some c → ∃ out, Becomes env.u (RustCall env B al) c.code out ∧
          ("{to_var}".toList <:+: out ∨ "{from_var}".toList <:+: out)) ∧ ∀ x ∈ r.fRL, FConvMakesSense env B al x) ∧
      ∀ c ∈ r.fCode, (∃ out, Becomes env.u (ModCall env al) c.module out) ∧
        ∃ out, Becomes env.u (ForeignCall env B al) c.code out := by
  have each : ∀ {α β : Type} {R : α → β → Prop} {l : List α} {l' : List β}, Each R l l' → ∀ x ∈ l, ∃ y, R x y := by
    intro α β R l l' he
    induction he with
    | nil => intro x hx; cases hx
    | cons hr _ ih =>
      intro x hx
      rcases List.mem_cons.1 hx with rfl | hx
      · exact ⟨_, hr⟩
      · exact ih x hx
  have fconv : ∀ al (x y : FConv), FConvInst env B al x y → FConvMakesSense env B al x := by
    intro al x y hi
    obtain ⟨m, ms, hp, hm, -⟩ := hi.names
    refine ⟨?_, ?_, ?_, ?_⟩
    · generalize x.pair = px at hp ⊢
      generalize y.pair = py at hp
      cases hp with
      | left h => exact ⟨_, _, h⟩
      | right h => exact ⟨_, _, h⟩
      | both h1 h2 => exact ⟨⟨_, _, h1⟩, ⟨_, _, h2⟩⟩
    · intro c hc
      have := hi.code
      rw [hc] at this
      generalize y.code = yc at this
      cases this with
      | some h => exact ⟨_, h.1⟩
    · exact each hm
    · intro p hp'
      have := hi.pre
      rw [hp'] at this
      generalize y.uniquePrefix = yc at this
      cases this with
      | some h =>
        obtain ⟨m, hm⟩ := h
        exact ⟨_, m, hm⟩
  have side : ∀ al (w : Bool) (s1 s2 : σ) (rr rr' : Option RRule) (f f' : List FConv),
      (∀ x c, rr = some x → x.code = some c → Ascii c.code) → (∀ x ∈ f, x.Ascii) →
      expandSide env B al w s1 rr f = .ok ((rr', f'), s2) → w = true →
      (∀ x c, rr = some x → x.code = some c → ∃ out, Becomes env.u (RustCall env B al) c.code out ∧
          ("{to_var}".toList <:+: out ∨ "{from_var}".toList <:+: out)) ∧ ∀ x ∈ f, FConvMakesSense env B al x := by
    intro al w s1 s2 rr rr' f f' hca hfa he hw
    subst hw
    simp only [expandSide, if_true] at he
    obtain ⟨⟨r1, s3⟩, h1, he⟩ := andThen_ok he
    obtain ⟨⟨f1, s4⟩, h2, he⟩ := andThen_ok he
    constructor
    · intro x c hx hc
      subst hx
      simp only [expandRRule] at h1
      obtain ⟨⟨c1, s5⟩, h3, -⟩ := andThen_ok h1
      rw [hc] at h3
      simp only [expandCode] at h3
      obtain ⟨⟨t, s6⟩, h4, h5⟩ := andThen_ok h3
      refine ⟨t, C59_rust_code env B al _ _ _ _ (hca x c rfl hc) h4, ?_⟩
      simp only at h5
      cases hn : TypeConvCode.new t with
      | none => rw [hn] at h5; cases h5
      | some k =>
        rw [TypeConvCode.new] at hn
        split at hn
        · cases hn
        · rename_i hne
          have hne : foundParams t ≠ [] := by simpa using hne
          obtain ⟨p, hp⟩ := List.exists_mem_of_ne_nil _ hne
          obtain ⟨h6, h7⟩ := (foundParams_mem t p).1 hp
          rcases List.mem_cons.1 h6 with rfl | h6
          · exact .inl h7
          · rw [List.mem_singleton] at h6; subst h6; exact .inr h7
    · intro x hx
      obtain ⟨y, hy⟩ := each (expandFConvs_ok env B al _ _ _ _ hfa h2) x hx
      exact fconv al x y hy
  rw [substGenericParams] at h
  split at h
  · cases h
  · rename_i hgen
    obtain ⟨⟨al, s1⟩, h1, h⟩ := andThen_ok h
    obtain ⟨⟨⟨a, b⟩, s2⟩, h2, h⟩ := andThen_ok h
    obtain ⟨⟨⟨c, e⟩, s3⟩, h3, h⟩ := andThen_ok h
    obtain ⟨⟨fc, s4⟩, h4, h⟩ := andThen_ok h
    cases h
    have hb : buildAliases env B r.aliases s = .ok (al, s1) := by
      cases hq : buildAliases env B r.aliases s with
      | error e => rw [hq] at h1; cases h1
      | ok q => rw [hq] at h1; cases h1; rfl
    refine ⟨by simpa using hgen, al, C59_aliases env B _ _ _ _ hb, ?_, ?_, ?_⟩
    · intro hw
      exact side al _ _ _ _ _ _ _ ha.lr ha.flr h2 (by simpa only [Bool.or_eq_true, decide_eq_true_eq, isSimple_iff] using hw)
    · intro hw
      exact side al _ _ _ _ _ _ _ ha.rl ha.frl h3 (by simpa only [decide_eq_true_eq] using hw)
    · intro x hx
      obtain ⟨y, hy⟩ := each (expandFCode_ok env B al _ _ _ _ ha.fcode h4) x hx
      exact ⟨⟨_, hy.module⟩, ⟨_, hy.code⟩⟩

/-! ## Non-vacuity -/

/-- Replaces every macro call by `!`. -/
def markExp (_ : Unit) (_ : Text) (_ : List Text) : Except Er (Text × Unit) := .ok (['!'], ())

theorem run_mark (u : Unicode) : ∀ ps : List Piece, ∃ m, run u markExp () ps = .ok (m, ()) := by
  intro ps
  induction ps with
  | nil => exact ⟨[], rfl⟩
  | cons p ps ih =>
    obtain ⟨m, hm⟩ := ih
    cases p with
    | chr c => exact ⟨c :: m, by simp only [run, hm, Except.map]⟩
    | call c => exact ⟨'!' :: m, by simp only [run, hm, Except.map, markExp, List.singleton_append]⟩

theorem mark_prefix (u : Unicode) (R : Text → List Text → Text → Prop) : ∀ (ps : List Piece) (m out v : Text),
    run u markExp () ps = .ok (m, ()) → Rendered u R ps out → '!' ∉ v → v <+: m → v <+: out := by
  intro ps
  induction ps with
  | nil =>
    intro m out v hr _ _ hv
    simp only [run] at hr
    cases hr
    rw [List.prefix_nil.1 hv]
    exact List.nil_prefix
  | cons p ps ih =>
    intro m out v hr ho hn hv
    obtain ⟨m', hm⟩ := run_mark u ps
    cases v with
    | nil => exact List.nil_prefix
    | cons x v =>
      cases ho with
      | chr ho =>
        simp only [run, hm, Except.map] at hr
        cases hr
        rw [List.cons_prefix_cons] at hv
        rw [List.cons_prefix_cons]
        exact ⟨hv.1, ih _ _ _ hm ho (fun h => hn (by simp [h])) hv.2⟩
      | call _ ho =>
        simp only [run, hm, Except.map, markExp, List.singleton_append] at hr
        cases hr
        rw [List.cons_prefix_cons] at hv
        exact absurd hv.1 (fun h => hn (by simp [h]))

theorem mark_infix (u : Unicode) (R : Text → List Text → Text → Prop) : ∀ (ps : List Piece) (m out v : Text),
    run u markExp () ps = .ok (m, ()) → Rendered u R ps out → '!' ∉ v → v <:+: m → v <:+: out := by
  intro ps
  induction ps with
  | nil =>
    intro m out v hr ho hn hv
    simp only [run] at hr
    cases hr
    have : v = [] := by simpa using hv
    subst this
    exact List.nil_infix
  | cons p ps ih =>
    intro m out v hr ho hn hv
    obtain ⟨m', hm⟩ := run_mark u ps
    have hc : v <+: m ∨ ∃ c, m = c :: m' ∧ v <:+: m' := by
      cases p with
      | chr c =>
        have hr' := hr
        simp only [run, hm, Except.map] at hr'
        cases hr'
        rcases List.infix_cons_iff.1 hv with h | h
        · exact .inl h
        · exact .inr ⟨c, rfl, h⟩
      | call c =>
        have hr' := hr
        simp only [run, hm, Except.map, markExp, List.singleton_append] at hr'
        cases hr'
        rcases List.infix_cons_iff.1 hv with h | h
        · exact .inl h
        · exact .inr ⟨'!', rfl, h⟩
    rcases hc with h | ⟨c, -, h⟩
    · exact (mark_prefix u R _ _ _ _ hr ho hn h).isInfix
    · cases ho with
      | chr ho => exact (ih _ _ _ hm ho hn h).trans (List.suffix_cons _ _).isInfix
      | call _ ho => exact (ih _ _ _ hm ho hn h).trans (List.suffix_append _ _).isInfix

/-- Text that stands outside all macro calls is still there when they are replaced. -/
theorem becomes_keeps (u : Unicode) (R : Text → List Text → Text → Prop) (code m v : Text) (ha : Ascii code)
    (hm : expandMacroses u markExp () code = .ok (m, ())) (hn : '!' ∉ v) (hv : v <:+: m) (out : Text)
    (h : Becomes u R code out) : v <:+: out := by
  obtain ⟨ps, hp, hr⟩ := h
  obtain ⟨m', e⟩ := run_mark u ps
  have := C20_expand u markExp () code ps ha hp
  rw [hm, e] at this
  simp only [Out.ofExcept, Out.ok.injEq, Prod.mk.injEq, and_true] at this
  subst this
  exact mark_infix u R ps m out v e hr hn hv

/-- The Rust code of `sampleRule`. -/
def sampleCode : Text := "let mut {to_var}: COpt!() = f({from_var}); swig_from_rust_to_i_type!(T, a, b) dbg!(a,b);".toList

/-- What the alias of `sampleRule` stands for. -/
def sampleAl : List Alias := [⟨"COpt".toList, name "COptu8".toList, []⟩]

/-- The rule like the shipped one for `Option<T>` can be instantiated, whatever the backend counted before. -/
theorem sample_accepted (n : Nat) : ∃ r' s', substGenericParams sampleEnv sampleB .outgoing n sampleRule = .ok (r', s') := by
  have hasc : ∀ t : Text, (t.all ascii) = true → Ascii t := fun t h c hc => List.all_eq_true.1 h c hc
  have hA : ∀ al, AliasesAre sampleEnv sampleB sampleRule.aliases al → al = sampleAl := by
    intro al h
    rw [show sampleRule.aliases = [("COpt".toList, some (.concat [.ident "COpt".toList, .iType "T".toList none]))] from rfl] at h
    have hT : ∀ t, Means sampleEnv "T".toList t → t = name "u8".toList := by
      intro t ht
      have h1 := (findTypeParam_iff _ _ _).2 ht
      have h2 : findTypeParam sampleEnv "T".toList = .ok (name "u8".toList) := rfl
      rw [h2] at h1
      exact (Except.ok.inj h1).symm
    have hty : ∀ t m, AliasText sampleEnv sampleB (.concat [.ident "COpt".toList, .iType "T".toList none]) t m →
        t = "COpt".toList ++ ("u8".toList ++ []) ∧ m = [] := by
      intro t m h
      generalize "COpt".toList = z at h ⊢
      generalize hz : "T".toList = y at h
      cases h with
      | concat h =>
        cases h with
        | cons h1 h2 =>
          cases h1
          cases h2 with
          | cons h3 h4 =>
            cases h4
            cases h3 with
            | iType h5 h6 =>
              subst hz
              have := hT _ h5
              subst this
              obtain ⟨s1, s2, h7⟩ := h6
              simp only [sampleB, Prod.mk.injEq, Except.ok.injEq] at h7
              rw [← h7.1]
              exact ⟨rfl, rfl⟩
    have hp : sampleEnv.parse (escapeAsType ("COpt".toList ++ ("u8".toList ++ []))) = some (name "COptu8".toList) := by
      decide +kernel
    generalize hz : (("COpt".toList, some (.concat [.ident "COpt".toList, .iType "T".toList none])) : Text × Option Item) = d at h
    cases h with
    | cons h1 h2 h3 =>
      cases h3
      have e1 := (Prod.mk.inj hz).1
      have e2 := Option.some.inj (Prod.mk.inj hz).2
      rw [← e2] at h1
      obtain ⟨e3, e4⟩ := hty _ _ h1
      rw [e3, hp] at h2
      have e5 := Option.some.inj h2
      rw [← e1, e4, ← e5]
      rfl
  refine C59_instance_accepted sampleEnv sampleB sampleB_total .outgoing n sampleRule rfl ?_ ?_ ?_ ?_ ?_
  · refine ⟨?_, ?_, ?_, ?_, ?_⟩
    · intro x c h1 h2
      cases h1; cases h2
      exact hasc _ (by decide +kernel)
    · intro x c h1; cases h1
    · intro x hx
      simp only [sampleRule, List.mem_cons, List.not_mem_nil, or_false] at hx
      subst hx
      refine ⟨?_, ?_, ?_, ?_⟩
      · intro c h; cases h; exact hasc _ (by decide +kernel)
      · intro c h; cases h
      · intro m hm
        simp only [List.mem_cons, List.not_mem_nil, or_false] at hm
        rcases hm with rfl | rfl
        · exact hasc _ (by decide +kernel)
        · exact hasc _ (by decide +kernel)
      · exact hasc _ (by decide +kernel)
    · intro x hx; cases hx
    · intro c hc
      simp only [sampleRule, List.mem_cons, List.not_mem_nil, or_false] at hc
      subst hc
      exact ⟨hasc _ (by decide +kernel), hasc _ (by decide +kernel)⟩
  · intro d hd
    simp only [sampleRule, List.mem_cons, List.not_mem_nil, or_false] at hd
    subst hd
    refine ⟨_, rfl, ⟨_, _, .concat (.cons .ident (.cons (.iType (t := name "u8".toList) (t' := name "u8".toList)
      (.param (by decide +kernel)) ⟨0, 1, rfl⟩) .nil))⟩, ?_⟩
    intro t m _
    simp only [sampleEnv]
    split <;> exact ⟨_, rfl⟩
  · intro al hal _
    have := hA al hal
    subst this
    constructor
    · intro x c h1 h2
      cases h1; cases h2
      refine ⟨?_, fun out h => .inl (becomes_keeps _ _ sampleCode
        "let mut {to_var}: ! = f({from_var}); ! !;".toList _ (hasc _ (by decide +kernel)) (by rfl) (by decide +kernel)
        ((strContains_iff _ _).1 (by decide +kernel)) out h)⟩
      exact (C59_rust_code_accepted sampleEnv sampleB sampleB_total sampleAl 0 sampleCode (hasc _ (by decide +kernel))).1
        ⟨("let mut {to_var}: COptu8 = f({from_var}); b = a; dbg!(a, b);".toList, 1), by rfl⟩
    · intro x hx
      simp only [sampleRule, List.mem_cons, List.not_mem_nil, or_false] at hx
      subst hx
      refine ⟨?_, ?_, ?_, ?_⟩
      · exact (C59_type_name_accepted sampleEnv sampleB sampleB_total sampleAl (0, []) _ (hasc _ (by decide +kernel))).1
          ⟨("opt<uint8_t>".toList, (1, ["<stdint.h>".toList])), by rfl⟩
      · intro c h
        cases h
        exact (C59_foreign_code_accepted sampleEnv sampleB sampleB_total sampleAl 0 _ (hasc _ (by decide +kernel))).1
          ⟨("$p.val".toList, 1), by rfl⟩
      · intro m hm
        simp only [List.mem_cons, List.not_mem_nil, or_false] at hm
        rcases hm with rfl | rfl
        · exact (C59_module_name sampleEnv sampleAl _ (hasc _ (by decide +kernel))).2.1 ⟨"\"COptu8.h\"".toList, by rfl⟩
        · exact (C59_module_name sampleEnv sampleAl _ (hasc _ (by decide +kernel))).2.1 ⟨"<stdint.h>".toList, by rfl⟩
      · intro p h; cases h
  · intro al _ h; cases h
  · intro al hal c hc
    have := hA al hal
    subst this
    simp only [sampleRule, List.mem_cons, List.not_mem_nil, or_false] at hc
    subst hc
    exact ⟨(C59_module_name sampleEnv sampleAl _ (hasc _ (by decide +kernel))).2.1 ⟨"COptu8.h".toList, by rfl⟩,
      (C59_foreign_code_accepted sampleEnv sampleB sampleB_total sampleAl 0 _ (hasc _ (by decide +kernel))).1
        ⟨("typedef uint8_t X;".toList, 1), by rfl⟩⟩

end Flapi.Inst
