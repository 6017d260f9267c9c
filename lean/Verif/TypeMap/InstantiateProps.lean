import Verif.TypeMap.Instantiate
import Verif.Macro.ScanProps
import Verif.Base.Replace
/-!
# Instantiating a generic `foreign_typemap!` rule (C59)
-/
namespace Flapi.Inst
open Flapi Flapi.Macro Flapi.Template

variable {σ : Type}

/-! ## Specification -/

/-- A text of ASCII characters only (C20 shows what goes wrong otherwise). -/
def Ascii (t : Text) : Prop := ∀ c ∈ t, ascii c = true

/-- At some moment the backend says that `t` crosses the boundary as `t'`. -/
def Backend.SaysI (B : Backend σ) (t : PTy) (o : Option Text) (t' : PTy) : Prop := ∃ s s', B.iType s t o = (.ok t', s')
/-- At some moment the backend says that `t` is `f` in the foreign language. -/
def Backend.SaysF (B : Backend σ) (t : PTy) (o : Option Text) (f : FName) : Prop := ∃ s s', B.fType s t o = (.ok f, s')

/-- What a type expression inside a macro call means: a type parameter, or a reference to one. -/
inductive Means (env : Env) : Text → PTy → Prop
  | param {p t} : env.params p = some t → Means env p t
  | ref {p h e t} : env.params p = none → env.parse p = some (.ref h e) → env.params (env.disp e) = some t →
      Means env p (.ref h t)

/-- `a` is the alias called `n` (the first one, if there are several). -/
inductive IsAlias : List Alias → Text → Alias → Prop
  | here {a l} : IsAlias (a :: l) a.name a
  | there {a b l n} : b.name ≠ n → IsAlias l n a → IsAlias (b :: l) n a

/-- No alias has this name. -/
def NoAlias (al : List Alias) (n : Text) : Prop := ∀ a ∈ al, a.name ≠ n

/-- The two legal parameter lists of `swig_i_type!` and `swig_f_type!`. -/
inductive OneOrTwo : List Text → Text → Option Text → Prop
  | one {p} : OneOrTwo [p] p none
  | two {p q} : OneOrTwo [p, q] p (some q)

/-- What a macro call in Rust code stands for. -/
inductive RustCall (env : Env) (B : Backend σ) (al : List Alias) : Text → List Text → Text → Prop
  | toI {p x y t o s s'} : Means env p t → B.rustToI s t x y = (.ok o, s') →
      RustCall env B al "swig_from_rust_to_i_type".toList [p, x, y] o
  | fromI {p x y t o s s'} : Means env p t → B.iToRust s t x y = (.ok o, s') →
      RustCall env B al "swig_from_i_type_to_rust".toList [p, x, y] o
  | iType {ps p o t t'} : OneOrTwo ps p o → Means env p t → B.SaysI t o t' →
      RustCall env B al "swig_i_type".toList ps (env.norm t')
  | subst {p t} : Means env p t → RustCall env B al "swig_subst_type".toList [p] (env.norm t)
  | alias {id ps a} : id ∉ ["swig_from_rust_to_i_type".toList, "swig_from_i_type_to_rust".toList,
        "swig_i_type".toList, "swig_subst_type".toList] → IsAlias al id a → RustCall env B al id ps (env.norm a.value)
  /-- any other macro is the user's: the call stays, its parameters separated by `", "` -/
  | user {id ps} : id ∉ ["swig_from_rust_to_i_type".toList, "swig_from_i_type_to_rust".toList,
        "swig_i_type".toList, "swig_subst_type".toList] → NoAlias al id →
      RustCall env B al id ps (id ++ "!(".toList ++ (List.intersperse ", ".toList ps).flatten ++ ")".toList)

/-- The foreign type meant by a `swig_f_type!` call: of a type parameter, a reference to one, or an alias `name!()`. -/
inductive FCall (env : Env) (B : Backend σ) (al : List Alias) : List Text → FName → Prop
  | param {ps p o t f} : OneOrTwo ps p o → ¬ ("!()".toList <:+ p) → Means env p t → B.SaysF t o f → FCall env B al ps f
  | alias {ps n a o f} : OneOrTwo ps (n ++ "!()".toList) o → IsAlias al (trim env.u n) a → B.SaysF a.value o f →
      FCall env B al ps f

/-- What a macro call in foreign code stands for. -/
inductive ForeignCall (env : Env) (B : Backend σ) (al : List Alias) : Text → List Text → Text → Prop
  | fType {ps f} : FCall env B al ps f → ForeignCall env B al "swig_f_type".toList ps f.value
  | iType {ps p o t t' f} : OneOrTwo ps p o → Means env p t → B.SaysI t o t' → B.SaysF t' o f →
      ForeignCall env B al "swig_i_type".toList ps f.display
  | toI {p x t o s s'} : Means env p t → B.foreignToI s t x = (.ok o, s') →
      ForeignCall env B al "swig_foreign_to_i_type".toList [p, x] o
  | fromI {p x t o s s'} : Means env p t → B.foreignFromI s t x = (.ok o, s') →
      ForeignCall env B al "swig_foreign_from_i_type".toList [p, x] o
  | alias {id ps a} : id ∉ ["swig_f_type".toList, "swig_i_type".toList, "swig_foreign_to_i_type".toList,
        "swig_foreign_from_i_type".toList] → IsAlias al id a → ForeignCall env B al id ps (env.disp a.value)

/-- What a macro call in a foreign type name stands for, and the modules that come with it. -/
inductive NameCall (env : Env) (B : Backend σ) (al : List Alias) : Text → List Text → Text → List Text → Prop
  | fType {ps f} : FCall env B al ps f → NameCall env B al "swig_f_type".toList ps f.value f.mods
  | subst {p t} : Means env p t → NameCall env B al "swig_subst_type".toList [p] (env.norm t) []
  | alias {id ps a} : id ∉ ["swig_f_type".toList, "swig_subst_type".toList] → IsAlias al id a →
      NameCall env B al id ps (env.disp a.value) a.mods

/-- What a macro call in a module name stands for. -/
inductive ModCall (env : Env) (al : List Alias) : Text → List Text → Text → Prop
  | alias {id a} : IsAlias al id a → ModCall env al id [] (env.disp a.value)

/-- Characters are copied, calls are replaced. -/
inductive Rendered (u : Unicode) (R : Text → List Text → Text → Prop) : List Piece → Text → Prop
  | nil : Rendered u R [] []
  | chr {c ps t} : Rendered u R ps t → Rendered u R (.chr c :: ps) (c :: t)
  | call {c ps o t} : R c.id (params u c.inner) o → Rendered u R ps t → Rendered u R (.call c :: ps) (o ++ t)

/-- The template `code`, read from left to right, becomes `out`. -/
def Becomes (u : Unicode) (R : Text → List Text → Text → Prop) (code out : Text) : Prop :=
  ∃ ps, Parse u code ps ∧ Rendered u R ps out

/-- The same, with the modules collected in order. -/
inductive RenderedM (u : Unicode) (R : Text → List Text → Text → List Text → Prop) : List Piece → Text → List Text → Prop
  | nil : RenderedM u R [] [] []
  | chr {c ps t m} : RenderedM u R ps t m → RenderedM u R (.chr c :: ps) (c :: t) m
  | call {c ps o n t m} : R c.id (params u c.inner) o n → RenderedM u R ps t m →
      RenderedM u R (.call c :: ps) (o ++ t) (n ++ m)

/-- The same, with modules. -/
def BecomesM (u : Unicode) (R : Text → List Text → Text → List Text → Prop) (code out : Text) (mods : List Text) : Prop :=
  ∃ ps, Parse u code ps ∧ RenderedM u R ps out mods

mutual
/-- `t` with every type parameter replaced by its value, every `swig_i_type!(..)` by the type that crosses the boundary and
every `alias!()` by the alias. -/
inductive Expands (env : Env) (B : Backend σ) (al : List Alias) : PTy → PTy → Prop
  | param {t sub} : env.params (env.norm t) = some sub → Expands env B al t sub
  | node {h ks ks'} : env.params (env.norm (.node h ks)) = none → ExpandsAll env B al ks ks' →
      Expands env B al (.node h ks) (.node h ks')
  | ref {h e e'} : env.params (env.norm (.ref h e)) = none → Expands env B al e e' →
      Expands env B al (.ref h e) (.ref h e')
  | iType {arg t t'} : env.params (env.norm (.mac "swig_i_type".toList arg)) = none → Means env arg t →
      B.SaysI t none t' → Expands env B al (.mac "swig_i_type".toList arg) t'
  | alias {id arg a} : env.params (env.norm (.mac id arg)) = none → id ≠ "swig_i_type".toList → IsAlias al id a →
      Expands env B al (.mac id arg) a.value
/-- Pointwise. -/
inductive ExpandsAll (env : Env) (B : Backend σ) (al : List Alias) : PTys → PTys → Prop
  | nil : ExpandsAll env B al .nil .nil
  | cons {h h' t t'} : Expands env B al h h' → ExpandsAll env B al t t' →
      ExpandsAll env B al (.cons h t) (.cons h' t')
end

/-- The values of the type parameters are ordinary types, not macro calls. -/
def PlainParams (env : Env) : Prop := ∀ p t, env.params p = some t → ∀ id arg, t ≠ .mac id arg

/-- The backend knows every type. -/
structure Backend.Total (B : Backend σ) : Prop where
  iType : ∀ s t o, ∃ a s', B.iType s t o = (.ok a, s')
  fType : ∀ s t o, ∃ a s', B.fType s t o = (.ok a, s')
  rustToI : ∀ s t x y, ∃ a s', B.rustToI s t x y = (.ok a, s')
  iToRust : ∀ s t x y, ∃ a s', B.iToRust s t x y = (.ok a, s')
  foreignToI : ∀ s t x, ∃ a s', B.foreignToI s t x = (.ok a, s')
  foreignFromI : ∀ s t x, ∃ a s', B.foreignFromI s t x = (.ok a, s')

/-! ## Lookups -/

theorem findTypeParam_iff (env : Env) (p : Text) (t : PTy) : findTypeParam env p = .ok t ↔ Means env p t := by
  constructor
  · intro h
    rw [findTypeParam] at h
    cases hp : env.params p with
    | some t' => simp only [hp] at h; cases h; exact .param hp
    | none =>
      simp only [hp] at h
      cases hq : env.parse p with
      | none => simp [hq] at h
      | some q =>
        cases q with
        | ref hd e =>
          simp only [hq] at h
          cases he : env.params (env.disp e) with
          | none => simp [he] at h
          | some t' => simp only [he] at h; cases h; exact .ref hp hq he
        | node a b => simp [hq] at h
        | mac a b => simp [hq] at h
  · intro h
    cases h with
    | param h => simp [findTypeParam, h]
    | ref h1 h2 h3 => simp [findTypeParam, h1, h2, h3]

/-- **C59**: a type expression in a macro call is understood exactly when it names a type parameter that has a value, or
is a reference to one. -/
theorem C59_type_expression (env : Env) (p : Text) :
    (∀ t, findTypeParam env p = .ok t ↔ Means env p t) ∧
      ((∀ t, ¬ Means env p t) ↔ findTypeParam env p = .error .param) := by
  refine ⟨findTypeParam_iff env p, ?_⟩
  constructor
  · intro h
    cases hf : findTypeParam env p with
    | ok t => exact absurd ((findTypeParam_iff env p t).1 hf) (h t)
    | error e =>
      rw [findTypeParam] at hf
      repeat' split at hf
      all_goals first | (cases hf; rfl) | cases hf
  · intro h t hm
    rw [(findTypeParam_iff env p t).2 hm] at h
    cases h

theorem findAlias_iff (al : List Alias) (n : Text) (a : Alias) : findAlias al n = some a ↔ IsAlias al n a := by
  induction al with
  | nil => exact ⟨fun h => by simp [findAlias] at h, fun h => nomatch h⟩
  | cons b l ih =>
    rw [findAlias, List.find?_cons]
    by_cases hb : b.name = n
    · subst hb
      simp only [decide_true]
      constructor
      · intro h; cases h; exact .here
      · intro h
        cases h with
        | here => rfl
        | there h _ => exact absurd rfl h
    · simp only [hb, decide_false]
      constructor
      · intro h; exact .there hb (ih.1 h)
      · intro h
        cases h with
        | here => exact absurd rfl hb
        | there _ h => exact ih.2 h

theorem findAlias_none (al : List Alias) (n : Text) : findAlias al n = none ↔ NoAlias al n := by
  simp [findAlias, NoAlias]

theorem oneOrTwo_iff (ps : List Text) (p : Text) (o : Option Text) : oneOrTwo ps = .ok (p, o) ↔ OneOrTwo ps p o := by
  constructor
  · intro h
    unfold oneOrTwo at h
    split at h
    · cases h; exact .one
    · cases h; exact .two
    · cases h
  · intro h; cases h <;> rfl

theorem ask_iff {α β : Type} (r : Except Er α × σ) (f : α → β) (b : β) (s' : σ) :
    ask r f = .ok (b, s') ↔ ∃ a, r = (.ok a, s') ∧ f a = b := by
  rcases r with ⟨r, s⟩
  cases r with
  | ok a => simp [ask]; grind
  | error e => simp [ask]

theorem aliasForm_iff (u : Unicode) (p n : Text) : aliasForm u p = some n ↔ ∃ q, p = q ++ "!()".toList ∧ n = trim u q := by
  unfold aliasForm
  constructor
  · intro h
    split at h
    · rename_i r hr
      cases h
      refine ⟨r.reverse, ?_, rfl⟩
      have := congrArg List.reverse hr
      simpa using this
    · cases h
  · rintro ⟨q, rfl, rfl⟩
    simp

theorem aliasForm_none (u : Unicode) (p : Text) : aliasForm u p = none ↔ ¬ ("!()".toList <:+ p) := by
  constructor
  · rintro h ⟨q, rfl⟩
    have := (aliasForm_iff u (q ++ "!()".toList) _).2 ⟨q, rfl, rfl⟩
    rw [this] at h; cases h
  · intro h
    cases hf : aliasForm u p with
    | none => rfl
    | some n =>
      obtain ⟨q, rfl, -⟩ := (aliasForm_iff u p n).1 hf
      exact absurd ⟨q, rfl⟩ h

theorem fTypeArg_cases (env : Env) (al : List Alias) (p : Text) (t : PTy) (h : fTypeArg env al p = .ok t) :
    (¬ ("!()".toList <:+ p) ∧ Means env p t) ∨ (∃ n a, p = n ++ "!()".toList ∧ IsAlias al (trim env.u n) a ∧ t = a.value) := by
  rw [fTypeArg] at h
  cases hf : aliasForm env.u p with
  | none =>
    simp only [hf] at h
    exact .inl ⟨(aliasForm_none _ _).1 hf, (findTypeParam_iff _ _ _).1 h⟩
  | some n =>
    simp only [hf] at h
    obtain ⟨q, rfl, rfl⟩ := (aliasForm_iff _ _ _).1 hf
    cases ha : findAlias al (trim env.u q) with
    | none => simp [ha] at h
    | some a =>
      simp only [ha] at h
      cases h
      exact .inr ⟨q, a, rfl, (findAlias_iff _ _ _).1 ha, rfl⟩

theorem callFType_sound (env : Env) (B : Backend σ) (al : List Alias) (s s' : σ) (ps : List Text) (f : FName)
    (h : callFType env B al s ps = .ok (f, s')) : FCall env B al ps f := by
  rw [callFType.eq_def] at h
  cases ho : oneOrTwo ps with
  | error e => simp [ho] at h
  | ok po =>
    obtain ⟨p, o⟩ := po
    simp only [ho] at h
    have ho := (oneOrTwo_iff _ _ _).1 ho
    cases ht : fTypeArg env al p with
    | error e => simp [ht] at h
    | ok t =>
      simp only [ht] at h
      obtain ⟨a, ha, rfl⟩ := (ask_iff _ _ _ _).1 h
      rcases fTypeArg_cases env al p t ht with ⟨h1, h2⟩ | ⟨n, al', rfl, h2, rfl⟩
      · exact .param ho h1 h2 ⟨_, _, ha⟩
      · exact .alias ho h2 ⟨_, _, ha⟩

theorem callFType_complete (env : Env) (B : Backend σ) (hB : B.Total) (al : List Alias) (s : σ) (ps : List Text) (f : FName)
    (h : FCall env B al ps f) : ∃ r, callFType env B al s ps = .ok r := by
  cases h with
  | param ho h1 h2 h3 =>
    rename_i p o t
    obtain ⟨a, s', ha⟩ := hB.fType s t o
    refine ⟨(a, s'), ?_⟩
    have hf : fTypeArg env al p = .ok t := by
      rw [fTypeArg, (aliasForm_none env.u p).2 h1]; exact (findTypeParam_iff _ _ _).2 h2
    rw [callFType.eq_def, (oneOrTwo_iff _ _ _).2 ho]
    simp only [hf, ha, ask, id]
  | alias ho h1 h2 =>
    rename_i n a o
    obtain ⟨a', s', ha⟩ := hB.fType s a.value o
    refine ⟨(a', s'), ?_⟩
    have hf : fTypeArg env al (n ++ "!()".toList) = .ok a.value := by
      rw [fTypeArg, (aliasForm_iff env.u _ _).2 ⟨n, rfl, rfl⟩]
      simp only [(findAlias_iff _ _ _).2 h1]
    rw [callFType.eq_def, (oneOrTwo_iff _ _ _).2 ho]
    simp only [hf, ha, ask, id]

/-! ## Running an expander -/

theorem run_rendered {u : Unicode} {R : Text → List Text → Text → Prop} {exp : σ → Text → List Text → Except Er (Text × σ)}
    (hR : ∀ s id ps t s', exp s id ps = .ok (t, s') → R id ps t) :
    ∀ (ps : List Piece) (s : σ) (out : Text) (s' : σ), run u exp s ps = .ok (out, s') → Rendered u R ps out := by
  intro ps
  induction ps with
  | nil => intro s out s' h; simp only [run] at h; cases h; exact .nil
  | cons p ps ih =>
    intro s out s' h
    cases p with
    | chr c =>
      simp only [run] at h
      cases hr : run u exp s ps with
      | error e => simp [hr, Except.map] at h
      | ok r =>
        obtain ⟨t, s1⟩ := r
        simp only [hr, Except.map] at h
        cases h
        exact .chr (ih _ _ _ hr)
    | call c =>
      simp only [run] at h
      cases he : exp s c.id (params u c.inner) with
      | error e => simp [he] at h
      | ok r =>
        obtain ⟨o, s1⟩ := r
        simp only [he] at h
        cases hr : run u exp s1 ps with
        | error e => simp [hr, Except.map] at h
        | ok r =>
          obtain ⟨t, s2⟩ := r
          simp only [hr, Except.map] at h
          cases h
          exact .call (hR _ _ _ _ _ he) (ih _ _ _ hr)

theorem run_renderedM {u : Unicode} {R : Text → List Text → Text → List Text → Prop}
    {exp : (σ × List Text) → Text → List Text → Except Er (Text × (σ × List Text))}
    (hR : ∀ s id ps t s', exp s id ps = .ok (t, s') → ∃ m, s'.2 = s.2 ++ m ∧ R id ps t m) :
    ∀ (ps : List Piece) (s : σ × List Text) (out : Text) (s' : σ × List Text), run u exp s ps = .ok (out, s') →
      ∃ m, s'.2 = s.2 ++ m ∧ RenderedM u R ps out m := by
  intro ps
  induction ps with
  | nil => intro s out s' h; simp only [run] at h; cases h; exact ⟨[], by simp, .nil⟩
  | cons p ps ih =>
    intro s out s' h
    cases p with
    | chr c =>
      simp only [run] at h
      cases hr : run u exp s ps with
      | error e => simp [hr, Except.map] at h
      | ok r =>
        obtain ⟨t, s1⟩ := r
        simp only [hr, Except.map] at h
        cases h
        obtain ⟨m, h1, h2⟩ := ih _ _ _ hr
        exact ⟨m, h1, .chr h2⟩
    | call c =>
      simp only [run] at h
      cases he : exp s c.id (params u c.inner) with
      | error e => simp [he] at h
      | ok r =>
        obtain ⟨o, s1⟩ := r
        simp only [he] at h
        cases hr : run u exp s1 ps with
        | error e => simp [hr, Except.map] at h
        | ok r =>
          obtain ⟨t, s2⟩ := r
          simp only [hr, Except.map] at h
          cases h
          obtain ⟨m1, h1, h2⟩ := hR _ _ _ _ _ he
          obtain ⟨m2, h3, h4⟩ := ih _ _ _ hr
          exact ⟨m1 ++ m2, by rw [h3, h1, List.append_assoc], .call h2 h4⟩

theorem run_complete {u : Unicode} {exp : σ → Text → List Text → Except Er (Text × σ)} (ps : List Piece)
    (h : ∀ c, Piece.call c ∈ ps → ∀ s, ∃ r, exp s c.id (params u c.inner) = .ok r) :
    ∀ s, ∃ r, run u exp s ps = .ok r := by
  induction ps with
  | nil => intro s; exact ⟨_, rfl⟩
  | cons p ps ih =>
    intro s
    have ih := ih fun c hc => h c (by simp [hc])
    cases p with
    | chr c =>
      obtain ⟨r, hr⟩ := ih s
      refine ⟨(c :: r.1, r.2), ?_⟩
      simp only [run, hr, Except.map]
    | call c =>
      obtain ⟨r, hr⟩ := h c (by simp) s
      obtain ⟨r', hr'⟩ := ih r.2
      refine ⟨(r.1 ++ r'.1, r'.2), ?_⟩
      simp only [run, hr, hr', Except.map]

theorem rendered_calls {u : Unicode} {R : Text → List Text → Text → Prop} {ps : List Piece} {out : Text}
    (h : Rendered u R ps out) : ∀ c, Piece.call c ∈ ps → ∃ o, R c.id (params u c.inner) o := by
  induction h with
  | nil => intro c hc; cases hc
  | chr _ ih => intro c hc; rcases List.mem_cons.1 hc with h | h; · cases h
                exact ih c h
  | call ho _ ih =>
    intro c hc
    rcases List.mem_cons.1 hc with h | h
    · cases h; exact ⟨_, ho⟩
    · exact ih c h

theorem renderedM_calls {u : Unicode} {R : Text → List Text → Text → List Text → Prop} {ps : List Piece} {out : Text}
    {m : List Text} (h : RenderedM u R ps out m) :
    ∀ c, Piece.call c ∈ ps → ∃ o n, R c.id (params u c.inner) o n := by
  induction h with
  | nil => intro c hc; cases hc
  | chr _ ih => intro c hc; rcases List.mem_cons.1 hc with h | h; · cases h
                exact ih c h
  | call ho _ ih =>
    intro c hc
    rcases List.mem_cons.1 hc with h | h
    · cases h; exact ⟨_, _, ho⟩
    · exact ih c h

theorem expand_becomes {u : Unicode} {R : Text → List Text → Text → Prop} {exp : σ → Text → List Text → Except Er (Text × σ)}
    (hR : ∀ s id ps t s', exp s id ps = .ok (t, s') → R id ps t) {s s' : σ} {code out : Text} (ha : Ascii code)
    (h : expandMacroses u exp s code = .ok (out, s')) : Becomes u R code out := by
  obtain ⟨ps, hp⟩ := C20_every_template_readable u code
  rw [C20_expand u exp s code ps ha hp] at h
  refine ⟨ps, hp, run_rendered hR ps s out s' ?_⟩
  cases hr : run u exp s ps with
  | error e => rw [hr] at h; cases h
  | ok r => rw [hr] at h; cases h; rfl

theorem expand_becomesM {u : Unicode} {R : Text → List Text → Text → List Text → Prop}
    {exp : (σ × List Text) → Text → List Text → Except Er (Text × (σ × List Text))}
    (hR : ∀ s id ps t s', exp s id ps = .ok (t, s') → ∃ m, s'.2 = s.2 ++ m ∧ R id ps t m) {s s' : σ × List Text}
    {code out : Text} (ha : Ascii code) (h : expandMacroses u exp s code = .ok (out, s')) :
    ∃ m, s'.2 = s.2 ++ m ∧ BecomesM u R code out m := by
  obtain ⟨ps, hp⟩ := C20_every_template_readable u code
  rw [C20_expand u exp s code ps ha hp] at h
  have : run u exp s ps = .ok (out, s') := by
    cases hr : run u exp s ps with
    | error e => rw [hr] at h; cases h
    | ok r => rw [hr] at h; cases h; rfl
  obtain ⟨m, h1, h2⟩ := run_renderedM hR ps s out s' this
  exact ⟨m, h1, ps, hp, h2⟩

theorem expand_ok_of_calls {u : Unicode} {exp : σ → Text → List Text → Except Er (Text × σ)} {code : Text} {ps : List Piece}
    (ha : Ascii code) (hp : Parse u code ps)
    (h : ∀ c, Piece.call c ∈ ps → ∀ s, ∃ r, exp s c.id (params u c.inner) = .ok r) (s : σ) :
    ∃ r, expandMacroses u exp s code = .ok r := by
  obtain ⟨r, hr⟩ := run_complete ps h s
  exact ⟨r, by rw [C20_expand u exp s code ps ha hp, hr]; rfl⟩

/-! ## The four contexts -/

theorem rebuild_eq (id : Text) (ps : List Text) :
    rebuild id ps = id ++ "!(".toList ++ (List.intersperse ", ".toList ps).flatten ++ ")".toList := by
  rw [rebuild.eq_def]
  congr 2
  cases ps with
  | nil => rfl
  | cons p r =>
    simp only
    induction r generalizing p with
    | nil => simp [List.intersperse]
    | cons q r ih =>
      rw [show List.intersperse ", ".toList (p :: q :: r) = p :: ", ".toList :: List.intersperse ", ".toList (q :: r) from rfl]
      simp only [List.map_cons, List.flatten_cons, ← ih q, List.append_assoc]

theorem rustExp_sound (env : Env) (B : Backend σ) (al : List Alias) (s : σ) (id : Text) (ps : List Text) (t : Text) (s' : σ)
    (h : rustExp env B al s id ps = .ok (t, s')) : RustCall env B al id ps t := by
  rw [rustExp.eq_def] at h
  by_cases h1 : id = swigFromRustToI ∨ id = swigFromIToRust
  · rw [if_pos h1] at h
    split at h
    · rename_i p x y
      cases hf : findTypeParam env p with
      | error e => simp [hf] at h
      | ok ty =>
        simp only [hf] at h
        have hm := (findTypeParam_iff _ _ _).1 hf
        by_cases h2 : id = swigFromRustToI
        · rw [if_pos h2] at h
          obtain ⟨a, ha, rfl⟩ := (ask_iff _ _ _ _).1 h
          rw [h2]
          exact .toI hm ha
        · rw [if_neg h2] at h
          obtain ⟨a, ha, rfl⟩ := (ask_iff _ _ _ _).1 h
          rw [h1.resolve_left h2]
          exact .fromI hm ha
    · cases h
  · rw [if_neg h1] at h
    by_cases h2 : id = swigIType
    · rw [if_pos h2] at h
      cases ho : oneOrTwo ps with
      | error e => simp [ho] at h
      | ok po =>
        obtain ⟨p, o⟩ := po
        simp only [ho] at h
        cases hf : findTypeParam env p with
        | error e => simp [hf] at h
        | ok ty =>
          simp only [hf] at h
          obtain ⟨a, ha, rfl⟩ := (ask_iff _ _ _ _).1 h
          rw [h2]
          exact .iType ((oneOrTwo_iff _ _ _).1 ho) ((findTypeParam_iff _ _ _).1 hf) ⟨_, _, ha⟩
    · rw [if_neg h2] at h
      by_cases h3 : id = swigSubstType
      · rw [if_pos h3] at h
        split at h
        · rename_i p
          cases hf : findTypeParam env p with
          | error e => simp [hf] at h
          | ok ty =>
            simp only [hf] at h
            cases h
            rw [h3]
            exact .subst ((findTypeParam_iff _ _ _).1 hf)
        · cases h
      · rw [if_neg h3] at h
        have hn : id ∉ [swigFromRustToI, swigFromIToRust, swigIType, swigSubstType] := by
          simp only [List.mem_cons, List.not_mem_nil, or_false]
          rintro (h | h | h | h)
          · exact h1 (.inl h)
          · exact h1 (.inr h)
          · exact h2 h
          · exact h3 h
        cases ha : findAlias al id with
        | some a =>
          simp only [ha] at h
          cases h
          exact .alias hn ((findAlias_iff _ _ _).1 ha)
        | none =>
          simp only [ha] at h
          cases h
          rw [rebuild_eq]
          exact .user hn ((findAlias_none _ _).1 ha)

theorem ne1 : swigFromIToRust ≠ swigFromRustToI := by decide
theorem ne2 : ¬ (swigIType = swigFromRustToI ∨ swigIType = swigFromIToRust) := by decide
theorem ne3 : ¬ (swigSubstType = swigFromRustToI ∨ swigSubstType = swigFromIToRust) := by decide
theorem ne4 : ¬ swigSubstType = swigIType := by decide

theorem rustExp_complete (env : Env) (B : Backend σ) (hB : B.Total) (al : List Alias) (id : Text) (ps : List Text) (t : Text)
    (h : RustCall env B al id ps t) (s : σ) : ∃ r, rustExp env B al s id ps = .ok r := by
  cases h with
  | toI hm _ =>
    rename_i p x y ty _ _ _
    obtain ⟨a, s', ha⟩ := hB.rustToI s ty x y
    refine ⟨(a, s'), ?_⟩
    change rustExp env B al s swigFromRustToI _ = _
    rw [rustExp.eq_def, if_pos (.inl rfl)]
    simp only [(findTypeParam_iff _ _ _).2 hm, if_true, ha, ask]
  | fromI hm _ =>
    rename_i p x y ty _ _ _
    obtain ⟨a, s', ha⟩ := hB.iToRust s ty x y
    refine ⟨(a, s'), ?_⟩
    change rustExp env B al s swigFromIToRust _ = _
    rw [rustExp.eq_def, if_pos (.inr rfl)]
    simp only [(findTypeParam_iff _ _ _).2 hm, if_neg ne1, ha, ask]
  | iType ho hm _ =>
    rename_i p o ty _ _
    obtain ⟨a, s', ha⟩ := hB.iType s ty o
    refine ⟨(env.norm a, s'), ?_⟩
    change rustExp env B al s swigIType _ = _
    rw [rustExp.eq_def, if_neg ne2, if_pos rfl, (oneOrTwo_iff _ _ _).2 ho]
    simp only [(findTypeParam_iff _ _ _).2 hm, ha, ask]
  | subst hm =>
    rename_i p ty
    refine ⟨(env.norm ty, s), ?_⟩
    change rustExp env B al s swigSubstType _ = _
    rw [rustExp.eq_def, if_neg ne3, if_neg ne4, if_pos rfl]
    simp only [(findTypeParam_iff _ _ _).2 hm]
  | alias hn ha =>
    rename_i a
    refine ⟨(env.norm a.value, s), ?_⟩
    change id ∉ [swigFromRustToI, swigFromIToRust, swigIType, swigSubstType] at hn
    simp only [List.mem_cons, List.not_mem_nil, or_false, not_or] at hn
    rw [rustExp.eq_def, if_neg (not_or.2 ⟨hn.1, hn.2.1⟩), if_neg hn.2.2.1, if_neg hn.2.2.2]
    simp only [(findAlias_iff _ _ _).2 ha]
  | user hn ha =>
    refine ⟨(rebuild id ps, s), ?_⟩
    change id ∉ [swigFromRustToI, swigFromIToRust, swigIType, swigSubstType] at hn
    simp only [List.mem_cons, List.not_mem_nil, or_false, not_or] at hn
    rw [rustExp.eq_def, if_neg (not_or.2 ⟨hn.1, hn.2.1⟩), if_neg hn.2.2.1, if_neg hn.2.2.2]
    simp only [(findAlias_none _ _).2 ha]

/-- **C59**: Rust code of a generic rule, once instantiated, is the template with every macro call replaced by what it
stands for and all other text unchanged. -/
theorem C59_rust_code (env : Env) (B : Backend σ) (al : List Alias) (s s' : σ) (code out : Text) (ha : Ascii code)
    (h : expandRustCode env B al s code = .ok (out, s')) : Becomes env.u (RustCall env B al) code out :=
  expand_becomes (rustExp_sound env B al) ha h

/-- **C59**: the instantiation of Rust code succeeds exactly when every macro call in it makes sense, for a backend that
knows every type. -/
theorem C59_rust_code_accepted (env : Env) (B : Backend σ) (hB : B.Total) (al : List Alias) (s : σ) (code : Text)
    (ha : Ascii code) :
    (∃ r, expandRustCode env B al s code = .ok r) ↔ ∃ out, Becomes env.u (RustCall env B al) code out := by
  constructor
  · rintro ⟨⟨out, s'⟩, h⟩
    exact ⟨out, C59_rust_code env B al s s' code out ha h⟩
  · rintro ⟨out, ps, hp, hr⟩
    refine expand_ok_of_calls ha hp (fun c hc s => ?_) s
    obtain ⟨o, ho⟩ := rendered_calls hr c hc
    exact rustExp_complete env B hB al _ _ o ho s

theorem foreignExp_sound (env : Env) (B : Backend σ) (al : List Alias) (s : σ) (id : Text) (ps : List Text) (t : Text) (s' : σ)
    (h : foreignExp env B al s id ps = .ok (t, s')) : ForeignCall env B al id ps t := by
  rw [foreignExp.eq_def] at h
  by_cases h1 : id = swigFType
  · rw [if_pos h1] at h
    cases hc : callFType env B al s ps with
    | error e => simp [hc] at h
    | ok r =>
      obtain ⟨f, s1⟩ := r
      simp only [hc] at h
      cases h
      rw [h1]
      exact .fType (callFType_sound _ _ _ _ _ _ _ hc)
  · rw [if_neg h1] at h
    by_cases h2 : id = swigIType
    · rw [if_pos h2] at h
      cases ho : oneOrTwo ps with
      | error e => simp [ho] at h
      | ok po =>
        obtain ⟨p, o⟩ := po
        simp only [ho] at h
        cases hf : findTypeParam env p with
        | error e => simp [hf] at h
        | ok ty =>
          simp only [hf] at h
          cases hi : ask (B.iType s ty o) (·) with
          | error e => simp [hi] at h
          | ok r =>
            obtain ⟨it, s1⟩ := r
            simp only [hi] at h
            obtain ⟨a, ha, rfl⟩ := (ask_iff _ _ _ _).1 hi
            obtain ⟨b, hb, rfl⟩ := (ask_iff _ _ _ _).1 h
            rw [h2]
            exact .iType ((oneOrTwo_iff _ _ _).1 ho) ((findTypeParam_iff _ _ _).1 hf) ⟨_, _, ha⟩ ⟨_, _, hb⟩
    · rw [if_neg h2] at h
      by_cases h3 : id = swigForeignToI ∨ id = swigForeignFromI
      · rw [if_pos h3] at h
        split at h
        · rename_i p x
          cases hf : findTypeParam env p with
          | error e => simp [hf] at h
          | ok ty =>
            simp only [hf] at h
            have hm := (findTypeParam_iff _ _ _).1 hf
            by_cases h4 : id = swigForeignToI
            · rw [if_pos h4] at h
              obtain ⟨a, ha, rfl⟩ := (ask_iff _ _ _ _).1 h
              rw [h4]; exact .toI hm ha
            · rw [if_neg h4] at h
              obtain ⟨a, ha, rfl⟩ := (ask_iff _ _ _ _).1 h
              rw [h3.resolve_left h4]; exact .fromI hm ha
        · cases h
      · rw [if_neg h3] at h
        cases ha : findAlias al id with
        | none => simp [ha] at h
        | some a =>
          simp only [ha] at h
          cases h
          refine .alias ?_ ((findAlias_iff _ _ _).1 ha)
          change id ∉ [swigFType, swigIType, swigForeignToI, swigForeignFromI]
          simp only [List.mem_cons, List.not_mem_nil, or_false]
          rintro (h | h | h | h)
          · exact h1 h
          · exact h2 h
          · exact h3 (.inl h)
          · exact h3 (.inr h)

theorem nf1 : swigIType ≠ swigFType := by decide
theorem nf2 : swigForeignToI ≠ swigFType ∧ swigForeignToI ≠ swigIType := by decide
theorem nf3 : swigForeignFromI ≠ swigFType ∧ swigForeignFromI ≠ swigIType ∧ swigForeignFromI ≠ swigForeignToI := by decide

theorem foreignExp_complete (env : Env) (B : Backend σ) (hB : B.Total) (al : List Alias) (id : Text) (ps : List Text) (t : Text)
    (h : ForeignCall env B al id ps t) (s : σ) : ∃ r, foreignExp env B al s id ps = .ok r := by
  cases h with
  | fType hc =>
    obtain ⟨r, hr⟩ := callFType_complete env B hB al s ps _ hc
    refine ⟨(r.1.value, r.2), ?_⟩
    change foreignExp env B al s swigFType _ = _
    rw [foreignExp.eq_def, if_pos rfl, hr]
  | iType ho hm _ _ =>
    rename_i p o ty _ _ _ _
    obtain ⟨a, s1, ha⟩ := hB.iType s ty o
    obtain ⟨b, s2, hb⟩ := hB.fType s1 a o
    refine ⟨(b.display, s2), ?_⟩
    change foreignExp env B al s swigIType _ = _
    rw [foreignExp.eq_def, if_neg nf1, if_pos rfl, (oneOrTwo_iff _ _ _).2 ho]
    simp only [(findTypeParam_iff _ _ _).2 hm, ha, ask, hb]
  | toI hm _ =>
    rename_i p x ty _ _ _
    obtain ⟨a, s', ha⟩ := hB.foreignToI s ty x
    refine ⟨(a, s'), ?_⟩
    change foreignExp env B al s swigForeignToI _ = _
    rw [foreignExp.eq_def, if_neg nf2.1, if_neg nf2.2, if_pos (.inl rfl)]
    simp only [(findTypeParam_iff _ _ _).2 hm, if_true, ha, ask]
  | fromI hm _ =>
    rename_i p x ty _ _ _
    obtain ⟨a, s', ha⟩ := hB.foreignFromI s ty x
    refine ⟨(a, s'), ?_⟩
    change foreignExp env B al s swigForeignFromI _ = _
    rw [foreignExp.eq_def, if_neg nf3.1, if_neg nf3.2.1, if_pos (.inr rfl)]
    simp only [(findTypeParam_iff _ _ _).2 hm, if_neg nf3.2.2, ha, ask]
  | alias hn ha =>
    rename_i a
    refine ⟨(env.disp a.value, s), ?_⟩
    change id ∉ [swigFType, swigIType, swigForeignToI, swigForeignFromI] at hn
    simp only [List.mem_cons, List.not_mem_nil, or_false, not_or] at hn
    rw [foreignExp.eq_def, if_neg hn.1, if_neg hn.2.1, if_neg (not_or.2 ⟨hn.2.2.1, hn.2.2.2⟩)]
    simp only [(findAlias_iff _ _ _).2 ha]

/-- **C59**: the same for foreign code. -/
theorem C59_foreign_code (env : Env) (B : Backend σ) (al : List Alias) (s s' : σ) (code out : Text) (ha : Ascii code)
    (h : expandForeignCode env B al s code = .ok (out, s')) : Becomes env.u (ForeignCall env B al) code out :=
  expand_becomes (foreignExp_sound env B al) ha h

/-- **C59**: foreign code is accepted exactly when every macro call in it makes sense: an unknown macro is an error there. -/
theorem C59_foreign_code_accepted (env : Env) (B : Backend σ) (hB : B.Total) (al : List Alias) (s : σ) (code : Text)
    (ha : Ascii code) :
    (∃ r, expandForeignCode env B al s code = .ok r) ↔ ∃ out, Becomes env.u (ForeignCall env B al) code out := by
  constructor
  · rintro ⟨⟨out, s'⟩, h⟩
    exact ⟨out, C59_foreign_code env B al s s' code out ha h⟩
  · rintro ⟨out, ps, hp, hr⟩
    refine expand_ok_of_calls ha hp (fun c hc s => ?_) s
    obtain ⟨o, ho⟩ := rendered_calls hr c hc
    exact foreignExp_complete env B hB al _ _ o ho s

theorem nameExp_sound (env : Env) (B : Backend σ) (al : List Alias) (s : σ × List Text) (id : Text) (ps : List Text) (t : Text)
    (s' : σ × List Text) (h : nameExp env B al s id ps = .ok (t, s')) :
    ∃ m, s'.2 = s.2 ++ m ∧ NameCall env B al id ps t m := by
  rw [nameExp.eq_def] at h
  by_cases h1 : id = swigFType
  · rw [if_pos h1] at h
    cases hc : callFType env B al s.1 ps with
    | error e => simp [hc] at h
    | ok r =>
      obtain ⟨f, s1⟩ := r
      simp only [hc] at h
      cases h
      rw [h1]
      exact ⟨f.mods, rfl, .fType (callFType_sound _ _ _ _ _ _ _ hc)⟩
  · rw [if_neg h1] at h
    by_cases h3 : id = swigSubstType
    · rw [if_pos h3] at h
      split at h
      · rename_i p
        cases hf : findTypeParam env p with
        | error e => simp [hf] at h
        | ok ty =>
          simp only [hf] at h
          cases h
          rw [h3]
          exact ⟨[], by simp, .subst ((findTypeParam_iff _ _ _).1 hf)⟩
      · cases h
    · rw [if_neg h3] at h
      cases ha : findAlias al id with
      | none => simp [ha] at h
      | some a =>
        simp only [ha] at h
        cases h
        refine ⟨a.mods, rfl, .alias ?_ ((findAlias_iff _ _ _).1 ha)⟩
        change id ∉ [swigFType, swigSubstType]
        simp only [List.mem_cons, List.not_mem_nil, or_false]
        rintro (h | h)
        · exact h1 h
        · exact h3 h

theorem nn1 : swigSubstType ≠ swigFType := by decide

theorem nameExp_complete (env : Env) (B : Backend σ) (hB : B.Total) (al : List Alias) (id : Text) (ps : List Text) (t : Text)
    (m : List Text) (h : NameCall env B al id ps t m) (s : σ × List Text) : ∃ r, nameExp env B al s id ps = .ok r := by
  cases h with
  | fType hc =>
    obtain ⟨r, hr⟩ := callFType_complete env B hB al s.1 ps _ hc
    refine ⟨(r.1.value, (r.2, s.2 ++ r.1.mods)), ?_⟩
    change nameExp env B al s swigFType _ = _
    rw [nameExp.eq_def, if_pos rfl, hr]
  | subst hm =>
    rename_i p ty
    refine ⟨(env.norm ty, s), ?_⟩
    change nameExp env B al s swigSubstType _ = _
    rw [nameExp.eq_def, if_neg nn1, if_pos rfl]
    simp only [(findTypeParam_iff _ _ _).2 hm]
  | alias hn ha =>
    rename_i a
    refine ⟨(env.disp a.value, (s.1, s.2 ++ a.mods)), ?_⟩
    change id ∉ [swigFType, swigSubstType] at hn
    simp only [List.mem_cons, List.not_mem_nil, or_false, not_or] at hn
    rw [nameExp.eq_def, if_neg hn.1, if_neg hn.2]
    simp only [(findAlias_iff _ _ _).2 ha]

/-- **C59**: the same for foreign type names; the modules of every foreign type and alias used in the name are collected,
in order, behind those already there. -/
theorem C59_type_name (env : Env) (B : Backend σ) (al : List Alias) (s s' : σ × List Text) (name out : Text) (ha : Ascii name)
    (h : expandName env B al s name = .ok (out, s')) :
    ∃ m, s'.2 = s.2 ++ m ∧ BecomesM env.u (NameCall env B al) name out m :=
  expand_becomesM (nameExp_sound env B al) ha h

/-- **C59**: a foreign type name is accepted exactly when every macro call in it makes sense. -/
theorem C59_type_name_accepted (env : Env) (B : Backend σ) (hB : B.Total) (al : List Alias) (s : σ × List Text) (name : Text)
    (ha : Ascii name) :
    (∃ r, expandName env B al s name = .ok r) ↔ ∃ out m, BecomesM env.u (NameCall env B al) name out m := by
  constructor
  · rintro ⟨⟨out, s'⟩, h⟩
    obtain ⟨m, -, h⟩ := C59_type_name env B al s s' name out ha h
    exact ⟨out, m, h⟩
  · rintro ⟨out, m, ps, hp, hr⟩
    refine expand_ok_of_calls ha hp (fun c hc s => ?_) s
    obtain ⟨o, n, ho⟩ := renderedM_calls hr c hc
    exact nameExp_complete env B hB al _ _ o n ho s

theorem modExp_sound (env : Env) (al : List Alias) (s : Unit) (id : Text) (ps : List Text) (t : Text) (s' : Unit)
    (h : modExp env al s id ps = .ok (t, s')) : ModCall env al id ps t := by
  rw [modExp] at h
  cases ps with
  | cons p ps => simp at h
  | nil =>
    simp only [List.isEmpty_nil, Bool.true_eq_false, if_false] at h
    cases ha : findAlias al id with
    | none => simp [ha] at h
    | some a =>
      simp only [ha] at h
      cases h
      exact .alias ((findAlias_iff _ _ _).1 ha)

/-- **C59**: in a module name only aliases may be used, and they are replaced. -/
theorem C59_module_name (env : Env) (al : List Alias) (name : Text) (ha : Ascii name) :
    (∀ out, expandModule env al name = .ok out → Becomes env.u (ModCall env al) name out) ∧
      ((∃ out, expandModule env al name = .ok out) ↔ ∃ out, Becomes env.u (ModCall env al) name out) := by
  have h1 : ∀ out, expandModule env al name = .ok out → Becomes env.u (ModCall env al) name out := by
    intro out h
    rw [expandModule] at h
    cases he : expandMacroses env.u (modExp env al) () name with
    | ok r =>
      obtain ⟨t, s⟩ := r
      simp only [he] at h
      cases h
      exact expand_becomes (modExp_sound env al) ha he
    | panic => simp [he] at h
    | error e => simp [he] at h
    | fuel => simp [he] at h
  refine ⟨h1, fun ⟨out, h⟩ => ⟨out, h1 out h⟩, ?_⟩
  rintro ⟨out, ps, hp, hr⟩
  obtain ⟨r, hr⟩ := expand_ok_of_calls (exp := modExp env al) ha hp (fun c hc s => by
    obtain ⟨o, ho⟩ := rendered_calls hr c hc
    generalize params env.u c.inner = pp at ho ⊢
    cases ho with
    | alias h =>
      rename_i a
      refine ⟨(env.disp a.value, s), ?_⟩
      rw [modExp]
      simp only [List.isEmpty_nil, Bool.true_eq_false, if_false, (findAlias_iff _ _ _).2 h]) ()
  exact ⟨r.1, by rw [expandModule, hr]⟩

end Flapi.Inst
