import Verif.TypeMap.InstantiateProps
/-!
# Instantiating a generic `foreign_typemap!` rule: types, modules, aliases and the whole rule (C59)
-/
namespace Flapi.Inst
open Flapi Flapi.Macro Flapi.Template

variable {σ : Type}

/-! ## Types -/

theorem afterVisit_plain (env : Env) (B : Backend σ) (al : List Alias) (t : PTy) (v : VState σ)
    (h : ∀ id arg, t ≠ .mac id arg) : afterVisit env B al t v = (t, v) := by
  cases t with
  | mac id arg => exact absurd rfl (h id arg)
  | node _ _ => rfl
  | ref _ _ => rfl

mutual
theorem visit_err (env : Env) (B : Backend σ) (al : List Alias) (s : σ) :
    ∀ t, visit env B al t (true, s) = (t, (true, s))
  | .node _ _ => by simp [visit]
  | .ref _ _ => by simp [visit]
  | .mac _ _ => by simp [visit]
theorem visits_err (env : Env) (B : Backend σ) (al : List Alias) (s : σ) :
    ∀ ts, visits env B al ts (true, s) = (ts, (true, s))
  | .nil => by simp [visits]
  | .cons h t => by simp [visits, visit_err env B al s h, visits_err env B al s t]
end

theorem afterVisit_mac (env : Env) (B : Backend σ) (al : List Alias) (id arg : Text) (s s' : σ) (t' : PTy)
    (hn : env.params (env.norm (.mac id arg)) = none)
    (h : afterVisit env B al (.mac id arg) (false, s) = (t', (false, s'))) : Expands env B al (.mac id arg) t' := by
  simp only [afterVisit] at h
  by_cases h1 : id = swigIType
  · rw [if_pos h1] at h
    cases hf : findTypeParam env arg with
    | error e => simp [hf] at h
    | ok ty =>
      simp only [hf] at h
      rcases hb : B.iType s ty none with ⟨r, s1⟩
      cases r with
      | error e => simp [hb] at h
      | ok a =>
        simp only [hb] at h
        cases h
        subst h1
        exact .iType hn ((findTypeParam_iff _ _ _).1 hf) ⟨_, _, hb⟩
  · rw [if_neg h1] at h
    cases ha : findAlias al id with
    | none => simp [ha] at h
    | some a =>
      simp only [ha] at h
      cases h
      exact .alias hn h1 ((findAlias_iff _ _ _).1 ha)

mutual
theorem visit_sound (env : Env) (B : Backend σ) (al : List Alias) (hp : PlainParams env) :
    ∀ (t : PTy) (s : σ) (t' : PTy) (s' : σ), visit env B al t (false, s) = (t', (false, s')) → Expands env B al t t'
  | .node hd ks, s, t', s', h => by
    simp only [visit, Bool.false_eq_true, if_false] at h
    cases hn : env.params (env.norm (.node hd ks)) with
    | some sub =>
      simp only [hn] at h
      rw [afterVisit_plain _ _ _ _ _ (hp _ _ hn)] at h
      cases h
      exact .param hn
    | none =>
      simp only [hn] at h
      rcases hv : visits env B al ks (false, s) with ⟨ks', b, s1⟩
      rw [hv] at h
      cases h
      exact .node hn (visits_sound env B al hp ks s ks' _ hv)
  | .ref hd e, s, t', s', h => by
    simp only [visit, Bool.false_eq_true, if_false] at h
    cases hn : env.params (env.norm (.ref hd e)) with
    | some sub =>
      simp only [hn] at h
      rw [afterVisit_plain _ _ _ _ _ (hp _ _ hn)] at h
      cases h
      exact .param hn
    | none =>
      simp only [hn] at h
      rcases hv : visit env B al e (false, s) with ⟨e', b, s1⟩
      rw [hv] at h
      cases h
      exact .ref hn (visit_sound env B al hp e s e' _ hv)
  | .mac id arg, s, t', s', h => by
    simp only [visit, Bool.false_eq_true, if_false] at h
    cases hn : env.params (env.norm (.mac id arg)) with
    | some sub =>
      simp only [hn] at h
      rw [afterVisit_plain _ _ _ _ _ (hp _ _ hn)] at h
      cases h
      exact .param hn
    | none =>
      simp only [hn] at h
      exact afterVisit_mac env B al id arg s s' t' hn h
theorem visits_sound (env : Env) (B : Backend σ) (al : List Alias) (hp : PlainParams env) :
    ∀ (ts : PTys) (s : σ) (ts' : PTys) (s' : σ), visits env B al ts (false, s) = (ts', (false, s')) →
      ExpandsAll env B al ts ts'
  | .nil, s, ts', s', h => by simp only [visits] at h; cases h; exact .nil
  | .cons hd tl, s, ts', s', h => by
    simp only [visits] at h
    rcases hv : visit env B al hd (false, s) with ⟨h', b, s1⟩
    rw [hv] at h
    simp only at h
    cases b with
    | true => rw [visits_err] at h; cases h
    | false =>
      rcases hw : visits env B al tl (false, s1) with ⟨t', b2, s2⟩
      rw [hw] at h
      cases h
      exact .cons (visit_sound env B al hp hd s h' s1 hv) (visits_sound env B al hp tl s1 t' _ hw)
end

/-- The backend answers every `swig_i_type!` question. -/
def Backend.TotalI (B : Backend σ) : Prop := ∀ s t, ∃ a s', B.iType s t none = (.ok a, s')

mutual
theorem visit_complete (env : Env) (B : Backend σ) (al : List Alias) (hp : PlainParams env) (hB : B.TotalI) :
    ∀ (t t' : PTy) (s : σ), Expands env B al t t' → ∃ t'' s', visit env B al t (false, s) = (t'', (false, s'))
  | .node hd ks, t', s, h => by
    simp only [visit, Bool.false_eq_true, if_false]
    cases hn : env.params (env.norm (.node hd ks)) with
    | some sub => exact ⟨sub, s, afterVisit_plain _ _ _ _ _ (hp _ _ hn)⟩
    | none =>
      cases h with
      | param hq => rw [hn] at hq; cases hq
      | node _ hk =>
        obtain ⟨ks', s', hv⟩ := visits_complete env B al hp hB ks _ s hk
        exact ⟨.node hd ks', s', by simp only [hv]⟩
  | .ref hd e, t', s, h => by
    simp only [visit, Bool.false_eq_true, if_false]
    cases hn : env.params (env.norm (.ref hd e)) with
    | some sub => exact ⟨sub, s, afterVisit_plain _ _ _ _ _ (hp _ _ hn)⟩
    | none =>
      cases h with
      | param hq => rw [hn] at hq; cases hq
      | ref _ hk =>
        obtain ⟨e', s', hv⟩ := visit_complete env B al hp hB e _ s hk
        exact ⟨.ref hd e', s', by simp only [hv]⟩
  | .mac id arg, t', s, h => by
    simp only [visit, Bool.false_eq_true, if_false]
    cases hn : env.params (env.norm (.mac id arg)) with
    | some sub => exact ⟨sub, s, afterVisit_plain _ _ _ _ _ (hp _ _ hn)⟩
    | none =>
      generalize hm : PTy.mac id arg = m at h
      cases h with
      | param hq => rw [← hm, hn] at hq; cases hq
      | node _ _ => cases hm
      | ref _ _ => cases hm
      | iType hq hmn _ =>
        cases hm
        rename_i ty _
        obtain ⟨a, s', ha⟩ := hB s ty
        refine ⟨a, s', ?_⟩
        change afterVisit env B al (.mac swigIType arg) (false, s) = _
        simp only [afterVisit, if_true, (findTypeParam_iff _ _ _).2 hmn, ha]
      | alias hq hne ha =>
        cases hm
        rename_i a
        refine ⟨a.value, s, ?_⟩
        simp only [afterVisit]
        rw [if_neg (show ¬ id = swigIType from hne), (findAlias_iff _ _ _).2 ha]
theorem visits_complete (env : Env) (B : Backend σ) (al : List Alias) (hp : PlainParams env) (hB : B.TotalI) :
    ∀ (ts ts' : PTys) (s : σ), ExpandsAll env B al ts ts' → ∃ ts'' s', visits env B al ts (false, s) = (ts'', (false, s'))
  | .nil, _, s, _ => ⟨.nil, s, by simp [visits]⟩
  | .cons hd tl, _, s, .cons h1 h2 => by
    obtain ⟨h', s1, e1⟩ := visit_complete env B al hp hB hd _ s h1
    obtain ⟨t', s2, e2⟩ := visits_complete env B al hp hB tl _ s1 h2
    exact ⟨.cons h' t', s2, by simp only [visits, e1, e2]⟩
end

/-- **C59**: in an instantiated rule every type has its parameters, boundary types and aliases replaced, if all of them
are known. -/
theorem C59_types (env : Env) (B : Backend σ) (al : List Alias) (hp : PlainParams env) (hB : B.TotalI) (s : σ) (t t' : PTy)
    (h : Expands env B al t t') : Expands env B al t (expandType env B al s t).1 := by
  obtain ⟨t'', s', hv⟩ := visit_complete env B al hp hB t t' s h
  rw [expandType, hv]
  exact visit_sound env B al hp t s t'' s' hv

mutual
/-- No macro call occurs in the type. -/
def NoMac : PTy → Prop
  | .node _ ks => NoMacs ks
  | .ref _ e => NoMac e
  | .mac _ _ => False
/-- No macro call occurs in the types. -/
def NoMacs : PTys → Prop
  | .nil => True
  | .cons h t => NoMac h ∧ NoMacs t
end

theorem isAlias_mem {al : List Alias} {n : Text} {a : Alias} (h : IsAlias al n a) : a ∈ al := by
  induction h with
  | here => simp
  | there _ _ ih => simp [ih]

mutual
theorem expands_noMac (env : Env) (B : Backend σ) (al : List Alias) (h1 : ∀ p t, env.params p = some t → NoMac t)
    (h2 : ∀ a ∈ al, NoMac a.value) (h3 : ∀ t o t', B.SaysI t o t' → NoMac t') :
    ∀ (t t' : PTy), Expands env B al t t' → NoMac t'
  | _, _, .param h => h1 _ _ h
  | _, _, .node _ h => by rw [NoMac]; exact expandsAll_noMac env B al h1 h2 h3 _ _ h
  | _, _, .ref _ h => by rw [NoMac]; exact expands_noMac env B al h1 h2 h3 _ _ h
  | _, _, .iType _ _ h => h3 _ _ _ h
  | _, _, .alias _ _ h => h2 _ (isAlias_mem h)
theorem expandsAll_noMac (env : Env) (B : Backend σ) (al : List Alias) (h1 : ∀ p t, env.params p = some t → NoMac t)
    (h2 : ∀ a ∈ al, NoMac a.value) (h3 : ∀ t o t', B.SaysI t o t' → NoMac t') :
    ∀ (ts ts' : PTys), ExpandsAll env B al ts ts' → NoMacs ts'
  | _, _, .nil => by simp [NoMacs]
  | _, _, .cons a b => by
    rw [NoMacs]
    exact ⟨expands_noMac env B al h1 h2 h3 _ _ a, expandsAll_noMac env B al h1 h2 h3 _ _ b⟩
end

/-- **C59**: so no macro call is left in it, if none is in the values that were put in. -/
theorem C59_types_without_macros (env : Env) (B : Backend σ) (al : List Alias) (hB : B.TotalI)
    (h1 : ∀ p t, env.params p = some t → NoMac t) (h2 : ∀ a ∈ al, NoMac a.value) (h3 : ∀ t o t', B.SaysI t o t' → NoMac t')
    (s : σ) (t t' : PTy) (h : Expands env B al t t') : NoMac (expandType env B al s t).1 := by
  have hp : PlainParams env := by
    rintro p t ht id arg rfl
    have := h1 _ _ ht
    simp [NoMac] at this
  exact expands_noMac env B al h1 h2 h3 _ _ (C59_types env B al hp hB s t t' h)

/-- **C59 (finding)**: a misspelt macro in a type of a rule is not reported: instantiating the type "succeeds" and leaves the
call there.  (In code, names and modules the same mistake is an error.) -/
theorem C59_finding_type_error_swallowed (env : Env) (B : Backend σ) (al : List Alias) (s : σ) (id arg : Text)
    (hn : env.params (env.norm (.mac id arg)) = none) (h1 : id ≠ "swig_i_type".toList) (h2 : NoAlias al id) :
    expandType env B al s (.mac id arg) = (.mac id arg, s) := by
  have h3 := (findAlias_none al id).2 h2
  simp only [expandType, visit, Bool.false_eq_true, if_false, hn, afterVisit]
  rw [if_neg (show ¬ id = swigIType from h1), h3]

/-! ## Modules -/

theorem retainNew_mem (seen l : List Text) (m : Text) : m ∈ retainNew seen l ↔ m ∈ l ∧ m ∉ seen := by
  induction l generalizing seen with
  | nil => simp [retainNew]
  | cons x l ih =>
    rw [retainNew]
    split
    · rename_i h
      rw [ih]
      grind
    · rename_i h
      rw [List.mem_cons, ih]
      grind

theorem retainNew_nodup (seen l : List Text) : (retainNew seen l).Nodup := by
  induction l generalizing seen with
  | nil => simp [retainNew]
  | cons x l ih =>
    rw [retainNew]
    split
    · exact ih seen
    · rw [List.nodup_cons]
      refine ⟨?_, ih _⟩
      rw [retainNew_mem]
      simp

theorem retainNew_append (seen a b : List Text) : ∃ c, retainNew seen (a ++ b) = retainNew seen a ++ c := by
  induction a generalizing seen with
  | nil => exact ⟨retainNew seen b, by simp [retainNew]⟩
  | cons x a ih =>
    rw [List.cons_append, retainNew, retainNew]
    split
    · exact ih seen
    · obtain ⟨c, hc⟩ := ih (x :: seen)
      exact ⟨c, by rw [hc, List.cons_append]⟩

theorem retainNew_id (l : List Text) (seen : List Text) (h : l.Nodup) (hd : ∀ x ∈ l, x ∉ seen) : retainNew seen l = l := by
  induction l generalizing seen with
  | nil => rfl
  | cons x l ih =>
    rw [retainNew, if_neg (hd x (by simp))]
    rw [List.nodup_cons] at h
    rw [ih (x :: seen) h.2]
    intro y hy
    simp only [List.mem_cons, not_or]
    exact ⟨fun e => h.1 (e ▸ hy), hd y (by simp [hy])⟩

/-- `l'` is `l` with repetitions dropped, first occurrences kept in order. -/
structure FirstsOf (l l' : List Text) : Prop where
  mem : ∀ m, m ∈ l' ↔ m ∈ l
  nodup : l'.Nodup
  /-- an element stands in front of another one exactly when it first occurs in front of it -/
  order : ∀ p, p <+: l → ∃ q, q <+: l' ∧ ∀ m, m ∈ q ↔ m ∈ p

theorem retainNew_firsts (l : List Text) : FirstsOf l (retainNew [] l) := by
  refine ⟨fun m => by rw [retainNew_mem]; simp, retainNew_nodup _ _, ?_⟩
  rintro p ⟨r, rfl⟩
  obtain ⟨c, hc⟩ := retainNew_append [] p r
  exact ⟨retainNew [] p, ⟨c, hc.symm⟩, fun m => by rw [retainNew_mem]; simp⟩

/-! ## Aliases -/

mutual
/-- The text of an alias before escaping, and the modules of the foreign types in it. -/
inductive AliasText (env : Env) (B : Backend σ) : Item → Text → List Text → Prop
  | ident {id} : AliasText env B (.ident id) id []
  | iType {id o t t'} : Means env id t → B.SaysI t o t' → AliasText env B (.iType id o) (env.disp t') []
  | fType {id t f} : Means env id t → B.SaysF t none f → AliasText env B (.fType id) f.display f.mods
  | concat {is t m} : AliasTexts env B is t m → AliasText env B (.concat is) t m
/-- Concatenation of the parts. -/
inductive AliasTexts (env : Env) (B : Backend σ) : List Item → Text → List Text → Prop
  | nil : AliasTexts env B [] [] []
  | cons {i is t m t' m'} : AliasText env B i t m → AliasTexts env B is t' m' →
      AliasTexts env B (i :: is) (t ++ t') (m ++ m')
end

mutual
theorem concatIdents_sound (env : Env) (B : Backend σ) :
    ∀ (i : Item) (s : σ) (m : List Text) (t : Text) (s' : σ) (m' : List Text) (t' : Text),
      concatIdents env B i (s, m, t) = .ok (s', m', t') →
        ∃ td md, t' = t ++ td ∧ m' = m ++ md ∧ AliasText env B i td md
  | .ident id, s, m, t, s', m', t', h => by
    simp only [concatIdents] at h
    cases h
    exact ⟨id, [], rfl, by simp, .ident⟩
  | .iType id o, s, m, t, s', m', t', h => by
    simp only [concatIdents] at h
    cases hf : findTypeParam env id with
    | error e => simp [hf] at h
    | ok ty =>
      simp only [hf] at h
      cases ha : ask (B.iType s ty o) env.disp with
      | error e => simp [ha] at h
      | ok r =>
        obtain ⟨d, s1⟩ := r
        simp only [ha] at h
        cases h
        obtain ⟨a, hb, rfl⟩ := (ask_iff _ _ _ _).1 ha
        exact ⟨_, [], rfl, by simp, .iType ((findTypeParam_iff _ _ _).1 hf) ⟨_, _, hb⟩⟩
  | .fType id, s, m, t, s', m', t', h => by
    simp only [concatIdents] at h
    cases hf : findTypeParam env id with
    | error e => simp [hf] at h
    | ok ty =>
      simp only [hf] at h
      cases ha : ask (B.fType s ty none) (·) with
      | error e => simp [ha] at h
      | ok r =>
        obtain ⟨d, s1⟩ := r
        simp only [ha] at h
        cases h
        obtain ⟨a, hb, rfl⟩ := (ask_iff _ _ _ _).1 ha
        exact ⟨_, _, rfl, rfl, .fType ((findTypeParam_iff _ _ _).1 hf) ⟨_, _, hb⟩⟩
  | .concat is, s, m, t, s', m', t', h => by
    simp only [concatIdents] at h
    obtain ⟨td, md, h1, h2, h3⟩ := concatAll_sound env B is s m t s' m' t' h
    exact ⟨td, md, h1, h2, .concat h3⟩
theorem concatAll_sound (env : Env) (B : Backend σ) :
    ∀ (is : List Item) (s : σ) (m : List Text) (t : Text) (s' : σ) (m' : List Text) (t' : Text),
      concatAll env B is (s, m, t) = .ok (s', m', t') →
        ∃ td md, t' = t ++ td ∧ m' = m ++ md ∧ AliasTexts env B is td md
  | [], s, m, t, s', m', t', h => by
    simp only [concatAll] at h
    cases h
    exact ⟨[], [], by simp, by simp, .nil⟩
  | i :: is, s, m, t, s', m', t', h => by
    simp only [concatAll] at h
    cases hc : concatIdents env B i (s, m, t) with
    | error e => simp [hc] at h
    | ok r =>
      obtain ⟨s1, m1, t1⟩ := r
      simp only [hc] at h
      obtain ⟨td, md, h1, h2, h3⟩ := concatIdents_sound env B i s m t s1 m1 t1 hc
      obtain ⟨td2, md2, h4, h5, h6⟩ := concatAll_sound env B is s1 m1 t1 s' m' t' h
      exact ⟨td ++ td2, md ++ md2, by rw [h4, h1, List.append_assoc], by rw [h5, h2, List.append_assoc], .cons h3 h6⟩
end

/-- The aliases in force: each declared name, in order, with the type its escaped text denotes. -/
inductive AliasesAre (env : Env) (B : Backend σ) : List (Text × Option Item) → List Alias → Prop
  | nil : AliasesAre env B [] []
  | cons {n it r t m ty l} : AliasText env B it t m → env.parse (escapeAsType t) = some ty → AliasesAre env B r l →
      AliasesAre env B ((n, some it) :: r) (⟨n, ty, m⟩ :: l)

/-- **C59**: what the aliases of a rule stand for in an instance. -/
theorem C59_aliases (env : Env) (B : Backend σ) (decls : List (Text × Option Item)) (s s' : σ) (al : List Alias)
    (h : buildAliases env B decls s = .ok (al, s')) : AliasesAre env B decls al := by
  induction decls generalizing s s' al with
  | nil => simp only [buildAliases] at h; cases h; exact .nil
  | cons d r ih =>
    obtain ⟨n, it⟩ := d
    cases it with
    | none => simp [buildAliases] at h
    | some it =>
      simp only [buildAliases] at h
      cases hc : concatIdents env B it (s, [], []) with
      | error e => simp [hc] at h
      | ok q =>
        obtain ⟨s1, m, t⟩ := q
        simp only [hc] at h
        cases hp : env.parse (escapeAsType t) with
        | none => simp [hp] at h
        | some ty =>
          simp only [hp] at h
          cases hb : buildAliases env B r s1 with
          | error e => simp [hb] at h
          | ok q =>
            obtain ⟨l, s2⟩ := q
            simp only [hb] at h
            cases h
            obtain ⟨td, md, h1, h2, h3⟩ := concatIdents_sound env B it s [] [] s1 m t hc
            simp only [List.nil_append] at h1 h2
            subst h1 h2
            exact .cons h3 hp (ih _ _ _ hb)

/-- A character of an ASCII identifier. -/
def IdentChar (c : Char) : Prop := ascii c = true ∧ (c.isAlphanum = true ∨ c = '_')

theorem digit_identChar (d : Nat) (h : d < 10) : IdentChar (Nat.digitChar d) := by
  have : ∀ d < 10, ascii (Nat.digitChar d) = true ∧ (Nat.digitChar d).isAlphanum = true := by decide
  exact ⟨(this d h).1, .inl (this d h).2⟩

theorem toDigits_identChar (n : Nat) : ∀ c ∈ Nat.toDigits 10 n, IdentChar c := by
  intro c hc
  have := Nat.isDigit_of_mem_toDigits (b := 10) (by omega) (by omega) hc
  have h2 : ∃ d < 10, c = Nat.digitChar d := by
    simp only [Char.isDigit, Bool.and_eq_true, decide_eq_true_eq] at this
    obtain ⟨h1, h2⟩ := this
    have h1' : 48 ≤ c.toNat := h1
    have h2' : c.toNat ≤ 57 := h2
    refine ⟨c.toNat - 48, by omega, ?_⟩
    have hc : c = Char.ofNat c.toNat := (Char.ofNat_toNat c).symm
    have : ∀ n, 48 ≤ n → n ≤ 57 → Char.ofNat n = Nat.digitChar (n - 48) := by
      intro n a b
      have : n = 48 ∨ n = 49 ∨ n = 50 ∨ n = 51 ∨ n = 52 ∨ n = 53 ∨ n = 54 ∨ n = 55 ∨ n = 56 ∨ n = 57 := by omega
      rcases this with h | h | h | h | h | h | h | h | h | h <;> subst h <;> decide
    rw [← this _ h1' h2']; exact hc
  obtain ⟨d, hd, rfl⟩ := h2
  exact digit_identChar d hd

theorem escChar_ident (c : Char) : ∀ x ∈ escChar c, IdentChar x := by
  intro x hx
  rw [escChar] at hx
  split at hx
  · rename_i h
    simp only [List.mem_cons, List.not_mem_nil, or_false] at hx
    subst hx
    simp only [Bool.or_eq_true, Bool.and_eq_true, beq_iff_eq] at h
    rcases h with h | rfl
    · exact ⟨h.1, .inl h.2⟩
    · exact ⟨by decide, .inr rfl⟩
  · exact toDigits_identChar _ x hx

/-- **C59**: an alias is made of identifier characters only, so it can be used as part of an identifier. -/
theorem C59_alias_is_identifier (s : Text) : ∀ c ∈ escapeAsType s, IdentChar c := by
  intro c hc
  rw [escapeAsType, List.mem_flatMap] at hc
  obtain ⟨x, -, hx⟩ := hc
  exact escChar_ident x c hx

/-- **C59**: an alias made of identifier parts is not changed by the escaping. -/
theorem C59_alias_keeps_identifiers (s : Text) (h : ∀ c ∈ s, IdentChar c) : escapeAsType s = s := by
  have hc : ∀ p : Text, ':' ∈ p → ¬ p <:+: s := by
    intro p hp hs
    have := h ':' (hs.subset hp)
    unfold IdentChar at this
    exact absurd this (by decide)
  have h1 : strReplace s rawLong [] = s := strReplace_absent _ _ _ (hc rawLong (by decide))
  have h2 : strReplace s rawShort [] = s := strReplace_absent _ _ _ (hc rawShort (by decide))
  rw [escapeAsType, h1, h2]
  clear h1 h2 hc
  induction s with
  | nil => rfl
  | cons c s ih =>
    rw [List.flatMap_cons, ih fun x hx => h x (by simp [hx])]
    have : escChar c = [c] := by
      rw [escChar, if_pos]
      have := h c (by simp)
      rcases this with ⟨h1, h2 | rfl⟩
      · simp [h1, h2]
      · simp
    rw [this]; rfl

/-- **C59 (finding)**: different texts can give one alias: a punctuation character and its decimal code look the same, and
the parts of `swig_concat_idents!` are not separated.  Rules that name C structures or headers by aliases
(`CRustPair`, `CRustOption`, ...) then define two different things under one name. -/
theorem C59_finding_alias_collisions :
    escapeAsType "CRustOptionVec<u8>".toList = escapeAsType "CRustOptionVec60u862".toList ∧
    (∀ (env : Env) (B : Backend σ) (s : σ), ∃ m,
      concatAll env B [.ident "CRustPair".toList, .ident "A".toList, .ident "BC".toList] (s, [], []) = .ok m ∧
      concatAll env B [.ident "CRustPair".toList, .ident "AB".toList, .ident "C".toList] (s, [], []) = .ok m) := by
  refine ⟨by decide +kernel, fun env B s => ⟨(s, [], "CRustPairABC".toList), ?_, ?_⟩⟩ <;>
  · simp only [concatAll, concatIdents]
    rfl

/-! ## Rules -/

/-- Both lists have the same length and correspond element by element. -/
inductive Each {α β : Type} (R : α → β → Prop) : List α → List β → Prop
  | nil : Each R [] []
  | cons {a b l l'} : R a b → Each R l l' → Each R (a :: l) (b :: l')

/-- Both are absent, or both are present and correspond. -/
inductive OptRel {α β : Type} (R : α → β → Prop) : Option α → Option β → Prop
  | none : OptRel R none none
  | some {a b} : R a b → OptRel R (some a) (some b)

/-- Instantiated Rust code: the template with its calls replaced; the variables it uses are found anew in the new text. -/
def CodeInst (env : Env) (B : Backend σ) (al : List Alias) (c c' : TypeConvCode) : Prop :=
  Becomes env.u (RustCall env B al) c.code c'.code ∧ ∀ p, p ∈ c'.params ↔ p ∈ [toVar, fromVar] ∧ p <:+: c'.code

/-- An instance of a Rust-side rule. -/
inductive RRuleInst (env : Env) (B : Backend σ) (al : List Alias) : Option RRule → Option RRule → Prop
  | none : RRuleInst env B al none none
  | some {r r' : RRule} : Expands env B al r.left r'.left → OptRel (Expands env B al) r.right r'.right →
      OptRel (CodeInst env B al) r.code r'.code → RRuleInst env B al (some r) (some r')

/-- The foreign names of an instance with the modules of the types in them. -/
inductive PairInst (env : Env) (B : Backend σ) (al : List Alias) : FTypes.FPair → FTypes.FPair → List Text → Prop
  | left {n n' m} : BecomesM env.u (NameCall env B al) n n' m → PairInst env B al (.onlyLeft n) (.onlyLeft n') m
  | right {n n' m} : BecomesM env.u (NameCall env B al) n n' m → PairInst env B al (.onlyRight n) (.onlyRight n') m
  | both {l l' m r r' n} : BecomesM env.u (NameCall env B al) l l' m → BecomesM env.u (NameCall env B al) r r' n →
      PairInst env B al (.both l r) (.both l' r') (m ++ n)

/-- An instance of a foreign-side rule. -/
structure FConvInst (env : Env) (B : Backend σ) (al : List Alias) (r r' : FConv) : Prop where
  cfg : r'.cfg = r.cfg
  inputToOutput : r'.inputToOutput = r.inputToOutput
  code : OptRel (fun c c' => Becomes env.u (ForeignCall env B al) c.code c'.code ∧ c'.params = c.params) r.code r'.code
  pre : OptRel (fun p p' => ∃ m, BecomesM env.u (NameCall env B al) p p' m) r.uniquePrefix r'.uniquePrefix
  /-- the modules of the foreign types in the names come first, then those written in the rule; repetitions are dropped -/
  names : ∃ m ms, PairInst env B al r.pair r'.pair m ∧
    Each (Becomes env.u (ModCall env al)) r.reqModules ms ∧ FirstsOf (m ++ ms) r'.reqModules

/-- An instance of a piece of foreign code. -/
structure FCodeInst (env : Env) (B : Backend σ) (al : List Alias) (c c' : FCode) : Prop where
  cfg : c'.cfg = c.cfg
  module : Becomes env.u (ModCall env al) c.module c'.module
  code : Becomes env.u (ForeignCall env B al) c.code c'.code

/-- Every template text of a foreign-side rule is ASCII. -/
structure FConv.Ascii (r : FConv) : Prop where
  code : ∀ c, r.code = some c → Inst.Ascii c.code
  pre : ∀ p, r.uniquePrefix = some p → Inst.Ascii p
  mods : ∀ m ∈ r.reqModules, Inst.Ascii m
  pair : match r.pair with
    | .onlyLeft n => Inst.Ascii n
    | .onlyRight n => Inst.Ascii n
    | .both l r => Inst.Ascii l ∧ Inst.Ascii r

theorem andThen_ok {α β : Type} {x : Out Er α} {f : α → Out Er β} {b : β} (h : andThen x f = .ok b) :
    ∃ a, x = .ok a ∧ f a = .ok b := by
  cases x with
  | ok a => exact ⟨a, rfl, h⟩
  | panic => cases h
  | error e => cases h
  | fuel => cases h

theorem foundParams_mem (code : Text) (p : Text) : p ∈ foundParams code ↔ p ∈ [toVar, fromVar] ∧ p <:+: code := by
  have key : ∀ q : Text, p ∈ (if strContains code q then [q] else []) ↔ p = q ∧ p <:+: code := by
    intro q
    by_cases hc : strContains code q = true
    · rw [if_pos hc]
      have := (strContains_iff code q).1 hc
      simp only [List.mem_cons, List.not_mem_nil, or_false]
      constructor
      · rintro rfl; exact ⟨rfl, this⟩
      · exact fun h => h.1
    · rw [if_neg hc]
      simp only [List.not_mem_nil, false_iff]
      rintro ⟨rfl, h⟩
      exact hc ((strContains_iff _ _).2 h)
  rw [foundParams, List.mem_append, key, key]
  simp only [List.mem_cons, List.not_mem_nil, or_false]
  grind

theorem expandCode_ok (env : Env) (B : Backend σ) (al : List Alias) (s s' : σ) (c c' : Option TypeConvCode)
    (ha : ∀ x, c = some x → Ascii x.code) (h : expandCode env B al s c = .ok (c', s')) :
    OptRel (CodeInst env B al) c c' := by
  cases c with
  | none => simp only [expandCode] at h; cases h; exact .none
  | some c =>
    simp only [expandCode] at h
    obtain ⟨⟨t, s1⟩, h1, h2⟩ := andThen_ok h
    simp only at h2
    cases hn : TypeConvCode.new t with
    | none => simp [hn] at h2
    | some d =>
      simp only [hn] at h2
      cases h2
      rw [TypeConvCode.new] at hn
      split at hn
      · cases hn
      · cases hn
        exact .some ⟨C59_rust_code env B al s s' c.code t (ha c rfl) h1, foundParams_mem t⟩

theorem expandRRule_ok (env : Env) (B : Backend σ) (al : List Alias) (hp : PlainParams env) (hB : B.TotalI) (s s' : σ)
    (r r' : Option RRule) (ha : ∀ x c, r = some x → x.code = some c → Ascii c.code)
    (hl : ∀ x, r = some x → ∃ t, Expands env B al x.left t)
    (hr : ∀ x t, r = some x → x.right = some t → ∃ t', Expands env B al t t')
    (h : expandRRule env B al s r = .ok (r', s')) : RRuleInst env B al r r' := by
  cases r with
  | none => simp only [expandRRule] at h; cases h; exact .none
  | some r =>
    simp only [expandRRule] at h
    obtain ⟨⟨c, s1⟩, h1, h2⟩ := andThen_ok h
    cases h2
    obtain ⟨tl, hl⟩ := hl r rfl
    refine .some (C59_types env B al hp hB s _ _ hl) ?_ (expandCode_ok env B al _ _ _ _ (fun x hx => ha r x rfl hx) h1)
    cases hrt : r.right with
    | none => exact .none
    | some t =>
      obtain ⟨t', ht'⟩ := hr r t rfl hrt
      exact .some <| C59_types env B al hp hB _ _ _ ht'

theorem expandPair_ok (env : Env) (B : Backend σ) (al : List Alias) (s : σ) (p p' : FTypes.FPair) (s' : σ × List Text)
    (ha : match p with
      | .onlyLeft n => Ascii n
      | .onlyRight n => Ascii n
      | .both l r => Ascii l ∧ Ascii r)
    (h : expandPair env B al (s, []) p = .ok (p', s')) : PairInst env B al p p' s'.2 := by
  cases p with
  | onlyLeft n =>
    simp only [expandPair] at h
    obtain ⟨⟨n', s1⟩, h1, h2⟩ := andThen_ok h
    cases h2
    obtain ⟨m, h3, h4⟩ := C59_type_name env B al _ _ n n' ha h1
    rw [h3]
    exact .left (by simpa using h4)
  | onlyRight n =>
    simp only [expandPair] at h
    obtain ⟨⟨n', s1⟩, h1, h2⟩ := andThen_ok h
    cases h2
    obtain ⟨m, h3, h4⟩ := C59_type_name env B al _ _ n n' ha h1
    rw [h3]
    exact .right (by simpa using h4)
  | both l r =>
    simp only [expandPair] at h
    obtain ⟨⟨l', s1⟩, h1, h2⟩ := andThen_ok h
    obtain ⟨⟨r', s2⟩, h3, h4⟩ := andThen_ok h2
    cases h4
    obtain ⟨m, h5, h6⟩ := C59_type_name env B al _ _ l l' ha.1 h1
    obtain ⟨m', h7, h8⟩ := C59_type_name env B al _ _ r r' ha.2 h3
    rw [h7, h5]
    simp only [List.nil_append]
    exact .both h6 h8

theorem expandModules_ok (env : Env) (al : List Alias) (ms ms' : List Text) (ha : ∀ m ∈ ms, Ascii m)
    (h : expandModules env al ms = .ok ms') : Each (Becomes env.u (ModCall env al)) ms ms' := by
  induction ms generalizing ms' with
  | nil => simp only [expandModules] at h; cases h; exact .nil
  | cons m ms ih =>
    simp only [expandModules] at h
    obtain ⟨m', h1, h2⟩ := andThen_ok h
    obtain ⟨r', h3, h4⟩ := andThen_ok h2
    cases h4
    exact .cons ((C59_module_name env al m (ha m (by simp))).1 m' h1) (ih r' (fun x hx => ha x (by simp [hx])) h3)

/-- **C59**: an instance of a foreign-side rule: names, code, hidden prefix and required modules. -/
theorem C59_foreign_rule (env : Env) (B : Backend σ) (al : List Alias) (s s' : σ) (r r' : FConv) (ha : r.Ascii)
    (h : expandFConv env B al s r = .ok (r', s')) : FConvInst env B al r r' := by
  rw [expandFConv] at h
  obtain ⟨⟨pair, s1⟩, h1, h⟩ := andThen_ok h
  obtain ⟨⟨code, s2⟩, h2, h⟩ := andThen_ok h
  obtain ⟨ms, h3, h⟩ := andThen_ok h
  obtain ⟨⟨pre, s3⟩, h4, h⟩ := andThen_ok h
  cases h
  refine ⟨rfl, rfl, ?_, ?_, ?_⟩
  · cases hc : r.code with
    | none => rw [hc] at h2; simp only [expandFConvCode] at h2; cases h2; exact .none
    | some c =>
      rw [hc] at h2
      simp only [expandFConvCode] at h2
      obtain ⟨⟨t, s4⟩, h5, h6⟩ := andThen_ok h2
      cases h6
      exact .some ⟨C59_foreign_code env B al _ _ _ _ (ha.code c hc) h5, rfl⟩
  · cases hc : r.uniquePrefix with
    | none => rw [hc] at h4; simp only [expandPrefix] at h4; cases h4; exact .none
    | some c =>
      rw [hc] at h4
      simp only [expandPrefix] at h4
      obtain ⟨⟨t, s4⟩, h5, h6⟩ := andThen_ok h4
      cases h6
      obtain ⟨m, -, h7⟩ := C59_type_name env B al _ _ c t (ha.pre c hc) h5
      exact .some ⟨m, h7⟩
  · exact ⟨s1.2, ms, expandPair_ok env B al s _ _ _ ha.pair h1, expandModules_ok env al _ _ ha.mods h3,
      retainNew_firsts _⟩

theorem expandFConvs_ok (env : Env) (B : Backend σ) (al : List Alias) (s s' : σ) (rs rs' : List FConv)
    (ha : ∀ r ∈ rs, r.Ascii) (h : expandFConvs env B al s rs = .ok (rs', s')) :
    Each (FConvInst env B al) rs rs' := by
  induction rs generalizing s s' rs' with
  | nil => simp only [expandFConvs] at h; cases h; exact .nil
  | cons r rs ih =>
    simp only [expandFConvs] at h
    obtain ⟨⟨r1, s1⟩, h1, h⟩ := andThen_ok h
    obtain ⟨⟨r2, s2⟩, h2, h⟩ := andThen_ok h
    cases h
    exact .cons (C59_foreign_rule env B al _ _ _ _ (ha r (by simp)) h1) (ih _ _ _ (fun x hx => ha x (by simp [hx])) h2)

theorem expandFCode_ok (env : Env) (B : Backend σ) (al : List Alias) (s s' : σ) (cs cs' : List FCode)
    (ha : ∀ c ∈ cs, Ascii c.code ∧ Ascii c.module) (h : expandFCode env B al s cs = .ok (cs', s')) :
    Each (FCodeInst env B al) cs cs' := by
  induction cs generalizing s s' cs' with
  | nil => simp only [expandFCode] at h; cases h; exact .nil
  | cons c cs ih =>
    simp only [expandFCode] at h
    obtain ⟨m, h1, h⟩ := andThen_ok h
    obtain ⟨⟨t, s1⟩, h2, h⟩ := andThen_ok h
    obtain ⟨⟨r2, s2⟩, h3, h⟩ := andThen_ok h
    cases h
    have hc := ha c (by simp)
    exact .cons ⟨rfl, (C59_module_name env al _ hc.2).1 m h1, C59_foreign_code env B al _ _ _ _ hc.1 h2⟩
      (ih _ _ _ (fun x hx => ha x (by simp [hx])) h3)

/-- A side of an instance: absent unless it was asked for. -/
def SideInst (env : Env) (B : Backend σ) (al : List Alias) (wanted : Prop) (r : Option RRule) (f : List FConv)
    (r' : Option RRule) (f' : List FConv) : Prop :=
  (wanted ∧ RRuleInst env B al r r' ∧ Each (FConvInst env B al) f f') ∨ (¬ wanted ∧ r' = none ∧ f' = [])

/-- A rule that only says how a Rust type is called in the foreign language: one type, one name, no code. -/
def OnlyNames {κ : Type} (r : Rule κ) : Prop :=
  r.rRL = none ∧ r.fRL = [] ∧ ∃ t f n, r.rLR = some ⟨t, none, none⟩ ∧ r.fLR = [f] ∧ f.pair = .onlyLeft n ∧ f.code = none

theorem isSimple_iff {κ : Type} (r : Rule κ) : r.isSimple = true ↔ OnlyNames r := by
  rcases r with ⟨g, lr, rl, fl, fr, c, gc, fc, al⟩
  simp only [Rule.isSimple, OnlyNames]
  cases rl with
  | some x => simp
  | none =>
    cases fr with
    | cons a b => simp
    | nil =>
      match fl with
      | [] => cases lr <;> simp
      | a :: b :: l => simp
      | [f] =>
        rcases f with ⟨p1, p2, p3, pr, io, code⟩
        cases lr with
        | none => simp
        | some q =>
          rcases q with ⟨q1, q2, q3⟩
          cases q2 <;> cases q3 <;> cases pr <;> cases code <;> simp

theorem expandSide_ok (env : Env) (B : Backend σ) (al : List Alias) (hp : PlainParams env) (hB : B.TotalI) (w : Bool)
    (s s' : σ) (r r' : Option RRule) (f f' : List FConv) (ha : ∀ x c, r = some x → x.code = some c → Ascii c.code)
    (haf : ∀ x ∈ f, x.Ascii)
    (hl : ∀ x, r = some x → ∃ t, Expands env B al x.left t)
    (hr : ∀ x t, r = some x → x.right = some t → ∃ t', Expands env B al t t')
    (h : expandSide env B al w s r f = .ok ((r', f'), s')) : SideInst env B al (w = true) r f r' f' := by
  cases w with
  | false => simp only [expandSide] at h; cases h; exact .inr ⟨by simp, rfl, rfl⟩
  | true =>
    simp only [expandSide, if_true] at h
    obtain ⟨⟨r1, s1⟩, h1, h⟩ := andThen_ok h
    obtain ⟨⟨f1, s2⟩, h2, h⟩ := andThen_ok h
    cases h
    exact .inl ⟨rfl, expandRRule_ok env B al hp hB _ _ _ _ ha hl hr h1, expandFConvs_ok env B al _ _ _ _ haf h2⟩

/-- All templates of the rule are ASCII. -/
structure Rule.Ascii {κ : Type} (r : Rule κ) : Prop where
  lr : ∀ x c, r.rLR = some x → x.code = some c → Inst.Ascii c.code
  rl : ∀ x c, r.rRL = some x → x.code = some c → Inst.Ascii c.code
  flr : ∀ x ∈ r.fLR, x.Ascii
  frl : ∀ x ∈ r.fRL, x.Ascii
  fcode : ∀ c ∈ r.fCode, Inst.Ascii c.code ∧ Inst.Ascii c.module

/-- Every macro call in the types of the rule is understood. -/
structure Rule.TypesKnown {κ : Type} (env : Env) (B : Backend σ) (al : List Alias) (r : Rule κ) : Prop where
  left : ∀ x, (r.rLR = some x ∨ r.rRL = some x) → ∃ t, Expands env B al x.left t
  right : ∀ x t, (r.rLR = some x ∨ r.rRL = some x) → x.right = some t → ∃ t', Expands env B al t t'

/-- **C59**: an instance of a generic rule is not generic any more, has no aliases and no C items of its own; the
conversion to the foreign side is there exactly when it was asked for or the rule only gives a name, the conversion from
the foreign side exactly when it was asked for; and every part is the corresponding part of the rule with parameters,
aliases and macro calls replaced. -/
theorem C59_instance {κ : Type} (env : Env) (B : Backend σ) (d : Dir) (s s' : σ) (r r' : Rule κ) (hp : PlainParams env)
    (hB : B.TotalI) (ha : r.Ascii) (ht : ∀ al, AliasesAre env B r.aliases al → r.TypesKnown env B al)
    (h : substGenericParams env B d s r = .ok (r', s')) :
    ∃ al, AliasesAre env B r.aliases al ∧
      SideInst env B al (d = .outgoing ∨ OnlyNames r) r.rLR r.fLR r'.rLR r'.fLR ∧
      SideInst env B al (d = .incoming) r.rRL r.fRL r'.rRL r'.fRL ∧
      Each (FCodeInst env B al) r.fCode r'.fCode ∧
      r'.generic = false ∧ r'.aliases = [] ∧ r'.cTypes = none ∧ r'.genericC = none := by
  rw [substGenericParams] at h
  split at h
  · cases h
  · obtain ⟨⟨al, s1⟩, h1, h⟩ := andThen_ok h
    obtain ⟨⟨⟨a, b⟩, s2⟩, h2, h⟩ := andThen_ok h
    obtain ⟨⟨⟨c, e⟩, s3⟩, h3, h⟩ := andThen_ok h
    obtain ⟨⟨fc, s4⟩, h4, h⟩ := andThen_ok h
    cases h
    have hb : buildAliases env B r.aliases s = .ok (al, s1) := by
      cases hq : buildAliases env B r.aliases s with
      | error e => rw [hq] at h1; cases h1
      | ok q => rw [hq] at h1; cases h1; rfl
    have hal := C59_aliases env B _ _ _ _ hb
    have hk := ht al hal
    refine ⟨al, hal, ?_, ?_, expandFCode_ok env B al _ _ _ _ ha.fcode h4, rfl, rfl, rfl, rfl⟩
    · have := expandSide_ok env B al hp hB _ _ _ _ _ _ _ ha.lr ha.flr (fun x hx => hk.left x (.inl hx))
        (fun x t hx => hk.right x t (.inl hx)) h2
      simp only [Bool.or_eq_true, decide_eq_true_eq, isSimple_iff] at this
      exact this
    · have := expandSide_ok env B al hp hB _ _ _ _ _ _ _ ha.rl ha.frl (fun x hx => hk.left x (.inr hx))
        (fun x t hx => hk.right x t (.inr hx)) h3
      simp only [decide_eq_true_eq] at this
      exact this

/-- **C59**: a rule that is not generic is never instantiated: asking for it is a panic. -/
theorem C59_only_generic_rules {κ : Type} (env : Env) (B : Backend σ) (d : Dir) (s : σ) (r : Rule κ) (parseC : Text → Option κ)
    (h : r.generic = false) :
    substGenericParams env B d s r = .panic ∧ substToCItems env parseC B s r = .panic := by
  simp [substGenericParams, substToCItems, h]

/-- **C59**: the C items of an instance are the items that the instantiated text denotes, in the header whose name is
the instantiated header name; a rule without generic items keeps its own. -/
theorem C59_c_items {κ : Type} (env : Env) (B : Backend σ) (s s' : σ) (r : Rule κ) (parseC : Text → Option κ)
    (res : Option (Text × κ)) (ha : ∀ h src, r.genericC = some (h, src) → Ascii src ∧ Ascii h)
    (h : substToCItems env parseC B s r = .ok (res, s')) :
    ∃ al, AliasesAre env B r.aliases al ∧
      (match r.genericC with
        | none => res = r.cTypes
        | some (hd, src) => r.cTypes = none ∧ ∃ hd' src' items, res = some (hd', items) ∧
            Becomes env.u (ModCall env al) hd hd' ∧ Becomes env.u (RustCall env B al) src src' ∧
            parseC src' = some items) := by
  rw [substToCItems] at h
  split at h
  · cases h
  · obtain ⟨⟨al, s1⟩, h1, h⟩ := andThen_ok h
    have hb : buildAliases env B r.aliases s = .ok (al, s1) := by
      cases hq : buildAliases env B r.aliases s with
      | error e => rw [hq] at h1; cases h1
      | ok q => rw [hq] at h1; cases h1; rfl
    refine ⟨al, C59_aliases env B _ _ _ _ hb, ?_⟩
    cases hg : r.genericC with
    | none => simp only [hg] at h; cases h; rfl
    | some p =>
      obtain ⟨hd, src⟩ := p
      simp only [hg] at h
      obtain ⟨⟨t, s2⟩, h2, h⟩ := andThen_ok h
      simp only at h
      cases hpc : parseC t with
      | none => simp [hpc] at h
      | some items =>
        simp only [hpc] at h
        cases hct : r.cTypes with
        | some _ => simp [hct] at h
        | none =>
          simp only [hct, Option.isSome_none, Bool.false_eq_true, if_false] at h
          obtain ⟨hd', h3, h⟩ := andThen_ok h
          cases h
          have := ha hd src hg
          exact ⟨rfl, hd', t, items, rfl, (C59_module_name env al _ this.2).1 _ h3, C59_rust_code env B al _ _ _ _ this.1 h2, hpc⟩

/-! ## Findings -/

/-- **C59 (finding)**: the modules of foreign types that are mentioned only in the conversion *code* of a rule are not
required by the instance, so the header that declares such a type need not be included. -/
theorem C59_finding_code_modules_dropped (env : Env) (B : Backend σ) (al : List Alias) (s s' : σ) (r r' : FConv) (n : Text)
    (hp : r.pair = .onlyLeft n) (hn : '!' ∉ n) (ha : Ascii n) (hm : r.reqModules = [])
    (h : expandFConv env B al s r = .ok (r', s')) : r'.reqModules = [] := by
  rw [expandFConv, hp, hm] at h
  obtain ⟨⟨pair, s1⟩, h1, h⟩ := andThen_ok h
  obtain ⟨⟨code, s2⟩, h2, h⟩ := andThen_ok h
  obtain ⟨ms, h3, h⟩ := andThen_ok h
  obtain ⟨⟨pre, s3⟩, h4, h⟩ := andThen_ok h
  cases h
  simp only [expandModules] at h3
  cases h3
  simp only [expandPair, expandName, C20_no_bang_unchanged env.u (nameExp env B al) (s, []) n ha hn, andThen] at h1
  cases h1
  rfl

/-! ## Non-vacuity: an instance of a rule like the shipped one for `Option<T>` -/

/-- No letters outside ASCII. -/
def plainU : Unicode := ⟨fun _ => false, fun _ => false, fun _ => false⟩

/-- A type with a plain name. -/
def name (t : Text) : PTy := .node t .nil

/-- Prints plain names; everything else as `?`. -/
def showTy : PTy → Text
  | .node h .nil => h
  | .node h (.cons (.node g .nil) .nil) => h ++ "<".toList ++ g ++ ">".toList
  | _ => "?".toList

/-- `T` is `u8`. -/
def sampleEnv : Env where
  u := plainU
  norm := showTy
  disp := showTy
  parse t := match t with
    | '&' :: r => some (.ref [] (name r))
    | t => some (name t)
  params p := if p = "T".toList then some (name "u8".toList) else none

/-- A backend that counts the questions. -/
def sampleB : Backend Nat where
  iType s t _ := (.ok t, s + 1)
  fType s _ _ := (.ok ⟨"uint8_t".toList, "uint8_t".toList, ["<stdint.h>".toList]⟩, s + 1)
  rustToI s _ x y := (.ok (y ++ " = ".toList ++ x ++ ";".toList), s + 1)
  iToRust s _ x y := (.ok (y ++ " = ".toList ++ x ++ ";".toList), s + 1)
  foreignToI s _ x := (.ok x, s + 1)
  foreignFromI s _ x := (.ok x, s + 1)

theorem sampleB_total : sampleB.Total :=
  ⟨fun _ _ _ => ⟨_, _, rfl⟩, fun _ _ _ => ⟨_, _, rfl⟩, fun _ _ _ _ => ⟨_, _, rfl⟩, fun _ _ _ _ => ⟨_, _, rfl⟩,
    fun _ _ _ => ⟨_, _, rfl⟩, fun _ _ _ => ⟨_, _, rfl⟩⟩

/-- Like the rule for `Option<T>` in macroslib/src/cpp/cpp-include.rs:581-651. -/
def sampleRule : Rule Unit where
  generic := true
  rLR := some ⟨.node "Option".toList (.cons (name "T".toList) .nil), some (.mac "COpt".toList []),
    some ⟨"let mut {to_var}: COpt!() = f({from_var}); swig_from_rust_to_i_type!(T, a, b) dbg!(a,b);".toList, []⟩⟩
  rRL := none
  fLR := [⟨none, ["\"COpt!().h\"".toList, "<stdint.h>".toList], none, .onlyRight "opt<swig_f_type!(T)>".toList, false,
    some ⟨"swig_foreign_from_i_type!(T, $p.val)".toList, ["$p".toList]⟩⟩]
  fRL := []
  cTypes := none
  genericC := some ("COpt!().h".toList, "struct COpt!() { data: swig_i_type!(T) }".toList)
  fCode := [⟨"COpt!().h".toList, none, "typedef swig_f_type!(T) X;".toList⟩]
  aliases := [("COpt".toList, some (.concat [.ident "COpt".toList, .iType "T".toList none]))]

/-- What it becomes. -/
def sampleInstance : Option (Option RRule × List FConv × List FCode × Nat) :=
  match substGenericParams sampleEnv sampleB .outgoing 0 sampleRule with
  | .ok (r, n) => some (r.rLR, r.fLR, r.fCode, n)
  | _ => none

example : sampleInstance = some
    (some ⟨.node "Option".toList (.cons (name "u8".toList) .nil), some (name "COptu8".toList),
      some ⟨"let mut {to_var}: COptu8 = f({from_var}); b = a; dbg!(a, b);".toList, [toVar, fromVar]⟩⟩,
    [⟨none, ["<stdint.h>".toList, "\"COptu8.h\"".toList], none, .onlyRight "opt<uint8_t>".toList, false,
      some ⟨"$p.val".toList, ["$p".toList]⟩⟩],
    [⟨"COptu8.h".toList, none, "typedef uint8_t X;".toList⟩], 5) := by decide +kernel

example : (match substToCItems sampleEnv (fun t => if t = "struct COptu8 { data: u8 }".toList then some () else none)
    sampleB 0 sampleRule with
  | .ok (r, _) => r
  | _ => none) = some ("COptu8.h".toList, ()) := by decide +kernel

example : sampleRule.Ascii := by
  have ha : ∀ t : Text, (t.all ascii) = true → Ascii t := fun t h c hc => List.all_eq_true.1 h c hc
  refine ⟨?_, ?_, ?_, ?_, ?_⟩
  · intro x c h1 h2
    cases h1; cases h2
    exact ha _ (by decide +kernel)
  · intro x c h1; cases h1
  · intro x hx
    simp only [sampleRule, List.mem_cons, List.not_mem_nil, or_false] at hx
    subst hx
    refine ⟨?_, ?_, ?_, ?_⟩
    · intro c h; cases h; exact ha _ (by decide +kernel)
    · intro c h; cases h
    · intro m hm
      simp only [List.mem_cons, List.not_mem_nil, or_false] at hm
      rcases hm with rfl | rfl
      · exact ha _ (by decide +kernel)
      · exact ha _ (by decide +kernel)
    · exact ha _ (by decide +kernel)
  · intro x hx; cases hx
  · intro c hc
    simp only [sampleRule, List.mem_cons, List.not_mem_nil, or_false] at hc
    subst hc
    exact ⟨ha _ (by decide +kernel), ha _ (by decide +kernel)⟩

example : PlainParams sampleEnv := by
  intro p t h id arg
  simp only [sampleEnv] at h
  split at h
  · cases h; simp [name]
  · cases h

example : ∃ al, AliasesAre sampleEnv sampleB sampleRule.aliases al ∧ sampleRule.TypesKnown sampleEnv sampleB al := by
  refine ⟨[⟨"COpt".toList, name "COptu8".toList, []⟩], ?_, ?_⟩
  · refine .cons (t := "COptu8".toList) (.concat (.cons .ident (.cons
      (.iType (t := name "u8".toList) (t' := name "u8".toList) (.param (by decide +kernel)) ⟨0, 1, rfl⟩) .nil)))
      (by decide +kernel) .nil
  · have h0 : sampleRule.rLR = some ⟨.node "Option".toList (.cons (name "T".toList) .nil), some (.mac "COpt".toList []),
      some ⟨"let mut {to_var}: COpt!() = f({from_var}); swig_from_rust_to_i_type!(T, a, b) dbg!(a,b);".toList, []⟩⟩ := rfl
    have h1 : sampleRule.rRL = none := rfl
    constructor
    · rintro x (h | h)
      · rw [h0] at h
        cases h
        refine ⟨.node "Option".toList (.cons (name "u8".toList) .nil), .node (by decide +kernel) (.cons (.param ?_) .nil)⟩
        decide +kernel
      · rw [h1] at h; cases h
    · rintro x t (h | h) ht
      · rw [h0] at h
        cases h
        cases ht
        exact ⟨name "COptu8".toList, .alias (a := ⟨"COpt".toList, name "COptu8".toList, []⟩) (by decide +kernel)
          (by decide +kernel) .here⟩
      · rw [h1] at h; cases h

/-- **C59 (finding)**: inside the parameters of the user's own macros flapigen's macros are not replaced, and string
literals are not respected: blanks and empty parts around commas are lost. -/
theorem C59_finding_user_macro_parameters :
    (match expandRustCode sampleEnv sampleB [] 0 "assert!(swig_i_type!(T)::MAX > 0);".toList with
      | .ok (t, _) => t
      | _ => []) = "assert!(swig_i_type!(T)::MAX > 0);".toList ∧
    (match expandRustCode sampleEnv sampleB [] 0 "log!(\"a,,  b\");".toList with
      | .ok (t, _) => t
      | _ => []) = "log!(\"a, b\");".toList := by decide +kernel

example : (match expandForeignCode sampleEnv sampleB [] 0 "no_such!(T)".toList with
  | .error e => some e
  | _ => none) = some .unknown := by decide +kernel

example : (match expandName sampleEnv sampleB [] (0, []) "S<swig_f_type!(&T, output)>".toList with
  | .ok (t, _, m) => (t, m)
  | _ => ([], [])) = ("S<uint8_t>".toList, ["<stdint.h>".toList]) := by decide +kernel

end Flapi.Inst
