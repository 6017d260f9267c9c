import Verif.Java.SymbolProps
/-!
# C30 (agreement with the JVM) and C50 (all symbols of a class)
-/
namespace Flapi.JavaNames

/-! ## Agreement with the JVM's lookup -/

/-- Characters for which the escape of the generator is the one of the JNI specification. -/
def PlainChar (c : Char) : Prop := c.isAlphanum ∨ c = '_' ∨ c = '.' ∨ c = ';' ∨ c = '['

theorem esc_eq_jvm (s : Text) (h : ∀ c ∈ s, PlainChar c) : esc s = (slashes s).flatMap jvmEscape := by
  induction s with
  | nil => rfl
  | cons c s ih =>
    rw [esc_cons, ih (fun c hc => h c (by simp [hc]))]
    change _ = ((if c = '.' then '/' else c) :: slashes s).flatMap jvmEscape
    rw [List.flatMap_cons]
    congr 1
    unfold escChar
    rcases h c (by simp) with ha | rfl | rfl | rfl | rfl
    · have n1 : c ≠ '.' := by rintro rfl; exact absurd ha (by decide)
      have n2 : c ≠ '[' := by rintro rfl; exact absurd ha (by decide)
      have n3 : c ≠ '_' := by rintro rfl; exact absurd ha (by decide)
      have n4 : c ≠ ';' := by rintro rfl; exact absurd ha (by decide)
      have n5 : c ≠ '/' := by rintro rfl; exact absurd ha (by decide)
      simp [jvmEscape, n1, n2, n3, n4, n5, ha]
    all_goals decide

theorem AsciiName.plain {n : Text} (h : AsciiName n) : ∀ c ∈ n, PlainChar c := by
  intro c hc
  rcases h c hc with h | h
  · exact Or.inl h
  · exact Or.inr (Or.inl h)

theorem dotted_plain (l : List Text) (h : ∀ c ∈ l, AsciiName c) : ∀ c ∈ dotted l, PlainChar c := by
  induction l with
  | nil => simp [dotted]
  | cons c l ih =>
    cases l with
    | nil => exact (h c (by simp)).plain
    | cons d l =>
      intro x hx
      rw [dotted_cons, List.mem_append, List.mem_cons] at hx
      rcases hx with hx | hx | hx
      · exact (h c (by simp)).plain x hx
      · exact Or.inr (Or.inr (Or.inl hx))
      · exact ih (fun c hc => h c (by simp_all)) x hx

theorem desc_plain_of_slashes (s : Text) (d : Text) (h : slashes s = d) (hd : ∀ c ∈ d, PlainChar c ∨ c = '/')
    (hs : '/' ∉ s) : ∀ c ∈ s, PlainChar c := by
  intro c hc
  by_cases he : c = '.'
  · exact Or.inr (Or.inr (Or.inl he))
  · have : c ∈ d := by
      rw [← h]
      unfold slashes
      exact List.mem_map.2 ⟨c, hc, by rw [if_neg he]⟩
    rcases hd c this with h | h
    · exact h
    · exact absurd (h ▸ hc) hs

/-- The entry of a type is made of plain characters. -/
theorem table_entry_plain (comps : List Text) (hi : ∀ c ∈ comps, AsciiName c) (regs : List Reg)
    (hr : ∀ r ∈ regs, GoodName r.name) (ha : ∀ r ∈ regs, AsciiName r.name) (w : Text) (t : JTy)
    (h : Spells (dotted comps) regs w t) :
    ∀ s, SigMap.get (table (dotted comps) regs) w = some s → ∀ c ∈ s, PlainChar c := by
  intro s hs
  have hir : ∀ r ∈ regs, Ident r.name := fun r h => (hr r h).1
  have pre : ∀ s', SigMap.get predefined w = some s' → s = s' := by
    intro s' h'
    unfold table at hs
    rw [foldl_predef _ regs _ hr w (mem_predef_of_get h'), h'] at hs
    exact (Option.some.inj hs).symm
  have hg : ∀ n, AsciiName n → ∀ c ∈ genSig (dotted comps) n, PlainChar c := by
    intro n hn c hc
    change c ∈ 'L' :: ((dotted comps ++ '.' :: n) ++ [';']) at hc
    simp only [List.mem_cons, List.mem_append, List.not_mem_nil, or_false] at hc
    rcases hc with rfl | (hc | rfl | hc) | rfl
    · exact Or.inl (by decide)
    · exact dotted_plain comps hi c hc
    · exact Or.inr (Or.inr (Or.inl rfl))
    · exact hn.plain c hc
    · exact Or.inr (Or.inr (Or.inr (Or.inl rfl)))
  cases h with
  | prim p =>
    rw [pre [p.letter] (by cases p <;> decide)]
    intro c hc; simp at hc; subst hc; exact Or.inl (by cases p <;> decide)
  | primArr p =>
    rw [pre ['[', p.letter] (by cases p <;> decide)]
    intro c hc
    simp only [List.mem_cons, List.not_mem_nil, or_false] at hc
    rcases hc with rfl | rfl
    · exact Or.inr (Or.inr (Or.inr (Or.inr rfl)))
    · exact Or.inl (by cases p <;> decide)
  | string =>
    rw [pre "Ljava.lang.String;".toList (by decide)]
    unfold PlainChar
    decide
  | gen r h =>
    have := foldl_gen (dotted comps) regs hir r h predefined
    unfold MapOk at this
    unfold table at hs
    rw [this] at hs
    rw [← Option.some.inj hs]
    exact hg _ (ha r h)
  | genArr n h =>
    have := foldl_genArr (dotted comps) regs hir n h predefined
    unfold ArrOk at this
    unfold table at hs
    change SigMap.get _ (n ++ sfx) = _ at hs
    rw [this] at hs
    rw [← Option.some.inj hs]
    intro c hc
    rw [List.mem_cons] at hc
    rcases hc with rfl | hc
    · exact Or.inr (Or.inr (Or.inr (Or.inr rfl)))
    · exact hg _ (ha _ h) c hc

theorem escArgs_jvm (comps : List Text) (hi : ∀ c ∈ comps, AsciiName c) (regs : List Reg)
    (hr : ∀ r ∈ regs, GoodName r.name) (ha : ∀ r ∈ regs, AsciiName r.name) (args : List ArgTy) (tys : List JTy)
    (h : Names (dotted comps) regs (args.map ArgTy.native) tys) :
    escArgs (table (dotted comps) regs) args = some ((tys.flatMap JTy.desc).flatMap jvmEscape) := by
  induction args generalizing tys with
  | nil => cases h with | nil => rfl
  | cons a l ih =>
    cases h with
    | cons hs han hn =>
      obtain ⟨s, g1, g2⟩ := table_spells _ regs hr _ _ hs
      have hcl := hs.clean (fun r h => (hr r h).1)
      rw [escArgs, typeSig_annotated _ hcl han, g1, ih _ hn]
      simp only [Option.bind_eq_bind, Option.bind_some, Option.pure_def, List.flatMap_cons, List.flatMap_append]
      rw [esc_eq_jvm s (table_entry_plain comps hi regs hr ha _ _ hs s g1), g2]

theorem jvmEscape_slash : jvmEscape '/' = ['_'] := by decide

/-- **C30**: for names of ASCII letters, digits and `_` the exported symbol is exactly the name the JVM looks up: the short
name of a method that is not overloaded, the long name (with the descriptors of the native parameters, the first of which
is the `long` holding the native pointer for a method on `self`) of an overloaded one. -/
theorem C30_symbol_is_what_the_jvm_looks_up (n : Native) (hn : n.Good) (hp : ∀ c ∈ n.comps, AsciiName c)
    (hc : AsciiName n.cls) (hm : AsciiName n.meth) (hr : ∀ r ∈ n.regs, AsciiName r.name) :
    n.symbol = some (if n.overloaded then
        jvmLongName (slashes (dotted n.comps) ++ '/' :: n.cls) n.meth (nativeTys n.variant n.tys)
      else jvmShortName (slashes (dotted n.comps) ++ '/' :: n.cls) n.meth) := by
  have hs : "Java_".toList ++ esc (dotted n.comps) ++ '_' :: esc n.cls ++ '_' :: esc n.meth =
      jvmShortName (slashes (dotted n.comps) ++ '/' :: n.cls) n.meth := by
    unfold jvmShortName
    rw [esc_eq_jvm _ (dotted_plain _ hp), esc_eq_jvm _ hc.plain, esc_eq_jvm _ hm.plain, slashes_id hn.cls.nodot,
      slashes_id hn.meth.nodot, List.flatMap_append, List.flatMap_cons, jvmEscape_slash]
    simp only [List.append_assoc, List.cons_append, List.nil_append]
  unfold Native.symbol jniFuncName
  rw [hs]
  cases ho : n.overloaded with
  | false => rfl
  | true =>
    simp only [if_true]
    rw [escArgs_jvm n.comps hp n.regs hn.regs hr n.args n.tys (hn.args ho)]
    simp only [Option.bind_eq_bind, Option.bind_some, Option.pure_def, jvmLongName, nativeTys]
    split
    · rw [List.flatMap_cons, List.flatMap_append, List.append_assoc (_ ++ _)]
      rfl
    · rw [List.append_nil]

/-- **C30 (finding)**: a component starting with an escape digit breaks the scheme (a package component cannot, by Java's
rules, but the generator does not check): package `a.1b` and package `a_b`. -/
theorem C30_finding_digit (m : SigMap) (cls meth : Text) (v : Variant) :
    jniFuncName m "a.1b".toList cls meth v [] false = jniFuncName m "a_b".toList cls meth v [] false := rfl

/-- **C30 (finding)**: `$` (legal in Java package names) and non-ASCII letters (legal in Rust and Java identifiers) are not
escaped, so the JVM never finds such a method. -/
theorem C30_finding_other_characters (m : SigMap) (meth : Text) (v : Variant) :
    jniFuncName m "p".toList "Größe".toList "f".toList v [] false ≠ some (jvmShortName "p/Größe".toList "f".toList) := by
  intro h
  have h' : (some "Java_p_Größe_f".toList : Option Text) = some (jvmShortName "p/Größe".toList "f".toList) := h
  revert h'
  decide

/-! ## C50 -/

/-- What Java itself sees of the native counterpart of a method: name and parameter types. -/
def nativeSig (tys : Method → List JTy) (m : Method) : Text × List JTy := (m.nativeName, nativeTys m.variant (tys m))

/-- Constructors declared without body have no native counterpart. -/
def Method.exported (m : Method) : Bool := !(m.variant = .constructor && m.dummy)

/-- A class the generator can handle. -/
structure ClassGood (comps : List Text) (regs : List Reg) (cls : Text) (tys : Method → List JTy) (ms : List Method) : Prop where
  pkg : comps ≠ []
  pkgId : ∀ c ∈ comps, Ident c
  regsGood : ∀ r ∈ regs, GoodName r.name
  clsId : Ident cls
  meth : ∀ m ∈ ms, m.variant ≠ .constructor → Ident m.shortName
  args : ∀ m ∈ ms, Names (dotted comps) regs (m.args.map ArgTy.native) (tys m)

theorem ident_do {n : Text} (h : Ident n) : Ident ("do_".toList ++ n) := by
  refine ⟨by simp, ?_, ?_⟩
  · intro c hc; simp at hc; subst hc; decide
  · intro c hc
    rw [List.mem_append] at hc
    rcases hc with hc | hc
    · have : c = 'd' ∨ c = 'o' ∨ c = '_' := by simpa using hc
      rcases this with rfl | rfl | rfl <;> decide
    · exact h.chars c hc

theorem ident_init : Ident "init".toList := by
  refine ⟨by decide, ?_, by decide⟩
  intro c hc; simp at hc; subst hc; decide

theorem ident_delete : Ident "do_delete".toList := by
  refine ⟨by decide, ?_, by decide⟩
  intro c hc; simp at hc; subst hc; decide

theorem nativeName_ident (m : Method) (h : m.variant ≠ .constructor → Ident m.shortName) : Ident m.nativeName := by
  unfold Method.nativeName
  cases hv : m.variant with
  | static =>
    have := h (by rw [hv]; decide)
    simp only
    split
    · exact this
    · exact ident_do this
  | method => exact ident_do (h (by rw [hv]; decide))
  | constructor => exact ident_init

/-- The `Native` behind a method of a class. -/
def toNative (comps : List Text) (regs : List Reg) (cls : Text) (tys : Method → List JTy) (ms : List Method) (m : Method) :
    Native := ⟨comps, regs, cls, m.nativeName, m.variant, m.args, tys m, overloaded ms m⟩

theorem toNative_good {comps regs cls tys ms} (h : ClassGood comps regs cls tys ms) (m : Method) (hm : m ∈ ms) :
    (toNative comps regs cls tys ms m).Good :=
  ⟨h.pkg, h.pkgId, h.regsGood, h.clsId, nativeName_ident m (h.meth m hm), fun _ => h.args m hm⟩

/-- The `Native` behind the destructor. -/
def delNative (comps : List Text) (regs : List Reg) (cls : Text) : Native :=
  ⟨comps, regs, cls, "do_delete".toList, .static, [⟨"long".toList, none⟩], [.prim .long], false⟩

theorem delNative_good {comps regs cls tys ms} (h : ClassGood comps regs cls tys ms) : (delNative comps regs cls).Good :=
  ⟨h.pkg, h.pkgId, h.regsGood, h.clsId, ident_delete, fun h => absurd h (by simp [delNative])⟩

theorem count_two {α β} [BEq β] [LawfulBEq β] (f : α → β) (l : List α) (x y : α) (hx : x ∈ l) (hy : y ∈ l) (hne : x ≠ y)
    (hf : f x = f y) : (l.map f).count (f x) > 1 := by
  induction l with
  | nil => simp at hx
  | cons a l ih =>
    rw [List.map_cons, List.count_cons]
    rw [List.mem_cons] at hx hy
    have pos : ∀ z, z ∈ l → f z = f x → (l.map f).count (f x) > 0 := by
      intro z hz e
      exact List.count_pos_iff.2 (List.mem_map.2 ⟨z, hz, e⟩)
    rcases hx with rfl | hx
    · rcases hy with rfl | hy
      · exact absurd rfl hne
      · have := pos y hy hf.symm
        rw [if_pos (by simp)]; omega
    · rcases hy with rfl | hy
      · have := pos x hx rfl
        rw [if_pos (by simp [hf])]; omega
      · have := ih hx hy
        omega

theorem methodSymbols_eq (t : SigMap) (pkg cls : Text) (all l : List Method) (sym : Method → Text)
    (h : ∀ m ∈ l, methodSymbol t pkg cls all m = some (sym m)) :
    methodSymbols t pkg cls all l = some ((l.filter Method.exported).map sym) := by
  induction l with
  | nil => rfl
  | cons m l ih =>
    rw [methodSymbols, h m (by simp), ih (fun m hm => h m (by simp [hm]))]
    simp only [Option.bind_eq_bind, Option.bind_some, Option.pure_def, List.filter_cons, Method.exported]
    by_cases hd : (m.variant = .constructor && m.dummy) = true
    · simp [hd]
    · simp only [Bool.not_eq_true] at hd
      simp [hd]

/-- **C50**: if the native counterparts of the exported methods are distinct for Java (different name or parameter types)
and, when the class has a destructor, none of them takes the reserved native name `do_delete`, then generation succeeds
and all exported symbols of the class are pairwise distinct. -/
theorem C50_class_symbols_distinct (comps : List Text) (regs : List Reg) (cls : Text) (tys : Method → List JTy)
    (ms : List Method) (h : ClassGood comps regs cls tys ms)
    (hd : ((ms.filter Method.exported).map (nativeSig tys)).Nodup)
    (hdel : (∃ m ∈ ms, m.variant = .constructor) → ∀ m ∈ ms, m.nativeName ≠ "do_delete".toList) :
    ∃ syms, classSymbols (table (dotted comps) regs) (dotted comps) cls ms = some syms ∧ syms.Nodup ∧
      syms.length = (ms.filter Method.exported).length + (if ms.any (·.variant = .constructor) then 1 else 0) := by
  have hsym : ∀ m, m ∈ ms → ∃ s, methodSymbol (table (dotted comps) regs) (dotted comps) cls ms m = some s := by
    intro m hm
    obtain ⟨raw, e, _⟩ := (toNative comps regs cls tys ms m).symbol_spec (toNative_good h m hm)
    exact ⟨_, e⟩
  let sym : Method → Text := fun m => (methodSymbol (table (dotted comps) regs) (dotted comps) cls ms m).getD []
  have hs : ∀ m ∈ ms, methodSymbol (table (dotted comps) regs) (dotted comps) cls ms m = some (sym m) := by
    intro m hm
    obtain ⟨s, e⟩ := hsym m hm
    simp [sym, e]
  obtain ⟨_, hdl, _⟩ := (delNative comps regs cls).symbol_spec (delNative_good h)
  generalize hds : "Java_".toList ++ esc (dotted ((delNative comps regs cls).comps ++
    [(delNative comps regs cls).cls, (delNative comps regs cls).meth]) ++
    tailText (if (delNative comps regs cls).overloaded = true then some _ else none)) = dsym at hdl
  have hdl' : destructorSymbol (table (dotted comps) regs) (dotted comps) cls = some dsym := hdl
  have hnd : ((ms.filter Method.exported).map sym).Nodup := by
    rw [List.nodup_iff_pairwise_ne, List.pairwise_map] at hd ⊢
    refine List.Pairwise.imp_of_mem ?_ hd
    intro x y hx hy hne he
    have hxm := (List.mem_filter.1 hx).1
    have hym := (List.mem_filter.1 hy).1
    have hsx := hs x hxm
    have hsy := hs y hym
    rw [← he] at hsy
    obtain ⟨_, _, e3, e4, e5⟩ := C30_symbols_distinct (toNative comps regs cls tys ms x) (toNative comps regs cls tys ms y)
      (toNative_good h x hxm) (toNative_good h y hym) _ hsx hsy
    apply hne
    unfold nativeSig
    have hxy : x ≠ y := by rintro rfl; exact hne rfl
    have hov : overloaded ms x = true := by
      unfold overloaded
      exact decide_eq_true (count_two Method.nativeName ms x y hxm hym hxy e3)
    exact Prod.ext e3 (e5 hov)
  unfold classSymbols
  rw [methodSymbols_eq _ _ _ _ _ sym hs]
  simp only [Option.bind_eq_bind, Option.bind_some]
  by_cases hc : (ms.any (·.variant = .constructor)) = true
  · rw [if_pos hc, if_pos hc, hdl']
    refine ⟨_, rfl, ?_, by simp⟩
    rw [List.nodup_append]
    refine ⟨hnd, by simp, ?_⟩
    intro a ha b hb e
    rw [List.mem_singleton] at hb
    subst hb
    rw [List.mem_map] at ha
    obtain ⟨m, hm, rfl⟩ := ha
    have hmm := (List.mem_filter.1 hm).1
    have hsm := hs m hmm
    rw [e] at hsm
    obtain ⟨_, _, e3, _⟩ := C30_symbols_distinct (toNative comps regs cls tys ms m) (delNative comps regs cls)
      (toNative_good h m hmm) (delNative_good h) _ hsm hdl
    rw [List.any_eq_true] at hc
    obtain ⟨k, hk, hkc⟩ := hc
    exact hdel ⟨k, hk, by simpa using hkc⟩ m hmm e3
  · rw [if_neg hc, if_neg hc]
    exact ⟨_, rfl, hnd, by simp⟩

/-- **C50 (finding)**: a user method `delete` gets the native name of the destructor, for every class. -/
theorem C50_finding_delete (t : SigMap) (pkg cls : Text) (out : ArgTy) :
    ∃ a b, classSymbols t pkg cls [⟨.constructor, "new".toList, false, [], ⟨"long".toList, none⟩⟩,
      ⟨.method, "delete".toList, false, [], out⟩] = some [a, b, b] := by
  have h1 : overloaded [⟨.constructor, "new".toList, false, [], ⟨"long".toList, none⟩⟩,
      ⟨.method, "delete".toList, false, [], out⟩] ⟨.method, "delete".toList, false, [], out⟩ = false := by
    change decide (List.count "do_delete".toList ["init".toList, "do_delete".toList] > 1) = false
    decide
  have h2 : overloaded [⟨.constructor, "new".toList, false, [], ⟨"long".toList, none⟩⟩,
      ⟨.method, "delete".toList, false, [], out⟩] ⟨.constructor, "new".toList, false, [], ⟨"long".toList, none⟩⟩ = false := by
    change decide (List.count "init".toList ["init".toList, "do_delete".toList] > 1) = false
    decide
  refine ⟨"Java_".toList ++ esc pkg ++ '_' :: esc cls ++ '_' :: esc "init".toList,
    "Java_".toList ++ esc pkg ++ '_' :: esc cls ++ '_' :: esc "do_delete".toList, ?_⟩
  unfold classSymbols
  rw [methodSymbols, methodSymbols, methodSymbols]
  unfold methodSymbol
  rw [h1, h2]
  rfl

/-- **C50 (finding)**: a method `foo()` and a static method `do_foo(long)` get the same symbol although the user wrote two
different names. -/
theorem C50_finding_do_prefix (pkg cls n : Text) :
    ∃ s, classSymbols (table pkg []) pkg cls [⟨.method, "foo".toList, false, [], ⟨n, none⟩⟩,
      ⟨.static, "do_foo".toList, false, [⟨"long".toList, none⟩], ⟨n, none⟩⟩] = some [s, s] := by
  have h1 : overloaded [⟨.method, "foo".toList, false, [], ⟨n, none⟩⟩,
      ⟨.static, "do_foo".toList, false, [⟨"long".toList, none⟩], ⟨n, none⟩⟩]
      ⟨.method, "foo".toList, false, [], ⟨n, none⟩⟩ = true := by
    change decide (List.count "do_foo".toList ["do_foo".toList, "do_foo".toList] > 1) = true
    decide
  have h2 : overloaded [⟨.method, "foo".toList, false, [], ⟨n, none⟩⟩,
      ⟨.static, "do_foo".toList, false, [⟨"long".toList, none⟩], ⟨n, none⟩⟩]
      ⟨.static, "do_foo".toList, false, [⟨"long".toList, none⟩], ⟨n, none⟩⟩ = true := by
    change decide (List.count "do_foo".toList ["do_foo".toList, "do_foo".toList] > 1) = true
    decide
  have h3 : escArgs (table pkg []) [⟨"long".toList, none⟩] = some ['J'] := by
    change escArgs predefined _ = _
    decide
  refine ⟨"Java_".toList ++ esc pkg ++ '_' :: esc cls ++ '_' :: esc "do_foo".toList ++ "__".toList ++ ['J'], ?_⟩
  unfold classSymbols
  rw [methodSymbols, methodSymbols, methodSymbols]
  unfold methodSymbol
  rw [h1, h2]
  unfold jniFuncName
  rw [h3]
  simp only [if_true, escArgs, Option.bind_eq_bind, Option.bind_some, Option.pure_def, List.append_nil,
    List.append_assoc]
  rfl

/-! ## Non-vacuity -/

/-- A class with two overloaded methods, one taking a string and an array of a generated class, and a static method. -/
def sampleMs : List Method :=
  [⟨.constructor, "new".toList, false, [], ⟨"long".toList, none⟩⟩,
   ⟨.method, "f_g".toList, false, [⟨"@NonNull String".toList, none⟩, ⟨"Bar []".toList, none⟩], ⟨"void".toList, none⟩⟩,
   ⟨.method, "f_g".toList, false, [⟨"int".toList, none⟩], ⟨"void".toList, none⟩⟩,
   ⟨.static, "h".toList, false, [⟨"Bar".toList, some ("long".toList, false)⟩], ⟨"void".toList, none⟩⟩]

def sampleTys (m : Method) : List JTy :=
  if m.args.length = 2 then [.cls javaLangString, .arr (.cls "com/ex/Bar".toList)]
  else if m.args = [] then [] else if m.variant = .static then [.prim .long] else [.prim .int]

theorem ident_of_chars (n : Text) (h1 : n ≠ []) (h2 : (n.head?.map Char.isDigit) = some false)
    (h3 : ∀ c ∈ n, c ≠ '.' ∧ c ≠ '[' ∧ c ≠ ';' ∧ c ≠ '@' ∧ c.isWhitespace = false) : Ident n := by
  refine ⟨h1, ?_, h3⟩
  intro c hc
  rw [Option.mem_def] at hc
  rw [hc] at h2
  simpa using h2

theorem sample_good : ClassGood ["com".toList, "ex".toList] [.cls "Bar".toList] "Foo".toList sampleTys sampleMs := by
  refine ⟨by decide, ?_, ?_, ?_, ?_, ?_⟩
  · intro c hc
    simp only [List.mem_cons, List.not_mem_nil, or_false] at hc
    rcases hc with rfl | rfl <;> exact ident_of_chars _ (by decide) (by decide) (by decide)
  · intro r hr
    simp only [List.mem_cons, List.not_mem_nil, or_false] at hr
    subst hr
    exact ⟨ident_of_chars _ (by decide) (by decide) (by decide), by decide, by decide⟩
  · exact ident_of_chars _ (by decide) (by decide) (by decide)
  · intro m hm _
    simp only [sampleMs, List.mem_cons, List.not_mem_nil, or_false] at hm
    rcases hm with rfl | rfl | rfl | rfl <;> exact ident_of_chars _ (by decide) (by decide) (by decide)
  · intro m hm
    simp only [sampleMs, List.mem_cons, List.not_mem_nil, or_false] at hm
    rcases hm with rfl | rfl | rfl | rfl
    · exact .nil
    · exact .cons .string .nonNull (.cons (.genArr "Bar".toList (by decide)) .plain .nil)
    · exact .cons (.prim .int) .plain .nil
    · exact .cons (.prim .long) .plain .nil

example : ((sampleMs.filter Method.exported).map (nativeSig sampleTys)).Nodup := by decide

example : ∀ m ∈ sampleMs, m.nativeName ≠ "do_delete".toList := by decide

example : classSymbols (table "com.ex".toList [.cls "Bar".toList]) "com.ex".toList "Foo".toList sampleMs =
    some ["Java_com_ex_Foo_init".toList,
      "Java_com_ex_Foo_do_1f_1g__JLjava_lang_String_2_3Lcom_ex_Bar_2".toList,
      "Java_com_ex_Foo_do_1f_1g__JI".toList, "Java_com_ex_Foo_do_1h".toList,
      "Java_com_ex_Foo_do_1delete".toList] := by decide

example : methodSignature (table "com.ex".toList [.cls "Bar".toList]) ["@NonNull String".toList, "Bar []".toList] "int".toList =
    some "(Ljava/lang/String;[Lcom/ex/Bar;)I".toList := by decide

end Flapi.JavaNames
