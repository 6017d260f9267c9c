import Verif.Cpp.Names
/-!
# C26, C44: C symbols and return type names
-/
namespace Flapi.CppNames

/-! ## Specification -/

/-- A class name with which the naming scheme is unambiguous. -/
def PlainName (n : Text) : Prop := '_' ∉ n ∧ n ≠ "private".toList ∧ n ≠ "protected".toList

/-- What the user has to respect inside one class: exported methods are distinguished by (access, name), and the names of
the helper functions are not taken. -/
structure Class.NoClash (c : Class) : Prop where
  distinct : ((c.methods.filter fun m => !(m.ctor && m.dummy)).map fun m => (m.access, m.shortName)).Nodup
  noDelete : (∃ m ∈ c.methods, m.ctor = true) →
    ∀ m ∈ c.methods, (m.ctor && m.dummy) = false → ¬ (m.access = .pub ∧ m.shortName = "delete".toList)
  noClone : c.copyDerived = false → c.smartPtrCopyDerived = true →
    ∀ m ∈ c.methods, (m.ctor && m.dummy) = false → ¬ (m.access = .priv ∧ m.shortName = "clone".toList)

/-! ## Lemmas -/

theorem split_at_underscore {a b x y : Text} (ha : '_' ∉ a) (hb : '_' ∉ b) (h : a ++ '_' :: x = b ++ '_' :: y) :
    a = b ∧ x = y := by
  induction a generalizing b with
  | nil =>
    cases b with
    | nil => simp_all
    | cons c b =>
      simp only [List.nil_append, List.cons_append, List.cons.injEq] at h
      simp only [List.mem_cons, not_or] at hb
      exact absurd h.1 hb.1
  | cons c a ih =>
    cases b with
    | nil =>
      simp only [List.nil_append, List.cons_append, List.cons.injEq] at h
      simp only [List.mem_cons, not_or] at ha
      exact absurd h.1.symm ha.1
    | cons d b =>
      simp only [List.cons_append, List.cons.injEq] at h
      simp only [List.mem_cons, not_or] at ha hb
      obtain ⟨e1, e2⟩ := ih ha.2 hb.2 h.2
      exact ⟨by rw [h.1, e1], e2⟩

def privW : Text := "private".toList
def protW : Text := "protected".toList

theorem cFuncName_priv (c f : Text) : cFuncName .priv c f = privW ++ '_' :: (c ++ '_' :: f) := rfl
theorem cFuncName_prot (c f : Text) : cFuncName .prot c f = protW ++ '_' :: (c ++ '_' :: f) := rfl
theorem cFuncName_pub (c f : Text) : cFuncName .pub c f = c ++ '_' :: f := rfl

theorem privW_ok : '_' ∉ privW := by decide
theorem protW_ok : '_' ∉ protW := by decide
theorem priv_ne_prot : privW ≠ protW := by decide

/-- **C26**: with class names free of `_` (and not `private`/`protected`) the exported symbol determines access, class and
method. -/
theorem C26_symbol_determines_function (a a' : Access) (c c' f f' : Text) (hc : PlainName c) (hc' : PlainName c')
    (h : cFuncName a c f = cFuncName a' c' f') : a = a' ∧ c = c' ∧ f = f' := by
  obtain ⟨h1, h2, h3⟩ := hc
  obtain ⟨g1, g2, g3⟩ := hc'
  have np := privW_ok
  have nq := protW_ok
  have npq := priv_ne_prot
  change c ≠ privW at h2
  change c ≠ protW at h3
  change c' ≠ privW at g2
  change c' ≠ protW at g3
  cases a <;> cases a' <;> simp only [cFuncName_priv, cFuncName_prot, cFuncName_pub] at h
  · have := split_at_underscore h1 g1 (split_at_underscore np np h).2; simp [this]
  · exact absurd (split_at_underscore np g1 h).1.symm g2
  · exact absurd (split_at_underscore np nq h).1 npq
  · exact absurd (split_at_underscore h1 np h).1 h2
  · have := split_at_underscore h1 g1 h; simp [this]
  · exact absurd (split_at_underscore h1 nq h).1 h3
  · exact absurd (split_at_underscore nq np h).1.symm npq
  · exact absurd (split_at_underscore nq g1 h).1.symm g3
  · have := split_at_underscore h1 g1 (split_at_underscore nq nq h).2; simp [this]

/-- Inside one class and one access level no condition on the names is needed. -/
theorem C26_same_class (a : Access) (c f f' : Text) : cFuncName a c f = cFuncName a c f' ↔ f = f' := by
  simp [cFuncName]

/-- The exported functions of a class, as (access, name) pairs. -/
def Class.exports (c : Class) : List (Access × Text) :=
  ((c.methods.filter fun m => !(m.ctor && m.dummy)).map fun m => (m.access, m.shortName)) ++
    (if c.methods.any (·.ctor) then [(Access.pub, "delete".toList)] else []) ++
    (if !c.copyDerived && c.smartPtrCopyDerived then [(Access.priv, "clone".toList)] else [])

theorem symbols_eq_exports (c : Class) : c.symbols = c.exports.map fun p => cFuncName p.1 c.name p.2 := by
  unfold Class.symbols Class.exports methodSymbols destructorSymbols cloneSymbols
  rw [List.map_append, List.map_append, List.map_map]
  congr 1
  · congr 1
    split
    · rfl
    · rfl
  · split <;> rfl

theorem exports_nodup (c : Class) (h : c.NoClash) : c.exports.Nodup := by
  unfold Class.exports
  rw [List.nodup_append, List.nodup_append]
  refine ⟨⟨h.distinct, ?_, ?_⟩, ?_, ?_⟩
  · split <;> simp
  · intro x hx y hy e
    subst e
    split at hy
    · rename_i hct
      simp only [List.mem_singleton] at hy
      subst hy
      simp only [List.mem_map, List.mem_filter] at hx
      obtain ⟨m, ⟨hm, hd⟩, he⟩ := hx
      simp only [Bool.not_eq_eq_eq_not, Bool.not_true, Bool.and_eq_false_iff] at hd
      rw [List.any_eq_true] at hct
      simp only [Prod.mk.injEq] at he
      exact h.noDelete hct m hm (by rcases hd with hd | hd <;> simp [hd]) he
    · simp at hy
  · split <;> simp
  · intro x hx y hy e
    subst e
    split at hy
    · rename_i hct
      simp only [List.mem_singleton] at hy
      subst hy
      simp only [Bool.and_eq_true, Bool.not_eq_true'] at hct
      rw [List.mem_append] at hx
      rcases hx with hx | hx
      · simp only [List.mem_map, List.mem_filter] at hx
        obtain ⟨m, ⟨hm, hd⟩, he⟩ := hx
        simp only [Bool.not_eq_eq_eq_not, Bool.not_true, Bool.and_eq_false_iff] at hd
        simp only [Prod.mk.injEq] at he
        exact h.noClone hct.1 hct.2 m hm (by rcases hd with hd | hd <;> simp [hd]) he
      · split at hx
        · simp only [List.mem_singleton, Prod.mk.injEq] at hx
          exact absurd hx.1 (by decide)
        · simp at hx
    · simp at hy

/-- **C26**: in a whole program whose classes have distinct plain names and respect `NoClash`, no two exported functions
share a symbol (the linker sees no duplicate definition). -/
theorem C26_program_symbols_distinct (cs : List Class) (hn : (cs.map (·.name)).Nodup)
    (hp : ∀ c ∈ cs, PlainName c.name) (hc : ∀ c ∈ cs, c.NoClash) : (cs.flatMap Class.symbols).Nodup := by
  induction cs with
  | nil => simp
  | cons c cs ih =>
    rw [List.map_cons, List.nodup_cons] at hn
    rw [List.flatMap_cons, List.nodup_append]
    refine ⟨?_, ih hn.2 (fun d hd => hp d (by simp [hd])) (fun d hd => hc d (by simp [hd])), ?_⟩
    · rw [symbols_eq_exports, List.nodup_iff_pairwise_ne, List.pairwise_map]
      refine (List.nodup_iff_pairwise_ne.1 (exports_nodup c (hc c (by simp)))).imp ?_
      intro x y hne e
      have hpl := hp c (by simp)
      obtain ⟨e1, _, e3⟩ := C26_symbol_determines_function _ _ _ _ _ _ hpl hpl e
      exact hne (Prod.ext e1 e3)
    · intro x hx y hy e
      subst e
      rw [List.mem_flatMap] at hy
      obtain ⟨d, hd, hy⟩ := hy
      rw [symbols_eq_exports, List.mem_map] at hx hy
      obtain ⟨p, _, e⟩ := hx
      obtain ⟨q, _, e'⟩ := hy
      obtain ⟨_, e2, _⟩ := C26_symbol_determines_function _ _ _ _ _ _ (hp c (by simp)) (hp d (by simp [hd]))
        (e.trans e'.symm)
      exact hn.1 (List.mem_map.2 ⟨d, hd, e2.symm⟩)

/-- **C26 (finding)**: without the restriction two different methods get the same symbol. -/
theorem C26_finding_underscore :
    cFuncName .pub "A".toList "b_c".toList = cFuncName .pub "A_b".toList "c".toList := by decide

/-- **C26 (finding)**: a private method of `A` clashes with a public method of a class called `private_A`. -/
theorem C26_finding_access :
    cFuncName .priv "A".toList "f".toList = cFuncName .pub "private_A".toList "f".toList := by decide

/-- **C26 (finding)**: a user method called `delete` clashes with the generated destructor, for every class name and with no
other method involved. -/
theorem C26_finding_delete (n : Text) (m : Method) (hp : m.access = .pub) (hn : m.shortName = "delete".toList)
    (hc : m.ctor = false) (k : Method) (hk : k.ctor = true) (a b : Bool) :
    ¬ (Class.symbols ⟨n, [k, m], a, b⟩).Nodup := by
  have hd : n ++ "_delete".toList ∈ methodSymbols ⟨n, [k, m], a, b⟩ := by
    unfold methodSymbols
    rw [List.mem_map]
    refine ⟨m, ?_, ?_⟩
    · simp [hc]
    · simp only [hp, hn]; rfl
  intro hnd
  unfold Class.symbols at hnd
  rw [List.nodup_append, List.nodup_append] at hnd
  have := hnd.1.2.2 _ hd (n ++ "_delete".toList) (by simp [destructorSymbols, hk])
  exact this rfl

/-! ## C44 -/

/-- **C44**: a type name that does not contain the letters `struct` is written unchanged. -/
theorem C44_unchanged (d : Text) (h : ¬ structKw <:+: d) : cppRetType d = d := strReplace_absent _ _ _ h

/-- **C44**: the elaborated form `struct T` is written as `T` (after a blank, which C++ ignores), when `T` does not
contain `struct` itself. -/
theorem C44_elaborated (t : Text) (h : ¬ structKw <:+: t) :
    cppRetType (structKw ++ ' ' :: t) = ' ' :: t := by
  have h0 : ¬ structKw <:+: ' ' :: t := by
    intro hi
    rcases List.infix_cons_iff.1 hi with hp | hi
    · obtain ⟨r, hr⟩ := hp
      exact absurd (congrArg List.head? hr) (by simp [structKw])
    · exact h hi
  unfold cppRetType
  rw [strReplace_match _ _ _ (by decide), List.nil_append]
  exact strReplace_absent _ _ _ h0

/-- **C44 (finding)**: the keyword is removed inside longer words too, so the function is declared with a type that does
not exist. -/
theorem C44_finding_inside_words :
    cppRetType "InstructionSet".toList = "InionSet".toList ∧
    cppRetType "const struct Destructor *".toList = "const  Deor *".toList := by decide

/-! ## Non-vacuity -/

/-- Two classes meeting the hypotheses of `C26_program_symbols_distinct`. -/
def sample : List Class :=
  [⟨"Foo".toList, [⟨.pub, "new".toList, true, false⟩, ⟨.pub, "f_g".toList, false, false⟩, ⟨.priv, "f_g".toList, false, false⟩],
    false, true⟩,
   ⟨"Bar".toList, [⟨.pub, "new".toList, true, true⟩, ⟨.prot, "f".toList, false, false⟩], false, false⟩]

example : sample.flatMap Class.symbols = ["Foo_new".toList, "Foo_f_g".toList, "private_Foo_f_g".toList, "Foo_delete".toList,
    "private_Foo_clone".toList, "protected_Bar_f".toList, "Bar_delete".toList] := by decide

example : ∀ c ∈ sample, PlainName c.name := by unfold PlainName; decide

example : ∀ c ∈ sample, c.NoClash := by
  intro c hc
  refine ⟨?_, ?_, ?_⟩
  · revert c; decide
  · intro _; revert c; decide
  · revert c; decide

example : cppRetType "struct Foo *".toList = " Foo *".toList := by decide

end Flapi.CppNames
