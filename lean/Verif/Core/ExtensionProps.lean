import Verif.Core.Extension
/-!
# C07 – user derive/attribute handlers run exactly where requested
-/
namespace Flapi.Extension

/-! ## Specification: the list of calls requested by a class -/

/-- What one non-built-in derive asks for: the registered handler applied to the class name, or nothing. -/
def deriveCall (cls : Text) (hs : List (Text × ClassCb)) (d : Text) : Option (Text → Text) :=
  (lookup hs d).map (fun cb cnt => cb cnt cls)

/-- What one method attribute asks for. -/
def attrCall (cls : Text) (hs : List (Text × MethodCb)) (m : Method) (a : Text) : Option (Text → Text) :=
  (lookup hs a).map (fun cb cnt => cb cnt ⟨cls, m.shortName, m.variant⟩)

/-- All calls requested by a class in source order: first its non-reserved derives, then method by method the
attributes of each method. -/
def requested (c : Class) (reserved : List Text) (chs : List (Text × ClassCb)) (mhs : List (Text × MethodCb)) :
    List (Option (Text → Text)) :=
  (c.deriveList.filter (fun d => !reserved.contains d)).map (deriveCall c.name chs)
    ++ c.methods.flatMap (fun m => m.unknownAttrs.map (attrCall c.name mhs m))

/-- Run a list of calls one after the other; impossible if one of them has no handler. -/
def runCalls : List (Option (Text → Text)) → Text → Option Text
  | [], cnt => some cnt
  | some f :: fs, cnt => runCalls fs (f cnt)
  | none :: _, _ => none

/-! ## Helper lemmas -/

theorem runCalls_append (a b : List (Option (Text → Text))) (cnt : Text) :
    runCalls (a ++ b) cnt = (runCalls a cnt).bind (runCalls b) := by
  induction a generalizing cnt with
  | nil => simp [runCalls]
  | cons f a ih => cases f <;> simp [runCalls, ih]

theorem extendDerives_eq (cls : Text) (reserved : List Text) (hs : List (Text × ClassCb)) (ds : List Text) (cnt : Text) :
    (extendDerives cls reserved hs ds cnt).toOption
      = runCalls ((ds.filter (fun d => !reserved.contains d)).map (deriveCall cls hs)) cnt := by
  induction ds generalizing cnt with
  | nil => simp [extendDerives, runCalls, Except.toOption]
  | cons d ds ih =>
    unfold extendDerives
    by_cases h : reserved.contains d
    · rw [if_pos h, ih]; simp at h; simp [h]
    · rw [if_neg h]
      have h' : d ∉ reserved := by simpa using h
      cases hl : lookup hs d with
      | none => simp [h', deriveCall, hl, runCalls, Except.toOption]
      | some cb => simp only [ih]; simp [h', deriveCall, hl, runCalls]

theorem extendAttrs_eq (cls : Text) (m : Method) (hs : List (Text × MethodCb)) (as : List Text) (cnt : Text) :
    (extendAttrs cls m hs as cnt).toOption = runCalls (as.map (attrCall cls hs m)) cnt := by
  induction as generalizing cnt with
  | nil => simp [extendAttrs, runCalls, Except.toOption]
  | cons a as ih =>
    unfold extendAttrs
    cases hl : lookup hs a with
    | none => simp [attrCall, hl, runCalls, Except.toOption]
    | some cb => simp only [ih]; simp [attrCall, hl, runCalls]

theorem extendMethods_eq (cls : Text) (hs : List (Text × MethodCb)) (ms : List Method) (cnt : Text) :
    (extendMethods cls hs ms cnt).toOption
      = runCalls (ms.flatMap (fun m => m.unknownAttrs.map (attrCall cls hs m))) cnt := by
  induction ms generalizing cnt with
  | nil => simp [extendMethods, runCalls, Except.toOption]
  | cons m ms ih =>
    unfold extendMethods
    rw [List.flatMap_cons, runCalls_append, ← extendAttrs_eq]
    cases extendAttrs cls m hs m.unknownAttrs cnt with
    | error e => simp [Except.toOption]
    | ok r => simp only [ih]; simp [Except.toOption]

theorem runCalls_isSome (l : List (Option (Text → Text))) (cnt : Text) :
    (runCalls l cnt).isSome ↔ ∀ f ∈ l, f.isSome := by
  induction l generalizing cnt with
  | nil => simp [runCalls]
  | cons f l ih => cases f <;> simp [runCalls, ih]

theorem lookup_cons {α} (t : List (Text × α)) (n k : Text) (a : α) :
    lookup ((n, a) :: t) k = if n = k then some a else lookup t k := by
  by_cases h : n = k <;> simp [lookup, h]

/-! ## Property theorems -/

/-- **C07 (exactly the requested calls, in order).** The text produced is the original text with every requested
handler applied once, in source order, each on the output of the former; the class is rejected iff one requested
handler does not exist. -/
theorem C07_runs_requested_calls (c : Class) (reserved : List Text) (chs : List (Text × ClassCb))
    (mhs : List (Text × MethodCb)) (cnt : Text) :
    (extendForeignClass c reserved chs mhs cnt).toOption = runCalls (requested c reserved chs mhs) cnt := by
  unfold extendForeignClass requested
  rw [runCalls_append, ← extendDerives_eq]
  cases extendDerives c.name reserved chs c.deriveList cnt with
  | error e => simp [Except.toOption]
  | ok r => simp only [extendMethods_eq]; simp [Except.toOption]

/-- **C07 (acceptance).** A class is accepted iff each derive is built-in or has a handler and each method attribute
has a handler. -/
theorem C07_accept_iff (c : Class) (reserved : List Text) (chs : List (Text × ClassCb))
    (mhs : List (Text × MethodCb)) (cnt : Text) :
    (∃ r, extendForeignClass c reserved chs mhs cnt = .ok r) ↔
      (∀ d ∈ c.deriveList, d ∈ reserved ∨ (lookup chs d).isSome) ∧
      (∀ m ∈ c.methods, ∀ a ∈ m.unknownAttrs, (lookup mhs a).isSome) := by
  have h1 : (∃ r, extendForeignClass c reserved chs mhs cnt = .ok r) ↔
      (runCalls (requested c reserved chs mhs) cnt).isSome := by
    rw [← C07_runs_requested_calls]
    cases extendForeignClass c reserved chs mhs cnt <;> simp [Except.toOption]
  rw [h1, runCalls_isSome]
  unfold requested
  constructor
  · intro h
    constructor
    · intro d hd
      by_cases hr : d ∈ reserved
      · exact Or.inl hr
      · right
        have := h (deriveCall c.name chs d) (by
          simp only [List.mem_append, List.mem_map, List.mem_filter]
          exact Or.inl ⟨d, ⟨hd, by simpa using hr⟩, rfl⟩)
        simpa [deriveCall] using this
    · intro m hm a ha
      have := h (attrCall c.name mhs m a) (by
        simp only [List.mem_append, List.mem_flatMap, List.mem_map]
        exact Or.inr ⟨m, hm, a, ha, rfl⟩)
      simpa [attrCall] using this
  · rintro ⟨hd, hm⟩ f hf
    simp only [List.mem_append, List.mem_flatMap, List.mem_map, List.mem_filter] at hf
    rcases hf with ⟨d, ⟨hd1, hd2⟩, rfl⟩ | ⟨m, hm1, a, ha, rfl⟩
    · rcases hd d hd1 with h | h
      · simp [h] at hd2
      · simpa [deriveCall] using h
    · simpa [attrCall] using hm m hm1 a ha

/-- **C07 (enums).** For enums every derive needs a handler; the calls run in order. -/
theorem C07_enum (name : Text) (derives : List Text) (hs : List (Text × ClassCb)) (cnt : Text) :
    (extendForeignEnum name derives hs cnt).toOption = runCalls (derives.map (deriveCall name hs)) cnt := by
  rw [extendForeignEnum, extendDerives_eq, List.filter_eq_self.2 (by simp)]

/-- **C07 (built-in derives never run user code).** Removing all reserved derives from a class does not change the
result. -/
theorem C07_reserved_inert (c : Class) (reserved : List Text) (chs : List (Text × ClassCb))
    (mhs : List (Text × MethodCb)) (cnt : Text) :
    (extendForeignClass { c with deriveList := c.deriveList.filter (fun d => !reserved.contains d) }
      reserved chs mhs cnt).toOption = (extendForeignClass c reserved chs mhs cnt).toOption := by
  rw [C07_runs_requested_calls, C07_runs_requested_calls]
  simp [requested, List.filter_filter]

/-- **C07 (registration).** Registering succeeds iff the name is neither built-in nor taken; it then binds exactly that
name and leaves the others alone. -/
theorem C07_register (t : List (Text × ClassCb)) (name : Text) (cb : ClassCb) :
    ((registerClassCb t name cb).isSome ↔ name ∉ knownClassDerives ∧ lookup t name = none) ∧
    ∀ t', registerClassCb t name cb = some t' →
      lookup t' name = some cb ∧ ∀ k, k ≠ name → lookup t' k = lookup t k := by
  unfold registerClassCb
  constructor
  · by_cases h1 : knownClassDerives.contains name
    · rw [if_pos h1]; simp at h1; simp [h1]
    · rw [if_neg h1]
      simp at h1
      cases h2 : lookup t name <;> simp [h1]
  · intro t' h
    split at h
    · simp at h
    · split at h
      · simp at h
      · simp at h; subst h
        refine ⟨by simp [lookup_cons], ?_⟩
        intro k hk
        have : ¬ name = k := fun e => hk e.symm
        simp [lookup_cons, this]

/-- **C07 (enum/method registration).** The same without built-in names. -/
theorem C07_register_plain {α} (t : List (Text × α)) (name : Text) (cb : α) :
    ((registerPlainCb t name cb).isSome ↔ lookup t name = none) ∧
    ∀ t', registerPlainCb t name cb = some t' →
      lookup t' name = some cb ∧ ∀ k, k ≠ name → lookup t' k = lookup t k := by
  unfold registerPlainCb
  constructor
  · cases h2 : lookup t name <;> simp
  · intro t' h
    split at h
    · simp at h
    · simp at h; subst h
      refine ⟨by simp [lookup_cons], ?_⟩
      intro k hk
      have : ¬ name = k := fun e => hk e.symm
      simp [lookup_cons, this]

/-- Handler tables that can be built through the public API. -/
inductive Registered : List (Text × ClassCb) → Prop
  | empty : Registered []
  | add {t t' name cb} : Registered t → registerClassCb t name cb = some t' → Registered t'

theorem registered_not_known {t} (h : Registered t) : ∀ k ∈ knownClassDerives, lookup t k = none := by
  induction h with
  | empty => intro k _; simp [lookup]
  | @add t t' name cb _ hreg ih =>
    intro k hk
    obtain ⟨h1, h2⟩ := C07_register t name cb
    have hs := h1.1 (by rw [hreg]; rfl)
    have hne : k ≠ name := by rintro rfl; exact hs.1 hk
    rw [(h2 t' hreg).2 k hne]
    exact ih k hk

/-- **C07 (finding).** The Java backend does not treat `PlainClass`/`camelCaseAliases` as built-in, and users cannot
register a handler for them, so with the Java backend every class carrying one of them is rejected. -/
theorem C07_java_rejects_plain_class (c : Class) (chs : List (Text × ClassCb)) (mhs : List (Text × MethodCb))
    (cnt : Text) (hreg : Registered chs)
    (hd : "PlainClass".toList ∈ c.deriveList ∨ "camelCaseAliases".toList ∈ c.deriveList) :
    ¬ ∃ r, extendForeignClass c javaReserved chs mhs cnt = .ok r := by
  rw [C07_accept_iff]
  rintro ⟨h, _⟩
  have hk := registered_not_known hreg
  rcases hd with hd | hd
  · rcases h _ hd with h | h
    · revert h; decide
    · rw [hk _ (by decide)] at h; simp at h
  · rcases h _ hd with h | h
    · revert h; decide
    · rw [hk _ (by decide)] at h; simp at h

/-- **C07 (Java, accepted classes).** With the Java backend and handlers registered through the API, the derives of a class are accepted
exactly if each of them is `Clone`, `Copy` or `SmartPtrCopy` – then no handler runs for it – or has a handler. -/
theorem C07_java_accept_iff (c : Class) (chs : List (Text × ClassCb)) (mhs : List (Text × MethodCb)) (cnt : Text)
    (hreg : Registered chs) :
    ((∃ r, extendForeignClass c javaReserved chs mhs cnt = .ok r) ↔
      (∀ d ∈ c.deriveList, d = "Clone".toList ∨ d = "Copy".toList ∨ d = "SmartPtrCopy".toList ∨ (lookup chs d).isSome) ∧
      (∀ m ∈ c.methods, ∀ a ∈ m.unknownAttrs, (lookup mhs a).isSome)) ∧
    ((∀ d ∈ c.deriveList, d = "Clone".toList ∨ d = "Copy".toList ∨ d = "SmartPtrCopy".toList) →
      (∀ m ∈ c.methods, m.unknownAttrs = []) → extendForeignClass c javaReserved chs mhs cnt = .ok cnt) ∧
    (lookup chs "Clone".toList).isSome = false ∧ (lookup chs "Copy".toList).isSome = false ∧
    (lookup chs "SmartPtrCopy".toList).isSome = false := by
  have hk := registered_not_known hreg
  refine ⟨?_, ?_, ?_, ?_, ?_⟩
  · rw [C07_accept_iff]
    have : ∀ d, (d ∈ javaReserved ∨ (lookup chs d).isSome) ↔
        (d = "Clone".toList ∨ d = "Copy".toList ∨ d = "SmartPtrCopy".toList ∨ (lookup chs d).isSome) := by
      intro d
      simp only [javaReserved, List.mem_cons, List.not_mem_nil, or_false, or_assoc]
    simp only [this]
  · intro hd hm
    have h1 : ∀ ds : List Text, (∀ d ∈ ds, d = "Clone".toList ∨ d = "Copy".toList ∨ d = "SmartPtrCopy".toList) →
        extendDerives c.name javaReserved chs ds cnt = .ok cnt := by
      intro ds
      induction ds with
      | nil => intro _; rfl
      | cons d ds ih =>
        intro h
        have hd' : javaReserved.contains d = true := by
          rw [List.contains_iff_mem]
          simpa only [javaReserved, List.mem_cons, List.not_mem_nil, or_false] using h d (List.mem_cons_self ..)
        rw [extendDerives, if_pos hd']
        exact ih (fun x hx => h x (List.mem_cons_of_mem _ hx))
    have h2 : ∀ ms : List Method, (∀ m ∈ ms, m.unknownAttrs = []) → extendMethods c.name mhs ms cnt = .ok cnt := by
      intro ms
      induction ms with
      | nil => intro _; rfl
      | cons m ms ih =>
        intro h
        rw [extendMethods, h m (List.mem_cons_self ..)]
        exact ih (fun x hx => h x (List.mem_cons_of_mem _ hx))
    rw [extendForeignClass, h1 _ hd]
    exact h2 _ hm
  all_goals rw [hk _ (by decide)]; rfl

/-! Non-vacuity -/
example : (extendForeignClass ⟨"Foo".toList, ["Clone".toList, "My".toList, "My".toList], [⟨"f".toList, 0, ["at".toList]⟩]⟩
    knownClassDerives [("My".toList, fun c n => c ++ "+".toList ++ n)] [("at".toList, fun c i => c ++ i.methodName)]
    "x".toList).toOption = some "x+Foo+Foof".toList := by decide
example : (extendForeignClass ⟨"Foo".toList, ["Clone".toList, "SmartPtrCopy".toList], [⟨"f".toList, 0, []⟩]⟩
    javaReserved [] [] "x".toList).toOption = some "x".toList := by decide
example : Registered [("My".toList, fun c _ => c)] :=
  .add (t := []) (name := "My".toList) (cb := fun c _ => c) .empty (by rfl)

end Flapi.Extension
