import Verif.Java.FindCacheProps
/-!
# From the generated code to the table of cached JNI ids (model and C32)

The scan of `FindCache` starts from parsed requests; here it starts from the macro invocations of the generated Rust code, in source order, each with its
path and its tokens.  Invocations inside the arguments of another macro are just tokens of that macro (syn does not parse them), so they are not in
the list.
-/
namespace Flapi.FindCache

/-! ## Model -/

/-- A token of the arguments of a macro: macroslib/src/java_jni/find_cache.rs:61-103.  `ident` is an identifier that is no keyword (what `syn::Ident` parses), `str` a
string literal with its value, `other` anything else. -/
inductive Tok where
  | ident (t : Text)
  | comma
  | str (t : Text)
  | other (t : Text)
  deriving DecidableEq, Repr

/-- A macro invocation: the segments of its path and its tokens (`syn::Macro`): macroslib/src/java_jni/find_cache.rs:144. -/
structure Mac where
  path : List Text
  toks : List Tok
  deriving DecidableEq, Repr

/-- macroslib/src/java_jni/find_cache.rs:150. -/
def kwFindClass : Text := "swig_jni_find_class".toList
/-- macroslib/src/java_jni/find_cache.rs:145-148. -/
def kwOf : Kind → Text
  | .method => "swig_jni_get_method_id".toList
  | .staticMethod => "swig_jni_get_static_method_id".toList
  | .staticField => "swig_jni_get_static_field_id".toList
  | .field => "swig_jni_get_field_id".toList

/-- `syn::parse2::<JniFindClass>`: the parser and the check that nothing is left: macroslib/src/java_jni/find_cache.rs:61-75, 151-152. -/
def parseFindClass : List Tok → Option (Text × Text)
  | [.ident id, .comma, .str path] => some (id, path)
  | _ => none

/-- `syn::parse2::<JniClassItemWithId>`: macroslib/src/java_jni/find_cache.rs:84-103, 107-113. -/
def parseItem : List Tok → Option Item
  | [.ident id, .comma, .ident c, .comma, .str n, .comma, .str s] => some ⟨id, c, n, s⟩
  | [.ident id, .comma, .ident c, .comma, .str n, .comma, .str s, .comma] => some ⟨id, c, n, s⟩
  | _ => none

/-- Which of the macros it is and what it requests: macroslib/src/java_jni/find_cache.rs:150-186.  `none` is a panic, `some none` another macro.  The path has to
be one plain identifier. -/
def decode (m : Mac) : Option (Option Use) :=
  if m.path = [kwFindClass] then (parseFindClass m.toks).map fun x => some (.findClass x.1 x.2)
  else if m.path = [kwOf .method] then (parseItem m.toks).map fun x => some (.member .method x)
  else if m.path = [kwOf .staticMethod] then (parseItem m.toks).map fun x => some (.member .staticMethod x)
  else if m.path = [kwOf .staticField] then (parseItem m.toks).map fun x => some (.member .staticField x)
  else if m.path = [kwOf .field] then (parseItem m.toks).map fun x => some (.member .field x)
  else some none

/-- The visit of all invocations: macroslib/src/java_jni/find_cache.rs:143-190. -/
def visit : St → List Mac → Option St
  | s, [] => some s
  | s, m :: ms => match decode m with
    | none => none
    | some none => visit s ms
    | some (some u) => (step s u).bind fun s => visit s ms

/-- macroslib/src/java_jni/rust_code.rs:150-170. -/
def collectCode (ms : List Mac) : Option (List FindClass) :=
  match visit ⟨[], false⟩ ms with
  | some s => if s.failed then none else some s.calls
  | none => none

/-! ## Specification -/

/-- The invocation is written as `swig_jni_find_class!(id, "path")`. -/
def Mac.FindsClass (m : Mac) (id path : Text) : Prop := m = ⟨[kwFindClass], [.ident id, .comma, .str path]⟩

/-- The invocation is written as `swig_jni_get_.._id!(id, class_id, "name", "sig")`, maybe with a comma at the end. -/
def Mac.FindsMember (m : Mac) (k : Kind) (id classId name sig : Text) : Prop :=
  ∃ rest, (rest = [] ∨ rest = [Tok.comma]) ∧
    m = ⟨[kwOf k], [.ident id, .comma, .ident classId, .comma, .str name, .comma, .str sig] ++ rest⟩

/-- The name is one of the five. -/
def Ours (p : List Text) : Prop := p = [kwFindClass] ∨ ∃ k, p = [kwOf k]

/-! ## Lemmas -/

theorem kw_ne : ∀ k, kwOf k ≠ kwFindClass := by intro k; cases k <;> decide
theorem kw_inj : ∀ k k', kwOf k = kwOf k' → k = k' := by intro k k'; cases k <;> cases k' <;> decide

theorem decode_member (k : Kind) (t : List Tok) : decode ⟨[kwOf k], t⟩ = (parseItem t).map fun x => some (.member k x) := by
  have h1 : ¬ [kwOf k] = [kwFindClass] := fun e => kw_ne k (List.cons.inj e).1
  have h2 : ∀ k', ([kwOf k] = [kwOf k']) = (k = k') := by
    intro k'
    apply propext
    exact ⟨fun e => kw_inj k k' (List.cons.inj e).1, fun e => by rw [e]⟩
  unfold decode
  simp only [h1, if_false, h2]
  cases k <;> simp

theorem parseFindClass_some {t : List Tok} {x : Text × Text} (h : parseFindClass t = some x) : t = [.ident x.1, .comma, .str x.2] := by
  unfold parseFindClass at h
  split at h
  · cases h; rfl
  · cases h

theorem parseItem_some {t : List Tok} {x : Item} (h : parseItem t = some x) :
    ∃ rest, (rest = [] ∨ rest = [Tok.comma]) ∧ t = [.ident x.id, .comma, .ident x.classId, .comma, .str x.name, .comma, .str x.sig] ++ rest := by
  unfold parseItem at h
  split at h
  · cases h; exact ⟨[], Or.inl rfl, rfl⟩
  · cases h; exact ⟨[.comma], Or.inr rfl, rfl⟩
  · cases h

theorem decode_findClass (m : Mac) (id path : Text) : decode m = some (some (.findClass id path)) ↔ m.FindsClass id path := by
  obtain ⟨p, t⟩ := m
  constructor
  · intro h
    by_cases hp : p = [kwFindClass]
    · subst hp
      simp only [decode, if_true, Option.map_eq_some_iff] at h
      obtain ⟨x, h1, h2⟩ := h
      have := parseFindClass_some h1
      cases h2
      rw [this]
      rfl
    · by_cases hk : ∃ k, p = [kwOf k]
      · obtain ⟨k, rfl⟩ := hk
        rw [decode_member] at h
        simp only [Option.map_eq_some_iff] at h
        obtain ⟨x, _, h2⟩ := h
        cases h2
      · have hk' : ∀ k, ¬ p = [kwOf k] := fun k e => hk ⟨k, e⟩
        simp only [decode, hp, hk', if_false] at h
        cases h
  · intro h
    cases h
    rfl

theorem decode_mem (m : Mac) (k : Kind) (x : Item) : decode m = some (some (.member k x)) ↔ m.FindsMember k x.id x.classId x.name x.sig := by
  obtain ⟨p, t⟩ := m
  constructor
  · intro h
    by_cases hp : p = [kwFindClass]
    · subst hp
      simp only [decode, if_true, Option.map_eq_some_iff] at h
      obtain ⟨x, h1, h2⟩ := h
      cases h2
    · by_cases hk : ∃ k, p = [kwOf k]
      · obtain ⟨k', rfl⟩ := hk
        rw [decode_member] at h
        simp only [Option.map_eq_some_iff] at h
        obtain ⟨y, h1, h2⟩ := h
        cases h2
        obtain ⟨rest, r1, r2⟩ := parseItem_some h1
        exact ⟨rest, r1, by rw [r2]⟩
      · have hk' : ∀ k, ¬ p = [kwOf k] := fun k e => hk ⟨k, e⟩
        simp only [decode, hp, hk', if_false] at h
        cases h
  · rintro ⟨rest, hr, h⟩
    rw [h, decode_member]
    rcases hr with rfl | rfl <;> rfl

theorem decode_other (m : Mac) : decode m = some none ↔ ¬ Ours m.path := by
  obtain ⟨p, t⟩ := m
  constructor
  · rintro h (rfl | ⟨k, rfl⟩)
    · simp only [decode, if_true, Option.map_eq_some_iff] at h
      obtain ⟨x, _, h2⟩ := h
      cases h2
    · rw [decode_member] at h
      simp only [Option.map_eq_some_iff] at h
      obtain ⟨x, _, h2⟩ := h
      cases h2
  · intro h
    have hp : ¬ p = [kwFindClass] := fun e => h (Or.inl e)
    have hk : ∀ k, ¬ p = [kwOf k] := fun k e => h (Or.inr ⟨k, e⟩)
    simp only [decode, hp, hk, if_false]

/-- The requests of the invocations. -/
def uses (ms : List Mac) : List Use := ms.filterMap fun m => (decode m).getD none

theorem mem_uses {ms : List Mac} {u : Use} : u ∈ uses ms ↔ ∃ m ∈ ms, decode m = some (some u) := by
  simp only [uses, List.mem_filterMap]
  constructor
  · rintro ⟨m, hm, h⟩
    refine ⟨m, hm, ?_⟩
    cases hd : decode m with
    | none => rw [hd] at h; cases h
    | some o => rw [hd] at h; simp only [Option.getD_some] at h; rw [h]
  · rintro ⟨m, hm, h⟩
    exact ⟨m, hm, by rw [h]; rfl⟩

theorem visit_run : ∀ (ms : List Mac) (s : St), (∀ m ∈ ms, decode m ≠ none) → visit s ms = run s (uses ms)
  | [], s, _ => rfl
  | m :: ms, s, h => by
    have ih := fun s => visit_run ms s (fun x hx => h x (List.mem_cons_of_mem _ hx))
    have hm := h m (List.mem_cons_self ..)
    unfold visit
    cases hd : decode m with
    | none => exact absurd hd hm
    | some o =>
      cases o with
      | none => simp only [ih, uses, List.filterMap_cons, hd, Option.getD_some]
      | some u => simp only [ih, uses, List.filterMap_cons, hd, Option.getD_some, run]

theorem visit_panic : ∀ (ms : List Mac) (s : St), (∃ m ∈ ms, decode m = none) → visit s ms = none
  | [], s, h => by obtain ⟨m, hm, _⟩ := h; cases hm
  | m :: ms, s, h => by
    unfold visit
    cases hd : decode m with
    | none => rfl
    | some o =>
      have h' : ∃ m ∈ ms, decode m = none := by
        obtain ⟨x, hx, hn⟩ := h
        rcases List.mem_cons.1 hx with rfl | hx
        · rw [hd] at hn; cases hn
        · exact ⟨x, hx, hn⟩
      cases o with
      | none => exact visit_panic ms s h'
      | some u =>
        simp only
        cases step s u with
        | none => rfl
        | some s' => exact visit_panic ms s' h'

theorem collectCode_eq (ms : List Mac) (h : ∀ m ∈ ms, decode m ≠ none) : collectCode ms = collect (uses ms) := by
  unfold collectCode collect
  rw [visit_run ms _ h]
  cases run ⟨[], false⟩ (uses ms) <;> rfl

/-! ## Theorems -/

/-- **C32**: generated code is accepted exactly if every invocation with one of the five names is written as expected, and the requests agree with each other. -/
theorem C32_code_accepted (ms : List Mac) : (∃ calls, collectCode ms = some calls) ↔
    (∀ m ∈ ms, Ours m.path → (∃ id path, m.FindsClass id path) ∨ ∃ k id c n s, m.FindsMember k id c n s) ∧ ∃ calls, collect (uses ms) = some calls := by
  have key : ∀ m, decode m ≠ none ↔ (Ours m.path → (∃ id path, m.FindsClass id path) ∨ ∃ k id c n s, m.FindsMember k id c n s) := by
    intro m
    constructor
    · intro h ho
      cases hd : decode m with
      | none => exact absurd hd h
      | some o =>
        cases o with
        | none => exact absurd ho ((decode_other m).1 hd)
        | some u =>
          cases u with
          | findClass id path => exact Or.inl ⟨id, path, (decode_findClass m id path).1 hd⟩
          | member k x => exact Or.inr ⟨k, _, _, _, _, (decode_mem m k x).1 hd⟩
    · intro h hd
      by_cases ho : Ours m.path
      · rcases h ho with ⟨id, path, hf⟩ | ⟨k, id, c, n, s, hf⟩
        · rw [(decode_findClass m id path).2 hf] at hd; cases hd
        · rw [(decode_mem m k ⟨id, c, n, s⟩).2 hf] at hd; cases hd
      · rw [(decode_other m).2 ho] at hd; cases hd
  constructor
  · rintro ⟨calls, h⟩
    have hd : ∀ m ∈ ms, decode m ≠ none := by
      intro m hm hn
      unfold collectCode at h
      rw [visit_panic ms _ ⟨m, hm, hn⟩] at h
      cases h
    exact ⟨fun m hm => (key m).1 (hd m hm), calls, by rw [← collectCode_eq ms hd]; exact h⟩
  · rintro ⟨h, calls, hc⟩
    exact ⟨calls, by rw [collectCode_eq ms (fun m hm => (key m).2 (h m hm))]; exact hc⟩

/-- **C32**: from the generated code to the running library: after a successful load every id named in an invocation of the generated code holds a live
global reference to the class with the path written there, or the id of the member with the name and signature written there in the class that the code
requests under the given class id; each was written exactly once and no local reference is left over. -/
theorem C32_code_load (ms : List Mac) (calls order : List FindClass) (h : collectCode ms = some calls) (ho : order.Perm calls)
    (hn : (globalVars calls).Nodup) (jvm : Jvm) (w w' : World) (hlog : w.log = []) (hl : load jvm w order = some w') :
    w'.locals = w.locals ∧
    (∀ m ∈ ms, ∀ id path, m.FindsClass id path →
      ∃ hd cls, jvm.findClass path = some cls ∧ w'.vars id = .ref hd ∧ (hd, cls) ∈ w'.globals ∧ w'.log.count id = 1) ∧
    (∀ m ∈ ms, ∀ k id c n s, m.FindsMember k id c n s →
      ∃ m' ∈ ms, ∃ path cls mem, m'.FindsClass c path ∧ jvm.findClass path = some cls ∧
        jvm.lookup k cls n s = some mem ∧ w'.vars id = .mem mem ∧ w'.log.count id = 1) := by
  have hd : ∀ m ∈ ms, decode m ≠ none := by
    intro m hm hn
    unfold collectCode at h
    rw [visit_panic ms _ ⟨m, hm, hn⟩] at h
    cases h
  rw [collectCode_eq ms hd] at h
  obtain ⟨h1, h2, h3⟩ := C32_load (uses ms) calls order h ho hn jvm w w' hlog hl
  refine ⟨h1, ?_, ?_⟩
  · intro m hm id path hf
    exact h2 id path (mem_uses.2 ⟨m, hm, (decode_findClass m id path).2 hf⟩)
  · intro m hm k id c n s hf
    obtain ⟨path, cls, mem, hu, r⟩ := h3 k ⟨id, c, n, s⟩ (mem_uses.2 ⟨m, hm, (decode_mem m k ⟨id, c, n, s⟩).2 hf⟩)
    obtain ⟨m', hm', hd'⟩ := mem_uses.1 hu
    exact ⟨m', hm', path, cls, mem, (decode_findClass m' c path).1 hd', r⟩

/-- **C32 (finding)**: `swig_jni_find_class!(id, "path",)` makes the generator panic, although the macro has a rule for the comma at the end
(macroslib/src/java_jni/jni-include.rs:35-42) and the other four accept it. -/
theorem C32_finding_last_comma (id path : Text) (pre post : List Mac) :
    collectCode (pre ++ ⟨[kwFindClass], [.ident id, .comma, .str path, .comma]⟩ :: post) = none := by
  unfold collectCode
  rw [visit_panic _ _ ⟨⟨[kwFindClass], [.ident id, .comma, .str path, .comma]⟩, by simp, rfl⟩]

/-- **C32 (finding)**: an invocation through a path (`crate::swig_jni_find_class!`), or inside the arguments of another macro, is not seen: without another
request for the same class nothing is declared or loaded for it. -/
theorem C32_finding_not_seen (t : List Tok) (p q : Text) (m : Text) (hm : ¬ Ours [m]) :
    collectCode [⟨[p, q], t⟩] = some [] ∧ collectCode [⟨[m], t⟩] = some [] := by
  have h1 : decode ⟨[p, q], t⟩ = some none := (decode_other _).2 (by rintro (e | ⟨k, e⟩) <;> simp at e)
  have h2 : decode ⟨[m], t⟩ = some none := (decode_other _).2 hm
  constructor
  · simp only [collectCode, visit, h1]; rfl
  · simp only [collectCode, visit, h2]; rfl

/-! ## Non-vacuity -/

/-- Code with two requests and another macro. -/
def sampleCode : List Mac :=
  [⟨["println".toList], [.str "x".toList]⟩, ⟨[kwFindClass], [.ident "C".toList, .comma, .str "java/lang/Long".toList]⟩,
   ⟨[kwOf .method], [.ident "M".toList, .comma, .ident "C".toList, .comma, .str "longValue".toList, .comma, .str "()J".toList, .comma]⟩]

example : collectCode sampleCode = some [⟨"C".toList, "java/lang/Long".toList, [⟨"M".toList, "C".toList, "longValue".toList, "()J".toList⟩], [], [], []⟩] := by
  decide +kernel
example : ¬ Ours ["assert".toList] := by
  rintro (e | ⟨k, e⟩)
  · revert e; decide
  · cases k <;> revert e <;> decide

end Flapi.FindCache
