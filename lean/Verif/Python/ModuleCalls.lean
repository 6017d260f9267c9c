import Verif.Python.ModuleRefs
/-!
# Python: references resolve, names, calls, findings (C68)
-/
namespace Flapi.PyModule

open Flapi.Py (RTy Ptr Refr Exp RExp Env Val smart unref classOf genArg genRet storage storageTy ctorOk evalArgs evalR Fits Denotes wellFormed Arg AllDenote Returns
  Shows errs datas)
open Flapi.Exported (lit)

/-! ## Specification -/

/-- The declarations speak of types by name only. -/
def Raw (items : List Item) : Prop :=
  ∀ c, Item.cls c ∈ items → (∀ m ∈ c.methods, tyClasses (m.ret.getD .unit) = [] ∧ ∀ n t, FnArg.named n t ∈ m.args → tyClasses t = []) ∧
    ∀ s, c.self = some s → tyClasses s.2 = []

/-! ## Lemmas -/

theorem findClass_some {cs : List Class} {n i : Nat} (h : findClass cs n = some i) :
    (∃ c ret, cs[i]? = some c ∧ c.self = some (n, ret)) ∧ ∀ j c ret, j < i → cs[j]? = some c → c.self ≠ some (n, ret) := by
  unfold findClass at h
  rw [List.findIdx?_eq_some_iff_getElem] at h
  obtain ⟨hi, h1, h2⟩ := h
  refine ⟨?_, ?_⟩
  · cases hs : cs[i].self with
    | none => simp [hs] at h1
    | some s =>
      simp [hs] at h1
      exact ⟨cs[i], s.2, by simp, by rw [hs, ← h1]⟩
  · intro j c ret hj hc hs
    have := h2 j hj
    rw [List.getElem?_eq_some_iff] at hc
    obtain ⟨_, hc⟩ := hc
    rw [hc] at this
    simp [hs] at this

theorem findClass_of {cs : List Class} {n j : Nat} {c : Class} {ret : RTy} (hc : cs[j]? = some c) (hs : c.self = some (n, ret))
    (hf : ∀ j' c' ret', j' < j → cs[j']? = some c' → c'.self ≠ some (n, ret')) : findClass cs n = some j := by
  unfold findClass
  rw [List.findIdx?_eq_some_iff_getElem]
  rw [List.getElem?_eq_some_iff] at hc
  obtain ⟨hj, hc⟩ := hc
  refine ⟨hj, by simp [hc, hs], ?_⟩
  intro k hk
  cases hs' : (cs[k]'(by omega)).self with
  | none => simp
  | some s =>
    have := hf k (cs[k]'(by omega)) s.2 hk (by simp)
    intro h
    simp at h
    exact this (by rw [hs', ← h])

theorem classify_classes (cs : List Class) (en : List Nat) (t : RTy) (h : tyClasses t = []) : ∀ i ∈ tyClasses (classify cs en t), ∃ n, findClass cs n = some i := by
  induction t with
  | other n =>
    intro i hi
    unfold classify at hi
    split at hi
    · rename_i j hj
      simp [tyClasses] at hi
      exact ⟨n, hi ▸ hj⟩
    · split at hi <;> simp [tyClasses] at hi
  | cls c => simp [tyClasses] at h
  | py c => simp [tyClasses] at h
  | tcons a b iha ihb =>
    simp [tyClasses] at h
    intro i hi
    simp only [classify, tyClasses, List.mem_append] at hi
    exact hi.elim (iha h.1 i) (ihb h.2 i)
  | res a b iha ihb =>
    simp [tyClasses] at h
    intro i hi
    simp only [classify, tyClasses, List.mem_append] at hi
    exact hi.elim (iha h.1 i) (ihb h.2 i)
  | prim _ => simp [classify, tyClasses]
  | str => simp [classify, tyClasses]
  | unit => simp [classify, tyClasses]
  | enm _ => simp [classify, tyClasses]
  | pyObject => simp [classify, tyClasses]
  | opt t ih => exact ih h
  | vec t ih => exact ih h
  | slice t ih => exact ih h
  | ref t ih => exact ih h
  | refMut t ih => exact ih h
  | arc t ih => exact ih h
  | mutex t ih => exact ih h
  | box t ih => exact ih h

theorem mem_classesOf {items : List Item} {c : Class} : c ∈ classesOf items ↔ Item.cls c ∈ items := by
  unfold classesOf
  rw [List.mem_filterMap]
  constructor
  · rintro ⟨i, hi, h⟩
    cases i <;> simp at h
    exact h ▸ hi
  · exact fun h => ⟨_, h, rfl⟩

theorem mem_enumTypes {items : List Item} {n : Nat} : n ∈ enumTypes items ↔ ∃ e, Item.enm e ∈ items ∧ e.ty = n := by
  unfold enumTypes
  rw [List.mem_filterMap]
  constructor
  · rintro ⟨i, hi, h⟩
    cases i with
    | enm e => simp at h; exact ⟨e, hi, h⟩
    | cls _ => simp at h
    | iface _ => simp at h
  · rintro ⟨e, he, rfl⟩
    exact ⟨_, he, rfl⟩

theorem wraps_classes {items before : List Item} {c : Class} {m : Method} {as : List (Text × RTy)} {d : PyDef} (h : Wraps items before c m as d)
    (hr : tyClasses (m.ret.getD .unit) = []) (ha : ∀ a ∈ as, tyClasses a.2 = []) :
    (∀ i ∈ d.classes, ∃ n, findClass (classesOf items) n = some i) ∧ ∀ n ∈ d.enums, n ∈ enumTypes before := by
  have hts : ∀ t ∈ rustTypes c m as, tyClasses t = [] := by
    intro t ht
    rw [rustTypes_append, List.mem_append] at ht
    rcases ht with ht | ht
    · unfold rustTypes at ht
      cases hv : m.variant <;> cases hs : c.self <;> simp [hv, hs] at ht
      rename_i v p
      cases v <;> simp at ht <;> subst ht <;> rfl
    · obtain ⟨a, ha', rfl⟩ := List.mem_map.1 ht
      exact ha a ha'
  have hconv : ∀ x ∈ d.convs, ∃ t P, tyClasses t = [] ∧ genArg (envAt items before) true (tyAt items before t) = some (P, x.2) := by
    intro x hx
    have h1 : some x.2 ∈ d.convs.map (fun x => some x.2) := List.mem_map_of_mem (f := fun x : Text × Exp => some x.2) hx
    rw [h.conversions] at h1
    obtain ⟨t, ht, he⟩ := List.mem_map.1 h1
    rw [Option.map_eq_some_iff] at he
    obtain ⟨⟨P, e⟩, hg, rfl⟩ := he
    exact ⟨t, P, hts t ht, hg⟩
  refine ⟨?_, ?_⟩
  · intro i hi
    unfold PyDef.classes at hi
    simp only [List.mem_append, List.mem_flatMap] at hi
    rcases hi with ((⟨t, ht, hi⟩ | hi) | ⟨x, hx, hi⟩) | hi
    · have h1 : some t ∈ (d.params.filterMap Param.ty?).map some := List.mem_map_of_mem ht
      rw [h.paramTypes] at h1
      obtain ⟨a, ha', he⟩ := List.mem_map.1 h1
      rw [Option.map_eq_some_iff] at he
      obtain ⟨⟨P, e⟩, hg, rfl⟩ := he
      exact classify_classes _ _ _ (ha a ha') i ((genArg_refs _ _ _ _ _ hg).1 i (.inl hi))
    · rcases genRet_refs _ _ _ _ _ h.result i (.inl hi) with h2 | h2
      · exact classify_classes _ _ _ hr i h2
      · cases h2
    · obtain ⟨t, P, ht, hg⟩ := hconv x hx
      exact classify_classes _ _ _ ht i ((genArg_refs _ _ _ _ _ hg).1 i (.inr hi))
    · rcases genRet_refs _ _ _ _ _ h.result i (.inr hi) with h2 | h2
      · exact classify_classes _ _ _ hr i h2
      · cases h2
  · intro n hn
    unfold PyDef.enums at hn
    obtain ⟨x, hx, hn⟩ := List.mem_flatMap.1 hn
    obtain ⟨t, P, ht, hg⟩ := hconv x hx
    exact (genArg_refs _ _ _ _ _ hg).2 n hn

theorem declared_raw {m : Method} {as : List (Text × RTy)} (hd : Declares m as) (h : ∀ n t, FnArg.named n t ∈ m.args → tyClasses t = []) :
    ∀ a ∈ as, tyClasses a.2 = [] := by
  intro a ha
  have : FnArg.named a.1 a.2 ∈ m.args.drop (if isMethod m then 1 else 0) := by
    rw [hd]
    exact List.mem_map_of_mem (f := fun a : Text × RTy => FnArg.named a.1 a.2) ha
  exact h _ _ (List.mem_of_mem_drop this)

/-! ## Theorems: references, names -/

/-- Every wrapper class that a generated `def` speaks of (in its signature, through `rust_instance` or `create_instance`) is generated, in a module with
those two functions; every enum whose conversion it calls is generated before it. -/
theorem C68_references (cfg : Cfg) (items : List Item) (out : Output) (h : expand cfg items = .ok out) (hraw : Raw items) (k : Nat) (mod name doc : Text)
    (data : Option RTy) (defs : List PyDef) (hk : out.modules[k]? = some (.cls mod name doc data defs)) (d : PyDef) (hd : d ∈ defs) :
    (∀ i ∈ d.classes, ∃ c n ret doc' defs', (classesOf items)[i]? = some c ∧ c.self = some (n, ret) ∧
      Module.cls (lit "py_" ++ cfg.snake c.name) c.name doc' (some (dataTy n ret)) defs' ∈ out.modules) ∧
    ∀ n ∈ d.enums, ∃ (k' : Nat) (e : EnumInfo), k' < k ∧ items[k']? = some (.enm e) ∧ e.ty = n := by
  obtain ⟨ms, hms, -, -, -, rfl⟩ := expand_ok h
  obtain ⟨hl, hk'⟩ := (genItems_ok _ _ _ _ _).1 hms
  change ms[k]? = _ at hk
  have hlt : k < ms.length := by
    rw [List.getElem?_eq_some_iff] at hk
    exact hk.1
  obtain ⟨i, hi⟩ : ∃ i, items[k]? = some i := ⟨items[k]'(by omega), by simp⟩
  obtain ⟨m', h1, h2⟩ := hk' k i hi
  rw [hk] at h1
  cases h1
  simp only [List.nil_append] at h2
  cases i with
  | iface n => cases h2
  | enm e => obtain ⟨-, -, h3⟩ := genEnum_ok h2; cases h3
  | cls c =>
    obtain ⟨-, -, -, data', ds, hf, hds, heq⟩ := genClass_ok h2
    cases heq
    have hmem : Item.cls c ∈ items := List.mem_of_getElem? hi
    have hw : ∃ m as, m ∈ c.methods ∧ Declares m as ∧ Wraps items (items.take k) c m as d := by
      obtain ⟨o, ho, hid⟩ := List.mem_filterMap.1 hd
      simp only [id] at hid
      subst hid
      have : Except.ok (some d) ∈ c.methods.map (genMethod (classesOf items) (envAt items (items.take k)) c) := by
        have e : c.methods.map (genMethod (classesOf items) (envAt items (items.take k)) c) = ds.map .ok := hds
        rw [e]
        exact List.mem_map_of_mem ho
      obtain ⟨m, hm, he⟩ := List.mem_map.1 this
      obtain ⟨-, as, h3, h4⟩ := genMethod_some he
      exact ⟨m, as, hm, h3, h4⟩
    obtain ⟨m, as, hm, hdec, hw⟩ := hw
    obtain ⟨hr1, hr2⟩ := (hraw c hmem).1 m hm
    obtain ⟨w1, w2⟩ := wraps_classes hw hr1 (declared_raw hdec hr2)
    refine ⟨?_, ?_⟩
    · intro i hi'
      obtain ⟨n, hn⟩ := w1 i hi'
      obtain ⟨⟨c', ret, hc', hs⟩, -⟩ := findClass_some hn
      have hc'' : Item.cls c' ∈ items := mem_classesOf.1 (List.mem_of_getElem? hc')
      obtain ⟨k2, hk2⟩ := List.getElem?_of_mem hc''
      obtain ⟨m2, g1, g2⟩ := hk' k2 _ hk2
      obtain ⟨-, -, -, data2, ds2, hf2, -, rfl⟩ := genClass_ok g2
      have : data2 = some (dataTy n ret) := by
        unfold instanceField at hf2
        rw [hs] at hf2
        simp only at hf2
        split at hf2
        · cases hf2
        · cases hf2; rfl
      subst this
      exact ⟨c', n, ret, _, _, hc', hs, List.mem_of_getElem? g1⟩
    · intro n hn
      obtain ⟨e, he, rfl⟩ := mem_enumTypes.1 (w2 n hn)
      obtain ⟨k2, hk2⟩ := List.getElem?_of_mem he
      rw [List.getElem?_take] at hk2
      split at hk2
      · exact ⟨k2, e, by assumption, hk2, rfl⟩
      · cases hk2

/-- The names of the generated Rust modules are distinct (so that `super::py_x::…` means the module of that class) exactly if the snake case forms of the names
are distinct and none of them is `error`. -/
theorem C68_names_distinct (cfg : Cfg) (items : List Item) (out : Output) (h : expand cfg items = .ok out) :
    (out.errorMod :: out.added.map (·.1)).Nodup ↔ (items.map fun i => cfg.snake i.name).Nodup ∧ ∀ i ∈ items, cfg.snake i.name ≠ lit "error" := by
  obtain ⟨h1, -, -, -, h2, -⟩ := C68_module cfg items out h
  rw [h1, h2]
  have e : lit "py_error" = lit "py_" ++ lit "error" := by unfold lit; decide
  rw [List.nodup_cons, List.map_map, e]
  have key : ∀ P : Text, (P ++ lit "error" ∉ items.map ((fun x : Text × Text => x.1) ∘ fun i : Item => (P ++ cfg.snake i.name, i.name)) ∧
      (items.map ((fun x : Text × Text => x.1) ∘ fun i : Item => (P ++ cfg.snake i.name, i.name))).Nodup) ↔
      (items.map fun i => cfg.snake i.name).Nodup ∧ ∀ i ∈ items, cfg.snake i.name ≠ lit "error" := by
    intro P
    simp only [List.mem_map, Function.comp_apply, List.append_cancel_left_eq, not_exists, not_and]
    constructor
    · rintro ⟨a, b⟩
      refine ⟨?_, a⟩
      rw [List.nodup_iff_pairwise_ne, List.pairwise_map] at b ⊢
      exact b.imp fun hab hc => hab (by simp [hc])
    · rintro ⟨a, b⟩
      refine ⟨b, ?_⟩
      rw [List.nodup_iff_pairwise_ne, List.pairwise_map] at a ⊢
      exact a.imp fun hab hc => hab (by simpa using hc)
  exact key _

/-- FINDING: a class or an enum whose name is `Error` in snake case puts a second `mod py_error` into the crate. -/
theorem C68_finding_error (cfg : Cfg) (items : List Item) (out : Output) (h : expand cfg items = .ok out) (i : Item) (hi : i ∈ items)
    (he : cfg.snake i.name = lit "error") : ¬ (out.errorMod :: out.added.map (·.1)).Nodup := by
  rw [C68_names_distinct cfg items out h]
  exact fun hc => hc.2 i hi he

/-! ## Theorems: the object a class keeps -/

/-- The field of a class, and the accessors of its module, have exactly the type the conversions of other signatures rely on, for a class that is the
first with its self type; its constructor returns an object they can wrap. -/
theorem C68_storage (items before : List Item) (j : Nat) (c : Class) (n : Nat) (ret D : RTy) (hj : (classesOf items)[j]? = some c) (hs : c.self = some (n, ret))
    (hfirst : ∀ j' c' ret', j' < j → (classesOf items)[j']? = some c' → c'.self ≠ some (n, ret')) (hD : instanceField c = .ok (some D)) :
    tyAt items before D = storageTy (envAt items before) j ∧ ctorOk (envAt items before) j = true := by
  have hf := findClass_of hj hs hfirst
  have hret : ConstructorReturns n ret := ((instanceField_ok_iff c).1 ⟨_, hD⟩).1 n ret hs
  have hDe : D = dataTy n ret := by
    unfold instanceField at hD
    rw [hs] at hD
    simp only at hD
    split at hD
    · cases hD
    · cases hD; rfl
  have hct : (envAt items before).ctor j = tyAt items before ret := by
    simp only [envAt, envOf, hj, hs]
  have hcl : classify (classesOf items) (enumTypes before) (.other n) = .cls j := by simp [classify, hf]
  subst hDe
  unfold storageTy storage ctorOk
  rw [hct]
  rcases hret with rfl | rfl | rfl | rfl | rfl <;> simp [tyAt, dataTy, smart, classify, hf]

/-- An object of a class can be an argument by value exactly if the class is declared with `derive(Clone)` or `derive(Copy)`. -/
theorem C68_by_value (items before : List Item) (j : Nat) (c : Class) (n : Nat) (ret : RTy) (hj : (classesOf items)[j]? = some c) (hs : c.self = some (n, ret))
    (hfirst : ∀ j' c' ret', j' < j → (classesOf items)[j']? = some c' → c'.self ≠ some (n, ret')) :
    (∃ P e, genArg (envAt items before) true (tyAt items before (.other n)) = some (P, e)) ↔ lit "Clone" ∈ c.derives ∨ lit "Copy" ∈ c.derives := by
  have hf := findClass_of hj hs hfirst
  have hcl : tyAt items before (.other n) = .cls j := by simp [tyAt, classify, hf]
  have hk : (envAt items before).clonable j = true ↔ lit "Clone" ∈ c.derives ∨ lit "Copy" ∈ c.derives := by
    simp only [envAt, envOf, hj, Class.clonable, Bool.or_eq_true, List.any_eq_true, beq_iff_eq, exists_eq_right]
  rw [hcl, ← hk]
  constructor
  · rintro ⟨P, e, h⟩
    exact Flapi.Py.C46_by_value_needs_clone _ _ _ _ _ h
  · intro h
    have e : genArg (envAt items before) true (.cls j) = Flapi.Py.argClass (envAt items before) true .none .none j := rfl
    rw [e]
    have hne := Flapi.Py.storage_ne_none (envAt items before) j
    unfold Flapi.Py.argClass Flapi.Py.derefFor
    cases hs : storage (envAt items before) j <;>
      simp_all [Flapi.Py.derefArcMutex, Flapi.Py.derefMutex, Flapi.Py.derefArc, Flapi.Py.derefBox, Flapi.Py.appendClone]

/-- `self` is taken from the class's own wrapper exactly if no earlier class has the same self type: the number of the class whose wrapper the conversion
opens is that of the first class with that self type. -/
theorem C68_self (items before : List Item) (j : Nat) (c : Class) (n : Nat) (ret : RTy) (hj : (classesOf items)[j]? = some c) (hs : c.self = some (n, ret))
    (v : SelfVar) : ∃ i, i ≤ j ∧ (∀ i', i' ∈ tyClasses (tyAt items before (selfTy n v)) ↔ i' = i) ∧
      (i = j ↔ ∀ j' c' ret', j' < j → (classesOf items)[j']? = some c' → c'.self ≠ some (n, ret')) := by
  have hex : ∃ i, findClass (classesOf items) n = some i := by
    cases hf : findClass (classesOf items) n with
    | some i => exact ⟨i, rfl⟩
    | none =>
      unfold findClass at hf
      rw [List.findIdx?_eq_none_iff] at hf
      have := hf c (List.mem_of_getElem? hj)
      simp [hs] at this
  obtain ⟨i, hi⟩ := hex
  obtain ⟨⟨ci, ri, hci, hsi⟩, hmin⟩ := findClass_some hi
  refine ⟨i, ?_, ?_, ?_⟩
  · by_cases hle : i ≤ j
    · exact hle
    · exact absurd hs (hmin j c ret (by omega) hj)
  · intro i'
    cases v <;> simp [selfTy, tyAt, classify, hi, tyClasses]
  · constructor
    · rintro rfl
      exact hmin
    · intro hfirst
      have := findClass_of hj hs hfirst
      rw [hi] at this
      exact Option.some.inj this

/-! ## Theorems: calls -/

/-- When Python calls a generated `def`, the Rust function of the declaration receives, in the declared order with `self` first, what the Python values stand
for; the number of values is that of its parameters. -/
theorem C68_call (items before : List Item) (c : Class) (m : Method) (as : List (Text × RTy)) (d : PyDef) (hw : Wraps items before c m as d) (heap : List Int)
    (vals : List Val) (hlen : vals.length = d.convs.length)
    (hfit : ∀ (k : Nat) (t P : RTy) (e : Exp) (v : Val), (rustTypes c m as)[k]? = some t → vals[k]? = some v →
      genArg (envAt items before) true (tyAt items before t) = some (P, e) → wellFormed (envAt items before) (tyAt items before t) = true ∧ Fits heap P v)
    (ws : List Val) (held : List Nat) (h : evalArgs (envAt items before) heap [] ((d.convs.map (·.2)).zip vals) = .ok ws held) :
    ws.length = (rustTypes c m as).length ∧
    ∀ (k : Nat) (t : RTy) (v w : Val), (rustTypes c m as)[k]? = some t → vals[k]? = some v → ws[k]? = some w →
      Denotes (envAt items before) heap (tyAt items before t) v w := by
  have key : ∀ (ts : List RTy) (es : List Exp) (vs : List Val), vs.length = es.length →
      es.map some = ts.map (fun t => (genArg (envAt items before) true (tyAt items before t)).map (·.2)) →
      (∀ (k : Nat) (t P : RTy) (e : Exp) (v : Val), ts[k]? = some t → vs[k]? = some v →
        genArg (envAt items before) true (tyAt items before t) = some (P, e) → wellFormed (envAt items before) (tyAt items before t) = true ∧ Fits heap P v) →
      ∃ l : List Arg, l.map Arg.run = es.zip vs ∧ (∀ x ∈ l, x.Ok (envAt items before) heap) ∧ l.map (·.ty) = ts.map (tyAt items before) ∧ l.map (·.val) = vs := by
    intro ts
    induction ts with
    | nil =>
      intro es vs hl he _
      have : es = [] := by simpa using he
      subst this
      have : vs = [] := by simpa using hl
      subst this
      exact ⟨[], rfl, by simp, rfl, rfl⟩
    | cons t ts ih =>
      intro es vs hl he hf
      cases es with
      | nil => simp at he
      | cons e es =>
        cases vs with
        | nil => simp at hl
        | cons v vs =>
          simp only [List.map_cons, List.cons.injEq] at he
          obtain ⟨he1, he2⟩ := he
          obtain ⟨⟨P, e'⟩, hg, he'⟩ := Option.map_eq_some_iff.1 he1.symm
          simp only at he'
          subst he'
          obtain ⟨l, h1, h2, h3, h4⟩ := ih es vs (by simpa using hl) he2 fun k t' P' e'' v' a b g => hf (k + 1) t' P' e'' v' (by simpa using a) (by simpa using b) g
          obtain ⟨w1, w2⟩ := hf 0 t P e' v (by simp) (by simp) hg
          refine ⟨⟨tyAt items before t, P, e', v⟩ :: l, ?_, ?_, ?_, ?_⟩
          · simp [Arg.run, h1]
          · intro x hx
            rcases List.mem_cons.1 hx with rfl | hx
            · exact ⟨hg, (Flapi.Py.C46_argument_typed _ _ _ _ hg).2 w1, w2⟩
            · exact h2 x hx
          · simp [h3]
          · simp [h4]
  have hconv : (d.convs.map (·.2)).map some = (rustTypes c m as).map (fun t => (genArg (envAt items before) true (tyAt items before t)).map (·.2)) := by
    rw [List.map_map]; exact hw.conversions
  obtain ⟨l, h1, h2, h3, h4⟩ := key (rustTypes c m as) (d.convs.map (·.2)) vals (by simpa using hlen) hconv hfit
  rw [← h1] at h
  have had := Flapi.Py.C57_arguments _ heap l h2 ws held h
  have hall : ∀ (l : List Arg) (ws : List Val), AllDenote (envAt items before) heap l ws → ws.length = l.length ∧
      ∀ (k : Nat) (x : Arg) (w : Val), l[k]? = some x → ws[k]? = some w → Denotes (envAt items before) heap x.ty x.val w := by
    intro l ws hd
    induction hd with
    | nil => simp
    | cons x l w ws hd _ ih =>
      refine ⟨by simp [ih.1], ?_⟩
      intro k y z hy hz
      cases k with
      | zero => simp at hy hz; subst hy; subst hz; exact hd
      | succ k => exact ih.2 k y z (by simpa using hy) (by simpa using hz)
  obtain ⟨a1, a2⟩ := hall l ws had
  have hl3 := congrArg List.length h3
  simp only [List.length_map] at hl3
  refine ⟨by omega, ?_⟩
  intro k t v w ht hv hw'
  have hk3 : (l.map (·.ty))[k]? = some (tyAt items before t) := by rw [h3]; simp [ht]
  have hk4 : (l.map (·.val))[k]? = some v := by rw [h4]; exact hv
  rw [List.getElem?_map, Option.map_eq_some_iff] at hk3 hk4
  obtain ⟨x, hx, hxt⟩ := hk3
  obtain ⟨y, hy, hyv⟩ := hk4
  rw [hx] at hy
  cases hy
  have := a2 k x w hx hw'
  rwa [hxt, hyv] at this

/-- What the Rust function returns reaches Python as the declared result; an error is raised as an exception. -/
theorem C68_result (items before : List Item) (c : Class) (m : Method) (as : List (Text × RTy)) (d : PyDef) (hw : Wraps items before c m as d) (heap : List Int)
    (v : Val) (hv : Returns (envAt items before) heap false (tyAt items before (m.ret.getD .unit)) v) :
    (errs v = [] → ∃ w, evalR (envAt items before) d.result heap v = .ok w (heap ++ datas v) ∧
      Shows (envAt items before) heap.length (heap ++ datas v) false (tyAt items before (m.ret.getD .unit)) v w) ∧
    (∀ e, (errs v).head? = some e → evalR (envAt items before) d.result heap v = .raise e) :=
  Flapi.Py.C57_results _ _ _ _ hw.result heap v hv

/-! ## Theorems: names of methods, documentation -/

theorem def_names {items before : List Item} {c : Class} : ∀ (ms : List Method) (ds : List (Option PyDef)),
    ms.map (genMethod (classesOf items) (envAt items before) c) = ds.map .ok → (ds.filterMap id).map (·.name) = (ms.filter fun m => !isDummy m).map pyName := by
  intro ms ds h
  obtain ⟨h1, h2⟩ := defs_wrap ms ds h
  apply List.ext_getElem?
  intro k
  simp only [List.getElem?_map]
  cases hk : (ms.filter fun m => !isDummy m)[k]? with
  | none =>
    rw [List.getElem?_eq_none_iff] at hk
    rw [List.getElem?_eq_none (by omega)]
    rfl
  | some m =>
    obtain ⟨d, as, h3, -, h4⟩ := h2 k m hk
    rw [h3]
    simp [h4.name]

/-- The methods of the Python class are named after the declarations, in order; its documentation is that of the class and, after an empty line, that of the
first constructor. -/
theorem C68_class_text (cfg : Cfg) (items : List Item) (out : Output) (h : expand cfg items = .ok out) (k : Nat) (c : Class) (hk : items[k]? = some (.cls c)) :
    ∃ doc data defs, out.modules[k]? = some (.cls (lit "py_" ++ cfg.snake c.name) c.name doc data defs) ∧
      defs.map (·.name) = (c.methods.filter fun m => !isDummy m).map pyName ∧
      (data.isSome = true ↔ c.self.isSome = true) ∧
      ((∀ x ∈ c.docs, '\n' ∉ x) → (∀ m ∈ c.methods, ∀ x ∈ m.docs, '\n' ∉ x) →
        linesOf doc = match c.methods.find? fun m => m.variant = .constructor with
          | some m => c.docs ++ [] :: m.docs
          | none => docLines c.docs) := by
  obtain ⟨ms, hms, -, -, -, rfl⟩ := expand_ok h
  obtain ⟨hl, hk'⟩ := (genItems_ok _ _ _ _ _).1 hms
  obtain ⟨mod, h1, h2⟩ := hk' k _ hk
  simp only [List.nil_append] at h2
  obtain ⟨-, -, -, data, defs, hf, hd, rfl⟩ := genClass_ok h2
  refine ⟨_, _, _, h1, def_names _ _ hd, ?_, ?_⟩
  · unfold instanceField at hf
    cases hs : c.self with
    | none =>
      rw [hs] at hf
      simp only at hf
      split at hf <;> cases hf
      simp
    | some p =>
      rw [hs] at hf
      obtain ⟨n, ret⟩ := p
      simp only at hf
      split at hf <;> cases hf
      simp
  · intro hc hm
    unfold classDoc
    have key := fun docs => linesOf_doc [] (by simp) (lit "\n") (by unfold lit; decide) docs
    simp only [List.nil_append, List.map_id'] at key
    cases hfd : c.methods.find? fun m => m.variant = .constructor with
    | none => exact key _ hc
    | some m =>
      have hmem := List.mem_of_find?_eq_some hfd
      simp only []
      rw [key]
      · simp [docLines]
      · intro x hx
        simp only [List.mem_append, List.mem_singleton] at hx
        rcases hx with (hx | rfl) | hx
        · exact hc x hx
        · simp
        · exact hm m hmem x hx

/-- The parameters of the generated Rust function (`py_class!` puts the token `py` first) have different names exactly if the declared arguments have, and none of
them is called `py`, `self` (for a method) or `_cls` (for a constructor).  Otherwise the generated code does not compile. -/
theorem C68_parameters {items before : List Item} {c : Class} {m : Method} {as : List (Text × RTy)} {d : PyDef} (hw : Wraps items before c m as d) :
    (lit "py" :: d.params.map Param.name).Nodup ↔ (as.map (·.1)).Nodup ∧ lit "py" ∉ as.map (·.1) ∧
      (isMethod m = true → lit "self" ∉ as.map (·.1)) ∧ (m.variant = .constructor → lit "_cls" ∉ as.map (·.1)) := by
  have e1 : lit "py" ≠ lit "self" := by unfold lit; decide
  have e2 : lit "py" ≠ lit "_cls" := by unfold lit; decide
  rw [hw.params]
  cases hv : m.variant with
  | method v => simp [leading, isMethod, hv, e1, and_comm, and_left_comm]
  | constructor => simp [leading, isMethod, hv, e2, and_comm, and_left_comm]; exact and_assoc
  | static => simp [leading, isMethod, hv, and_comm]

/-! ## Findings -/

/-- FINDING: a class with two constructors gets two methods `__new__`. -/
theorem C68_finding_two_constructors (c : Class) (i j : Nat) (m m' : Method) (hij : i ≠ j) (hi : (c.methods.filter fun m => !isDummy m)[i]? = some m)
    (hj : (c.methods.filter fun m => !isDummy m)[j]? = some m') (hm : m.variant = .constructor) (hm' : m'.variant = .constructor) :
    ¬ ((c.methods.filter fun m => !isDummy m).map pyName).Nodup := by
  intro hn
  have h1 : ((c.methods.filter fun m => !isDummy m).map pyName)[i]? = some (lit "__new__") := by simp [hi, pyName, hm]
  have h2 : ((c.methods.filter fun m => !isDummy m).map pyName)[j]? = some (lit "__new__") := by simp [hj, pyName, hm']
  rw [List.getElem?_eq_some_iff] at h1 h2
  obtain ⟨l1, e1⟩ := h1
  obtain ⟨l2, e2⟩ := h2
  rw [List.nodup_iff_pairwise_ne, List.pairwise_iff_getElem] at hn
  rcases Nat.lt_or_gt_of_ne hij with hlt | hlt
  · exact hn i j l1 l2 hlt (e1.trans e2.symm)
  · exact hn j i l2 l1 hlt (e2.trans e1.symm)

/-- FINDING: the body of an inline method, and `private` or `protected`, have no influence on the Python code: a function with the name of the method is called
instead of the body, and everything is public. -/
theorem C68_finding_inline_and_access (cs : List Class) (env : Env) (c : Class) (m : Method) (body : Option Text) (a : Access) :
    genMethod cs env c { m with inline := body, access := a } = genMethod cs env c m := rfl

/-- FINDING: a class whose constructor returns a `Result` is not accepted. -/
theorem C68_finding_fallible_constructor (cfg : Cfg) (items : List Item) (c : Class) (n : Nat) (ok err : RTy) (hc : Item.cls c ∈ items)
    (hs : c.self = some (n, .res ok err)) : ¬ ∃ out, expand cfg items = .ok out := by
  rw [C68_accepts]
  rintro ⟨-, -, -, h⟩
  obtain ⟨k, hk⟩ := List.getElem?_of_mem hc
  obtain ⟨-, -, -, h1, -⟩ := h k _ hk
  rcases h1 _ _ hs with h | h | h | h | h <;> cases h

/-- FINDING: an enum cannot be used by the classes declared before it. -/
theorem C68_finding_enum_declared_later (cfg : Cfg) (items : List Item) (k : Nat) (c : Class) (hk : items[k]? = some (.cls c)) (m : Method) (hm : m ∈ c.methods)
    (hd : isDummy m = false) (as : List (Text × RTy)) (has : Declares m as) (a : Text × RTy) (ha : a ∈ as) (n : Nat) (hn : a.2 = .other n)
    (hcls : findClass (classesOf items) n = none) (hbefore : ∀ e, Item.enm e ∈ items.take k → e.ty ≠ n) : ¬ ∃ out, expand cfg items = .ok out := by
  rw [C68_accepts]
  rintro ⟨-, -, -, h⟩
  obtain ⟨-, -, -, -, -, h1⟩ := h k _ hk
  rcases h1 m hm with h2 | ⟨as', h2, -, h3, -⟩
  · rw [hd] at h2; cases h2
  · have e : as' = as := by
      have := h2.symm.trans has
      exact (List.map_inj_right (fun x y hxy => by simp only [FnArg.named.injEq] at hxy; exact Prod.ext hxy.1 hxy.2)).1 this
    subst e
    have := h3 a.2 (by rw [rustTypes_append]; exact List.mem_append_right _ (List.mem_map_of_mem ha))
    rw [hn] at this
    have hne : n ∉ enumTypes (items.take k) := fun hc => by
      obtain ⟨e, he, rfl⟩ := mem_enumTypes.1 hc
      exact hbefore e he rfl
    have e2 : tyAt items (items.take k) (.other n) = .other n := by simp [tyAt, classify, hcls, hne]
    rw [e2] at this
    simp [genArg, Flapi.Py.supported, classOf, unref, smart] at this

/-- FINDING: with a callback interface among the items nothing is generated (the generator panics). -/
theorem C68_finding_interface (cfg : Cfg) (items : List Item) (n : Text) (h : Item.iface n ∈ items) : ¬ ∃ out, expand cfg items = .ok out := by
  rw [C68_accepts]
  rintro ⟨-, -, -, h1⟩
  obtain ⟨k, hk⟩ := List.getElem?_of_mem h
  exact h1 k _ hk

/-! ## Concrete cases -/

/-- `enum Color`, class `Foo` (kept in a `Mutex`, clonable) and class `Bar` with a dummy constructor, whose methods use both. -/
def demoColor : EnumInfo := ⟨lit "Color", 7, [lit "A colour"], [(lit "RED", lit "Color::Red", 0), (lit "BLUE", lit "Color::Blue", 1)]⟩

def demoFoo : Class := ⟨lit "Foo", some (1, .other 1), [lit "Clone"], [lit "A foo"],
  [⟨.constructor, [lit "Foo", lit "new"], none, [.named (lit "x") (.prim .i32)], some (.other 1), [lit "Makes it"], none, .pub⟩,
   ⟨.method .rptr, [lit "Foo", lit "to_string"], none, [.self], some (.prim .string), [], none, .pub⟩,
   ⟨.method .rptrMut, [lit "Foo", lit "paint"], none, [.self, .named (lit "c") (.other 7), .named (lit "o") (.opt (.other 1))], none, [lit "a", lit "b"], none, .pub⟩,
   ⟨.static, [lit "Foo", lit "all"], some (lit "every"), [], some (.vec (.other 1)), [], none, .priv⟩]⟩

def demoBar : Class := ⟨lit "Bar", some (2, .arc (.other 2)), [], [],
  [⟨.constructor, [], none, [], none, [], none, .priv⟩,
   ⟨.method .rptr, [lit "Bar", lit "foo"], none, [.self, .named (lit "b") (.ref (.other 2))], some (.res (.other 1) (.other 9)), [], none, .pub⟩]⟩

def demoItems : List Item := [.enm demoColor, .cls demoFoo, .cls demoBar]

def demoCfg : Cfg := ⟨lit "m", fun t => t.map Char.toLower, fun t => !t.isEmpty, 0, 0, []⟩

def demoOut : Output := match expand demoCfg demoItems with
  | .ok o => o
  | .error _ => ⟨[], [], [], [], [], []⟩

theorem demo_ok : expand demoCfg demoItems = .ok demoOut := by
  have : (expand demoCfg demoItems).isOk = true := by unfold demoItems demoCfg demoColor demoFoo demoBar lit; decide +kernel
  unfold demoOut
  cases h : expand demoCfg demoItems with
  | ok o => rfl
  | error e => rw [h] at this; cases this

/-- the items added, in order -/
example : demoOut.added.map (·.2) = [lit "Color", lit "Foo", lit "Bar"] := by
  rw [(C68_module _ _ _ demo_ok).1]; rfl

/-- the names of the methods: the dummy constructor is left out, `to_string` is `__repr__` -/
example : (demoFoo.methods.filter fun m => !isDummy m).map pyName = [lit "__new__", lit "__repr__", lit "paint", lit "every"] ∧
    (demoBar.methods.filter fun m => !isDummy m).map pyName = [lit "foo"] := by
  unfold demoFoo demoBar lit; decide +kernel

/-- the declarations are by name only, so the references theorem applies -/
example : Raw demoItems := by
  intro c hc
  simp only [demoItems, List.mem_cons, reduceCtorEq, Item.cls.injEq, List.not_mem_nil, or_false, false_or] at hc
  rcases hc with rfl | rfl
  · refine ⟨?_, ?_⟩
    · intro m hm
      simp only [demoFoo, List.mem_cons, List.not_mem_nil, or_false] at hm
      rcases hm with rfl | rfl | rfl | rfl <;> simp [tyClasses] <;> intro n t h <;> (try rcases h with ⟨-, rfl⟩ | ⟨-, rfl⟩) <;> (try obtain ⟨-, rfl⟩ := h) <;> rfl
    · intro s hs
      simp only [demoFoo, Option.some.injEq] at hs
      subst hs; rfl
  · refine ⟨?_, ?_⟩
    · intro m hm
      simp only [demoBar, List.mem_cons, List.not_mem_nil, or_false] at hm
      rcases hm with rfl | rfl <;> simp [tyClasses] <;> intro n t h <;> (try obtain ⟨-, rfl⟩ := h) <;> rfl
    · intro s hs
      simp only [demoBar, Option.some.injEq] at hs
      subst hs; rfl

/-- the module names differ -/
example : (demoOut.errorMod :: demoOut.added.map (·.1)).Nodup := by
  rw [C68_names_distinct _ _ _ demo_ok]
  unfold demoItems demoCfg demoColor demoFoo demoBar lit
  decide +kernel

/-- a `def`: `paint` locks the object, converts the number to the enum and clones the optional second object -/
example : (demoOut.modules.flatMap fun | .cls _ _ _ _ ds => ds | _ => []).map (fun d => (d.convs.map (·.2)).length) = [1, 1, 3, 0, 2] ∧
    (demoOut.modules.flatMap fun | .cls _ _ _ _ ds => ds | _ => []).map (fun d => d.classes.length) = [2, 1, 3, 2, 5] := by
  unfold demoOut demoItems demoCfg demoColor demoFoo demoBar lit
  decide +kernel

/-- a class before the enum it uses: rejected -/
example : ¬ ∃ out, expand demoCfg [.cls demoFoo, .enm demoColor] = .ok out := by
  apply C68_finding_enum_declared_later demoCfg _ 0 demoFoo rfl demoFoo.methods[2] (by simp [demoFoo]) (by unfold demoFoo lit; decide +kernel)
    [(lit "c", .other 7), (lit "o", .opt (.other 1))] rfl (lit "c", .other 7) (by simp) 7 rfl (by decide) (by simp)

/-- FINDING: a comment of more than one line in one piece (`/** … */`, `#[doc = "…"]`) is given `///` in front of its first line only: the rest is read as code. -/
theorem C68_finding_long_comment (name a b : Text) (hn : (lit "__").isPrefixOf name = false) (ha : '\n' ∉ a) (hb : '\n' ∉ b) :
    ∃ T, docOf name [a ++ '\n' :: b] = some T ∧ linesOf T = [lit "/// " ++ a, b] := by
  refine ⟨_, by unfold docOf; rw [if_neg (by rw [hn]; decide)], ?_⟩
  have h : '\n' ∉ lit "/// " ++ a := by
    rw [List.mem_append]
    rintro (h | h)
    · revert h; unfold lit; decide
    · exact ha h
  have hb' : linesOf b = [b] := linesOf_one b hb
  show linesOf (lit "/// " ++ (a ++ '\n' :: b)) = _
  rw [← List.append_assoc, linesOf_append _ _ h, hb']

end Flapi.PyModule
