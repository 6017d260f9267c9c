import Verif.Python.ModuleProps
/-!
# Python: acceptance, references between the generated modules, names (C68)
-/
namespace Flapi.PyModule

open Flapi.Py (RTy Ptr Refr Exp RExp Env Val smart unref classOf genArg genRet argClass derefFor derefMutex derefArcMutex derefArc derefBox appendClone retClass
  wrapFor storage storageTy evalArgs eval Fits Denotes wellFormed)
open Flapi.Exported (lit)

/-! ## Specification -/

/-- The constructor of a class with self type `n` may return the object itself or in one of the four pointers. -/
def ConstructorReturns (n : Nat) (ret : RTy) : Prop :=
  ret = .other n ∨ ret = .mutex (.other n) ∨ ret = .arc (.other n) ∨ ret = .arc (.mutex (.other n)) ∨ ret = .box (.other n)

/-- What has to hold for a method: no `self` in the middle, types the generator knows. -/
def MethodOk (items before : List Item) (c : Class) (m : Method) : Prop :=
  isDummy m = true ∨ ∃ as, Declares m as ∧ (isMethod m = true → c.self.isSome = true) ∧
    (∀ t ∈ rustTypes c m as, (genArg (envAt items before) true (tyAt items before t)).isSome = true) ∧
    (genRet (envAt items before) (tyAt items before (m.ret.getD .unit)) .call).isSome = true

/-- What has to hold for an item that comes after `before`. -/
def ItemOk (cfg : Cfg) (items before : List Item) : Item → Prop
  | .cls c => cfg.classHandlers = 0 ∧ cfg.methodHandlers = 0 ∧ cfg.ident (lit "py_" ++ cfg.snake c.name) = true ∧
    (∀ n ret, c.self = some (n, ret) → ConstructorReturns n ret) ∧ (c.self = none → ∀ m ∈ c.methods, isMethod m = false) ∧
    ∀ m ∈ c.methods, MethodOk items before c m
  | .enm e => cfg.ident (lit "py_" ++ cfg.snake e.name) = true ∧ e.name ∉ cfg.foreign ∧ ∀ e', .enm e' ∈ before → e'.name ≠ e.name
  | .iface _ => False

/-- The classes an expression or a type speaks of. -/
def expClasses : Exp → List Nat
  | .arg => []
  | .inst c _ e => c :: expClasses e
  | .lockRef e | .lockMut e | .lockClone e | .derefRef e | .derefClone e | .clone e | .fromU32 _ e | .ref e => expClasses e
  | .matchOpt e b | .mapCollect e b => expClasses e ++ expClasses b

def resClasses : RExp → List Nat
  | .call | .tnil => []
  | .create c e => c :: resClasses e
  | .clone e | .thenNone e | .mutexNew e | .deref e | .asU32 e => resClasses e
  | .matchOpt e b | .iterCloned e b | .intoIter e b | .matchRes e b | .tuple e b | .tcons e b => resClasses e ++ resClasses b

def tyClasses : RTy → List Nat
  | .cls c | .py c => [c]
  | .tcons a b | .res a b => tyClasses a ++ tyClasses b
  | .opt t | .vec t | .slice t | .ref t | .refMut t | .arc t | .mutex t | .box t => tyClasses t
  | _ => []

/-- The enums whose `from_u32` an expression calls. -/
def expEnums : Exp → List Nat
  | .arg => []
  | .fromU32 n e => n :: expEnums e
  | .inst _ _ e | .lockRef e | .lockMut e | .lockClone e | .derefRef e | .derefClone e | .clone e | .ref e => expEnums e
  | .matchOpt e b | .mapCollect e b => expEnums e ++ expEnums b

/-- The class wrappers a generated `def` speaks of: in its parameters, its result and its body. -/
def PyDef.classes (d : PyDef) : List Nat :=
  (d.params.filterMap Param.ty?).flatMap tyClasses ++ tyClasses d.ret ++ d.convs.flatMap (fun x => expClasses x.2) ++ resClasses d.result

def PyDef.enums (d : PyDef) : List Nat := d.convs.flatMap fun x => expEnums x.2

/-! ## Lemmas: acceptance -/

theorem smart_iff (n : Nat) (ret : RTy) : (smart ret).2 = .other n ↔ ConstructorReturns n ret := by
  unfold ConstructorReturns
  constructor
  · intro h
    unfold smart at h
    split at h <;> simp_all
  · rintro (rfl | rfl | rfl | rfl | rfl) <;> rfl

theorem genParam_of {cs : List Class} {env : Env} {n : Text} {t : RTy} (h : (genArg env true (classify cs env.enums t)).isSome = true) :
    ∃ r, genParam cs env (.named n t) = .ok r := by
  cases hg : genArg env true (classify cs env.enums t) with
  | none => simp [hg] at h
  | some r => simp only [genParam, hg]; exact ⟨_, rfl⟩

theorem map_ok_of {α β} {f : α → Except Err β} : ∀ {l : List α}, (∀ a ∈ l, ∃ b, f a = .ok b) → ∃ r : List β, l.map f = r.map .ok
  | [], _ => ⟨[], rfl⟩
  | a :: l, h => by
    obtain ⟨b, hb⟩ := h a (by simp)
    obtain ⟨r, hr⟩ := map_ok_of (l := l) fun x hx => h x (by simp [hx])
    exact ⟨b :: r, by simp [hb, hr]⟩

theorem mem_map_ok {α β} {f : α → Except Err β} {l : List α} {r : List β} (h : l.map f = r.map .ok) {a : α} (ha : a ∈ l) : ∃ b, b ∈ r ∧ f a = .ok b := by
  have : f a ∈ r.map Except.ok := h ▸ List.mem_map_of_mem ha
  obtain ⟨b, hb, he⟩ := List.mem_map.1 this
  exact ⟨b, hb, he.symm⟩

theorem methodName_some {m : Method} (h : isDummy m = false) : ∃ n, methodName m = .ok n := by
  have hp : m.path ≠ [] := by simpa [isDummy] using h
  unfold methodName standardName
  split
  · exact ⟨_, rfl⟩
  · cases m.alias with
    | some a => exact ⟨_, rfl⟩
    | none =>
      cases hl : m.path.getLast? with
      | none => simp [hp] at hl
      | some s => exact ⟨_, rfl⟩

theorem genMethod_ok_iff (items before : List Item) (c : Class) (m : Method) :
    (∃ d, genMethod (classesOf items) (envAt items before) c m = .ok d) ↔ MethodOk items before c m := by
  constructor
  · rintro ⟨d, h⟩
    cases d with
    | none => exact .inl (genMethod_none h)
    | some d =>
      obtain ⟨hd, as, h1, h2⟩ := genMethod_some h
      refine .inr ⟨as, h1, ?_, ?_, by rw [h2.result]; rfl⟩
      · intro hm
        cases hs : c.self with
        | some s => rfl
        | none =>
          have h3 := h2.conversions
          have h4 := h2.variables
          simp only [hm, if_true] at h4
          have e1 := congrArg List.length h3
          have e2 := congrArg List.length h4
          unfold isMethod at hm
          cases hv : m.variant <;> simp [hv] at hm
          simp [rustTypes, hv, hs] at e1 e2
          omega
      · intro t ht
        have h3 := h2.conversions
        have : (genArg (envAt items before) true (tyAt items before t)).map (·.2) ∈ d.convs.map (fun x => some x.2) :=
          h3 ▸ List.mem_map_of_mem (f := fun t => (genArg (envAt items before) true (tyAt items before t)).map (·.2)) ht
        obtain ⟨x, -, hx⟩ := List.mem_map.1 this
        cases hg : genArg (envAt items before) true (tyAt items before t) with
        | none => simp [hg] at hx
        | some _ => rfl
  · rintro (h | ⟨as, h1, h2, h3, h4⟩)
    · exact ⟨none, genMethod_dummy h⟩
    · cases hd : isDummy m with
      | true => exact ⟨none, genMethod_dummy hd⟩
      | false =>
        have hp : m.path ≠ [] := by simpa [isDummy] using hd
        obtain ⟨n, hn⟩ := methodName_some hd
        have hskip : m.args.drop (skipArgs m) = as.map fun a => .named a.1 a.2 := by
          rw [← h1]
          unfold skipArgs isMethod
          cases m.variant <;> rfl
        have hr := rustTypes_append c m as
        obtain ⟨r, ha⟩ : ∃ r, mapRes (genParam (classesOf items) (envAt items before)) (m.args.drop (skipArgs m)) = .ok r := by
          rw [hskip]
          obtain ⟨r, hr'⟩ := map_ok_of (f := genParam (classesOf items) (envAt items before)) (l := as.map fun a => FnArg.named a.1 a.2) (by
            intro x hx
            obtain ⟨a, ha, rfl⟩ := List.mem_map.1 hx
            exact genParam_of (h3 a.2 (by rw [hr]; exact List.mem_append_right _ (List.mem_map_of_mem ha))))
          exact ⟨r, (mapRes_ok _ _ _).2 hr'⟩
        obtain ⟨s, hs⟩ : ∃ s, selfConv (classesOf items) (envAt items before) c m = .ok s := by
          unfold selfConv
          cases hv : m.variant with
          | method v =>
            cases hc : c.self with
            | none => simp [isMethod, hv, hc] at h2
            | some p =>
              obtain ⟨k, ret⟩ := p
              have : (genArg (envAt items before) true (tyAt items before (selfTy k v))).isSome = true :=
                h3 _ (by rw [hr]; exact List.mem_append_left _ (by cases v <;> simp [rustTypes, hv, hc, selfTy]))
              simp only []
              cases hg : genArg (envAt items before) true (tyAt items before (selfTy k v)) with
              | none => simp [hg] at this
              | some r =>
                have hg' : genArg (envAt items before) true (classify (classesOf items) (envAt items before).enums (selfTy k v)) = some r := hg
                rw [hg']
                exact ⟨_, rfl⟩
          | «static» => exact ⟨_, rfl⟩
          | constructor => exact ⟨_, rfl⟩
        obtain ⟨q, hq⟩ := Option.isSome_iff_exists.1 h4
        have hq' : genRet (envAt items before) (classify (classesOf items) (envAt items before).enums (m.ret.getD .unit)) .call = some q := hq
        unfold genMethod
        rw [if_neg hp]
        simp only [bind, Except.bind, hn, ha, hs, hq']
        exact ⟨_, rfl⟩

theorem instanceField_ok_iff (c : Class) : (∃ d, instanceField c = .ok d) ↔
    (∀ n ret, c.self = some (n, ret) → ConstructorReturns n ret) ∧ (c.self = none → ∀ m ∈ c.methods, isMethod m = false) := by
  have hany : hasAnyMethods c = false ↔ ∀ m ∈ c.methods, isMethod m = false := by
    unfold hasAnyMethods
    rw [List.any_eq_false]
    constructor
    · intro h m hm
      have := h m hm
      unfold isMethod
      cases hv : m.variant <;> simp_all
    · intro h m hm
      have := h m hm
      unfold isMethod at this
      cases hv : m.variant <;> simp_all
  unfold instanceField
  cases hs : c.self with
  | none =>
    simp only [reduceCtorEq, false_implies, implies_true, true_and]
    rw [forall_const, ← hany]
    cases hasAnyMethods c <;> simp
  | some p =>
    obtain ⟨n, ret⟩ := p
    simp only [Option.some.injEq, Prod.mk.injEq, reduceCtorEq, false_implies, and_true]
    by_cases hr : (smart ret).2 = .other n
    · rw [if_neg (by simpa using hr)]
      rw [smart_iff] at hr
      exact ⟨fun _ => by rintro _ _ ⟨rfl, rfl⟩; exact hr, fun _ => ⟨_, rfl⟩⟩
    · rw [if_pos hr]
      rw [smart_iff] at hr
      exact ⟨(by rintro ⟨_, h⟩; cases h), fun h => absurd (h n ret ⟨rfl, rfl⟩) hr⟩

theorem genItem_ok_iff (cfg : Cfg) (items before : List Item) (i : Item) : (∃ m, genItem cfg items before i = .ok m) ↔ ItemOk cfg items before i := by
  cases i with
  | iface n => simp [genItem, ItemOk]
  | enm e =>
    simp only [genItem, ItemOk]
    constructor
    · rintro ⟨m, h⟩
      obtain ⟨h1, h2, -⟩ := genEnum_ok h
      simp only [List.mem_append, not_or] at h2
      refine ⟨h1, h2.1, fun e' he hn => h2.2 ?_⟩
      unfold enumNames
      exact List.mem_filterMap.2 ⟨_, he, by simp [hn]⟩
    · rintro ⟨h1, h2, h3⟩
      have : e.name ∉ cfg.foreign ++ enumNames before := by
        simp only [List.mem_append, not_or]
        refine ⟨h2, fun hm => ?_⟩
        obtain ⟨i, hi, he⟩ := List.mem_filterMap.1 hm
        cases i with
        | enm e' => simp only [Option.some.injEq] at he; exact h3 e' hi he
        | cls _ => simp at he
        | iface _ => simp at he
      have h1' : cfg.ident (modName cfg e.name) = true := h1
      simp only [genEnum, parseIdent, h1', if_true, bind, Except.bind, this, if_false]
      exact ⟨_, rfl⟩
  | cls c =>
    simp only [genItem, ItemOk]
    constructor
    · rintro ⟨m, h⟩
      obtain ⟨h1, h2, h3, d, ds, h4, h5, -⟩ := genClass_ok h
      obtain ⟨h6, h7⟩ := (instanceField_ok_iff c).1 ⟨d, h4⟩
      refine ⟨h1, h2, h3, h6, h7, fun m hm => (genMethod_ok_iff ..).1 ?_⟩
      obtain ⟨b, -, hb⟩ := mem_map_ok h5 hm
      exact ⟨b, hb⟩
    · rintro ⟨h1, h2, h3, h4, h5, h6⟩
      obtain ⟨d, hd⟩ := (instanceField_ok_iff c).2 ⟨h4, h5⟩
      obtain ⟨ds, hds⟩ := map_ok_of (f := genMethod (classesOf items) (envAt items before) c) (l := c.methods) fun m hm => (genMethod_ok_iff ..).2 (h6 m hm)
      rw [← mapRes_ok] at hds
      have h3' : cfg.ident (modName cfg c.name) = true := h3
      unfold genClass
      rw [if_neg (by omega)]
      simp only [parseIdent, h3', if_true, bind, Except.bind, hd, hds]
      exact ⟨_, rfl⟩

/-! ## Theorems: acceptance -/

/-- Code is generated exactly if the module name makes identifiers and every item, given those before it, is one the generator can handle. -/
theorem C68_accepts (cfg : Cfg) (items : List Item) : (∃ out, expand cfg items = .ok out) ↔
    cfg.ident cfg.moduleName = true ∧ cfg.ident (lit "init" ++ cfg.moduleName) = true ∧ cfg.ident (lit "PyInit_" ++ cfg.moduleName) = true ∧
    ∀ (k : Nat) (i : Item), items[k]? = some i → ItemOk cfg items (items.take k) i := by
  constructor
  · rintro ⟨out, h⟩
    obtain ⟨ms, hms, h1, h2, h3, -⟩ := expand_ok h
    obtain ⟨hl, hk⟩ := (genItems_ok _ _ _ _ _).1 hms
    refine ⟨h1, h2, h3, fun k i hi => ?_⟩
    obtain ⟨m, -, h⟩ := hk k i hi
    exact (genItem_ok_iff ..).1 ⟨m, by simpa using h⟩
  · rintro ⟨h1, h2, h3, h4⟩
    have : ∀ (rest done : List Item), (∀ (k : Nat) (i : Item), rest[k]? = some i → ItemOk cfg items (done ++ rest.take k) i) →
        ∃ ms, genItems cfg items done rest = .ok ms := by
      intro rest
      induction rest with
      | nil => exact fun _ _ => ⟨[], rfl⟩
      | cons i rest ih =>
        intro done h
        obtain ⟨m, hm⟩ := (genItem_ok_iff ..).2 (h 0 i (by simp))
        obtain ⟨ms, hms⟩ := ih (done ++ [i]) fun k j hj => by simpa using h (k + 1) j (by simpa using hj)
        simp only [List.take_zero, List.append_nil] at hm
        exact ⟨m :: ms, by simp [genItems, hm, hms]⟩
    obtain ⟨ms, hms⟩ := this items [] (by simpa using h4)
    simp only [expand, hms, genInit, parseIdent, h1, h2, h3, if_true, bind, Except.bind]
    exact ⟨_, rfl⟩

/-! ## Lemmas: references -/

theorem derefFor_refs {env : Env} {c : Nat} {p : Ptr} {r : Refr} {e e' : Exp} (h : derefFor env c p r e = some e') :
    expClasses e' = expClasses e ∧ expEnums e' = expEnums e := by
  unfold derefFor derefArcMutex derefArc derefMutex derefBox appendClone at h
  repeat' split at h
  all_goals (cases h <;> simp [expClasses, expEnums])

theorem classOf_mem {t : RTy} {r : Refr} {p : Ptr} {c : Nat} (h : classOf t = some (r, p, c)) : c ∈ tyClasses t := by
  obtain ⟨u, h1, h2⟩ := Flapi.Py.classOf_cases h
  rcases h1 with ⟨rfl, -⟩ | ⟨rfl, -⟩ | ⟨rfl, -⟩ <;> rcases h2 with ⟨rfl, -⟩ | ⟨rfl, -⟩ | ⟨rfl, -⟩ | ⟨rfl, -⟩ | ⟨rfl, -⟩ <;> simp [tyClasses]

theorem genArg_refs (env : Env) (ra : Bool) (t P : RTy) (e : Exp) (h : genArg env ra t = some (P, e)) :
    (∀ c, c ∈ tyClasses P ∨ c ∈ expClasses e → c ∈ tyClasses t) ∧ ∀ n ∈ expEnums e, n ∈ env.enums := by
  unfold genArg at h
  split at h
  · simp only [Option.some.injEq, Prod.mk.injEq] at h
    obtain ⟨rfl, rfl⟩ := h
    simp [expClasses, expEnums]
  · split at h
    · rename_i r p c hc
      unfold argClass at h
      rw [Option.map_eq_some_iff] at h
      obtain ⟨e', he, h⟩ := h
      simp only [Prod.mk.injEq] at h
      obtain ⟨rfl, rfl⟩ := h
      obtain ⟨h1, h2⟩ := derefFor_refs he
      have := classOf_mem hc
      rw [h1, h2]
      refine ⟨?_, by simp [expEnums]⟩
      rintro c' (h | h)
      · split at h <;> simp [tyClasses] at h <;> subst h <;> exact this
      · simp [expClasses] at h; subst h; exact this
    · rename_i hc
      split at h
      · split at h
        · rename_i hn
          simp only [Option.some.injEq, Prod.mk.injEq] at h
          obtain ⟨rfl, rfl⟩ := h
          simpa [expClasses, expEnums, tyClasses] using hn
        · cases h
      · rename_i t'
        rw [Option.map_eq_some_iff] at h
        obtain ⟨⟨p', e'⟩, h1, h2⟩ := h
        simp only [Prod.mk.injEq] at h2
        obtain ⟨rfl, rfl⟩ := h2
        simpa [tyClasses, expClasses, expEnums] using genArg_refs env false _ p' e' h1
      · rename_i t'
        rw [Option.map_eq_some_iff] at h
        obtain ⟨⟨p', e'⟩, h1, h2⟩ := h
        simp only [Prod.mk.injEq] at h2
        obtain ⟨rfl, rfl⟩ := h2
        simpa [tyClasses, expClasses, expEnums] using genArg_refs env false _ p' e' h1
      · rename_i t'
        rw [Option.map_eq_some_iff] at h
        obtain ⟨⟨p', e'⟩, h1, h2⟩ := h
        simp only [Prod.mk.injEq] at h2
        obtain ⟨rfl, rfl⟩ := h2
        simpa [tyClasses, expClasses, expEnums] using genArg_refs env false _ p' e' h1
      · rename_i t' hsl
        rw [Option.map_eq_some_iff] at h
        obtain ⟨⟨p', e'⟩, h1, h2⟩ := h
        simp only [Prod.mk.injEq] at h2
        obtain ⟨rfl, rfl⟩ := h2
        simpa [tyClasses, expClasses, expEnums] using genArg_refs env false _ p' e' h1
      · cases h
termination_by sizeOf t
decreasing_by all_goals (simp_wf; subst_vars; simp; try omega)

theorem wrapFor_refs {env : Env} {c : Nat} {p : Ptr} {e e' : RExp} (h : wrapFor env c p e = some e') : resClasses e' = resClasses e := by
  unfold wrapFor at h
  split at h
  all_goals (cases h <;> simp [resClasses])

theorem retClass_refs {env : Env} {r : Refr} {p : Ptr} {c : Nat} {call e : RExp} {P : RTy} (h : retClass env r p c call = some (P, e)) :
    P = .py c ∧ ∀ i ∈ resClasses e, i = c ∨ i ∈ resClasses call := by
  unfold retClass at h
  simp only [Option.bind_eq_some_iff, Option.map_eq_some_iff, Prod.mk.injEq] at h
  obtain ⟨call', h1, e', h2, rfl, rfl⟩ := h
  refine ⟨rfl, ?_⟩
  have h3 := wrapFor_refs h2
  have h4 : resClasses call' = resClasses call := by
    repeat' split at h1
    all_goals (cases h1 <;> simp [resClasses])
  intro i hi
  simpa [resClasses, h3, h4] using hi

mutual
theorem genRet_refs (env : Env) (t : RTy) (call : RExp) (P : RTy) (e : RExp) (h : genRet env t call = some (P, e)) :
    ∀ c, c ∈ tyClasses P ∨ c ∈ resClasses e → c ∈ tyClasses t ∨ c ∈ resClasses call := by
  rw [genRet.eq_def] at h
  split at h
  · simp only [Option.some.injEq, Prod.mk.injEq] at h
    obtain ⟨rfl, rfl⟩ := h
    intro c; simp [tyClasses, resClasses]; exact .inr
  · rename_i hun
    split at h
    · simp only [Option.some.injEq, Prod.mk.injEq] at h
      obtain ⟨rfl, rfl⟩ := h
      exact fun c h => h
    · rename_i hs
      split at h
      · rename_i r p c hc
        obtain ⟨rfl, h2⟩ := retClass_refs h
        have := classOf_mem hc
        rintro i (hi | hi)
        · simp [tyClasses] at hi; subst hi; exact .inl this
        · rcases h2 i hi with rfl | h
          · exact .inl this
          · exact .inr h
      · rename_i hc
        split at h
        · split at h
          · simp only [Option.some.injEq, Prod.mk.injEq] at h
            obtain ⟨rfl, rfl⟩ := h
            intro c; simp [tyClasses, resClasses]
          · cases h
        · rename_i u
          rw [Option.map_eq_some_iff] at h
          obtain ⟨⟨p', e'⟩, h1, h2⟩ := h
          simp only [Prod.mk.injEq] at h2
          obtain ⟨rfl, rfl⟩ := h2
          have ih := genRet_refs env u .call p' e' h1
          intro c hc; have := ih c; simp [tyClasses, resClasses] at *; rcases hc with h | h | h <;> simp_all
        · rename_i u
          rw [Option.map_eq_some_iff] at h
          obtain ⟨⟨p', e'⟩, h1, h2⟩ := h
          simp only [Prod.mk.injEq] at h2
          obtain ⟨rfl, rfl⟩ := h2
          have ih := genRet_refs env u .call p' e' h1
          intro c hc; have := ih c; simp [tyClasses, resClasses] at *; rcases hc with h | h | h <;> simp_all
        · rename_i u
          rw [Option.map_eq_some_iff] at h
          obtain ⟨⟨p', e'⟩, h1, h2⟩ := h
          simp only [Prod.mk.injEq] at h2
          obtain ⟨rfl, rfl⟩ := h2
          have ih := genRet_refs env u .call p' e' h1
          intro c hc; have := ih c; simp [tyClasses, resClasses] at *; rcases hc with h | h | h <;> simp_all
        · rename_i u v
          rw [Option.map_eq_some_iff] at h
          obtain ⟨⟨p', e'⟩, h1, h2⟩ := h
          simp only [Prod.mk.injEq] at h2
          obtain ⟨rfl, rfl⟩ := h2
          have ih := genRet_refs env u .call p' e' h1
          intro c hc; have := ih c; simp [tyClasses, resClasses] at *; rcases hc with h | h | h <;> simp_all
        · rename_i u hsl
          have ih := genRet_refs env u (.clone call) P e h
          intro c hc; have := ih c hc; simpa [tyClasses, resClasses] using this
        · rename_i u
          have ih := genRet_refs env u (.clone call) P e h
          intro c hc; have := ih c hc; simpa [tyClasses, resClasses] using this
        · rename_i a r
          rw [Option.bind_eq_some_iff] at h
          obtain ⟨⟨p', e'⟩, h1, h2⟩ := h
          rw [Option.map_eq_some_iff] at h2
          obtain ⟨⟨ps, es⟩, h2, h3⟩ := h2
          simp only [Prod.mk.injEq] at h3
          obtain ⟨rfl, rfl⟩ := h3
          have ih := genRet_refs env a .call p' e' h1
          have ih2 := genTail_refs env r ps es h2
          intro c hc
          have i1 := ih c
          have i2 := ih2 c
          simp [tyClasses, resClasses] at *
          rcases hc with (h | h) | h | h | h <;> simp_all
        · cases h
termination_by sizeOf t
decreasing_by all_goals (simp_wf; subst_vars; simp; try omega)

theorem genTail_refs (env : Env) (t P : RTy) (e : RExp) (h : genRet.genTail env t = some (P, e)) :
    ∀ c, c ∈ tyClasses P ∨ c ∈ resClasses e → c ∈ tyClasses t := by
  rw [genRet.genTail.eq_def] at h
  split at h
  · simp only [Option.some.injEq, Prod.mk.injEq] at h
    obtain ⟨rfl, rfl⟩ := h
    simp [tyClasses, resClasses]
  · rename_i a r
    rw [Option.bind_eq_some_iff] at h
    obtain ⟨⟨p', e'⟩, h1, h2⟩ := h
    rw [Option.map_eq_some_iff] at h2
    obtain ⟨⟨ps, es⟩, h2, h3⟩ := h2
    simp only [Prod.mk.injEq] at h3
    obtain ⟨rfl, rfl⟩ := h3
    have ih := genRet_refs env a .call p' e' h1
    have ih2 := genTail_refs env r ps es h2
    intro c hc
    have i1 := ih c
    have i2 := ih2 c
    simp [tyClasses, resClasses] at *
    rcases hc with (h | h) | h | h <;> simp_all
  · cases h
termination_by sizeOf t
decreasing_by all_goals (simp_wf; subst_vars; simp; try omega)
end

end Flapi.PyModule
