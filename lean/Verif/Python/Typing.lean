import Verif.Python.Gen
/-!
# Python: the types rustc gives the generated expressions (specification), C46

`typeOf` transcribes the typing rules of Rust for the handful of expressions the generator emits, including the rule that a value leaving a `match` arm
or a closure may not borrow from a variable or temporary of that arm.  It knows nothing about the generator.
-/
namespace Flapi.Py

/-- Which types are `Clone`. -/
def isClone (env : Env) : RTy → Bool
  | .prim _ => true
  | .str => false
  | .unit => true
  | .tcons a r => isClone env a && isClone env r
  | .cls c => env.clonable c
  | .enm _ => true
  | .opt t => isClone env t
  | .vec t => isClone env t
  | .slice _ => false
  | .ref _ => true
  | .refMut _ => false
  | .arc _ => true
  | .mutex _ => false
  | .box t => isClone env t
  | .res a b => isClone env a && isClone env b
  | .py _ => false
  | .pyObject => false
  | .other _ => false

/-- The value borrows from a variable or a temporary of the scope the expression stands in. -/
def escapes : Exp → Bool
  | .arg => false
  | .inst _ addRef e => addRef || escapes e
  | .lockRef _ => true
  | .lockMut _ => true
  | .lockClone _ => false
  | .derefRef e => escapes e
  | .derefClone _ => false
  | .clone _ => false
  | .fromU32 _ _ => false
  | .matchOpt e _ => escapes e
  | .mapCollect _ _ => false
  | .ref _ => true

/-- What is inside the `Mutex` a reference leads to (auto-dereferencing through `Arc`). -/
def lockTarget : RTy → Option RTy
  | .ref (.mutex t) => some t
  | .ref (.arc (.mutex t)) => some t
  | _ => none

/-- `x.clone()` for `x : &T`: `T`, or `&T` again if only the reference can be cloned. -/
def cloneOfRef (env : Env) (t : RTy) : RTy := if isClone env t then t else .ref t

/-- The type of an expression in which `arg` has type `var`; `none`: rustc refuses. -/
def typeOf (env : Env) (var : RTy) : Exp → Option RTy
  | .arg => some var
  | .inst c addRef e =>
    match typeOf env var e with
    | some t => if (if addRef then RTy.ref t else t) = .ref (.py c) then some (.ref (storageTy env c)) else none
    | none => none
  | .lockRef e => ((typeOf env var e).bind lockTarget).map .ref
  | .lockMut e => ((typeOf env var e).bind lockTarget).map .refMut
  | .lockClone e => ((typeOf env var e).bind lockTarget).bind fun t => if isClone env t then some t else none
  | .derefRef e =>
    match typeOf env var e with
    | some (.ref t) => some (.ref t)
    | _ => none
  | .derefClone e =>
    match typeOf env var e with
    | some (.ref t) => if isClone env t then some t else none
    | _ => none
  | .clone e =>
    match typeOf env var e with
    | some (.ref t) => some (cloneOfRef env t)
    | _ => none
  | .fromU32 n e => if typeOf env var e = some (.prim .u32) then some (.enm n) else none
  | .matchOpt e body =>
    match typeOf env var e with
    | some (.opt t) => if escapes body then none else (typeOf env t body).map .opt
    | _ => none
  | .mapCollect e body =>
    match typeOf env var e with
    | some (.vec t) => if escapes body then none else (typeOf env t body).map .vec
    | _ => none
  | .ref e => (typeOf env var e).map .ref

/-- Coercions of an argument of a function. -/
inductive Coerces : RTy → RTy → Prop where
  | same (t : RTy) : Coerces t t
  | arc (t : RTy) : Coerces (.ref (.arc t)) (.ref t)
  | vec (t : RTy) : Coerces (.ref (.vec t)) (.ref (.slice t))

/-- The argument's conversion is accepted by rustc: the expression, given what Python passes, is a value of the declared type. -/
def ArgCompiles (env : Env) (t : RTy) (p : RTy) (e : Exp) : Prop := ∃ t', typeOf env p e = some t' ∧ Coerces t' t

/-- A type whose values contain references to be made by the generated code (`&str` comes from cpython). -/
def borrows : RTy → Bool
  | .ref .str => false
  | .ref _ => true
  | .refMut _ => true
  | _ => false

/-- Types whose conversion has exactly that type.  Not so: references inside `Option` or `Vec`, slices (a `&Vec` is made), a class kept in an `Arc` taken
by value or by reference (the `Arc` is cloned, or a reference to the `Arc` is made). -/
def exact (env : Env) : RTy → Bool
  | .cls c => !(storage env c = .arc)
  | .opt t => !borrows t && exact env t
  | .vec t => !borrows t && exact env t
  | .ref (.slice _) => false
  | .ref (.cls c) => !(storage env c = .arc)
  | .ref t => exact env t
  | _ => true

/-- Types of arguments for which rustc accepts the generated code: exact ones, slices of exact ones and references to a class. -/
def wellFormed (env : Env) : RTy → Bool
  | .ref (.slice t) => !borrows t && exact env t
  | .ref (.cls _) => true
  | t => exact env t

/-! ## Arguments -/

theorem storage_ne_none (env : Env) (c : Nat) : storage env c ≠ .none := by
  unfold storage
  cases (smart (env.ctor c)).1 <;> simp

theorem classOf_cases {t : RTy} {r : Refr} {p : Ptr} {c : Nat} (h : classOf t = some (r, p, c)) :
    ∃ u, (t = u ∧ r = .none ∨ t = .ref u ∧ r = .ref ∨ t = .refMut u ∧ r = .mutRef) ∧
      (u = .cls c ∧ p = .none ∨ u = .arc (.mutex (.cls c)) ∧ p = .arcMutex ∨ u = .arc (.cls c) ∧ p = .arc ∨ u = .mutex (.cls c) ∧ p = .mutex ∨
        u = .box (.cls c) ∧ p = .box) := by
  have hu : ∃ u, unref t = (r, u) ∧ smart u = (p, .cls c) := by
    unfold classOf at h
    split at h
    · rename_i p' c' he
      simp only [Option.some.injEq, Prod.mk.injEq] at h
      refine ⟨(unref t).2, ?_, ?_⟩
      · rw [← h.1]
      · rw [he, h.2.1, h.2.2]
    · cases h
  obtain ⟨u, h1, h2⟩ := hu
  refine ⟨u, ?_, ?_⟩
  · unfold unref at h1
    split at h1 <;> simp only [Prod.mk.injEq] at h1 <;> obtain ⟨h3, h4⟩ := h1 <;> subst h3 <;> subst h4 <;> simp
  · unfold smart at h2
    split at h2 <;> simp only [Prod.mk.injEq] at h2 <;> obtain ⟨h3, h4⟩ := h2 <;> subst h3 <;> subst h4 <;> simp

/-- The type the conversion gets. -/
def resTy (env : Env) : RTy → Option RTy
  | .cls c => if storage env c = .arc then some (.arc (.cls c)) else some (.cls c)
  | .opt t => if borrows t then none else (resTy env t).map .opt
  | .vec t => if borrows t then none else (resTy env t).map .vec
  | .ref (.slice t) => if borrows t then none else (resTy env t).map fun t => .ref (.vec t)
  | .ref (.cls c) => if storage env c = .arc then some (.ref (.arc (.cls c))) else some (.ref (.cls c))
  | .ref t => (resTy env t).map .ref
  | t => some t

theorem inst_type (env : Env) (ra : Bool) (c : Nat) :
    typeOf env (if ra then .ref (.py c) else .py c) (.inst c (!ra) .arg) = some (.ref (storageTy env c)) := by
  cases ra <;> simp [typeOf]

theorem argClass_type (env : Env) (ra : Bool) {t : RTy} {r : Refr} {p : Ptr} {c : Nat} (hc : classOf t = some (r, p, c)) {P : RTy} {e : Exp}
    (h : argClass env ra r p c = some (P, e)) : typeOf env P e = resTy env t ∧ (ra = false → escapes e = borrows t) := by
  have hi := inst_type env ra c
  obtain ⟨u, hu, hp⟩ := classOf_cases hc
  unfold argClass at h
  rw [Option.map_eq_some_iff] at h
  obtain ⟨e', he, heq⟩ := h
  simp only [Prod.mk.injEq] at heq
  obtain ⟨rfl, rfl⟩ := heq
  unfold derefFor at he
  cases hs : storage env c <;> simp only [hs] at he
  case none => exact absurd hs (storage_ne_none env c)
  all_goals
    rcases hu with ⟨rfl, rfl⟩ | ⟨rfl, rfl⟩ | ⟨rfl, rfl⟩ <;> rcases hp with ⟨rfl, rfl⟩ | ⟨rfl, rfl⟩ | ⟨rfl, rfl⟩ | ⟨rfl, rfl⟩ | ⟨rfl, rfl⟩ <;>
      simp only [derefArcMutex, derefMutex, derefArc, derefBox, appendClone, Option.ite_none_right_eq_some, Option.some.injEq, reduceCtorEq] at he <;>
      (try obtain ⟨hcl, he⟩ := he) <;> (try subst he) <;>
      simp_all [storageTy, typeOf, lockTarget, isClone, cloneOfRef, resTy, escapes, borrows]

theorem classOf_none {t : RTy} (h : classOf t = none) : (∀ c, t ≠ .cls c) ∧ (∀ c, t ≠ .ref (.cls c)) := by
  constructor <;> rintro c rfl <;> simp [classOf, unref, smart] at h

theorem genArg_type (env : Env) (ra : Bool) (t : RTy) (P : RTy) (e : Exp) (h : genArg env ra t = some (P, e)) :
    typeOf env P e = resTy env t ∧ (ra = false → escapes e = borrows t) := by
  unfold genArg at h
  split at h
  · rename_i hs
    simp only [Option.some.injEq, Prod.mk.injEq] at h
    obtain ⟨rfl, rfl⟩ := h
    unfold supported at hs
    split at hs <;> simp_all [typeOf, resTy, escapes, borrows]
  · rename_i hs
    split at h
    · rename_i r p c hc
      exact argClass_type env ra hc h
    · rename_i hc
      obtain ⟨hc1, hc2⟩ := classOf_none hc
      split at h
      · rename_i en _
        split at h
        · simp only [Option.some.injEq, Prod.mk.injEq] at h
          obtain ⟨rfl, rfl⟩ := h
          simp [typeOf, resTy, escapes, borrows]
        · cases h
      · rename_i t'
        rw [Option.map_eq_some_iff] at h
        obtain ⟨⟨p', e'⟩, h1, h2⟩ := h
        simp only [Prod.mk.injEq] at h2
        obtain ⟨rfl, rfl⟩ := h2
        have ih := genArg_type env false t' p' e' h1
        simp only [typeOf, resTy, escapes, ih.1, ih.2 rfl]; exact ⟨trivial, fun _ => rfl⟩
      · rename_i t'
        rw [Option.map_eq_some_iff] at h
        obtain ⟨⟨p', e'⟩, h1, h2⟩ := h
        simp only [Prod.mk.injEq] at h2
        obtain ⟨rfl, rfl⟩ := h2
        have ih := genArg_type env false t' p' e' h1
        refine ⟨?_, fun _ => by simp [escapes, borrows]⟩
        simp only [typeOf, resTy, ih.1, ih.2 rfl]
        split <;> simp [Function.comp_def]
      · rename_i t'
        rw [Option.map_eq_some_iff] at h
        obtain ⟨⟨p', e'⟩, h1, h2⟩ := h
        simp only [Prod.mk.injEq] at h2
        obtain ⟨rfl, rfl⟩ := h2
        have ih := genArg_type env false t' p' e' h1
        simp only [typeOf, resTy, escapes, ih.1, ih.2 rfl]; exact ⟨trivial, fun _ => rfl⟩
      · rename_i t' hsl
        rw [Option.map_eq_some_iff] at h
        obtain ⟨⟨p', e'⟩, h1, h2⟩ := h
        simp only [Prod.mk.injEq] at h2
        obtain ⟨rfl, rfl⟩ := h2
        have ih := genArg_type env false t' p' e' h1
        have hstr : t' ≠ .str := by
          rintro rfl
          simp [supported] at hs
        refine ⟨?_, fun _ => ?_⟩
        · rw [typeOf, ih.1]
          cases t' with
          | slice u => exact (hsl u rfl).elim
          | cls c => exact (hc2 c rfl).elim
          | _ => rfl
        · cases t' with
          | str => exact (hstr rfl).elim
          | _ => rfl
      · cases h
termination_by sizeOf t
decreasing_by all_goals (simp_wf; subst_vars; simp; try omega)

theorem resTy_exact (env : Env) (t : RTy) : resTy env t = some t ↔ exact env t = true := by
  induction t with
  | cls c => unfold resTy exact; by_cases h : storage env c = .arc <;> simp [h]
  | opt t ih => unfold resTy exact; by_cases h : borrows t <;> simp [h, ← ih]
  | vec t ih => unfold resTy exact; by_cases h : borrows t <;> simp [h, ← ih]
  | ref t ih =>
    cases t with
    | slice u =>
      simp only [resTy, exact]
      by_cases h : borrows u <;> simp [h]
    | cls c => simp only [resTy, exact]; by_cases h : storage env c = .arc <;> simp [h]
    | _ => simpa [resTy, exact] using ih
  | _ => simp [resTy, exact]

theorem resTy_arc (env : Env) (t : RTy) (h : ∀ c, t ≠ .cls c) : resTy env t ≠ some (.arc t) := by
  intro he
  have hs : ∀ u : RTy, u ≠ .arc u := fun u e => by
    have := congrArg sizeOf e
    simp at this
  cases t with
  | cls c => exact h c rfl
  | opt t => simp only [resTy] at he; split at he <;> simp at he
  | vec t => simp only [resTy] at he; split at he <;> simp at he
  | ref t =>
    cases t with
    | slice u => simp only [resTy] at he; split at he <;> simp at he
    | cls c => simp only [resTy] at he; split at he <;> simp at he
    | _ => simp [resTy] at he
  | _ => simp only [resTy, Option.some.injEq] at he; exact hs _ he

theorem resTy_wellFormed (env : Env) (t : RTy) : (∃ t', resTy env t = some t' ∧ Coerces t' t) ↔ wellFormed env t = true := by
  have gen : (∀ u, t ≠ .ref (.slice u)) → (∀ c, t ≠ .ref (.cls c)) →
      ((∃ t', resTy env t = some t' ∧ Coerces t' t) ↔ exact env t = true) := by
    intro h1 h2
    rw [← resTy_exact]
    constructor
    · rintro ⟨t', he, hc⟩
      cases hc with
      | same => exact he
      | arc u =>
        exfalso
        have hu : ∀ c, u ≠ .cls c := fun c e => h2 c (e ▸ rfl)
        have : resTy env (.ref u) = (resTy env u).map .ref := by
          cases u with
          | slice v => exact (h1 v rfl).elim
          | cls c => exact (hu c rfl).elim
          | _ => rfl
        rw [this, Option.map_eq_some_iff] at he
        obtain ⟨a, ha, e⟩ := he
        simp only [RTy.ref.injEq] at e
        exact resTy_arc env u hu (e ▸ ha)
      | vec u => exact (h1 u rfl).elim
    · intro he
      exact ⟨t, he, .same t⟩
  by_cases h1 : ∃ u, t = .ref (.slice u)
  · obtain ⟨u, rfl⟩ := h1
    show _ ↔ (!borrows u && exact env u) = true
    simp only [resTy]
    rw [Bool.and_eq_true, ← resTy_exact]
    constructor
    · rintro ⟨t', he, hc⟩
      split at he
      · cases he
      · rename_i hb
        rw [Option.map_eq_some_iff] at he
        obtain ⟨a, ha, rfl⟩ := he
        cases hc
        exact ⟨by simpa using hb, ha⟩
    · rintro ⟨hb, he⟩
      refine ⟨.ref (.vec u), ?_, .vec u⟩
      rw [if_neg (by simpa using hb), he]
      rfl
  · by_cases h2 : ∃ c, t = .ref (.cls c)
    · obtain ⟨c, rfl⟩ := h2
      simp only [resTy, wellFormed, iff_true]
      split
      · exact ⟨_, rfl, .arc _⟩
      · exact ⟨_, rfl, .same _⟩
    · have h1' : ∀ u, t ≠ .ref (.slice u) := fun u e => h1 ⟨u, e⟩
      have h2' : ∀ c, t ≠ .ref (.cls c) := fun c e => h2 ⟨c, e⟩
      rw [gen h1' h2']
      have : wellFormed env t = exact env t := by
        unfold wellFormed
        split
        · exact (h1' _ rfl).elim
        · exact (h2' _ rfl).elim
        · rfl
      rw [this]

/-! ## Arguments: theorems -/

/-- When the generator accepts the type of an argument, rustc accepts the conversion exactly for the types described by `wellFormed`. -/
theorem C46_argument_typed (env : Env) (t P : RTy) (e : Exp) (h : genArg env true t = some (P, e)) : ArgCompiles env t P e ↔ wellFormed env t = true := by
  unfold ArgCompiles
  rw [(genArg_type env true t P e h).1]
  exact resTy_wellFormed env t

/-- Mutable access is given only to an object kept in a lock, and goes through the lock. -/
theorem C46_mut_needs_lock (env : Env) (ra : Bool) (t P : RTy) (e : Exp) (h : genArg env ra (.refMut t) = some (P, e)) :
    ∃ c, t = .cls c ∧ (storageTy env c = .mutex (.cls c) ∨ storageTy env c = .arc (.mutex (.cls c))) ∧ e = .lockMut (.inst c (!ra) .arg) := by
  unfold genArg at h
  simp only [supported, Bool.false_eq_true, if_false] at h
  split at h
  · rename_i r p c hc
    obtain ⟨u, hu, hp⟩ := classOf_cases hc
    rcases hu with ⟨rfl, rfl⟩ | ⟨hx, rfl⟩ | ⟨hx, rfl⟩
    · rcases hp with ⟨hx, _⟩ | ⟨hx, _⟩ | ⟨hx, _⟩ | ⟨hx, _⟩ | ⟨hx, _⟩ <;> cases hx
    · cases hx
    · simp only [RTy.refMut.injEq] at hx
      subst hx
      unfold argClass at h
      rw [Option.map_eq_some_iff] at h
      obtain ⟨e', he, heq⟩ := h
      simp only [Prod.mk.injEq] at heq
      obtain ⟨rfl, rfl⟩ := heq
      unfold derefFor at he
      refine ⟨c, ?_⟩
      unfold storageTy
      cases hs : storage env c <;> rcases hp with ⟨rfl, rfl⟩ | ⟨rfl, rfl⟩ | ⟨rfl, rfl⟩ | ⟨rfl, rfl⟩ | ⟨rfl, rfl⟩ <;>
        simp only [hs, derefArcMutex, derefMutex, derefArc, derefBox, Option.some.injEq, reduceCtorEq] at he <;> simp [he]
  · cases h

/-- An object is passed by value only if its class can be cloned. -/
theorem C46_by_value_needs_clone (env : Env) (ra : Bool) (c : Nat) (P : RTy) (e : Exp) (h : genArg env ra (.cls c) = some (P, e)) :
    env.clonable c = true := by
  have : genArg env ra (.cls c) = argClass env ra .none .none c := rfl
  rw [this] at h
  unfold argClass at h
  rw [Option.map_eq_some_iff] at h
  obtain ⟨e', he, _⟩ := h
  unfold derefFor at he
  cases hs : storage env c <;>
    simp only [hs, derefArcMutex, derefMutex, derefArc, derefBox, appendClone, Option.ite_none_right_eq_some, reduceCtorEq] at he <;> exact he.1

/-- Finding: a clonable class kept in an `Arc` and taken by value is accepted, but `(*…).clone()` clones the `Arc`: the code does not compile. -/
theorem C46_finding_arc_by_value (env : Env) (c : Nat) (ha : storage env c = .arc) (hcl : env.clonable c = true) :
    ∃ P e, genArg env true (.cls c) = some (P, e) ∧ ¬ ArgCompiles env (.cls c) P e ∧ typeOf env P e = some (.arc (.cls c)) := by
  have hg : genArg env true (.cls c) = some (.ref (.py c), .derefClone (.inst c false .arg)) := by
    show argClass env true .none .none c = _
    simp [argClass, derefFor, ha, derefArc, appendClone, hcl]
  refine ⟨_, _, hg, ?_, ?_⟩
  · rw [C46_argument_typed env _ _ _ hg]
    simp [wellFormed, exact, ha]
  · rw [(genArg_type env true _ _ _ hg).1]
    simp [resTy, ha]

/-- Finding: `Option<&T>` of an exported class (kept in the default way) is accepted, but the reference does not outlive the `match` arm: the code does
not compile. -/
theorem C46_finding_option_reference (env : Env) (c : Nat) (hm : storage env c = .mutex) :
    ∃ P e, genArg env true (.opt (.ref (.cls c))) = some (P, e) ∧ ¬ ArgCompiles env (.opt (.ref (.cls c))) P e := by
  have hg : genArg env true (.opt (.ref (.cls c))) = some (.opt (.py c), .matchOpt .arg (.lockRef (.inst c true .arg))) := by
    have : genArg env true (.opt (.ref (.cls c))) = (argClass env false .ref .none c).map fun (p, e) => (.opt p, .matchOpt .arg e) := rfl
    rw [this]
    simp [argClass, derefFor, hm, derefMutex]
  refine ⟨_, _, hg, ?_⟩
  rw [C46_argument_typed env _ _ _ hg]
  simp [wellFormed, exact, borrows]

/-- Finding: an enum is known only to the classes that come after it. -/
theorem C46_finding_enum_order (env : Env) (e : Nat) (he : e ∉ env.enums) : genArg env true (.enm e) = none ∧ genRet env (.enm e) .call = none := by
  have h1 : genArg env true (.enm e) = if e ∈ env.enums then some (.prim .u32, .fromU32 e .arg) else none := rfl
  have h2 : genRet env (.enm e) .call = if e ∈ env.enums then some (.prim .u32, .asU32 .call) else none := by rw [genRet]; rfl
  rw [h1, h2, if_neg he, if_neg he]
  exact ⟨rfl, rfl⟩

/-- The examples: class 0 as its constructor returns it (kept in a `Mutex`) and clonable, class 1 in an `Arc<Mutex<_>>`, class 2 in an `Arc`, class 3 in
a `Box`; enum 0. -/
def demo : Env where
  ctor c := match c with
    | 0 => .cls 0
    | 1 => .arc (.mutex (.cls 1))
    | 2 => .arc (.cls 2)
    | c => .box (.cls c)
  clonable c := c = 0 || c = 2
  enums := [0]
  discr _ := [0, 1, 5]

end Flapi.Py
