import Verif.Python.Typing
/-!
# Python: the types of the expressions around the call, C46
-/
namespace Flapi.Py

/-- The type of an expression in which `call` has type `var` (for the bodies of a tuple: the components not yet handled).  `isErr`: types that implement
`std::error::Error`, which `swig_collect_error_message` (macroslib/src/python/python-include.rs:30-36) asks for. -/
def typeOfR (env : Env) (isErr : RTy → Bool) (var : RTy) : RExp → Option RTy
  | .call => some var
  | .clone e =>
    match typeOfR env isErr var e with
    | some (.ref t) => some (cloneOfRef env t)
    | some (.refMut t) => if isClone env t then some t else none
    | some t => if isClone env t then some t else none
    | none => none
  | .thenNone e => (typeOfR env isErr var e).map fun _ => .pyObject
  | .create c e => if typeOfR env isErr var e = some (storageTy env c) then some (.py c) else none
  | .mutexNew e => (typeOfR env isErr var e).map .mutex
  | .deref e =>
    match typeOfR env isErr var e with
    | some (.box t) => some t
    | _ => none
  | .asU32 e =>
    match typeOfR env isErr var e with
    | some (.enm _) => some (.prim .u32)
    | _ => none
  | .matchOpt e body =>
    match typeOfR env isErr var e with
    | some (.opt t) => (typeOfR env isErr t body).map .opt
    | _ => none
  | .iterCloned e body =>
    match typeOfR env isErr var e with
    | some (.ref (.slice t)) => if isClone env t then (typeOfR env isErr t body).map .vec else none
    | _ => none
  | .intoIter e body =>
    match typeOfR env isErr var e with
    | some (.vec t) => (typeOfR env isErr t body).map .vec
    | _ => none
  | .matchRes e body =>
    match typeOfR env isErr var e with
    | some (.res t err) => if isErr err then typeOfR env isErr t body else none
    | _ => none
  | .tuple e bodies => (typeOfR env isErr var e).bind fun t => typeOfR env isErr t bodies
  | .tnil => if var = .unit then some .unit else none
  | .tcons body rest =>
    match var with
    | .tcons a r => (typeOfR env isErr a body).bind fun p => (typeOfR env isErr r rest).map fun ps => .tcons p ps
    | _ => none

/-- The generated code needs what it refers to by reference to be clonable and errors to be errors. -/
def retOk (env : Env) (isErr : RTy → Bool) (t : RTy) : Bool :=
  match t with
  | .ref .str => true
  | .ref (.slice u) => isClone env u && retOk env isErr u
  | .ref u => if (classOf (.ref u)).isSome then true else isClone env u && retOk env isErr u
  | .refMut u => if (classOf (.refMut u)).isSome then true else isClone env u && retOk env isErr u
  | .opt u => retOk env isErr u
  | .vec u => retOk env isErr u
  | .res a b => isErr b && retOk env isErr a
  | .tcons a r => retOk env isErr a && retOk env isErr r
  | _ => true

theorem retClass_type (env : Env) (isErr : RTy → Bool) {t : RTy} {r : Refr} {p : Ptr} {c : Nat} (hc : classOf t = some (r, p, c)) {call : RExp}
    {v P : RTy} {e : RExp} (hcall : typeOfR env isErr v call = some t) (h : retClass env r p c call = some (P, e)) :
    typeOfR env isErr v e = some P := by
  obtain ⟨u, hu, hp⟩ := classOf_cases hc
  unfold retClass at h
  have hst : storageTy env c = storageTy env c := rfl
  conv at hst => rhs; unfold storageTy
  have key : ∀ (x : RExp), typeOfR env isErr v x = some u → (wrapFor env c p x).map (fun e => (RTy.py c, RExp.create c e)) = some (P, e) →
      typeOfR env isErr v e = some P := by
    intro x hx hw
    rw [Option.map_eq_some_iff] at hw
    obtain ⟨w, hw1, hw2⟩ := hw
    simp only [Prod.mk.injEq] at hw2
    obtain ⟨rfl, rfl⟩ := hw2
    have : typeOfR env isErr v w = some (storageTy env c) := by
      unfold wrapFor at hw1
      cases hs : storage env c <;> rcases hp with ⟨rfl, rfl⟩ | ⟨rfl, rfl⟩ | ⟨rfl, rfl⟩ | ⟨rfl, rfl⟩ | ⟨rfl, rfl⟩ <;>
        simp only [hs, Option.some.injEq, reduceCtorEq] at hw1 hst <;> subst hw1 <;> simp [typeOfR, hx, hst]
    simp [typeOfR, this]
  dsimp only at h
  rcases hu with ⟨rfl, rfl⟩ | ⟨rfl, rfl⟩ | ⟨rfl, rfl⟩
  · simp only [ne_eq, not_true_eq_false, if_false, Option.bind_some] at h
    exact key _ hcall h
  all_goals
    rw [if_pos (by simp)] at h
    split at h
    · simp at h
    · rename_i hpm
      split at h
      · rename_i hcl
        simp only [Option.bind_some] at h
        refine key _ ?_ h
        rcases hp with ⟨rfl, rfl⟩ | ⟨rfl, rfl⟩ | ⟨rfl, rfl⟩ | ⟨rfl, rfl⟩ | ⟨rfl, rfl⟩ <;>
          simp_all [typeOfR, cloneOfRef, isClone, Ptr.isShared]
      · simp at h

mutual
theorem genRet_type (env : Env) (isErr : RTy → Bool) (t : RTy) (hok : retOk env isErr t = true) (call : RExp) (v P : RTy) (e : RExp)
    (hcall : typeOfR env isErr v call = some t) (h : genRet env t call = some (P, e)) : typeOfR env isErr v e = some P := by
  rw [genRet.eq_def] at h
  split at h
  · simp only [Option.some.injEq, Prod.mk.injEq] at h
    obtain ⟨rfl, rfl⟩ := h
    simp [typeOfR, hcall]
  · rename_i hun
    split at h
    · simp only [Option.some.injEq, Prod.mk.injEq] at h
      obtain ⟨rfl, rfl⟩ := h
      exact hcall
    · rename_i hs
      split at h
      · rename_i r p c hc
        exact retClass_type env isErr hc hcall h
      · rename_i hc
        split at h
        · split at h
          · simp only [Option.some.injEq, Prod.mk.injEq] at h
            obtain ⟨rfl, rfl⟩ := h
            simp [typeOfR, hcall]
          · cases h
        · rename_i u
          rw [Option.map_eq_some_iff] at h
          obtain ⟨⟨p', e'⟩, h1, h2⟩ := h
          simp only [Prod.mk.injEq] at h2
          obtain ⟨rfl, rfl⟩ := h2
          have ih := genRet_type env isErr u (by simpa [retOk] using hok) .call u p' e' rfl h1
          simp [typeOfR, hcall, ih]
        · rename_i u
          rw [Option.map_eq_some_iff] at h
          obtain ⟨⟨p', e'⟩, h1, h2⟩ := h
          simp only [Prod.mk.injEq] at h2
          obtain ⟨rfl, rfl⟩ := h2
          simp only [retOk, Bool.and_eq_true] at hok
          have ih := genRet_type env isErr u hok.2 .call u p' e' rfl h1
          simp [typeOfR, hcall, ih, hok.1]
        · rename_i u
          rw [Option.map_eq_some_iff] at h
          obtain ⟨⟨p', e'⟩, h1, h2⟩ := h
          simp only [Prod.mk.injEq] at h2
          obtain ⟨rfl, rfl⟩ := h2
          have ih := genRet_type env isErr u (by simpa [retOk] using hok) .call u p' e' rfl h1
          simp [typeOfR, hcall, ih]
        · rename_i a b
          rw [Option.map_eq_some_iff] at h
          obtain ⟨⟨p', e'⟩, h1, h2⟩ := h
          simp only [Prod.mk.injEq] at h2
          obtain ⟨rfl, rfl⟩ := h2
          simp only [retOk, Bool.and_eq_true] at hok
          have ih := genRet_type env isErr a hok.2 .call a p' e' rfl h1
          simp [typeOfR, hcall, ih, hok.1]
        · rename_i u hsl
          have hu : isClone env u = true ∧ retOk env isErr u = true := by
            unfold retOk at hok
            split at hok
            all_goals simp_all [supported]
          exact genRet_type env isErr u hu.2 _ v P e (by simp [typeOfR, hcall, cloneOfRef, hu.1]) h
        · rename_i u
          have hu : isClone env u = true ∧ retOk env isErr u = true := by
            unfold retOk at hok
            simp_all
          exact genRet_type env isErr u hu.2 _ v P e (by simp [typeOfR, hcall, hu.1]) h
        · rename_i a r
          rw [Option.bind_eq_some_iff] at h
          obtain ⟨⟨p', e'⟩, h1, h2⟩ := h
          rw [Option.map_eq_some_iff] at h2
          obtain ⟨⟨ps, es⟩, h2, h3⟩ := h2
          simp only [Prod.mk.injEq] at h3
          obtain ⟨rfl, rfl⟩ := h3
          simp only [retOk, Bool.and_eq_true] at hok
          have ih := genRet_type env isErr a hok.1 .call a p' e' rfl h1
          have ih2 := genTail_type env isErr r hok.2 ps es h2
          simp [typeOfR, hcall, ih, ih2]
        · cases h
termination_by sizeOf t
decreasing_by all_goals (simp_wf; subst_vars; simp; try omega)

theorem genTail_type (env : Env) (isErr : RTy → Bool) (t : RTy) (hok : retOk env isErr t = true) (P : RTy) (e : RExp)
    (h : genRet.genTail env t = some (P, e)) : typeOfR env isErr t e = some P := by
  rw [genRet.genTail.eq_def] at h
  split at h
  · simp only [Option.some.injEq, Prod.mk.injEq] at h
    obtain ⟨rfl, rfl⟩ := h
    simp [typeOfR]
  · rename_i a r
    rw [Option.bind_eq_some_iff] at h
    obtain ⟨⟨p', e'⟩, h1, h2⟩ := h
    rw [Option.map_eq_some_iff] at h2
    obtain ⟨⟨ps, es⟩, h2, h3⟩ := h2
    simp only [Prod.mk.injEq] at h3
    obtain ⟨rfl, rfl⟩ := h3
    simp only [retOk, Bool.and_eq_true] at hok
    have ih := genRet_type env isErr a hok.1 .call a p' e' rfl h1
    have ih2 := genTail_type env isErr r hok.2 ps es h2
    simp [typeOfR, ih, ih2]
  · cases h
termination_by sizeOf t
decreasing_by all_goals (simp_wf; subst_vars; simp; try omega)
end

/-- Whatever result type the generator accepts: rustc gives the expression around the call the announced Python type, provided everything returned by
reference can be cloned and error types are errors. -/
theorem C46_result_typed (env : Env) (isErr : RTy → Bool) (t P : RTy) (e : RExp) (h : genRet env t .call = some (P, e)) (hok : retOk env isErr t = true) :
    typeOfR env isErr t e = some P :=
  genRet_type env isErr t hok .call t P e rfl h

/-- What is accepted as a result: an object leaves Rust only in the kind of pointer Python keeps it in (or bare, for `Mutex` and `Box`); by reference only
if it can be cloned. -/
theorem C46_result_storage (env : Env) (r : Refr) (p : Ptr) (c : Nat) (t P : RTy) (e : RExp) (hc : classOf t = some (r, p, c))
    (h : genRet env t .call = some (P, e)) :
    (p = storage env c ∨ p = .none ∧ (storage env c = .mutex ∨ storage env c = .box)) ∧
    (r ≠ .none → p ≠ .mutex ∧ (env.clonable c = true ∨ p = .arc ∨ p = .arcMutex)) := by
  have h' : retClass env r p c .call = some (P, e) := by
    rw [genRet.eq_def] at h
    split at h
    · rename_i e1; rw [e1] at hc; simp [classOf, unref, smart] at hc
    · split at h
      · rename_i hs
        unfold supported at hs
        split at hs
        · simp [classOf, unref, smart] at hc
        · simp [classOf, unref, smart] at hc
        · cases hs
      · rw [hc] at h
        exact h
  unfold retClass at h'
  dsimp only at h'
  rw [Option.bind_eq_some_iff] at h'
  obtain ⟨x, hx, hw⟩ := h'
  rw [Option.map_eq_some_iff] at hw
  obtain ⟨w, hw, _⟩ := hw
  constructor
  · unfold wrapFor at hw
    split at hw <;> simp_all
  · intro hr
    rw [if_pos hr] at hx
    split at hx
    · cases hx
    · rename_i hp
      refine ⟨hp, ?_⟩
      split at hx
      · rename_i hcl
        simp only [Bool.or_eq_true, Ptr.isShared, decide_eq_true_eq] at hcl
        exact hcl
      · cases hx

/-- Finding: `&Vec<T>` of a class that cannot be cloned is accepted as a result, but the code does not compile. -/
theorem C46_finding_vec_by_reference (env : Env) (isErr : RTy → Bool) (c : Nat) (hm : storage env c = .mutex) (hcl : env.clonable c = false) :
    ∃ P e, genRet env (.ref (.vec (.cls c))) .call = some (P, e) ∧ typeOfR env isErr (.ref (.vec (.cls c))) e = none := by
  have h1 : genRet env (.cls c) .call = retClass env .none .none c .call := by rw [genRet.eq_def]; rfl
  have h2 : genRet env (.vec (.cls c)) (.clone .call) = (genRet env (.cls c) .call).map fun (p, e) => (.vec p, .intoIter (.clone .call) e) := by rw [genRet.eq_def]; rfl
  have h3 : genRet env (.ref (.vec (.cls c))) .call = genRet env (.vec (.cls c)) (.clone .call) := by rw [genRet.eq_def]; rfl
  rw [h3, h2, h1]
  refine ⟨.vec (.py c), .intoIter (.clone .call) (.create c (.mutexNew .call)), ?_, ?_⟩
  · simp [retClass, wrapFor, hm]
  · simp [typeOfR, cloneOfRef, isClone, hcl]

example : (genRet demo (.res (.tcons (.opt (.cls 0)) (.tcons (.ref (.slice (.prim .i32))) .unit)) (.other 7)) .call).isSome = true ∧
    retOk demo (fun t => t = .other 7) (.res (.tcons (.opt (.cls 0)) (.tcons (.ref (.slice (.prim .i32))) .unit)) (.other 7)) = true := by decide

/-- How the Python object keeps a Rust object of class `c` whose constructor returns `t`: a plain object is put in a mutex (it may be changed
through several references), a boxed one is kept as it is, and shared or locked ones keep their pointer. -/
inductive Kept (c : Nat) : RTy → RTy → Prop
  | plain : Kept c (.cls c) (.mutex (.cls c))
  | mutex : Kept c (.mutex (.cls c)) (.mutex (.cls c))
  | arc : Kept c (.arc (.cls c)) (.arc (.cls c))
  | arcMutex : Kept c (.arc (.mutex (.cls c))) (.arc (.mutex (.cls c)))
  | box : Kept c (.box (.cls c)) (.cls c)

/-- **C46**: exactly the classes whose constructor returns the object, plain or behind one of the known pointers, are accepted, and the Python
object keeps it in the type that goes with the constructor. -/
theorem C46_storage (env : Env) (c : Nat) :
    (ctorOk env c = true ↔ ∃ k, Kept c (env.ctor c) k) ∧ ∀ k, Kept c (env.ctor c) k → storageTy env c = k := by
  constructor
  · constructor
    · intro h
      unfold ctorOk at h
      generalize hq : env.ctor c = q at h
      unfold smart at h
      split at h
      · simp only [decide_eq_true_eq] at h; subst h; exact ⟨_, .arcMutex⟩
      · simp only [decide_eq_true_eq] at h; subst h; exact ⟨_, .arc⟩
      · simp only [decide_eq_true_eq] at h; subst h; exact ⟨_, .mutex⟩
      · simp only [decide_eq_true_eq] at h; subst h; exact ⟨_, .box⟩
      · simp only [decide_eq_true_eq] at h; subst h; exact ⟨_, .plain⟩
    · rintro ⟨k, h⟩
      unfold ctorOk
      generalize env.ctor c = q at h
      cases h <;> simp [smart]
  · intro k h
    unfold storageTy storage
    generalize env.ctor c = q at h
    cases h <;> simp [smart]

example (n : Nat) : Kept n (({ demo with ctor := fun c => .arc (.mutex (.cls c)) } : Env).ctor n) (.arc (.mutex (.cls n))) := .arcMutex

example : (List.range 4).map (storage demo) = [.mutex, .arcMutex, .arc, .box] := by decide
example : (genArg demo true (.refMut (.cls 1))).isSome ∧ (genArg demo true (.cls 0)).isSome ∧ genArg demo true (.refMut (.cls 2)) = none ∧
    genArg demo true (.refMut (.cls 3)) = none ∧ genArg demo true (.cls 1) = none := by decide
example : ∃ P e, genArg demo true (.opt (.vec (.enm 0))) = some (P, e) ∧ wellFormed demo (.opt (.vec (.enm 0))) = true := ⟨_, _, rfl, by decide⟩

end Flapi.Py
