import Verif.Python.Eval
import Verif.Python.Typing
/-!
# Python: arguments arrive as they were passed (C57) and when a call blocks itself (C47)
-/
namespace Flapi.Py

/-! ## Specification -/

/-- What rust-cpython hands to the generated code as a value of the given type (objects of Python are `ref`s to existing cells). -/
inductive Fits (heap : List Int) : RTy → Val → Prop where
  | prim (p : Prim) (n : Int) : Fits heap (.prim p) (.prim n)
  | str (n : Int) : Fits heap (.ref .str) (.prim n)
  | obj (c a : Nat) : a < heap.length → Fits heap (.py c) (.ref a)
  | objRef (c a : Nat) : a < heap.length → Fits heap (.ref (.py c)) (.ref a)
  | none (t : RTy) : Fits heap (.opt t) .none
  | some (t : RTy) (v : Val) : Fits heap t v → Fits heap (.opt t) (.some v)
  | nil (t : RTy) : Fits heap (.vec t) .nil
  | cons (t : RTy) (v l : Val) : Fits heap t v → Fits heap (.vec t) l → Fits heap (.vec t) (.cons v l)

/-- The Rust value of the declared type that a Python value stands for: numbers and strings are themselves; an enumerator is the variant with that
number; lists keep their order; an object by value is a copy of the content; by reference, the object itself; in an `Arc`, the same object. -/
inductive Denotes (env : Env) (heap : List Int) : RTy → Val → Val → Prop where
  | prim (t : RTy) (n : Int) : supported t = true → Denotes env heap t (.prim n) (.prim n)
  | byValue (c a : Nat) (x : Int) : heap[a]? = Option.some x → Denotes env heap (.cls c) (.ref a) (.data x)
  | reference (t : RTy) (p : Ptr) (c a : Nat) : classOf t = Option.some (.ref, p, c) → Denotes env heap t (.ref a) (.ref a)
  | mutable (c a : Nat) : Denotes env heap (.refMut (.cls c)) (.ref a) (.refMut a)
  | shared (t : RTy) (p : Ptr) (c a : Nat) : classOf t = Option.some (.none, p, c) → p.isShared = true → Denotes env heap t (.ref a) (.handle a)
  | enumerator (e i : Nat) (d : Int) : (env.discr e)[i]? = Option.some d → Denotes env heap (.enm e) (.prim (asU32 d)) (.enm e i)
  | none (t : RTy) : Denotes env heap (.opt t) .none .none
  | some (t : RTy) (v w : Val) : Denotes env heap t v w → Denotes env heap (.opt t) (.some v) (.some w)
  | nil (t : RTy) : Denotes env heap (.vec t) .nil .nil
  | cons (t : RTy) (v l w m : Val) : Denotes env heap t v w → Denotes env heap (.vec t) l m → Denotes env heap (.vec t) (.cons v l) (.cons w m)
  | slice (t : RTy) (v w : Val) : Denotes env heap (.vec t) v w → Denotes env heap (.ref (.slice t)) v w
  | ref (t : RTy) (v w : Val) : classOf (.ref t) = Option.none → Denotes env heap t v w → Denotes env heap (.ref t) v w

def elems : Val → List Val
  | .cons v l => v :: elems l
  | _ => []

/-- Every number passed for an enum is the number of a listed variant. -/
def Valid (env : Env) : RTy → Val → Prop
  | .enm e, v => ∃ (i : Nat) (d : Int), (env.discr e)[i]? = some d ∧ v = .prim (asU32 d)
  | .opt t, v =>
    match v with
    | .some w => Valid env t w
    | _ => True
  | .vec t, v => ∀ w ∈ elems v, Valid env t w
  | .ref (.slice t), v => ∀ w ∈ elems v, Valid env t w
  | .ref t, v => Valid env t v
  | _, _ => True

/-- An argument of this type is taken out of the lock it is kept in: the class is kept in `Mutex` or `Arc<Mutex>` and the type mentions the class itself,
by value or by reference. -/
def lockedType (env : Env) (t : RTy) : Bool :=
  match classOf t with
  | some (_, .none, c) => storage env c = .mutex || storage env c = .arcMutex
  | _ => false

/-- The objects locked while the argument is converted. -/
def locksOf (env : Env) (t : RTy) (v : Val) : List Nat :=
  if lockedType env t then (match v with | .ref a => [a] | _ => [])
  else
    match t with
    | .opt t => (match v with | .some w => locksOf env t w | _ => [])
    | .vec t => (elems v).flatMap (locksOf env t)
    | .ref (.slice t) => (elems v).flatMap (locksOf env t)
    | .ref t => locksOf env t v
    | _ => []

/-- The objects that stay locked until the call has returned: those passed directly, not in an `Option` or a list. -/
def holdsOf (env : Env) (t : RTy) (v : Val) : List Nat :=
  if lockedType env t then (match v with | .ref a => [a] | _ => [])
  else
    match t with
    | .ref (.slice _) => []
    | .ref t => holdsOf env t v
    | _ => []

/-! ## Enums -/

theorem fromU32_some {ds : List Int} {k : Int} {i : Nat} (h : fromU32 ds k = some i) : ∃ d, ds[i]? = some d ∧ k = asU32 d := by
  unfold fromU32 at h
  rw [List.findIdx?_eq_some_iff_getElem] at h
  obtain ⟨h1, h2, _⟩ := h
  exact ⟨ds[i], by simp [h1], by simpa using h2⟩

theorem fromU32_none {ds : List Int} {k : Int} (h : fromU32 ds k = none) : ∀ d ∈ ds, k ≠ asU32 d := by
  unfold fromU32 at h
  rw [List.findIdx?_eq_none_iff] at h
  intro d hd
  simpa using h d hd

/-! ## One argument -/

/-- What is proved of the evaluation of one argument. -/
def Good (env : Env) (heap : List Int) (t : RTy) (held : List Nat) (v : Val) : Out → Prop
  | .ok w h => h = holdsOf env t v ++ held ∧ Denotes env heap t v w ∧ (∀ a ∈ locksOf env t v, a ∉ held) ∧ Valid env t v
  | .deadlock => ∃ a ∈ locksOf env t v, a ∈ held
  | .error => ¬ Valid env t v
  | .stuck => False

theorem valid_class (env : Env) {t : RTy} {r : Refr} {p : Ptr} {c : Nat} (hc : classOf t = some (r, p, c)) (v : Val) : Valid env t v := by
  obtain ⟨u, hu, hp⟩ := classOf_cases hc
  rcases hu with ⟨rfl, rfl⟩ | ⟨rfl, rfl⟩ | ⟨rfl, rfl⟩ <;> rcases hp with ⟨rfl, rfl⟩ | ⟨rfl, rfl⟩ | ⟨rfl, rfl⟩ | ⟨rfl, rfl⟩ | ⟨rfl, rfl⟩ <;> trivial

theorem locks_class (env : Env) {t : RTy} {r : Refr} {p : Ptr} {c : Nat} (hc : classOf t = some (r, p, c)) (a : Nat) :
    locksOf env t (.ref a) = (if lockedType env t then [a] else []) ∧ holdsOf env t (.ref a) = (if lockedType env t then [a] else []) := by
  have h0 : ∀ u, lockedType env (.cls u) = (decide (storage env u = .mutex) || decide (storage env u = .arcMutex)) := fun u => rfl
  by_cases hl : lockedType env t = true
  · unfold locksOf holdsOf
    simp [hl]
  · obtain ⟨u, hu, hp⟩ := classOf_cases hc
    rcases hu with ⟨rfl, rfl⟩ | ⟨rfl, rfl⟩ | ⟨rfl, rfl⟩ <;> rcases hp with ⟨rfl, rfl⟩ | ⟨rfl, rfl⟩ | ⟨rfl, rfl⟩ | ⟨rfl, rfl⟩ | ⟨rfl, rfl⟩
    all_goals (unfold locksOf holdsOf; simp only [hl, if_false, Bool.false_eq_true]; try exact ⟨trivial, trivial⟩)
    · have hl' : lockedType env (.cls c) = false := by
        have : lockedType env (RTy.ref (.cls c)) = lockedType env (.cls c) := rfl
        rw [this] at hl; simpa using hl
      unfold locksOf holdsOf
      simp [hl']
    all_goals (unfold locksOf holdsOf; simp [lockedType, classOf, unref, smart])

theorem evalClass (env : Env) (heap : List Int) (ra : Bool) {t : RTy} {r : Refr} {p : Ptr} {c : Nat} (hc : classOf t = some (r, p, c)) {P : RTy} {e : Exp}
    (hg : argClass env ra r p c = some (P, e)) (hw : wellFormed env t = true) (held : List Nat) (v : Val) (hv : Fits heap P v) :
    Good env heap t held v (eval env heap e held v) := by
  have hval := valid_class env hc v
  obtain ⟨a, rfl, ha⟩ : ∃ a, v = .ref a ∧ a < heap.length := by
    unfold argClass at hg
    rw [Option.map_eq_some_iff] at hg
    obtain ⟨_, _, heq⟩ := hg
    simp only [Prod.mk.injEq] at heq
    obtain ⟨rfl, _⟩ := heq
    cases ra
    · cases hv; exact ⟨_, rfl, by assumption⟩
    · cases hv; exact ⟨_, rfl, by assumption⟩
  obtain ⟨hL, hH⟩ := locks_class env hc a
  have hget : heap[a]? = some heap[a] := List.getElem?_eq_getElem ha
  unfold argClass at hg
  rw [Option.map_eq_some_iff] at hg
  obtain ⟨e', he, heq⟩ := hg
  simp only [Prod.mk.injEq] at heq
  obtain ⟨_, rfl⟩ := heq
  have hi : eval env heap (.inst c (!ra) .arg) held (.ref a) = .ok (.ref a) held := rfl
  -- the two ways such an expression ends
  have locked : ∀ w : Val, lockedType env t = true → Denotes env heap t (.ref a) w → Good env heap t held (.ref a) (lock held a w) := by
    intro w hl hd
    unfold lock
    rw [hl] at hL hH
    split
    · rename_i hin
      exact ⟨a, by rw [hL]; simp, hin⟩
    · rename_i hin
      refine ⟨by rw [hH]; rfl, hd, ?_, hval⟩
      intro b hb
      rw [hL] at hb
      simp at hb
      exact hb ▸ hin
  have free : ∀ w : Val, lockedType env t = false → Denotes env heap t (.ref a) w → Good env heap t held (.ref a) (.ok w held) := by
    intro w hl hd
    rw [hl] at hL hH
    refine ⟨by rw [hH]; rfl, hd, ?_, hval⟩
    intro b hb
    rw [hL] at hb
    simp at hb
  have hlt : lockedType env t = (decide (p = .none) && (decide (storage env c = .mutex) || decide (storage env c = .arcMutex))) := by
    unfold lockedType
    rw [hc]
    cases p <;> simp
  unfold derefFor at he
  obtain ⟨u, hu, hp⟩ := classOf_cases hc
  cases hs : storage env c <;> simp only [hs] at he
  case none => exact absurd hs (storage_ne_none env c)
  case mutex =>
    rcases hp with ⟨rfl, rfl⟩ | ⟨rfl, rfl⟩ | ⟨rfl, rfl⟩ | ⟨rfl, rfl⟩ | ⟨rfl, rfl⟩ <;> rcases hu with ⟨rfl, rfl⟩ | ⟨rfl, rfl⟩ | ⟨rfl, rfl⟩ <;>
      simp only [derefMutex, appendClone, Option.ite_none_right_eq_some, Option.some.injEq, reduceCtorEq] at he
    · obtain ⟨_, rfl⟩ := he
      simp only [eval, Out.bind, hget]
      exact locked _ (by simp [hlt, hs]) (.byValue _ _ _ hget)
    · subst he
      exact locked _ (by simp [hlt, hs]) (.reference _ _ _ _ hc)
    · subst he
      exact locked _ (by simp [hlt, hs]) (.mutable _ _)
    · subst he
      exact free _ (by simp [hlt]) (.reference _ _ _ _ hc)
  case arcMutex =>
    rcases hp with ⟨rfl, rfl⟩ | ⟨rfl, rfl⟩ | ⟨rfl, rfl⟩ | ⟨rfl, rfl⟩ | ⟨rfl, rfl⟩ <;> rcases hu with ⟨rfl, rfl⟩ | ⟨rfl, rfl⟩ | ⟨rfl, rfl⟩ <;>
      simp only [derefArcMutex, appendClone, Option.ite_none_right_eq_some, Option.some.injEq, reduceCtorEq] at he
    · obtain ⟨_, rfl⟩ := he
      simp only [eval, Out.bind, hget]
      exact locked _ (by simp [hlt, hs]) (.byValue _ _ _ hget)
    · subst he
      exact locked _ (by simp [hlt, hs]) (.reference _ _ _ _ hc)
    · subst he
      exact locked _ (by simp [hlt, hs]) (.mutable _ _)
    · subst he
      simp only [eval, Out.bind, instOf, Option.bind_some, cloneInst, hs]
      exact free _ (by simp [hlt]) (.shared _ _ _ _ hc rfl)
    · subst he
      exact free _ (by simp [hlt]) (.reference _ _ _ _ hc)
  case arc =>
    rcases hp with ⟨rfl, rfl⟩ | ⟨rfl, rfl⟩ | ⟨rfl, rfl⟩ | ⟨rfl, rfl⟩ | ⟨rfl, rfl⟩ <;> rcases hu with ⟨rfl, rfl⟩ | ⟨rfl, rfl⟩ | ⟨rfl, rfl⟩ <;>
      simp only [derefArc, appendClone, Option.ite_none_right_eq_some, Option.some.injEq, reduceCtorEq] at he
    · simp [wellFormed, exact, hs] at hw
    · subst he
      exact free _ (by simp [hlt, hs]) (.reference _ _ _ _ hc)
    · subst he
      simp only [eval, Out.bind, instOf, Option.bind_some, cloneInst, hs]
      exact free _ (by simp [hlt]) (.shared _ _ _ _ hc rfl)
    · subst he
      exact free _ (by simp [hlt]) (.reference _ _ _ _ hc)
  case box =>
    rcases hp with ⟨rfl, rfl⟩ | ⟨rfl, rfl⟩ | ⟨rfl, rfl⟩ | ⟨rfl, rfl⟩ | ⟨rfl, rfl⟩ <;> rcases hu with ⟨rfl, rfl⟩ | ⟨rfl, rfl⟩ | ⟨rfl, rfl⟩ <;>
      simp only [derefBox, appendClone, Option.ite_none_right_eq_some, Option.some.injEq, reduceCtorEq] at he
    · obtain ⟨_, rfl⟩ := he
      simp only [eval, Out.bind, instOf, Option.bind_some, cloneInst, hs, hget, Option.map_some]
      exact free _ (by simp [hlt, hs]) (.byValue _ _ _ hget)
    · subst he
      exact free _ (by simp [hlt, hs]) (.reference _ _ _ _ hc)

theorem mapVals_good (env : Env) (heap : List Int) (t P : RTy) (held : List Nat) (f : Val → Out)
    (hf : ∀ w, Fits heap P w → Good env heap t held w (f w)) (v : Val) (hv : Fits heap (.vec P) v) :
    match mapVals f held v with
    | .ok w h => h = held ∧ Denotes env heap (.vec t) v w ∧ (∀ a ∈ (elems v).flatMap (locksOf env t), a ∉ held) ∧ ∀ w ∈ elems v, Valid env t w
    | .deadlock => ∃ a ∈ (elems v).flatMap (locksOf env t), a ∈ held
    | .error => ¬ ∀ w ∈ elems v, Valid env t w
    | .stuck => False := by
  generalize hT : RTy.vec P = T at hv
  induction hv with
  | nil t' => exact ⟨rfl, .nil _, by simp [elems], by simp [elems]⟩
  | cons t' x l hx hl _ ih2 =>
    cases hT
    have h1 := hf x hx
    have h2 := ih2 rfl
    simp only [mapVals]
    cases hfx : f x with
    | deadlock =>
      rw [hfx] at h1
      obtain ⟨a, ha, hin⟩ := h1
      exact ⟨a, by simp [elems, ha], hin⟩
    | error =>
      rw [hfx] at h1
      simp only [Out.bind]
      intro hall
      exact h1 (hall x (by simp [elems]))
    | stuck => rw [hfx] at h1; exact h1.elim
    | ok w h =>
      rw [hfx] at h1
      obtain ⟨_, hd, hlk, hval⟩ := h1
      simp only [Out.bind]
      cases hm : mapVals f held l with
      | deadlock =>
        rw [hm] at h2
        obtain ⟨a, ha, hin⟩ := h2
        exact ⟨a, by simp only [elems, List.flatMap_cons, List.mem_append]; exact .inr ha, hin⟩
      | error =>
        rw [hm] at h2
        dsimp only
        intro hall
        exact h2 (fun y hy => hall y (by simp [elems, hy]))
      | stuck => rw [hm] at h2; exact h2.elim
      | ok m h' =>
        rw [hm] at h2
        obtain ⟨_, hd2, hlk2, hval2⟩ := h2
        refine ⟨rfl, .cons _ _ _ _ _ hd hd2, ?_, ?_⟩
        · intro a ha
          simp only [elems, List.flatMap_cons, List.mem_append] at ha
          rcases ha with ha | ha
          · exact hlk a ha
          · exact hlk2 a ha
        · intro y hy
          simp only [elems, List.mem_cons] at hy
          rcases hy with rfl | hy
          · exact hval
          · exact hval2 y hy
  | _ => cases hT

theorem exact_wf {env : Env} {t : RTy} (h : exact env t = true) : wellFormed env t = true := by
  unfold wellFormed
  split
  · simp [exact] at h
  · rfl
  · exact h

theorem locked_none {env : Env} {t : RTy} (h : classOf t = none) : lockedType env t = false := by simp [lockedType, h]

theorem eval_good (env : Env) (heap : List Int) (ra : Bool) (t P : RTy) (e : Exp) (h : genArg env ra t = some (P, e)) (hw : wellFormed env t = true)
    (held : List Nat) (v : Val) (hv : Fits heap P v) : Good env heap t held v (eval env heap e held v) := by
  unfold genArg at h
  split at h
  · rename_i hs
    simp only [Option.some.injEq, Prod.mk.injEq] at h
    obtain ⟨rfl, rfl⟩ := h
    have hc : classOf t = none := by
      unfold supported at hs
      split at hs <;> first | rfl | cases hs
    obtain ⟨n, rfl⟩ : ∃ n, v = .prim n := by
      unfold supported at hs
      split at hs
      · cases hv; exact ⟨_, rfl⟩
      · cases hv; exact ⟨_, rfl⟩
      · cases hs
    refine ⟨?_, .prim _ _ hs, ?_, ?_⟩
    all_goals
      unfold supported at hs
      split at hs
    · simp [holdsOf, locked_none hc]
    · simp [holdsOf, locked_none hc, locked_none (show classOf .str = none from rfl)]
    · cases hs
    · simp [locksOf, locked_none hc]
    · simp [locksOf, locked_none hc, locked_none (show classOf .str = none from rfl)]
    · cases hs
    · trivial
    · trivial
    · cases hs
  · rename_i hs
    split at h
    · rename_i r p c hc
      exact evalClass env heap ra hc h hw held v hv
    · rename_i hc
      have hl := locked_none (env := env) hc
      split at h
      · rename_i en
        split at h
        · simp only [Option.some.injEq, Prod.mk.injEq] at h
          obtain ⟨rfl, rfl⟩ := h
          cases hv with
          | prim _ n =>
            simp only [eval, Out.bind]
            cases hf : fromU32 (env.discr en) n with
            | none =>
              rintro ⟨i, d, hd, e⟩
              simp only [Val.prim.injEq] at e
              exact fromU32_none hf d (List.mem_of_getElem? hd) e
            | some i =>
              obtain ⟨d, hd, rfl⟩ := fromU32_some hf
              exact ⟨by simp [holdsOf, hl], .enumerator _ _ _ hd, by simp [locksOf, hl], i, d, hd, rfl⟩
        · cases h
      · rename_i t'
        rw [Option.map_eq_some_iff] at h
        obtain ⟨⟨p', e'⟩, h1, h2⟩ := h
        simp only [Prod.mk.injEq] at h2
        obtain ⟨rfl, rfl⟩ := h2
        simp only [wellFormed, exact, Bool.and_eq_true] at hw
        have ih := eval_good env heap false t' p' e' h1 (exact_wf hw.2) held
        cases hv with
        | none => exact ⟨by simp [holdsOf, hl], .none _, by unfold locksOf; simp [hl], trivial⟩
        | some _ w hw' =>
          have := ih w hw'
          simp only [eval, Out.bind]
          cases he : eval env heap e' held w with
          | deadlock =>
            rw [he] at this
            obtain ⟨a, ha, hin⟩ := this
            exact ⟨a, by unfold locksOf; simpa [hl] using ha, hin⟩
          | error => rw [he] at this; exact this
          | stuck => rw [he] at this; exact this
          | ok w' h' =>
            rw [he] at this
            obtain ⟨_, hd, hlk, hval⟩ := this
            exact ⟨by simp [holdsOf, hl], .some _ _ _ hd, by unfold locksOf; simpa [hl] using hlk, hval⟩
      · rename_i t'
        rw [Option.map_eq_some_iff] at h
        obtain ⟨⟨p', e'⟩, h1, h2⟩ := h
        simp only [Prod.mk.injEq] at h2
        obtain ⟨rfl, rfl⟩ := h2
        simp only [wellFormed, Bool.and_eq_true] at hw
        have := mapVals_good env heap t' p' held (fun w => eval env heap e' held w)
          (fun w hfw => eval_good env heap false t' p' e' h1 (exact_wf hw.2) held w hfw) v hv
        simp only [eval, Out.bind]
        cases he : mapVals (fun w => eval env heap e' held w) held v with
        | deadlock => rw [he] at this; unfold Good locksOf; simpa [hl] using this
        | error => rw [he] at this; exact this
        | stuck => rw [he] at this; exact this
        | ok w' h' =>
          rw [he] at this
          obtain ⟨rfl, hd, hlk, hval⟩ := this
          exact ⟨by simp [holdsOf, hl], .slice _ _ _ hd, by unfold locksOf; simpa [hl] using hlk, hval⟩
      · rename_i t'
        rw [Option.map_eq_some_iff] at h
        obtain ⟨⟨p', e'⟩, h1, h2⟩ := h
        simp only [Prod.mk.injEq] at h2
        obtain ⟨rfl, rfl⟩ := h2
        simp only [wellFormed, exact, Bool.and_eq_true] at hw
        have := mapVals_good env heap t' p' held (fun w => eval env heap e' held w)
          (fun w hfw => eval_good env heap false t' p' e' h1 (exact_wf hw.2) held w hfw) v hv
        simp only [eval, Out.bind]
        cases he : mapVals (fun w => eval env heap e' held w) held v with
        | deadlock => rw [he] at this; unfold Good locksOf; simpa [hl] using this
        | error => rw [he] at this; exact this
        | stuck => rw [he] at this; exact this
        | ok w' h' =>
          rw [he] at this
          obtain ⟨rfl, hd, hlk, hval⟩ := this
          exact ⟨by simp [holdsOf, hl], hd, by unfold locksOf; simpa [hl] using hlk, hval⟩
      · rename_i t' hsl
        rw [Option.map_eq_some_iff] at h
        obtain ⟨⟨p', e'⟩, h1, h2⟩ := h
        simp only [Prod.mk.injEq] at h2
        obtain ⟨rfl, rfl⟩ := h2
        have hc2 := (classOf_none hc).2
        have hex : exact env t' = true := by
          cases t' with
          | slice u => exact (hsl u rfl).elim
          | cls c => exact (hc2 c rfl).elim
          | _ => simpa [wellFormed, exact] using hw
        have ih := eval_good env heap false t' p' e' h1 (exact_wf hex) held v hv
        have hLk : locksOf env (.ref t') v = locksOf env t' v := by
          conv => lhs; unfold locksOf
          simp only [hl]
          cases t' with
          | slice u => exact (hsl u rfl).elim
          | _ => rfl
        have hHd : holdsOf env (.ref t') v = holdsOf env t' v := by
          conv => lhs; unfold holdsOf
          simp only [hl]
          cases t' with
          | slice u => exact (hsl u rfl).elim
          | _ => rfl
        have hVd : Valid env (.ref t') v ↔ Valid env t' v := by
          cases t' with
          | slice u => exact (hsl u rfl).elim
          | _ => rfl
        show Good env heap (.ref t') held v (eval env heap e' held v)
        cases he : eval env heap e' held v with
        | deadlock => rw [he] at ih; unfold Good; rw [hLk]; exact ih
        | error => rw [he] at ih; unfold Good; rw [hVd]; exact ih
        | stuck => rw [he] at ih; exact ih
        | ok w h' =>
          rw [he] at ih
          obtain ⟨ha, hb, hc', hd⟩ := ih
          exact ⟨by rw [hHd]; exact ha, .ref _ _ _ hc hb, by rw [hLk]; exact hc', hVd.2 hd⟩
      · cases h
termination_by sizeOf t
decreasing_by all_goals (simp_wf; subst_vars; simp; try omega)

end Flapi.Py
