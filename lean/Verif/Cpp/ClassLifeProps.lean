import Verif.Cpp.ClassLife
import Verif.Base.SumTo
/-!
# C++ wrapper classes destroy each Rust object exactly once (C42)
-/
namespace Flapi.CppClass

/-! ## Specification -/

/-- Somebody owns the object: a C++ wrapper that owns, or Rust code itself. -/
def Owned (c : Class) (s : St) (o : Nat) : Prop :=
  (∃ x p k, s.vars x = some ⟨true, some p⟩ ∧ cellAt s p = some (o, k)) ∨
  (if c.shared then ∃ p ∈ s.held, ∃ k, cellAt s p = some (o, k) else o ∈ s.held)

/-- A reference wrapper that has outlived the object. -/
def Dangling (s : St) (y : Nat) : Prop := ∃ p, s.vars y = some ⟨false, some p⟩ ∧ cellAt s p = none

/-- What a C++ program must not do: use or copy through a reference wrapper that has outlived its object — or copy-assign to the last owner of an
object through a reference wrapper to that very object. -/
def Bad (c : Class) (s : St) : Op → Prop
  | .use y => Dangling s y
  | .copyCtor _ y => c.copy ≠ .deleted ∧ Dangling s y
  | .copyAssign x y => c.copy ≠ .deleted ∧ (∃ q, s.vars x = some ⟨true, q⟩) ∧
      (Dangling s y ∨ ∃ p o, s.vars y = some ⟨false, some p⟩ ∧ s.vars x = some ⟨true, some p⟩ ∧ cellAt s p = some (o, 1))
  | _ => False

/-! ## Invariant -/

def owners (n : Nat) (f : Nat → Option Wrapper) (p : Nat) : Nat := sumTo (fun x => if f x = some ⟨true, some p⟩ then 1 else 0) n

def refs (s : St) (p : Nat) : Nat :=
  match cellAt s p with
  | some (_, k) => k
  | none => 0

def live (cells : List (Option (Nat × Nat))) : List Nat := cells.filterMap (·.map (·.1))

/-- `ext`: strong references in flight, `fl`: objects in flight. -/
structure Inv (c : Class) (n : Nat) (s : St) (ext fl : List Nat) : Prop where
  bound : ∀ x, n ≤ x → s.vars x = none
  cnt : ∀ p, refs s p = owners n s.vars p + (if c.shared then s.held.count p else 0) + ext.count p
  pos : ∀ p o k, cellAt s p = some (o, k) → 0 < k
  one : c.shared = false → ∀ p o k, cellAt s p = some (o, k) → k = 1
  obj : ∀ o, (live s.cells).count o + (if c.shared then 0 else s.held.count o) + s.destroyed.count o + fl.count o =
    if o < s.objs then 1 else 0

theorem owners_set (n : Nat) (f : Nat → Option Wrapper) (x : Nat) (v : Option Wrapper) (p : Nat) (hx : x < n) :
    owners n (setVar f x v) p + (if f x = some ⟨true, some p⟩ then 1 else 0) =
      owners n f p + (if v = some ⟨true, some p⟩ then 1 else 0) := by
  have := sumTo_update (fun x => if f x = some ⟨true, some p⟩ then 1 else 0) (fun z => if setVar f x v z = some ⟨true, some p⟩ then 1 else 0) x n hx
    (fun z hz => by simp [setVar, hz])
  simp only [setVar, if_true] at this
  exact this

theorem setVar_self (f : Nat → Option Wrapper) (x : Nat) (v : Option Wrapper) : setVar f x v x = v := by simp [setVar]
theorem setVar_ne (f : Nat → Option Wrapper) (x z : Nat) (v : Option Wrapper) (h : z ≠ x) : setVar f x v z = f z := by simp [setVar, h]

theorem setVar_twice (f : Nat → Option Wrapper) (x : Nat) (v w : Option Wrapper) : setVar (setVar f x v) x w = setVar f x w := by
  funext z
  unfold setVar
  split <;> simp_all

theorem setVar_comm (f : Nat → Option Wrapper) (x y : Nat) (v w : Option Wrapper) (h : x ≠ y) :
    setVar (setVar f x v) y w = setVar (setVar f y w) x v := by
  funext z
  unfold setVar
  split <;> split <;> simp_all

theorem cellAt_some {s : St} {p : Nat} {q : Nat × Nat} (h : cellAt s p = some q) : s.cells[p]? = some (some q) := by
  unfold cellAt at h
  split at h
  · rename_i c hc; rw [hc, h]
  · cases h

theorem cellAt_set (s : St) (p r : Nat) (v : Option (Nat × Nat)) (hp : p < s.cells.length) :
    cellAt { s with cells := s.cells.set p v } r = if r = p then v else cellAt s r := by
  unfold cellAt
  simp only [List.getElem?_set]
  by_cases h : p = r
  · subst h; simp [hp]
  · have h' : r ≠ p := fun e => h e.symm
    simp [h, h']

theorem cellAt_append (s : St) (v : Nat × Nat) (r : Nat) :
    cellAt { s with cells := s.cells ++ [some v] } r = if r = s.cells.length then some v else cellAt s r := by
  unfold cellAt
  simp only
  by_cases h : r = s.cells.length
  · subst h; simp
  · by_cases h2 : r < s.cells.length
    · rw [List.getElem?_append_left h2]; simp [h]
    · have h3 : (s.cells ++ [some v])[r]? = none := List.getElem?_eq_none (by simp; omega)
      have h4 : s.cells[r]? = none := List.getElem?_eq_none (by omega)
      simp only [h3, h4, h, if_false]

theorem cellAt_lt {s : St} {p : Nat} {q : Nat × Nat} (h : cellAt s p = some q) : p < s.cells.length :=
  (List.getElem?_eq_some_iff.1 (cellAt_some h)).1

theorem live_append (cells : List (Option (Nat × Nat))) (o k : Nat) : live (cells ++ [some (o, k)]) = live cells ++ [o] := by
  simp [live]

theorem live_free (cells : List (Option (Nat × Nat))) (p o k e : Nat) (h : cells[p]? = some (some (o, k))) :
    (live (cells.set p none)).count e + [o].count e = (live cells).count e := by
  induction cells generalizing p with
  | nil => simp at h
  | cons b l ih =>
    cases p with
    | zero =>
      simp only [List.getElem?_cons_zero, Option.some.injEq] at h
      subst h
      simp only [List.set_cons_zero, live, List.filterMap_cons, Option.map_none, Option.map_some, List.count_cons, List.count_nil]
      omega
    | succ p =>
      simp only [List.getElem?_cons_succ] at h
      have := ih p h
      simp only [List.set_cons_succ, live, List.filterMap_cons] at this ⊢
      cases b with
      | none => simpa using this
      | some b => simp only [Option.map_some, List.count_cons] at this ⊢; omega

theorem live_keep (cells : List (Option (Nat × Nat))) (p o k k' : Nat) (h : cells[p]? = some (some (o, k))) :
    live (cells.set p (some (o, k'))) = live cells := by
  induction cells generalizing p with
  | nil => simp at h
  | cons b l ih =>
    cases p with
    | zero =>
      simp only [List.getElem?_cons_zero, Option.some.injEq] at h
      subst h
      simp [live]
    | succ p =>
      simp only [List.getElem?_cons_succ] at h
      have := ih p h
      simp only [List.set_cons_succ, live, List.filterMap_cons] at this ⊢
      rw [this]

theorem mem_live {cells : List (Option (Nat × Nat))} {o : Nat} (h : o ∈ live cells) : ∃ (p k : Nat), cells[p]? = some (some (o, k)) := by
  simp only [live, List.mem_filterMap] at h
  obtain ⟨b, hb, he⟩ := h
  obtain ⟨p, hp⟩ := List.mem_iff_getElem?.1 hb
  cases b with
  | none => simp at he
  | some q => simp at he; exact ⟨p, q.2, by rw [hp]; cases q; simp at he; rw [he]⟩

theorem live_mem {s : St} {p o k : Nat} (h : cellAt s p = some (o, k)) : o ∈ live s.cells := by
  simp only [live, List.mem_filterMap]
  exact ⟨some (o, k), List.mem_iff_getElem?.2 ⟨p, cellAt_some h⟩, rfl⟩

section Prims
variable {c : Class} {n : Nat} {s : St} {ext fl : List Nat}

theorem inv_newObj (h : Inv c n s ext fl) : Inv c n (newObj s).2 ext (s.objs :: fl) := by
  refine ⟨h.bound, h.cnt, h.pos, h.one, fun o => ?_⟩
  have h1 := h.obj o
  show (live s.cells).count o + (if c.shared then 0 else s.held.count o) + s.destroyed.count o + (s.objs :: fl).count o = if o < s.objs + 1 then 1 else 0
  have h0 : (if o < s.objs + 1 then 1 else 0) = (if o < s.objs then 1 else 0) + (if (s.objs == o) = true then 1 else 0) := by
    simp only [beq_iff_eq]
    split <;> split <;> split <;> omega
  rw [h0, List.count_cons, ← h1]
  omega

theorem inv_alloc {o : Nat} (h : Inv c n s ext (o :: fl)) :
    Inv c n (allocCell s o).2 ((allocCell s o).1 :: ext) fl ∧ (allocCell s o).2.vars = s.vars ∧ (allocCell s o).2.held = s.held := by
  refine ⟨⟨h.bound, fun p => ?_, fun p o' k hp => ?_, fun hs p o' k hp => ?_, fun e => ?_⟩, rfl, rfl⟩
  · have := h.cnt p
    simp only [allocCell, refs, cellAt_append, List.count_cons] at this ⊢
    by_cases hp : p = s.cells.length
    · subst hp
      have hn : cellAt s s.cells.length = none := by simp [cellAt]
      rw [hn] at this
      simp only [if_true, beq_self_eq_true] at this ⊢
      omega
    · have hp' : (s.cells.length == p) = false := by simp [Ne.symm hp]
      simp only [hp, hp', if_false, Bool.false_eq_true] at this ⊢
      omega
  · simp only [allocCell, cellAt_append] at hp
    split at hp
    · cases hp; omega
    · exact h.pos p o' k hp
  · simp only [allocCell, cellAt_append] at hp
    split at hp
    · cases hp; rfl
    · exact h.one hs p o' k hp
  · have := h.obj e
    show (live (s.cells ++ [some (o, 1)])).count e + (if c.shared then 0 else s.held.count e) + s.destroyed.count e + fl.count e = if e < s.objs then 1 else 0
    rw [← this]
    simp only [live_append, List.count_append, List.count_cons, List.count_nil]
    omega

theorem inv_take {x : Nat} {p : Nat} {b : Bool} (h : Inv c n s ext fl) (hx : s.vars x = some ⟨true, some p⟩) :
    Inv c n { s with vars := setVar s.vars x (some ⟨b, none⟩) } (p :: ext) fl := by
  have hxn : x < n := by
    rcases Nat.lt_or_ge x n with h1 | h1
    · exact h1
    · rw [h.bound x h1] at hx; cases hx
  refine ⟨fun z hz => ?_, fun q => ?_, h.pos, h.one, h.obj⟩
  · have : z ≠ x := by omega
    simp only [setVar_ne _ _ _ _ this]; exact h.bound z hz
  · have := h.cnt q
    have h2 := owners_set n s.vars x (some ⟨b, none⟩) q hxn
    rw [hx] at h2
    have e : refs { s with vars := setVar s.vars x (some ⟨b, none⟩) } q = refs s q := rfl
    rw [e]
    simp only [Option.some.injEq, Wrapper.mk.injEq, true_and, reduceCtorEq, and_false, if_false] at h2
    simp only [List.count_cons, beq_iff_eq]
    omega

/-- `x` owns nothing. -/
def Idle (s : St) (x : Nat) : Prop := ∀ p, s.vars x ≠ some ⟨true, some p⟩

theorem inv_put {x : Nat} {p : Nat} (hxn : x < n) (h : Inv c n s (p :: ext) fl) (hx : Idle s x) :
    Inv c n { s with vars := setVar s.vars x (some ⟨true, some p⟩) } ext fl := by
  refine ⟨fun z hz => ?_, fun q => ?_, h.pos, h.one, h.obj⟩
  · have : z ≠ x := by omega
    simp only [setVar_ne _ _ _ _ this]; exact h.bound z hz
  · have := h.cnt q
    have h2 := owners_set n s.vars x (some ⟨true, some p⟩) q hxn
    rw [if_neg (hx q)] at h2
    have e : refs { s with vars := setVar s.vars x (some ⟨true, some p⟩) } q = refs s q := rfl
    rw [e]
    simp only [Option.some.injEq, Wrapper.mk.injEq, true_and] at h2
    simp only [List.count_cons, beq_iff_eq] at this
    show refs s q = owners n (setVar s.vars x (some ⟨true, some p⟩)) q + (if c.shared then s.held.count q else 0) + ext.count q
    omega

/-- A variable that owns nothing is set to something that owns nothing. -/
theorem inv_set {x : Nat} {v : Option Wrapper} (hxn : x < n) (h : Inv c n s ext fl) (hx : Idle s x) (hv : ∀ p, v ≠ some ⟨true, some p⟩) :
    Inv c n { s with vars := setVar s.vars x v } ext fl := by
  refine ⟨fun z hz => ?_, fun q => ?_, h.pos, h.one, h.obj⟩
  · have : z ≠ x := by omega
    simp only [setVar_ne _ _ _ _ this]; exact h.bound z hz
  · have := h.cnt q
    have h2 := owners_set n s.vars x v q hxn
    rw [if_neg (hx q), if_neg (hv q)] at h2
    show refs s q = owners n (setVar s.vars x v) q + (if c.shared then s.held.count q else 0) + ext.count q
    omega

theorem ext_live {p : Nat} (h : Inv c n s (p :: ext) fl) : ∃ o k, cellAt s p = some (o, k) := by
  have := h.cnt p
  simp only [List.count_cons, beq_self_eq_true, if_true] at this
  unfold refs at this
  split at this
  · rename_i o k hc; exact ⟨o, k, hc⟩
  · omega

theorem own_live {x p : Nat} (h : Inv c n s ext fl) (hx : s.vars x = some ⟨true, some p⟩) : ∃ o k, cellAt s p = some (o, k) :=
  ext_live (s := { s with vars := setVar s.vars x (some ⟨true, none⟩) }) (inv_take h hx)

theorem dropRef_last {r o : Nat} (hr : cellAt s r = some (o, 1)) :
    dropRef s r = .ok { s with cells := s.cells.set r none, destroyed := s.destroyed ++ [o] } := by
  unfold dropRef; rw [hr]; rfl

theorem dropRef_keep {r o m : Nat} (hr : cellAt s r = some (o, m)) (hm : m ≠ 1) :
    dropRef s r = .ok { s with cells := s.cells.set r (some (o, m - 1)) } := by
  unfold dropRef; rw [hr]
  match m, hm with
  | 0, _ => rfl
  | 1, h => exact absurd rfl h
  | k + 2, _ => rfl

theorem inv_drop {p : Nat} (h : Inv c n s (p :: ext) fl) :
    ∃ s', dropRef s p = .ok s' ∧ Inv c n s' ext fl ∧ s'.vars = s.vars ∧ s'.held = s.held := by
  obtain ⟨o, k, hc⟩ := ext_live h
  have hlt := cellAt_lt hc
  have hpos := h.pos p o k hc
  have hcnt := h.cnt p
  unfold dropRef
  rw [hc]
  by_cases h1 : k = 1
  · subst h1
    refine ⟨_, rfl, ⟨h.bound, fun q => ?_, fun q o' k' hq => ?_, fun hs q o' k' hq => ?_, fun e => ?_⟩, rfl, rfl⟩
    · have := h.cnt q
      simp only [refs, List.count_cons] at this hcnt ⊢
      rw [show cellAt { s with cells := s.cells.set p none, destroyed := s.destroyed ++ [o] } q = if q = p then none else cellAt s q from
        cellAt_set s p q none hlt]
      by_cases hq : q = p
      · subst hq
        rw [hc] at this
        simp only [beq_self_eq_true, if_true] at this ⊢
        omega
      · have hq' : (p == q) = false := by simp [Ne.symm hq]
        simp only [hq, hq', if_false, Bool.false_eq_true] at this ⊢
        omega
    · have hq' : (if q = p then none else cellAt s q) = some (o', k') := by
        rw [← cellAt_set s p q none hlt]; exact hq
      split at hq'
      · cases hq'
      · exact h.pos q o' k' hq'
    · have hq' : (if q = p then none else cellAt s q) = some (o', k') := by
        rw [← cellAt_set s p q none hlt]; exact hq
      split at hq'
      · cases hq'
      · exact h.one hs q o' k' hq'
    · have := h.obj e
      have h2 := live_free s.cells p o 1 e (cellAt_some hc)
      simp only [List.count_append] at this ⊢
      omega
  · obtain ⟨m, rfl⟩ : ∃ m, k = m + 2 := ⟨k - 2, by omega⟩
    have hshared : c.shared = true := by
      cases hs : c.shared with
      | true => rfl
      | false => have := h.one hs p o _ hc; omega
    refine ⟨_, rfl, ⟨h.bound, fun q => ?_, fun q o' k' hq => ?_, fun hs => by (rw [hshared] at hs; cases hs), fun e => ?_⟩, rfl, rfl⟩
    · have := h.cnt q
      simp only [refs, List.count_cons] at this hcnt ⊢
      rw [cellAt_set s p q _ hlt]
      by_cases hq : q = p
      · subst hq
        rw [hc] at this
        simp only [beq_self_eq_true, if_true] at this ⊢
        omega
      · have hq' : (p == q) = false := by simp [Ne.symm hq]
        simp only [hq, hq', if_false, Bool.false_eq_true] at this ⊢
        omega
    · rw [cellAt_set s p q _ hlt] at hq
      split at hq
      · cases hq; omega
      · exact h.pos q o' k' hq
    · have := h.obj e
      rw [live_keep s.cells p o _ _ (cellAt_some hc)]
      exact this

theorem inv_addRef {p o k : Nat} (hs : c.shared = true) (h : Inv c n s ext fl) (hc : cellAt s p = some (o, k)) :
    ∃ s', addRef s p = .ok s' ∧ Inv c n s' (p :: ext) fl ∧ s'.vars = s.vars ∧ s'.held = s.held := by
  have hlt := cellAt_lt hc
  unfold addRef
  rw [hc]
  refine ⟨_, rfl, ⟨h.bound, fun q => ?_, fun q o' k' hq => ?_, fun hs' => by (rw [hs] at hs'; cases hs'), fun e => ?_⟩, rfl, rfl⟩
  · have := h.cnt q
    simp only [refs, List.count_cons] at this ⊢
    rw [cellAt_set s p q _ hlt]
    by_cases hq : q = p
    · subst hq
      rw [hc] at this
      simp only [beq_self_eq_true, if_true] at this ⊢
      omega
    · have hq' : (p == q) = false := by simp [Ne.symm hq]
      simp only [hq, hq', if_false, Bool.false_eq_true] at this ⊢
      omega
  · rw [cellAt_set s p q _ hlt] at hq
    split at hq
    · cases hq; omega
    · exact h.pos q o' k' hq
  · have := h.obj e
    rw [live_keep s.cells p o _ _ (cellAt_some hc)]
    exact this

/-- Taking the object out of its box. -/
theorem inv_unbox {p o k : Nat} (hs : c.shared = false) (h : Inv c n s (p :: ext) fl) (hc : cellAt s p = some (o, k)) :
    Inv c n { s with cells := s.cells.set p none } ext (o :: fl) := by
  have hlt := cellAt_lt hc
  have h1 := h.one hs p o k hc
  subst h1
  refine ⟨h.bound, fun q => ?_, fun q o' k' hq => ?_, fun hs q o' k' hq => ?_, fun e => ?_⟩
  · have := h.cnt q
    simp only [refs, List.count_cons] at this ⊢
    rw [cellAt_set s p q none hlt]
    by_cases hq : q = p
    · subst hq
      rw [hc] at this
      simp only [beq_self_eq_true, if_true] at this ⊢
      omega
    · have hq' : (p == q) = false := by simp [Ne.symm hq]
      simp only [hq, hq', if_false, Bool.false_eq_true] at this ⊢
      omega
  · rw [cellAt_set s p q none hlt] at hq
    split at hq
    · cases hq
    · exact h.pos q o' k' hq
  · rw [cellAt_set s p q none hlt] at hq
    split at hq
    · cases hq
    · exact h.one hs q o' k' hq
  · have := h.obj e
    have h2 := live_free s.cells p o 1 e (cellAt_some hc)
    simp only [List.count_cons, List.count_nil] at this h2 ⊢
    omega

theorem inv_hold_ref {p : Nat} (hs : c.shared = true) (h : Inv c n s (p :: ext) fl) : Inv c n { s with held := s.held ++ [p] } ext fl := by
  refine ⟨h.bound, fun q => ?_, h.pos, h.one, fun e => ?_⟩
  · have := h.cnt q
    have e : refs { s with held := s.held ++ [p] } q = refs s q := rfl
    rw [e]
    simp only [hs, if_true, List.count_append, List.count_cons, List.count_nil] at this ⊢
    omega
  · have := h.obj e
    simp only [hs, if_true] at this ⊢
    exact this

theorem inv_hold_obj {o : Nat} (hs : c.shared = false) (h : Inv c n s ext (o :: fl)) : Inv c n { s with held := s.held ++ [o] } ext fl := by
  refine ⟨h.bound, fun q => ?_, h.pos, h.one, fun e => ?_⟩
  · have := h.cnt q
    have e : refs { s with held := s.held ++ [o] } q = refs s q := rfl
    rw [e]
    simp only [hs, Bool.false_eq_true, if_false] at this ⊢
    exact this
  · have := h.obj e
    simp only [hs, Bool.false_eq_true, if_false, List.count_append, List.count_cons, List.count_nil] at this ⊢
    omega

theorem count_eraseIdx (l : List Nat) (i e0 e : Nat) (h : l[i]? = some e0) : (l.eraseIdx i).count e + [e0].count e = l.count e := by
  induction l generalizing i with
  | nil => simp at h
  | cons b l ih =>
    cases i with
    | zero =>
      simp only [List.getElem?_cons_zero, Option.some.injEq] at h
      subst h
      simp only [List.eraseIdx_cons_zero, List.count_cons, List.count_nil]
      omega
    | succ i =>
      simp only [List.getElem?_cons_succ] at h
      have := ih i h
      simp only [List.eraseIdx_cons_succ, List.count_cons, List.count_nil] at this ⊢
      omega

theorem inv_unhold_ref {k p : Nat} (hs : c.shared = true) (h : Inv c n s ext fl) (hk : s.held[k]? = some p) :
    Inv c n { s with held := s.held.eraseIdx k } (p :: ext) fl := by
  refine ⟨h.bound, fun q => ?_, h.pos, h.one, fun e => ?_⟩
  · have := h.cnt q
    have h2 := count_eraseIdx s.held k p q hk
    have e : refs { s with held := s.held.eraseIdx k } q = refs s q := rfl
    rw [e]
    simp only [hs, if_true, List.count_cons, List.count_nil] at this h2 ⊢
    omega
  · have := h.obj e
    simp only [hs, if_true] at this ⊢
    exact this

theorem inv_unhold_obj {k o : Nat} (hs : c.shared = false) (h : Inv c n s ext fl) (hk : s.held[k]? = some o) :
    Inv c n { s with held := s.held.eraseIdx k } ext (o :: fl) := by
  refine ⟨h.bound, fun q => ?_, h.pos, h.one, fun e => ?_⟩
  · have := h.cnt q
    have e : refs { s with held := s.held.eraseIdx k } q = refs s q := rfl
    rw [e]
    simp only [hs, Bool.false_eq_true, if_false] at this ⊢
    exact this
  · have := h.obj e
    have h2 := count_eraseIdx s.held k o e hk
    simp only [hs, Bool.false_eq_true, if_false, List.count_cons, List.count_nil] at this h2 ⊢
    omega

theorem inv_destroyObj {o : Nat} (h : Inv c n s ext (o :: fl)) : Inv c n { s with destroyed := s.destroyed ++ [o] } ext fl := by
  refine ⟨h.bound, h.cnt, h.pos, h.one, fun e => ?_⟩
  have := h.obj e
  simp only [List.count_append, List.count_cons, List.count_nil] at this ⊢
  omega

end Prims

theorem dropRef_vars (s : St) (f : Nat → Option Wrapper) (p : Nat) :
    dropRef { s with vars := f } p = (dropRef s p).bind fun s' => .ok { s' with vars := f } := by
  unfold dropRef
  rw [show cellAt { s with vars := f } p = cellAt s p from rfl]
  split <;> rfl

theorem dropRef_held (s : St) (f : List Nat) (p : Nat) :
    dropRef { s with held := f } p = (dropRef s p).bind fun s' => .ok { s' with held := f } := by
  unfold dropRef
  rw [show cellAt { s with held := f } p = cellAt s p from rfl]
  split <;> rfl

theorem idle_none {s : St} {x : Nat} (h : s.vars x = none) : Idle s x := fun p e => by rw [h] at e; cases e

theorem var_lt {c : Class} {n : Nat} {s : St} {ext fl : List Nat} (h : Inv c n s ext fl) {x : Nat} {w : Wrapper} (hx : s.vars x = some w) : x < n := by
  rcases Nat.lt_or_ge x n with h1 | h1
  · exact h1
  · rw [h.bound x h1] at hx; cases hx

/-- `free_mem` in a good state. -/
theorem inv_freeMem {c : Class} {n : Nat} {s : St} {ext fl : List Nat} (h : Inv c n s ext fl) (x : Nat) (w : Wrapper) (hx : s.vars x = some w) :
    ∃ s', freeMem s x = .ok s' ∧ Inv c n s' ext fl ∧ s'.vars = setVar s.vars x (some ⟨w.own, none⟩) ∧ s'.held = s.held := by
  unfold freeMem
  rw [hx]
  cases w with
  | mk own ptr =>
  cases own with
  | false =>
    refine ⟨_, rfl, inv_set (var_lt h hx) h (fun p e => ?_) (fun p => by simp), rfl, rfl⟩
    rw [hx] at e; cases e
  | true =>
    cases ptr with
    | none =>
      refine ⟨_, rfl, inv_set (var_lt h hx) h (fun p e => ?_) (fun p => by simp), rfl, rfl⟩
      rw [hx] at e; cases e
    | some p =>
      have ht := inv_take (b := true) h hx
      obtain ⟨s', h1, h2, h3, h4⟩ := inv_drop ht
      rw [dropRef_vars] at h1
      cases hd : dropRef s p with
      | ok s1 =>
        rw [hd] at h1
        simp only [Res.bind, Res.ok.injEq] at h1
        have hv : s1.vars = s.vars := by
          unfold dropRef at hd
          split at hd
          · cases hd
          · cases hd; rfl
          · cases hd; rfl
        refine ⟨s', ?_, h2, h3, h4⟩
        simp only [hd, Res.bind, Res.ok.injEq, hv]
        exact h1
      | ub => rw [hd] at h1; simp [Res.bind] at h1
      | abort => rw [hd] at h1; simp [Res.bind] at h1
      | illegal => rw [hd] at h1; simp [Res.bind] at h1

/-- Cloning through a good pointer. -/
theorem inv_clone {c : Class} {n : Nat} {s : St} {ext fl : List Nat} (hacc : c.accepted = true) (h : Inv c n s ext fl) (hc : c.copy ≠ .deleted)
    {p o k : Nat} (hp : cellAt s p = some (o, k)) :
    ∃ q s', cloneFunc c s p = .ok (q, s') ∧ Inv c n s' (q :: ext) fl ∧ s'.vars = s.vars ∧ s'.held = s.held := by
  unfold cloneFunc
  rw [hp]
  cases hcp : c.copy with
  | deleted => exact absurd hcp hc
  | cloneMethod =>
    obtain ⟨h1, h2, h3⟩ := inv_alloc (inv_newObj h)
    exact ⟨_, _, rfl, h1, h2, h3⟩
  | smartPtr =>
    have hs : c.shared = true := by
      unfold Class.accepted at hacc
      rw [hcp] at hacc
      simpa using hacc
    obtain ⟨s', h1, h2, h3, h4⟩ := inv_addRef hs h hp
    simp only [hs, if_true, h1, Res.bind]
    exact ⟨p, s', rfl, h2, h3, h4⟩

theorem inv_declare_own {c : Class} {n : Nat} {s s' : St} {ext fl : List Nat} {x q : Nat} (hxn : x < n) (h : Inv c n s (q :: ext) fl)
    (hd : declare s x ⟨true, some q⟩ = .ok s') : Inv c n s' ext fl := by
  unfold declare at hd
  split at hd
  · cases hd
  · rename_i hx
    cases hd
    exact inv_put hxn h (idle_none hx)

theorem inv_declare_idle {c : Class} {n : Nat} {s s' : St} {ext fl : List Nat} {x : Nat} {w : Wrapper} (hxn : x < n) (h : Inv c n s ext fl)
    (hw : ∀ p, w ≠ ⟨true, some p⟩) (hd : declare s x w = .ok s') : Inv c n s' ext fl := by
  unfold declare at hd
  split at hd
  · cases hd
  · rename_i hx
    cases hd
    exact inv_set hxn h (idle_none hx) (fun p e => hw p (by simpa using e))

theorem declare_noUb (s : St) (x : Nat) (w : Wrapper) : declare s x w ≠ .ub := by unfold declare; split <;> simp

/-- The names an operation mentions. -/
def opBound : Op → Nat
  | .construct x | .pass x | .destroy x | .use x => x + 1
  | .rustNew | .rustClone _ | .rustDrop _ => 0
  | .returned x _ => x + 1
  | .refTo x y | .moveCtor x y | .moveAssign x y | .copyCtor x y | .copyAssign x y => x + y + 1

/-- One operation in a good state. -/
theorem step_inv {c : Class} (hacc : c.accepted = true) {n : Nat} {s : St} (h : Inv c n s [] []) (op : Op) (hb : opBound op ≤ n) :
    (∀ s', step c s op = .ok s' → Inv c n s' [] []) ∧ (step c s op = .ub → Bad c s op) := by
  cases op with
  | construct x =>
    simp only [step]
    obtain ⟨h1, h2, h3⟩ := inv_alloc (inv_newObj h)
    refine ⟨fun s' hs => inv_declare_own (by simp only [opBound] at hb; omega) h1 hs, fun hs => absurd hs (declare_noUb _ _ _)⟩
  | rustNew =>
    simp only [step]
    cases hs : c.shared with
    | true =>
      simp only [if_true, Res.ok.injEq, reduceCtorEq, false_implies, and_true]
      rintro s' rfl
      obtain ⟨h1, _, _⟩ := inv_alloc (inv_newObj h)
      exact inv_hold_ref hs h1
    | false =>
      simp only [Bool.false_eq_true, if_false, Res.ok.injEq, reduceCtorEq, false_implies, and_true]
      rintro s' rfl
      exact inv_hold_obj hs (inv_newObj h)
  | rustClone k =>
    simp only [step]
    cases hs : c.shared with
    | false => simp
    | true =>
      cases hk : s.held[k]? with
      | none => simp
      | some p =>
        have hu := inv_unhold_ref hs h hk
        obtain ⟨o, m, hc⟩ := ext_live hu
        obtain ⟨s1, h1, h2, h3, h4⟩ := inv_addRef hs h hc
        simp only [h1, Res.bind, Res.ok.injEq, reduceCtorEq, false_implies, and_true]
        rintro s' rfl
        exact inv_hold_ref hs h2
  | rustDrop k =>
    simp only [step]
    cases hk : s.held[k]? with
    | none => simp
    | some v =>
      cases hs : c.shared with
      | true =>
        have hu := inv_unhold_ref hs h hk
        obtain ⟨s', h1, h2, h3, h4⟩ := inv_drop hu
        rw [dropRef_held] at h1
        simp only [if_true]
        cases hd : dropRef s v with
        | ok s1 =>
          rw [hd] at h1
          simp only [Res.bind, Res.ok.injEq] at h1
          have hh : s1.held = s.held := by
            unfold dropRef at hd
            split at hd
            · cases hd
            · cases hd; rfl
            · cases hd; rfl
          simp only [Res.bind, Res.ok.injEq, reduceCtorEq, false_implies, and_true, hh]
          rintro s2 rfl
          rw [h1]; exact h2
        | ub => rw [hd] at h1; simp [Res.bind] at h1
        | abort => rw [hd] at h1; simp [Res.bind] at h1
        | illegal => rw [hd] at h1; simp [Res.bind] at h1
      | false =>
        simp only [Bool.false_eq_true, if_false, Res.ok.injEq, reduceCtorEq, false_implies, and_true]
        rintro s' rfl
        exact inv_destroyObj (inv_unhold_obj hs h hk)
  | returned x k =>
    simp only [step]
    simp only [opBound] at hb
    cases hk : s.held[k]? with
    | none => simp
    | some v =>
      cases hs : c.shared with
      | true =>
        simp only [if_true]
        exact ⟨fun s' hd => inv_declare_own (by omega) (inv_unhold_ref hs h hk) hd, fun hd => absurd hd (declare_noUb _ _ _)⟩
      | false =>
        simp only [Bool.false_eq_true, if_false]
        obtain ⟨h1, _, _⟩ := inv_alloc (inv_unhold_obj hs h hk)
        exact ⟨fun s' hd => inv_declare_own (by omega) h1 hd, fun hd => absurd hd (declare_noUb _ _ _)⟩
  | pass x =>
    simp only [step]
    cases hx : s.vars x with
    | none => simp
    | some w =>
      cases w with
      | mk own ptr =>
      cases own with
      | false => simp
      | true =>
        cases ptr with
        | none => simp
        | some p =>
          obtain ⟨o, m, hc⟩ := own_live h hx
          have ht := inv_take (b := true) h hx
          cases hs : c.shared with
          | true =>
            simp only [hc, if_true, Res.ok.injEq, reduceCtorEq, false_implies, and_true]
            rintro s' rfl
            exact inv_hold_ref hs ht
          | false =>
            simp only [hc, Bool.false_eq_true, if_false, Res.ok.injEq, reduceCtorEq, false_implies, and_true]
            rintro s' rfl
            exact inv_hold_obj hs (inv_unbox hs ht hc)
  | refTo x y =>
    simp only [step]
    simp only [opBound] at hb
    cases hy : s.vars y with
    | none => simp
    | some w =>
      exact ⟨fun s' hd => inv_declare_idle (by omega) h (fun p e => by simp at e) hd, fun hd => absurd hd (declare_noUb _ _ _)⟩
  | moveCtor x y =>
    simp only [step]
    simp only [opBound] at hb
    cases hy : s.vars y with
    | none => simp
    | some w =>
      simp only
      cases hx : s.vars x with
      | some v => simp [declare, hx, Res.bind]
      | none =>
        have hne : y ≠ x := by intro e; subst e; rw [hx] at hy; cases hy
        simp only [declare, hx, Res.bind, Res.ok.injEq, reduceCtorEq, false_implies, and_true]
        rintro s' rfl
        simp only [setVar_comm _ x y _ _ (Ne.symm hne)]
        cases w with
        | mk own ptr =>
        by_cases ho : ∃ p, (⟨own, ptr⟩ : Wrapper) = ⟨true, some p⟩
        · obtain ⟨p, hp⟩ := ho
          cases hp
          have ht := inv_take (b := true) h hy
          exact inv_put (by omega) ht (fun q e => by
            simp only [setVar_ne _ _ _ _ (Ne.symm hne), hx] at e; cases e)
        · have h1 := inv_set (v := some ⟨own, none⟩) (var_lt h hy) h (fun p e => ho ⟨p, by rw [hy] at e; simpa using e⟩) (fun p => by simp)
          exact inv_set (v := some ⟨own, ptr⟩) (x := x) (by omega) h1 (fun p e => by
            simp only [setVar_ne _ _ _ _ (Ne.symm hne), hx] at e; cases e) (fun p e => ho ⟨p, by simpa using e⟩)
  | moveAssign x y =>
    simp only [step]
    cases hx : s.vars x with
    | none => simp
    | some v =>
    cases hy : s.vars y with
    | none => simp
    | some w =>
      simp only
      by_cases ho : v.own ≠ w.own
      · simp [ho]
      · by_cases hxy : x = y
        · simp [ho, hxy]
        · simp only [ho, hxy, if_false]
          obtain ⟨s1, h1, h2, h3, h4⟩ := inv_freeMem h x v hx
          simp only [h1, Res.bind, Res.ok.injEq, reduceCtorEq, false_implies, and_true]
          rintro s' rfl
          have hy1 : s1.vars y = some w := by rw [h3, setVar_ne _ _ _ _ (Ne.symm hxy), hy]
          have hx1 : s1.vars x = some ⟨v.own, none⟩ := by rw [h3, setVar_self]
          simp only [setVar_comm _ x y _ _ hxy]
          cases w with
          | mk own ptr =>
          by_cases ho : ∃ p, (⟨own, ptr⟩ : Wrapper) = ⟨true, some p⟩
          · obtain ⟨p, hp⟩ := ho
            cases hp
            exact inv_put (var_lt h hx) (inv_take (b := true) h2 hy1) (fun q e => by
              simp only [setVar_ne _ _ _ _ hxy, hx1] at e; simp at e)
          · have h5 := inv_set (v := some ⟨own, none⟩) (var_lt h hy) h2 (fun p e => ho ⟨p, by rw [hy1] at e; simpa using e⟩) (fun p => by simp)
            exact inv_set (v := some ⟨own, ptr⟩) (x := x) (var_lt h hx) h5 (fun p e => by
              simp only [setVar_ne _ _ _ _ hxy, hx1] at e; simp at e) (fun p e => ho ⟨p, by simpa using e⟩)
  | copyCtor x y =>
    simp only [step]
    simp only [opBound] at hb
    cases hy : s.vars y with
    | none => simp
    | some w =>
      simp only
      by_cases hcd : c.copy = .deleted
      · simp [hcd]
      · simp only [hcd, if_false]
        cases hp : w.ptr with
        | none =>
          simp only [cloneOpt, Res.bind]
          exact ⟨fun s' hd => inv_declare_idle (by omega) h (fun p e => by simp at e) hd, fun hd => absurd hd (declare_noUb _ _ _)⟩
        | some p =>
          simp only [cloneOpt]
          cases hc : cellAt s p with
          | none =>
            have : cloneFunc c s p = .ub := by unfold cloneFunc; rw [hc]
            simp only [this, Res.bind, reduceCtorEq, false_implies, implies_true, true_and, forall_const]
            refine ⟨hcd, p, ?_, hc⟩
            rw [hy]
            cases w with
            | mk own ptr =>
              simp only at hp
              subst hp
              cases own with
              | false => rfl
              | true => obtain ⟨o, k, h1⟩ := own_live h hy; rw [hc] at h1; cases h1
          | some ok =>
            obtain ⟨q, s1, h1, h2, h3, h4⟩ := inv_clone hacc h hcd (o := ok.1) (k := ok.2) hc
            simp only [h1, Res.bind]
            exact ⟨fun s' hd => inv_declare_own (by omega) h2 hd, fun hd => absurd hd (declare_noUb _ _ _)⟩
  | copyAssign x y =>
    simp only [step]
    cases hx : s.vars x with
    | none => simp
    | some v =>
    cases hy : s.vars y with
    | none => simp
    | some w =>
      simp only
      by_cases hcd : c.copy = .deleted ∨ v.own = false
      · simp [hcd]
      · by_cases hxy : x = y
        · simp only [hcd, hxy, if_true, if_false, Res.ok.injEq, reduceCtorEq, false_implies, and_true]
          rintro s' rfl
          exact h
        · simp only [hcd, hxy, if_false]
          rw [not_or] at hcd
          have hvo : v.own = true := by simpa using hcd.2
          obtain ⟨s1, h1, h2, h3, h4⟩ := inv_freeMem h x v hx
          have hx1 : s1.vars x = some ⟨v.own, none⟩ := by rw [h3, setVar_self]
          have hy1 : s1.vars y = some w := by rw [h3, setVar_ne _ _ _ _ (Ne.symm hxy), hy]
          simp only [h1, Res.bind]
          have hidle : ∀ s2 : St, s2.vars = s1.vars → Idle s2 x := fun s2 e p e2 => by rw [e, hx1] at e2; simp at e2
          cases hp : w.ptr with
          | none =>
            simp only [cloneOpt, Res.ok.injEq, reduceCtorEq, false_implies, and_true]
            rintro s' rfl
            exact inv_set (var_lt h hx) h2 (hidle s1 rfl) (fun p => by simp)
          | some p =>
            simp only [cloneOpt]
            cases hc : cellAt s1 p with
            | none =>
              have : cloneFunc c s1 p = .ub := by unfold cloneFunc; rw [hc]
              simp only [this, Res.bind, reduceCtorEq, false_implies, implies_true, true_and, forall_const]
              have hwy : s.vars y = some ⟨false, some p⟩ := by
                rw [hy]
                cases w with
                | mk own ptr =>
                  simp only at hp
                  subst hp
                  cases own with
                  | false => rfl
                  | true => obtain ⟨o, k, h1⟩ := own_live h2 hy1; rw [hc] at h1; cases h1
              refine ⟨hcd.1, ⟨v.ptr, by rw [hx]; cases v; simp only at hvo; rw [hvo]⟩, ?_⟩
              cases hc0 : cellAt s p with
              | none => exact .inl ⟨p, hwy, hc0⟩
              | some ok =>
                right
                -- the object was alive before `free_mem`, so `x` was its last owner
                cases v with
                | mk own ptr =>
                simp only at hvo
                subst hvo
                unfold freeMem at h1
                rw [hx] at h1
                cases ptr with
                | none =>
                  simp only [Res.ok.injEq] at h1
                  subst h1
                  rw [show cellAt { s with vars := setVar s.vars x (some ⟨true, none⟩) } p = cellAt s p from rfl, hc0] at hc
                  cases hc
                | some r =>
                  simp only at h1
                  cases hr : cellAt s r with
                  | none => simp [dropRef, hr, Res.bind] at h1
                  | some om =>
                    obtain ⟨o, m⟩ := om
                    have hlt := cellAt_lt hr
                    by_cases hm : m = 1
                    · subst hm
                      simp only [dropRef_last hr, Res.bind, Res.ok.injEq] at h1
                      have hset := cellAt_set s r p none hlt
                      have hc1 : cellAt s1 p = if p = r then none else cellAt s p := by rw [← hset, ← h1]; rfl
                      by_cases hpr : p = r
                      · subst hpr
                        exact ⟨p, o, hwy, hx, hr⟩
                      · rw [if_neg hpr, hc0] at hc1; rw [hc1] at hc; cases hc
                    · exfalso
                      rw [dropRef_keep hr hm] at h1
                      simp only [Res.bind, Res.ok.injEq] at h1
                      have hset := cellAt_set s r p (some (o, m - 1)) hlt
                      have hc1 : cellAt s1 p = if p = r then some (o, m - 1) else cellAt s p := by rw [← hset, ← h1]; rfl
                      split at hc1
                      · rw [hc1] at hc; cases hc
                      · rw [hc0] at hc1; rw [hc1] at hc; cases hc
            | some ok =>
              obtain ⟨q, s2, e1, e2, e3, e4⟩ := inv_clone hacc h2 hcd.1 (o := ok.1) (k := ok.2) hc
              simp only [e1, Res.bind, Res.ok.injEq, reduceCtorEq, false_implies, and_true]
              rintro s' rfl
              exact inv_put (var_lt h hx) e2 (hidle s2 e3)
  | destroy x =>
    simp only [step]
    cases hx : s.vars x with
    | none => simp [freeMem, hx, Res.bind]
    | some w =>
      obtain ⟨s1, h1, h2, h3, _⟩ := inv_freeMem h x w hx
      simp only [h1, Res.bind, Res.ok.injEq, reduceCtorEq, false_implies, and_true]
      rintro s' rfl
      exact inv_set (var_lt h hx) h2 (fun p e => by rw [h3, setVar_self] at e; simp at e) (fun p => by simp)
  | use x =>
    simp only [step]
    cases hx : s.vars x with
    | none => simp
    | some w =>
      simp only
      cases hp : w.ptr with
      | none => simp
      | some p =>
        simp only
        cases hc : cellAt s p with
        | some ok =>
          simp only [Res.ok.injEq, reduceCtorEq, false_implies, and_true]
          rintro s' rfl
          exact h
        | none =>
          simp only [reduceCtorEq, false_implies, implies_true, true_and, forall_const]
          refine ⟨p, ?_, hc⟩
          rw [hx]
          cases w with
          | mk own ptr =>
            simp only at hp
            subst hp
            cases own with
            | false => rfl
            | true => obtain ⟨o, k, h1⟩ := own_live h hx; rw [hc] at h1; cases h1

theorem inv_initial (c : Class) (n : Nat) : Inv c n initial [] [] := by
  refine ⟨fun _ _ => rfl, fun p => ?_, fun p o k h => by simp [initial, cellAt] at h, fun _ p o k h => by simp [initial, cellAt] at h, fun o => ?_⟩
  · have : owners n initial.vars p = 0 := sumTo_zero _ _ (fun z => by simp [initial])
    rw [this]
    simp [refs, cellAt, initial]
  · simp [initial, live]

theorem run_inv {c : Class} (hacc : c.accepted = true) {n : Nat} (prog : List Op) (hn : ∀ op ∈ prog, opBound op ≤ n) :
    ∀ {s s' : St}, Inv c n s [] [] → run c s prog = .ok s' → Inv c n s' [] [] := by
  induction prog with
  | nil => intro s s' h hr; simp only [run, Res.ok.injEq] at hr; subst hr; exact h
  | cons op l ih =>
    intro s s' h hr
    simp only [run] at hr
    cases h1 : step c s op with
    | ok s1 =>
      rw [h1] at hr
      exact ih (fun o ho => hn o (by simp [ho])) ((step_inv hacc h op (hn op (by simp))).1 s1 h1) hr
    | ub => rw [h1] at hr; simp [Res.bind] at hr
    | abort => rw [h1] at hr; simp [Res.bind] at hr
    | illegal => rw [h1] at hr; simp [Res.bind] at hr

theorem opBound_all (prog : List Op) : ∃ n, ∀ op ∈ prog, opBound op ≤ n := by
  induction prog with
  | nil => exact ⟨0, by simp⟩
  | cons op l ih =>
    obtain ⟨n, hn⟩ := ih
    refine ⟨max n (opBound op), fun o ho => ?_⟩
    simp only [List.mem_cons] at ho
    rcases ho with rfl | ho
    · omega
    · have := hn o ho; omega

theorem reached_inv {c : Class} (hacc : c.accepted = true) {prog : List Op} {s : St} (h : run c initial prog = .ok s) (m : Nat) :
    ∃ n, m ≤ n ∧ Inv c n s [] [] := by
  obtain ⟨n, hn⟩ := opBound_all prog
  exact ⟨max n m, by omega, run_inv hacc prog (fun op ho => by have := hn op ho; omega) (inv_initial c _) h⟩

theorem owners_pos {n : Nat} {f : Nat → Option Wrapper} {p : Nat} (h : 0 < owners n f p) : ∃ x, f x = some ⟨true, some p⟩ := by
  unfold owners at h
  induction n with
  | zero => simp [sumTo] at h
  | succ n ih =>
    simp only [sumTo] at h
    by_cases h1 : f n = some ⟨true, some p⟩
    · exact ⟨n, h1⟩
    · rw [if_neg h1] at h; exact ih (by omega)

theorem owned_of_live {c : Class} {n : Nat} {s : St} (h : Inv c n s [] []) {p o k : Nat} (hc : cellAt s p = some (o, k)) : Owned c s o := by
  have h1 := h.cnt p
  have h2 := h.pos p o k hc
  simp only [refs, hc, List.count_nil] at h1
  by_cases ho : 0 < owners n s.vars p
  · obtain ⟨x, hx⟩ := owners_pos ho
    exact .inl ⟨x, p, k, hx, hc⟩
  · right
    cases hs : c.shared with
    | false => rw [hs] at h1; simp only [Bool.false_eq_true, if_false] at h1; omega
    | true =>
      rw [hs] at h1
      simp only [if_true] at h1 ⊢
      have hm : 0 < s.held.count p := by omega
      exact ⟨p, List.count_pos_iff.1 hm, k, hc⟩

/-! ## Property theorems -/

/-- C42: in every state a C++ program can reach, no object was destroyed twice, and the objects destroyed are exactly those that nobody owns any more. -/
theorem C42_destroyed_once (c : Class) (hacc : c.accepted = true) (prog : List Op) (s : St) (h : run c initial prog = .ok s) :
    s.destroyed.Nodup ∧ ∀ o, o ∈ s.destroyed ↔ o < s.objs ∧ ¬ Owned c s o := by
  obtain ⟨n, _, hi⟩ := reached_inv hacc h 0
  refine ⟨?_, fun o => ⟨fun ho => ?_, fun ⟨hlt, hno⟩ => ?_⟩⟩
  · rw [List.nodup_iff_count]
    intro o
    have := hi.obj o
    have h1 : (if o < s.objs then 1 else 0) ≤ 1 := by split <;> omega
    omega
  · have hpos : 0 < s.destroyed.count o := List.count_pos_iff.2 ho
    have hobj := hi.obj o
    have hlt : o < s.objs := by
      by_cases hl : o < s.objs
      · exact hl
      · rw [if_neg hl] at hobj; omega
    rw [if_pos hlt] at hobj
    have hlive : (live s.cells).count o = 0 := by omega
    have hl : ∀ p k, cellAt s p ≠ some (o, k) := fun p k hc =>
      List.count_eq_zero.1 hlive (live_mem hc)
    refine ⟨hlt, ?_⟩
    rintro (⟨x, p, k, _, hc⟩ | hr)
    · exact hl p k hc
    · cases hs : c.shared with
      | true =>
        rw [hs] at hr
        simp only [if_true] at hr
        obtain ⟨p, _, k, hc⟩ := hr
        exact hl p k hc
      | false =>
        rw [hs] at hr hobj
        simp only [Bool.false_eq_true, if_false] at hr hobj
        have := List.count_pos_iff.2 hr
        omega
  · have hobj := hi.obj o
    rw [if_pos hlt] at hobj
    apply List.count_pos_iff.1
    have h1 : (live s.cells).count o = 0 := by
      apply List.count_eq_zero.2
      intro hm
      obtain ⟨p, k, hp⟩ := mem_live hm
      exact hno (owned_of_live hi (p := p) (k := k) (by simp [cellAt, hp]))
    have h2 : (if c.shared then 0 else s.held.count o) = 0 := by
      cases hs : c.shared with
      | true => simp
      | false =>
        simp only [Bool.false_eq_true, if_false]
        apply List.count_eq_zero.2
        intro hm
        exact hno (.inr (by simp [hs, hm]))
    simp only [List.count_nil] at hobj
    omega

/-- C42: when no owning wrapper holds an object and Rust holds none, every object of the class ever made has been destroyed, exactly once. -/
theorem C42_all_destroyed (c : Class) (hacc : c.accepted = true) (prog : List Op) (s : St) (h : run c initial prog = .ok s)
    (hv : ∀ x p, s.vars x ≠ some ⟨true, some p⟩) (hh : s.held = []) : s.destroyed.Perm (List.range s.objs) := by
  obtain ⟨h1, h2⟩ := C42_destroyed_once c hacc prog s h
  rw [List.perm_ext_iff_of_nodup h1 List.nodup_range]
  intro o
  rw [h2, List.mem_range]
  refine ⟨fun h => h.1, fun h => ⟨h, ?_⟩⟩
  rintro (⟨x, p, k, hx, _⟩ | hr)
  · exact hv x p hx
  · rw [hh] at hr
    split at hr
    · obtain ⟨p, hp, _⟩ := hr; cases hp
    · cases hr

/-- C42: an owning wrapper is never dangling: it is null or its object is alive. -/
theorem C42_owner_valid (c : Class) (hacc : c.accepted = true) (prog : List Op) (s : St) (h : run c initial prog = .ok s) (x p : Nat)
    (hx : s.vars x = some ⟨true, some p⟩) : ∃ o k, cellAt s p = some (o, k) ∧ o ∉ s.destroyed := by
  obtain ⟨n, _, hi⟩ := reached_inv hacc h 0
  obtain ⟨o, k, hc⟩ := own_live hi hx
  refine ⟨o, k, hc, fun hd => ?_⟩
  exact (((C42_destroyed_once c hacc prog s h).2 o).1 hd).2 (.inl ⟨x, p, k, hx, hc⟩)

/-- C42: undefined behaviour is only possible through a reference wrapper: one that has outlived its object, or one assigned to the last owner of
the very object it refers to. -/
theorem C42_no_ub (c : Class) (hacc : c.accepted = true) (prog : List Op) (s : St) (h : run c initial prog = .ok s) (op : Op)
    (hub : step c s op = .ub) : Bad c s op := by
  obtain ⟨n, hn, hi⟩ := reached_inv hacc h (opBound op)
  exact (step_inv hacc hi op hn).2 hub

/-- C42: destroying a reference wrapper, or moving from it, destroys nothing and frees nothing. -/
theorem C42_refs_destroy_nothing (c : Class) (s s' : St) (x y : Nat) (p : Option Nat) (hx : s.vars x = some ⟨false, p⟩)
    (h : step c s (.destroy x) = .ok s' ∨ step c s (.moveCtor y x) = .ok s' ∨ step c s (.moveAssign x y) = .ok s') :
    s'.cells = s.cells ∧ s'.destroyed = s.destroyed ∧ s'.held = s.held := by
  rcases h with h | h | h
  · simp only [step, freeMem, hx, Res.bind, Res.ok.injEq] at h
    subst h
    exact ⟨rfl, rfl, rfl⟩
  · simp only [step, hx, declare] at h
    split at h
    · simp only [Res.bind] at h; cases h
    · simp only [Res.bind, Res.ok.injEq] at h
      subst h
      exact ⟨rfl, rfl, rfl⟩
  · simp only [step, hx] at h
    cases hy : s.vars y with
    | none => rw [hy] at h; cases h
    | some w =>
      rw [hy] at h
      simp only at h
      split at h
      · cases h
      · split at h
        · cases h
        · simp only [freeMem, hx, Res.bind, Res.ok.injEq] at h
          subst h
          exact ⟨rfl, rfl, rfl⟩

/-- C42: a moved-from wrapper is null: using it ends the process, copying it gives another null wrapper, and destroying it does nothing. -/
theorem C42_moved_from (c : Class) (s : St) (x : Nat) (b : Bool) (hx : s.vars x = some ⟨b, none⟩) :
    step c s (.use x) = .abort ∧ (b = true → step c s (.pass x) = .abort) ∧
    (∀ z, s.vars z = none → c.copy ≠ .deleted → step c s (.copyCtor z x) = .ok { s with vars := setVar s.vars z (some ⟨true, none⟩) }) ∧
    step c s (.destroy x) = .ok { s with vars := setVar s.vars x none } := by
  refine ⟨by simp [step, hx], fun hb => by subst hb; simp [step, hx], fun z hz hc => by simp [step, hx, hc, cloneOpt, Res.bind, declare, hz], ?_⟩
  cases b <;> simp [step, hx, freeMem, Res.bind, setVar_twice]

/-- C42: the copy constructor makes a new owner: of the same object for `SmartPtrCopy`, of a fresh object for `Copy`; the source is unchanged. -/
theorem C42_copy (c : Class) (hacc : c.accepted = true) (s : St) (x y p o k : Nat) (b : Bool) (hy : s.vars y = some ⟨b, some p⟩) (hx : s.vars x = none)
    (hp : cellAt s p = some (o, k)) (hc : c.copy ≠ .deleted) :
    ∃ s', step c s (.copyCtor x y) = .ok s' ∧ s'.vars y = s.vars y ∧ s'.destroyed = s.destroyed ∧
      match c.copy with
      | .smartPtr => s'.vars x = some ⟨true, some p⟩ ∧ cellAt s' p = some (o, k + 1) ∧ s'.objs = s.objs
      | _ => ∃ q, s'.vars x = some ⟨true, some q⟩ ∧ q ≠ p ∧ cellAt s' q = some (s.objs, 1) ∧ cellAt s' p = some (o, k) ∧ s'.objs = s.objs + 1 := by
  have hne : y ≠ x := by intro e; subst e; rw [hx] at hy; cases hy
  have hlt := cellAt_lt hp
  cases hcp : c.copy with
  | deleted => exact absurd hcp hc
  | smartPtr =>
    have hs : c.shared = true := by
      unfold Class.accepted at hacc
      rw [hcp] at hacc
      simpa using hacc
    refine ⟨{ s with cells := s.cells.set p (some (o, k + 1)), vars := setVar s.vars x (some ⟨true, some p⟩) }, ?_, ?_, rfl, ?_⟩
    · simp [step, hy, hcp, cloneOpt, cloneFunc, hp, hs, addRef, Res.bind, declare, hx]
    · simp only [setVar_ne _ _ _ _ hne]
    · refine ⟨setVar_self _ _ _, ?_, rfl⟩
      have := cellAt_set s p p (some (o, k + 1)) hlt
      simp only [if_true] at this
      exact this
  | cloneMethod =>
    refine ⟨{ s with cells := s.cells ++ [some (s.objs, 1)], objs := s.objs + 1, vars := setVar s.vars x (some ⟨true, some s.cells.length⟩) }, ?_, ?_, rfl, ?_⟩
    · simp [step, hy, hcp, cloneOpt, cloneFunc, hp, Res.bind, declare, hx, allocCell, newObj]
    · simp only [setVar_ne _ _ _ _ hne]
    · refine ⟨s.cells.length, setVar_self _ _ _, by omega, ?_, ?_, rfl⟩
      · have := cellAt_append s (s.objs, 1) s.cells.length
        simp only [if_true] at this
        exact this
      · have := cellAt_append s (s.objs, 1) p
        rw [if_neg (by omega), hp] at this
        exact this

/-- C42, finding: copy assignment frees the target's object before cloning the source, and only compares addresses of wrappers.  If the source is a
reference wrapper to the object the target is the last owner of, the freed object is cloned: `a = a.as_rref().as_cref();`. -/
theorem C42_finding_assign_own_reference (c : Class) (s : St) (x y p o : Nat) (hx : s.vars x = some ⟨true, some p⟩)
    (hy : s.vars y = some ⟨false, some p⟩) (hp : cellAt s p = some (o, 1)) (hc : c.copy ≠ .deleted) : step c s (.copyAssign x y) = .ub := by
  have hxy : x ≠ y := by intro e; subst e; rw [hx] at hy; cases hy
  have hlt := cellAt_lt hp
  have hd : dropRef s p = .ok { s with cells := s.cells.set p none, destroyed := s.destroyed ++ [o] } := dropRef_last hp
  have hz : cellAt { s with cells := s.cells.set p none, destroyed := s.destroyed ++ [o], vars := setVar s.vars x (some ⟨true, none⟩) } p = none := by
    have := cellAt_set s p p none hlt
    simp only [if_true] at this
    exact this
  simp only [step, hx, hy, hc, hxy, freeMem, hd, Res.bind, cloneOpt, cloneFunc, hz]
  simp

/-- Non-vacuity: a shared class with smart pointer copies, Rust holding a reference for a while. -/
def demo : List Op :=
  [.construct 0, .copyCtor 1 0, .refTo 2 1, .use 2, .pass 0, .destroy 0, .moveCtor 3 1, .destroy 1, .copyCtor 4 2, .destroy 3, .destroy 4, .use 2,
    .rustDrop 0, .destroy 2]

example : (match run ⟨true, .smartPtr⟩ initial demo with
    | .ok s => (s.destroyed, s.objs, s.cells)
    | _ => ([], 0, [])) = ([0], 1, [none]) := by decide

/-- A boxed class with a clone method. -/
example : (match run ⟨false, .cloneMethod⟩ initial [.construct 0, .copyCtor 1 0, .pass 0, .rustDrop 0, .rustNew, .returned 2 0, .copyAssign 2 1, .destroy 0, .destroy 1, .destroy 2] with
    | .ok s => (s.destroyed, s.objs)
    | _ => ([], 0)) = ([0, 2, 1, 3], 4) := by decide

/-- The hazard of the finding is reachable. -/
example : (match run ⟨false, .cloneMethod⟩ initial [.construct 0, .refTo 1 0, .copyAssign 0 1] with
    | .ub => true
    | _ => false) = true := by decide

end Flapi.CppClass
