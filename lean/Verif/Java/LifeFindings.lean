import Verif.Java.LifeTheorems
/-!
# C35: what is not protected, and runs that meet the hypotheses of the theorems
-/
namespace Flapi.JavaLife

/-! An executable scheduler: every run it finds is a run of the machine. -/

inductive Pick where
  | thread (t : Nat)
  | collect (x : Obj)

def canStartB (s : St) : Op → Bool
  | .new x _ => !s.made x
  | _ => true

def reachesB (th : Thread) (x : Obj) : Bool := th.code.any (fun i => i.objs.contains x) || th.todo.any (fun o => o.objs.contains x)

def stepB (s : St) : Pick → Option St
  | .thread t =>
    if s.mem.aborted then none else
    match s.threads[t]? with
    | none => none
    | some th =>
      match th.code, th.todo with
      | [], [] => none
      | [], o :: rest =>
        if canStartB s o then
          some { s with made := markMade s.made o, threads := s.threads.set t ⟨rest, o, compile o, fun _ => 0⟩ }
        else none
      | i :: c, _ =>
        match exec t i s.mem th.regs c with
        | none => none
        | some (m, r, c') => some { s with mem := m, threads := s.threads.set t { th with code := c', regs := r } }
  | .collect x =>
    if s.mem.aborted then none
    else if s.made x && s.threads.all (fun th => !reachesB th x) then
      some { s with threads := s.threads ++ [⟨[.delete x], .delete x, [], fun _ => 0⟩] }
    else none

def runB : St → List Pick → Option St
  | s, [] => some s
  | s, p :: l => match stepB s p with
    | none => none
    | some s' => runB s' l

def isGc : Label → Bool
  | .gc _ => true
  | _ => false

def Pick.isGc : Pick → Bool
  | .collect _ => true
  | _ => false

theorem stepB_step {s s' : St} {p : Pick} (h : stepB s p = some s') : ∃ l, Step s l s' ∧ isGc l = p.isGc := by
  cases p with
  | thread t =>
    simp only [stepB] at h
    split at h
    · cases h
    · rename_i ha
      split at h
      · cases h
      · rename_i th hth
        split at h
        · cases h
        · rename_i o rest hc ht
          split at h
          · rename_i hcan
            cases h
            refine ⟨_, Step.start s t th o rest (by simpa using ha) hth hc ht ?_, rfl⟩
            cases o <;> first | trivial | skip
            simpa [canStartB, St.canStart] using hcan
          · cases h
        · rename_i i c hc
          split at h
          · cases h
          · rename_i m r c' he
            cases h
            exact ⟨_, Step.exec s t th i c m r c' (by simpa using ha) hth hc he, rfl⟩
  | collect x =>
    simp only [stepB] at h
    split at h
    · cases h
    · rename_i ha
      split at h
      · rename_i hb
        cases h
        simp only [Bool.and_eq_true, List.all_eq_true, Bool.not_eq_true'] at hb
        refine ⟨_, Step.gc s x (by simpa using ha) hb.1 fun th hth hr => ?_, rfl⟩
        have h1 := hb.2 th hth
        simp only [reachesB, Bool.or_eq_false_iff, List.any_eq_false, List.contains_iff_mem] at h1
        rcases hr with ⟨i, hi, hx⟩ | ⟨o, ho, hx⟩
        · exact h1.1 i hi hx
        · exact h1.2 o ho hx
      · cases h

theorem run_trans {ok : St → Label → Prop} {a b c : St} (h1 : Run ok a b) (h2 : Run ok b c) : Run ok a c := by
  induction h2 with
  | refl => exact h1
  | tail _ hs ho ih => exact .tail ih hs ho

theorem runB_run {l : List Pick} : ∀ {s s' : St}, runB s l = some s' →
    Run (fun _ lab => l.any Pick.isGc = false → isGc lab = false) s s' := by
  induction l with
  | nil => intro s s' h; cases h; exact .refl _
  | cons p l ih =>
    intro s s' h
    simp only [runB] at h
    split at h
    · cases h
    · rename_i s1 hs1
      obtain ⟨lab, hst, hlab⟩ := stepB_step hs1
      refine run_trans (.tail (.refl _) hst ?_) ?_
      · intro hg
        simp only [List.any_cons, Bool.or_eq_false_iff] at hg
        rw [hlab]; exact hg.1
      · have := ih h
        clear h hs1 hst
        induction this with
        | refl => exact .refl _
        | tail _ hs ho ih2 =>
          refine .tail ih2 hs fun hg => ho ?_
          simp only [List.any_cons, Bool.or_eq_false_iff] at hg
          exact hg.2

theorem Run.weaken {ok ok' : St → Label → Prop} (h : ∀ s l, ok s l → ok' s l) {a b : St} (hr : Run ok a b) : Run ok' a b := by
  induction hr with
  | refl => exact .refl _
  | tail _ hs ho ih => exact .tail ih hs (h _ _ ho)

/-- Start: objects 0 and 1 hold the native objects 1 and 2. -/
def start2 (progs : List (List Op)) : St where
  mem := { field := fun x => if x = 0 then 1 else if x = 1 then 2 else 0, lock := fun _ => none, next := 3,
           destroyed := fun _ => 0, aborted := false, bad := false }
  made := fun x => x == 0 || x == 1
  threads := progs.map fun p => ⟨p, .delete 0, [], fun _ => 0⟩

theorem start2_initial (progs : List (List Op)) : Initial (start2 progs) := by
  refine ⟨rfl, ?_, fun _ => rfl, ?_, ?_, fun _ => Nat.zero_le _, fun _ _ => rfl, Nat.zero_lt_succ _⟩
  · intro th hth
    simp only [start2, List.mem_map] at hth
    obtain ⟨p, _, rfl⟩ := hth
    rfl
  · intro x h0
    refine ⟨h0, ?_, rfl⟩
    show (if x = 0 then 1 else if x = 1 then 2 else 0) < 3
    split
    · decide
    · split <;> decide
  · intro x y
    show (if x = 0 then 1 else if x = 1 then 2 else 0) ≠ 0 → (if x = 0 then 1 else if x = 1 then 2 else 0) = (if y = 0 then 1 else if y = 1 then 2 else 0) → x = y
    intro h1 h2
    by_cases hx0 : x = 0
    · by_cases hy0 : y = 0
      · rw [hx0, hy0]
      · by_cases hy1 : y = 1 <;> simp [hx0, hy1, hy0] at h2
    · by_cases hx1 : x = 1
      · by_cases hy0 : y = 0
        · simp [hx1, hy0] at h2
        · by_cases hy1 : y = 1
          · rw [hx1, hy1]
          · simp [hx1, hy1, hy0] at h2
      · simp [hx0, hx1] at h1

def th (n t : Nat) : List Pick := List.replicate n (.thread t)

/-- Finding: `f(x)` by value in one thread and `x.delete()` in another destroy the native object twice. -/
theorem C35_finding_concurrent_give :
    ∃ s', Run (fun _ _ => True) (start2 [[.call none [.value 0]], [.delete 0]]) s' ∧ s'.mem.bad = true := by
  have h : ((runB (start2 [[.call none [.value 0]], [.delete 0]]) (th 2 0 ++ th 7 1 ++ th 2 0)).map (·.mem.bad)) = some true := by decide
  cases hr : runB (start2 [[.call none [.value 0]], [.delete 0]]) (th 2 0 ++ th 7 1 ++ th 2 0) with
  | none => rw [hr] at h; cases h
  | some s' => exact ⟨s', (runB_run hr).weaken fun _ _ _ => trivial, by rw [hr] at h; exact Option.some.inj h⟩

/-- Finding: `x.delete()` while another thread is inside `x.f()`: the native method uses a destroyed object. -/
theorem C35_finding_concurrent_use :
    ∃ s', Run (fun _ _ => True) (start2 [[.call (some 0) []], [.delete 0]]) s' ∧ s'.mem.bad = true := by
  have h : ((runB (start2 [[.call (some 0) []], [.delete 0]]) (th 2 0 ++ th 7 1 ++ th 2 0)).map (·.mem.bad)) = some true := by decide
  cases hr : runB (start2 [[.call (some 0) []], [.delete 0]]) (th 2 0 ++ th 7 1 ++ th 2 0) with
  | none => rw [hr] at h; cases h
  | some s' => exact ⟨s', (runB_run hr).weaken fun _ _ _ => trivial, by rw [hr] at h; exact Option.some.inj h⟩

/-- Finding: one thread only calls `x.f()` and does not use `x` again; the receiver has no reachability fence, so the collector may finalise
`x` while the native method runs, which then uses a destroyed object. -/
theorem C35_finding_receiver_collected :
    ∃ s', Run (fun _ _ => True) (start2 [[.call (some 0) []]]) s' ∧ s'.mem.bad = true := by
  have h : ((runB (start2 [[.call (some 0) []]]) (th 3 0 ++ [.collect 0] ++ th 7 1 ++ th 1 0)).map (·.mem.bad)) = some true := by decide
  cases hr : runB (start2 [[.call (some 0) []]]) (th 3 0 ++ [.collect 0] ++ th 7 1 ++ th 1 0) with
  | none => rw [hr] at h; cases h
  | some s' => exact ⟨s', (runB_run hr).weaken fun _ _ _ => trivial, by rw [hr] at h; exact Option.some.inj h⟩

/-- Finding: `f(x, x)` with `f(a: &T, b: T)`: the reference dangles while `f` runs, even with one thread. -/
theorem C35_finding_lend_then_give :
    ∃ s', Run NoGc (start2 [[.call none [.ref 0, .value 0]]]) s' ∧ s'.mem.bad = true := by
  have h : ((runB (start2 [[.call none [.ref 0, .value 0]]]) (th 7 0)).map (·.mem.bad)) = some true := by decide
  cases hr : runB (start2 [[.call none [.ref 0, .value 0]]]) (th 7 0) with
  | none => rw [hr] at h; cases h
  | some s' =>
    refine ⟨s', (runB_run hr).weaken fun _ l hl => ?_, by rw [hr] at h; exact Option.some.inj h⟩
    cases l with
    | gc x => exact absurd (hl rfl) (by simp [isGc])
    | _ => trivial

/-- Finding: giving an object away twice in one call (`f(x, x)` with `f(a: T, b: T)`) makes the native code panic. -/
theorem C35_finding_give_twice :
    (runB (start2 [[.call none [.value 0, .value 0]]]) (th 7 0)).map (fun s => (s.mem.aborted, s.mem.bad)) = some (true, false) := by decide

/-- Finding: `f(x, null)` with two by-value arguments: `x` is already emptied when the `NullPointerException` is thrown; its native
object is never destroyed. -/
theorem C35_finding_leak :
    (runB (start2 [[.call none [.value 0, .null], .delete 0]]) (th 4 0 ++ th 4 0)).map
      (fun s => (s.mem.field 0, s.mem.destroyed 1, s.mem.aborted, s.threads.map fun t => (t.code.length, t.todo.length))) =
    some (0, 0, false, [(0, 0)]) := by decide

/-- Finding: an object of a `Copy` class given as `Option<T>` is taken away from its wrapper, although the same object given as `T` is not. -/
theorem C35_finding_optional_copy :
    (runB (start2 [[.call none [.copy 0]]]) (th 4 0)).map (·.mem.field 0) = some 1 ∧
    (runB (start2 [[.call none [.optValue (some 0)]]]) (th 5 0)).map (·.mem.field 0) = some 0 := by decide

/-! Runs that meet the hypotheses. -/

def demo : List Op := [.new 5 [.ref 0, .value 1], .call (some 5) [.ref 0, .optRef (some 5)], .call none [.value 5, .ref 0], .delete 5, .delete 0]

example : ∀ o ∈ demo, o.NoLendThenGive := by
  intro o ho
  simp only [demo, List.mem_cons, List.not_mem_nil, or_false] at ho
  rcases ho with rfl | rfl | rfl | rfl | rfl <;>
    simp [Op.NoLendThenGive, Op.args, Arg.borrows, Arg.gives]

/-- The demo program runs to its end, destroying every native object once. -/
example : (runB (start2 [demo]) (th 39 0)).isNone = true ∧
    (runB (start2 [demo]) (th 38 0)).map (fun s => ([1, 2, 3].map s.mem.destroyed, s.mem.aborted, s.threads.map (·.code)))
      = some ([1, 1, 1], false, [[]]) := by decide

/-- Two threads delete the same two objects, and run to the end. -/
example : (runB (start2 [[.delete 0, .delete 1], [.delete 1, .delete 0]]) (th 3 0 ++ th 4 1 ++ th 20 0)).isNone = true ∧
    (runB (start2 [[.delete 0, .delete 1], [.delete 1, .delete 0]]) (th 3 0 ++ th 4 1 ++ th 4 0 ++ th 3 1 ++ th 4 0 ++ th 4 1)).map
      (fun s => ([1, 2].map s.mem.destroyed, s.mem.aborted, s.threads.map (fun t => (t.code, t.todo)))) = some ([1, 1], false, [([], []), ([], [])]) := by decide

/-- A fenced call while the collector waits: it may take the object only afterwards. -/
example : (runB (start2 [[.call none [.ref 0]]]) (th 2 0 ++ [.collect 0])).isNone = true ∧
    (runB (start2 [[.call none [.ref 0]]]) (th 5 0 ++ [.collect 0] ++ th 7 1)).map (fun s => (s.mem.destroyed 1, s.mem.bad)) = some (1, false) := by decide

end Flapi.JavaLife
