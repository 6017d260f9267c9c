import Verif.Core.Rustfmt
import Verif.Core.Expand
/-! # Running rustfmt neither hangs nor loses code (C86) -/
namespace Flapi.Rustfmt
open Flapi

variable {χ β : Type}

/-! ## Specification -/

/-- The child on its own, from state `c` with input `inp`: after `n` steps it is in state `c'`, the input `rem` is left and it has
written `out`.  A read gives at least one byte, unless the input is at its end. -/
inductive Goes (want : χ → Want χ β) (c : χ) (inp : List β) : χ → List β → List β → Nat → Prop
  | here : Goes want c inp c inp [] 0
  | work {d k : χ} {rem out : List β} {n : Nat} (h : Goes want c inp d rem out n) (w : want d = .work k) :
      Goes want c inp k rem out (n + 1)
  | write {d k : χ} {b : β} {rem out : List β} {n : Nat} (h : Goes want c inp d rem out n) (w : want d = .write b k) :
      Goes want c inp k rem (out ++ [b]) (n + 1)
  | read {d : χ} {m : Nat} {k : List β → χ} {got rem out : List β} {n : Nat} (h : Goes want c inp d (got ++ rem) out n)
      (w : want d = .read m k) (h1 : got ≠ []) (h2 : got.length ≤ m + 1) : Goes want c inp (k got) rem out (n + 1)
  | eof {d : χ} {m : Nat} {k : List β → χ} {out : List β} {n : Nat} (h : Goes want c inp d [] out n) (w : want d = .read m k) :
      Goes want c inp (k []) [] out (n + 1)

/-- On input `inp` the child on its own writes `out` and exits with `code`. -/
def Yields (want : χ → Want χ β) (c : χ) (inp out : List β) (code : Option Int) : Prop :=
  ∃ d rem n, Goes want c inp d rem out n ∧ want d = .exit code

/-- What the function must return. -/
def Right (src out : List β) (code : Option Int) (res : Except Unit (List β)) : Prop :=
  (code = some 0 → res = .ok out) ∧ (code = some 2 → res = .error ()) ∧ (code ≠ some 0 → code ≠ some 2 → res = .ok src)

/-- The number of steps of the child in a schedule. -/
def childSteps (ps : List Pick) : Nat := ps.countP fun p => match p with | .child _ => true | _ => false

/-! ## Invariant -/

/-- What holds in every state of a run. -/
structure Inv (want : χ → Want χ β) (c0 : χ) (src : List β) (s : St χ β) (out : List β) (cnt : Nat) : Prop where
  running : ∀ c, s.child = .run c → ∃ rest, (s.writer = .writing rest ∨ s.writer = .done ∧ rest = []) ∧
    Goes want c0 src c (s.toChild ++ rest) out cnt
  exited : ∀ code, s.child = .gone code → ∃ d rem n, Goes want c0 src d rem out n ∧ want d = .exit code ∧ cnt = n + 1
  copying : ∀ acc, s.main = .copying acc → out = acc ++ s.fromChild
  waiting : ∀ acc, s.main = .waiting acc → (∃ code, s.child = .gone code) ∧ out = acc
  joining : ∀ acc code, s.main = .joining acc code → s.child = .gone code ∧ out = acc
  finished : ∀ res, s.main = .finished res → s.writer = .done ∧ ∃ code, s.child = .gone code ∧ res = choose code out src

theorem inv_start (want : χ → Want χ β) (c0 : χ) (src : List β) : Inv want c0 src (start c0 src) [] 0 := by
  constructor <;> simp [start]
  exact .here

theorem inv_writer {want : χ → Want χ β} {c0 : χ} {src out : List β} {cnt : Nat} {s s' : St χ β} {capI : Nat} (h : Inv want c0 src s out cnt)
    (e : stepWriter capI s = some s') : Inv want c0 src s' out cnt := by
  rcases s with ⟨i, o, c, w, m⟩
  obtain ⟨h1, h2, h3, h4, h5, h6⟩ := h
  simp only at h1 h2 h3 h4 h5 h6
  unfold stepWriter at e
  cases w with
  | done => simp at e
  | writing rest =>
    have nf : ∀ res, m = .finished res → False := fun res hm => by have := (h6 res hm).1; cases this
    cases rest with
    | nil =>
      simp only [Option.some.injEq] at e
      subst e
      refine ⟨fun c hc => ?_, h2, h3, h4, h5, fun res hm => (nf res hm).elim⟩
      obtain ⟨rest, hr, hg⟩ := h1 c hc
      refine ⟨[], Or.inr ⟨rfl, rfl⟩, ?_⟩
      rcases hr with hr | ⟨hr, -⟩
      · cases hr; exact hg
      · cases hr
    | cons b rest =>
      cases c with
      | gone code =>
        simp only [Option.some.injEq] at e
        subst e
        exact ⟨fun c hc => (by cases hc), h2, h3, h4, h5, fun res hm => (nf res hm).elim⟩
      | run c =>
        simp only at e
        split at e
        · simp only [Option.some.injEq] at e
          subst e
          refine ⟨fun c' hc => ?_, h2, h3, h4, h5, fun res hm => (nf res hm).elim⟩
          obtain ⟨rest', hr, hg⟩ := h1 c' hc
          refine ⟨rest, Or.inl rfl, ?_⟩
          rcases hr with hr | ⟨hr, -⟩
          · cases hr; simpa using hg
          · cases hr
        · cases e

theorem inv_main {want : χ → Want χ β} {c0 : χ} {src out : List β} {cnt : Nat} {s s' : St χ β} (h : Inv want c0 src s out cnt)
    (e : stepMain src s = some s') : Inv want c0 src s' out cnt := by
  rcases s with ⟨i, o, c, w, m⟩
  obtain ⟨h1, h2, h3, h4, h5, h6⟩ := h
  simp only at h1 h2 h3 h4 h5 h6
  unfold stepMain at e
  cases m with
  | copying acc =>
    simp only at e
    have ho := h3 acc rfl
    cases o with
    | cons b t =>
      simp only [Option.some.injEq] at e
      subst e
      refine ⟨h1, h2, fun acc' hm => ?_, fun acc' hm => (by cases hm), fun acc' code hm => (by cases hm), fun res hm => (by cases hm)⟩
      cases hm
      simpa using ho
    | nil =>
      cases c with
      | run c => simp at e
      | gone code =>
        simp only [Option.some.injEq] at e
        subst e
        refine ⟨h1, h2, fun acc' hm => (by cases hm), fun acc' hm => ?_, fun acc' code hm => (by cases hm), fun res hm => (by cases hm)⟩
        cases hm
        exact ⟨⟨code, rfl⟩, by simpa using ho⟩
  | waiting acc =>
    simp only at e
    obtain ⟨⟨code, hc⟩, ho⟩ := h4 acc rfl
    subst hc
    simp only [Option.some.injEq] at e
    subst e
    refine ⟨h1, h2, fun acc' hm => (by cases hm), fun acc' hm => (by cases hm), fun acc' code hm => ?_, fun res hm => (by cases hm)⟩
    cases hm
    exact ⟨rfl, ho⟩
  | joining acc code =>
    simp only at e
    obtain ⟨hc, ho⟩ := h5 acc code rfl
    cases w with
    | writing rest => simp at e
    | done =>
      simp only [Option.some.injEq] at e
      subst e
      refine ⟨h1, h2, fun acc' hm => (by cases hm), fun acc' hm => (by cases hm), fun acc' code hm => (by cases hm), fun res hm => ?_⟩
      cases hm
      exact ⟨rfl, code, hc, by rw [ho]⟩
  | finished res => simp at e

theorem inv_child {want : χ → Want χ β} {c0 : χ} {src out : List β} {cnt : Nat} {s s' : St χ β} {capO more : Nat} (h : Inv want c0 src s out cnt)
    (e : stepChild want capO more s = some s') : ∃ out', Inv want c0 src s' out' (cnt + 1) := by
  rcases s with ⟨i, o, c, w, m⟩
  obtain ⟨h1, h2, h3, h4, h5, h6⟩ := h
  simp only at h1 h2 h3 h4 h5 h6
  unfold stepChild at e
  cases c with
  | gone code => simp at e
  | run c =>
    have n4 : ∀ acc, m = .waiting acc → False := fun acc hm => by obtain ⟨⟨code, hc⟩, -⟩ := h4 acc hm; cases hc
    have n5 : ∀ acc code, m = .joining acc code → False := fun acc code hm => by have := (h5 acc code hm).1; cases this
    have n6 : ∀ res, m = .finished res → False := fun res hm => by obtain ⟨-, code, hc, -⟩ := h6 res hm; cases hc
    obtain ⟨rest, hr, hg⟩ := h1 c rfl
    simp only at e
    cases hw : want c with
    | work k =>
      simp only [hw, Option.some.injEq] at e
      subst e
      refine ⟨out, ⟨fun c' hc => ?_, fun code hc => (by cases hc), h3, fun a hm => (n4 a hm).elim, fun a d hm => (n5 a d hm).elim,
        fun r hm => (n6 r hm).elim⟩⟩
      cases hc
      exact ⟨rest, hr, .work hg hw⟩
    | exit code =>
      simp only [hw, Option.some.injEq] at e
      subst e
      refine ⟨out, ⟨fun c' hc => (by cases hc), fun code' hc => ?_, h3, fun a hm => (n4 a hm).elim, fun a d hm => (n5 a d hm).elim,
        fun r hm => (n6 r hm).elim⟩⟩
      cases hc
      exact ⟨c, i ++ rest, cnt, hg, hw, rfl⟩
    | write b k =>
      simp only [hw] at e
      split at e
      · simp only [Option.some.injEq] at e
        subst e
        refine ⟨out ++ [b], ⟨fun c' hc => ?_, fun code hc => (by cases hc), fun acc hm => ?_, fun a hm => (n4 a hm).elim,
          fun a d hm => (n5 a d hm).elim, fun r hm => (n6 r hm).elim⟩⟩
        · cases hc
          exact ⟨rest, hr, .write hg hw⟩
        · rw [h3 acc hm]; simp
      · cases e
    | read n k =>
      simp only [hw] at e
      cases i with
      | nil =>
        cases w with
        | writing r => simp at e
        | done =>
          simp only [Option.some.injEq] at e
          subst e
          refine ⟨out, ⟨fun c' hc => ?_, fun code hc => (by cases hc), h3, fun a hm => (n4 a hm).elim, fun a d hm => (n5 a d hm).elim,
            fun r hm => (n6 r hm).elim⟩⟩
          cases hc
          rcases hr with hr | ⟨-, hr⟩
          · cases hr
          · subst hr
            exact ⟨[], Or.inr ⟨rfl, rfl⟩, .eof hg hw⟩
      | cons b t =>
        simp only [Option.some.injEq] at e
        subst e
        refine ⟨out, ⟨fun c' hc => ?_, fun code hc => (by cases hc), h3, fun a hm => (n4 a hm).elim, fun a d hm => (n5 a d hm).elim,
          fun r hm => (n6 r hm).elim⟩⟩
        cases hc
        refine ⟨rest, hr, ?_⟩
        refine .read (got := (b :: t).take (min more n + 1)) (m := n) ?_ hw ?_ ?_
        · rw [← List.append_assoc, List.take_append_drop]
          exact hg
        · simp
        · simp only [List.length_take]
          omega

theorem childSteps_cons (p : Pick) (ps : List Pick) : childSteps (p :: ps) = childSteps [p] + childSteps ps := by
  unfold childSteps
  rw [List.countP_cons, List.countP_cons, List.countP_nil]; omega

theorem childSteps_append (ps qs : List Pick) : childSteps (ps ++ qs) = childSteps ps + childSteps qs := by
  unfold childSteps
  rw [List.countP_append]

theorem inv_run {want : χ → Want χ β} {c0 : χ} {src : List β} {capI capO : Nat} : ∀ (ps : List Pick) {s s' : St χ β} {out : List β} {cnt : Nat},
    Inv want c0 src s out cnt → run want capI capO src ps s = some s' → ∃ out', Inv want c0 src s' out' (cnt + childSteps ps)
  | [], s, s', out, cnt, h, e => by cases e; exact ⟨out, h⟩
  | p :: ps, s, s', out, cnt, h, e => by
    simp only [run, Option.bind_eq_some_iff] at e
    obtain ⟨s1, e1, e2⟩ := e
    have : ∃ out', Inv want c0 src s1 out' (cnt + childSteps [p]) := by
      cases p with
      | writer => exact ⟨out, inv_writer h e1⟩
      | main => exact ⟨out, inv_main h e1⟩
      | child more => exact inv_child h e1
    obtain ⟨out1, h1⟩ := this
    obtain ⟨out2, h2⟩ := inv_run ps h1 e2
    exact ⟨out2, by rw [childSteps_cons, ← Nat.add_assoc]; exact h2⟩

theorem run_append {want : χ → Want χ β} {src : List β} {capI capO : Nat} : ∀ (ps qs : List Pick) (s : St χ β),
    run want capI capO src (ps ++ qs) s = (run want capI capO src ps s).bind (run want capI capO src qs)
  | [], qs, s => rfl
  | p :: ps, qs, s => by
    simp only [List.cons_append, run]
    cases step want capI capO src p s with
    | none => rfl
    | some s1 => exact run_append ps qs s1

/-! ## The properties -/

/-- However the two threads and the child are scheduled, whatever the capacities of the pipes and whatever the child does: if the
function returns, the child, run on its own on exactly the source, writes some `out` and exits with some `code`, and the function
returns all of `out` for code 0, an error for code 2 and otherwise the source itself, complete and unchanged. -/
theorem C86_result (want : χ → Want χ β) (c0 : χ) (src : List β) (capI capO : Nat) (ps : List Pick) (s : St χ β)
    (h : run want capI capO src ps (start c0 src) = some s) (res : Except Unit (List β)) (hm : s.main = .finished res) :
    ∃ out code, Yields want c0 src out code ∧ Right src out code res := by
  obtain ⟨out, hi⟩ := inv_run ps (inv_start want c0 src) h
  obtain ⟨-, code, hc, hr⟩ := hi.finished res hm
  obtain ⟨d, rem, n, hg, hw, -⟩ := hi.exited code hc
  refine ⟨out, code, ⟨d, rem, n, hg, hw⟩, ?_⟩
  subst hr
  unfold Right choose
  refine ⟨fun e => by subst e; rfl, fun e => by subst e; rfl, fun e1 e2 => ?_⟩
  split
  · exact absurd rfl e1
  · exact absurd rfl e2
  · rfl
  · rfl

/-- No schedule leads to a deadlock: as long as the function has not returned, one of the two threads or the child can make a
step. -/
theorem C86_no_deadlock (want : χ → Want χ β) (c0 : χ) (src : List β) (capI capO : Nat) (ps : List Pick) (s : St χ β)
    (h : run want capI capO src ps (start c0 src) = some s) (hn : ∀ res, s.main ≠ .finished res) :
    ∃ p s', step want capI capO src p s = some s' := by
  obtain ⟨out, hi⟩ := inv_run ps (inv_start want c0 src) h
  rcases s with ⟨i, o, c, w, m⟩
  obtain ⟨h1, h2, h3, h4, h5, h6⟩ := hi
  simp only at h1 h2 h3 h4 h5 h6 hn
  cases c with
  | gone code =>
    cases w with
    | writing rest =>
      cases rest with
      | nil => exact ⟨.writer, _, rfl⟩
      | cons b rest => exact ⟨.writer, _, rfl⟩
    | done =>
      cases m with
      | copying acc =>
        cases o with
        | nil => exact ⟨.main, _, rfl⟩
        | cons b t => exact ⟨.main, _, rfl⟩
      | waiting acc => exact ⟨.main, _, rfl⟩
      | joining acc code => exact ⟨.main, _, rfl⟩
      | finished res => exact absurd rfl (hn res)
  | run c =>
    cases m with
    | waiting acc => obtain ⟨⟨code, hc⟩, -⟩ := h4 acc rfl; cases hc
    | joining acc code => have := (h5 acc code rfl).1; cases this
    | finished res => exact absurd rfl (hn res)
    | copying acc =>
      cases o with
      | cons b t => exact ⟨.main, _, rfl⟩
      | nil =>
        cases hw : want c with
        | work k => exact ⟨.child 0, _, by simp [step, stepChild, hw]; rfl⟩
        | exit code => exact ⟨.child 0, _, by simp [step, stepChild, hw]; rfl⟩
        | write b k => exact ⟨.child 0, _, by simp [step, stepChild, hw]; rfl⟩
        | read n k =>
          cases i with
          | cons b t => exact ⟨.child 0, _, by simp [step, stepChild, hw]; rfl⟩
          | nil =>
            cases w with
            | done => exact ⟨.child 0, _, by simp [step, stepChild, hw]; rfl⟩
            | writing rest =>
              cases rest with
              | nil => exact ⟨.writer, _, rfl⟩
              | cons b rest => exact ⟨.writer, _, by simp [step, stepWriter]; rfl⟩

/-- What the two threads have still to do, for the bound. -/
def left (s : St χ β) : Nat :=
  (match s.writer with
    | .writing rest => rest.length + 1
    | .done => 0) +
  (match s.main with
    | .copying _ => s.fromChild.length + 3
    | .waiting _ => 2
    | .joining _ _ => 1
    | .finished _ => 0)

theorem left_step {want : χ → Want χ β} {src : List β} {capI capO : Nat} {p : Pick} {s s' : St χ β}
    (e : step want capI capO src p s = some s') : left s' + 1 ≤ left s + 2 * childSteps [p] := by
  rcases s with ⟨i, o, c, w, m⟩
  cases p with
  | writer =>
    simp only [step, stepWriter] at e
    cases w with
    | done => simp at e
    | writing rest =>
      cases rest with
      | nil => simp only [Option.some.injEq] at e; subst e; simp [left, childSteps]; omega
      | cons b rest =>
        cases c with
        | gone code => simp only [Option.some.injEq] at e; subst e; simp [left, childSteps]; omega
        | run c =>
          simp only at e
          split at e
          · simp only [Option.some.injEq] at e; subst e; simp [left, childSteps]; omega
          · cases e
  | main =>
    simp only [step, stepMain] at e
    cases m with
    | copying acc =>
      cases o with
      | cons b t => simp only [Option.some.injEq] at e; subst e; simp [left, childSteps]; omega
      | nil =>
        cases c with
        | run c => simp at e
        | gone code => simp only [Option.some.injEq] at e; subst e; simp [left, childSteps]
    | waiting acc =>
      cases c with
      | run c => simp at e
      | gone code => simp only [Option.some.injEq] at e; subst e; simp [left, childSteps]
    | joining acc code =>
      cases w with
      | writing r => simp at e
      | done => simp only [Option.some.injEq] at e; subst e; simp [left, childSteps]
    | finished res => simp at e
  | child more =>
    have hc : childSteps [.child more] = 1 := rfl
    rw [hc]
    simp only [step, stepChild] at e
    cases c with
    | gone code => simp at e
    | run c =>
      cases hw : want c with
      | work k => simp only [hw, Option.some.injEq] at e; subst e; simp [left]
      | exit code => simp only [hw, Option.some.injEq] at e; subst e; simp [left]
      | write b k =>
        simp only [hw] at e
        split at e
        · simp only [Option.some.injEq] at e; subst e
          cases m <;> simp [left] <;> omega
        · cases e
      | read n k =>
        simp only [hw] at e
        cases i with
        | nil =>
          cases w with
          | writing r => simp at e
          | done => simp only [Option.some.injEq] at e; subst e; simp [left]
        | cons b t => simp only [Option.some.injEq] at e; subst e; simp [left]

theorem left_run {want : χ → Want χ β} {src : List β} {capI capO : Nat} : ∀ (ps : List Pick) {s s' : St χ β},
    run want capI capO src ps s = some s' → left s' + ps.length ≤ left s + 2 * childSteps ps
  | [], s, s', e => by cases e; simp [childSteps]
  | p :: ps, s, s', e => by
    simp only [run, Option.bind_eq_some_iff] at e
    obtain ⟨s1, e1, e2⟩ := e
    have h1 := left_step e1
    have h2 := left_run ps e2
    have h3 := childSteps_cons p ps
    simp only [List.length_cons]
    omega

/-- The function itself adds no endless waiting: in every schedule the number of steps is bounded by the length of the source and
twice the number of steps of the child. -/
theorem C86_bounded (want : χ → Want χ β) (c0 : χ) (src : List β) (capI capO : Nat) (ps : List Pick) (s : St χ β)
    (h : run want capI capO src ps (start c0 src) = some s) : ps.length ≤ src.length + 4 + 2 * childSteps ps := by
  have := left_run ps h
  simp only [start, left, List.length_nil] at this
  omega

/-- If the child, run on its own on the source, makes at most `N` steps before it exits, then no schedule is longer than
`|src| + 6 + 2 N` steps, and every schedule can be continued (and, being bounded, is continued by whatever steps are possible) until the
function has returned. -/
theorem C86_returns (want : χ → Want χ β) (c0 : χ) (src : List β) (capI capO N : Nat)
    (hN : ∀ d rem out n, Goes want c0 src d rem out n → n ≤ N) (ps : List Pick) (s : St χ β)
    (h : run want capI capO src ps (start c0 src) = some s) :
    ps.length ≤ src.length + 6 + 2 * N ∧
    ∃ qs s' res, run want capI capO src qs s = some s' ∧ s'.main = .finished res := by
  have bound : ∀ (ps : List Pick) (s : St χ β), run want capI capO src ps (start c0 src) = some s → ps.length ≤ src.length + 6 + 2 * N := by
    intro ps s h
    have h1 := C86_bounded want c0 src capI capO ps s h
    obtain ⟨out, hi⟩ := inv_run ps (inv_start want c0 src) h
    have : childSteps ps ≤ N + 1 := by
      cases hc : s.child with
      | run c =>
        obtain ⟨rest, -, hg⟩ := hi.running c hc
        have := hN _ _ _ _ hg
        omega
      | gone code =>
        obtain ⟨d, rem, n, hg, -, e⟩ := hi.exited code hc
        have := hN _ _ _ _ hg
        omega
    omega
  refine ⟨bound ps s h, ?_⟩
  have go : ∀ (k : Nat) (ps : List Pick) (s : St χ β), run want capI capO src ps (start c0 src) = some s →
      src.length + 7 + 2 * N ≤ ps.length + k → ∃ qs s' res, run want capI capO src qs s = some s' ∧ s'.main = .finished res := by
    intro k
    induction k with
    | zero => intro ps s h hk; have := bound ps s h; omega
    | succ k ih =>
      intro ps s h hk
      by_cases hf : ∃ res, s.main = .finished res
      · obtain ⟨res, hf⟩ := hf
        exact ⟨[], s, res, rfl, hf⟩
      · obtain ⟨p, s1, e⟩ := C86_no_deadlock want c0 src capI capO ps s h (fun res hm => hf ⟨res, hm⟩)
        have h1 : run want capI capO src (ps ++ [p]) (start c0 src) = some s1 := by
          rw [run_append, h]
          simp [run, e]
        obtain ⟨qs, s', res, e2, hm⟩ := ih (ps ++ [p]) s1 h1 (by simp only [List.length_append, List.length_singleton]; omega)
        exact ⟨p :: qs, s', res, by simp [run, e, e2], hm⟩
  exact go (src.length + 7 + 2 * N) ps s h (by omega)

/-- When the function has returned nothing is left behind: the child has exited and was waited for, the second thread has ended. -/
theorem C86_final (want : χ → Want χ β) (c0 : χ) (src : List β) (capI capO : Nat) (ps : List Pick) (s : St χ β)
    (h : run want capI capO src ps (start c0 src) = some s) (res : Except Unit (List β)) (hm : s.main = .finished res) (p : Pick) :
    step want capI capO src p s = none := by
  obtain ⟨out, hi⟩ := inv_run ps (inv_start want c0 src) h
  obtain ⟨hw, code, hc, -⟩ := hi.finished res hm
  cases p with
  | writer => simp [step, stepWriter, hw]
  | main => simp [step, stepMain, hm]
  | child more => simp [step, stepChild, hc]

/-- The choice by exit status is the one of the driver's model (C29). -/
theorem C86_same_choice (code : Option Int) (output src : Text) : choose code output src = Expand.rustfmtCnt code output src := by
  unfold choose Expand.rustfmtCnt
  rfl

/-! ## Examples -/

/-- A child that adds 100 to every byte of its input, reads at most two bytes at a time, and exits with code 0 at the end of the input. -/
inductive Cat where
  | idle
  | put (l : List Nat)
deriving DecidableEq

def catWant : Cat → Want Cat Nat
  | .idle => .read 1 fun l => .put l
  | .put [] => .exit (some 0)
  | .put [b] => .write (b + 100) .idle
  | .put (b :: l) => .write (b + 100) (.put l)

/-- Pipes of one byte each: a full schedule. -/
example : (run catWant 0 0 [1, 2] [.writer, .child 0, .child 0, .writer, .main, .child 5, .child 0, .writer, .child 0, .main, .child 0,
    .main, .main, .main] (start .idle [1, 2])).map (fun s => match s.main with | .finished (.ok r) => r | _ => []) = some [101, 102] := by
  decide

/-- With full pipes the writer waits. -/
example : (run catWant 0 0 [1, 2] [.writer, .writer] (start .idle [1, 2])).isNone = true := by decide

/-- A child that exits at once with code 3: the source comes back. -/
example : (run (fun _ : Unit => (.exit (some 3) : Want Unit Nat)) 0 0 [1, 2] [.writer, .child 0, .writer, .main, .main, .main]
    (start () [1, 2])).map (fun s => match s.main with | .finished (.ok r) => r | _ => []) = some [1, 2] := by
  decide

/-- The bound of `C86_returns` for it. -/
example (d : Unit) (rem out : List Nat) (n : Nat) (h : Goes (fun _ : Unit => (.exit (some 3) : Want Unit Nat)) () [1, 2] d rem out n) :
    n ≤ 0 := by
  cases h with
  | here => exact Nat.le_refl _
  | work _ w => cases w
  | write _ w => cases w
  | read _ w _ _ => cases w
  | eof _ w => cases w

end Flapi.Rustfmt
