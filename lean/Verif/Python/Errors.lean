import Verif.Python.ModuleProps
/-!
# Python: the text of the exception a Rust error is raised as (C91)
-/
namespace Flapi.PyErrors
open Flapi Flapi.PyModule

open Flapi.Exported (lit)
open Flapi.Py (RTy Val Env errs datas Returns evalR genRet)

/-! ## Model -/

/-- Error objects as `swig_collect_error_message` sees them: what `Display` writes, and `std::error::Error::source`. -/
structure Errors (E : Type) where
  text : E → Text
  source : E → Option E

/-- What is written between an error and its cause: macroslib/src/python/python-include.rs:32. -/
def between : Text := lit "\nCaused by:\n"

/-- `swig_collect_error_message`: macroslib/src/python/python-include.rs:30-36.  `n` is the number of calls the stack has room for; `none` is a
stack overflow. -/
def collect {E : Type} (S : Errors E) : Nat → E → Option Text
  | 0, _ => none
  | n + 1, e =>
    match S.source e with
    | some c => (collect S n c).map fun m => S.text e ++ (between ++ m)
    | none => some (S.text e)

/-- What a generated `def` does with the value the Rust function returned: it gives Python an object, or raises `py_error::Error` with a text
(macroslib/src/python/mod.rs:641-649); `none` is a stack overflow. -/
inductive Reply where
  | value (w : Val)
  | raised (message : Text)

/-- macroslib/src/python/mod.rs:641-649. -/
def reply (S : Errors Int) (n : Nat) : Py.ROut → Option Reply
  | .ok w _ => some (.value w)
  | .raise e => (collect S n e).map .raised
  | .stuck => none

/-! ## Specification -/

/-- `l` is the error followed by its cause, the cause of that, and so on to an error without a cause. -/
inductive Chain {E : Type} (S : Errors E) : E → List E → Prop
  | last {e : E} : S.source e = none → Chain S e [e]
  | cause {e c : E} {l : List E} : S.source e = some c → Chain S c l → Chain S e (e :: l)

/-- The line that announces a cause. -/
def causedBy : Text := lit "Caused by:"

/-- The lines of a report: those of the messages, with a line of its own between two messages. -/
def report : List Text → List Text
  | [] => []
  | [x] => linesOf x
  | x :: y :: r => linesOf x ++ causedBy :: report (y :: r)

/-! ## Helpers -/

theorem chain_unique {E : Type} {S : Errors E} {e : E} {l l' : List E} (h : Chain S e l) (h' : Chain S e l') : l = l' := by
  induction h generalizing l' with
  | last hs =>
    cases h' with
    | last => rfl
    | cause hs' => rw [hs] at hs'; exact absurd hs' (by simp)
  | cause hs _ ih =>
    cases h' with
    | last hs' => rw [hs] at hs'; exact absurd hs' (by simp)
    | cause hs' h2 =>
      rw [hs] at hs'
      cases hs'
      rw [ih h2]

theorem chain_ne {E : Type} {S : Errors E} {e : E} {l : List E} (h : Chain S e l) : l ≠ [] := by
  cases h <;> simp

/-- The joined messages. -/
def joined : List Text → Text
  | [] => []
  | [x] => x
  | x :: y :: r => x ++ (between ++ joined (y :: r))

theorem collect_joined {E : Type} (S : Errors E) : ∀ (n : Nat) (e : E) (m : Text),
    collect S n e = some m ↔ ∃ l, Chain S e l ∧ l.length ≤ n ∧ m = joined (l.map S.text)
  | 0, e, m => by
    constructor
    · intro h; exact absurd h (by simp [collect])
    · rintro ⟨l, hl, h0, _⟩
      exact absurd (List.length_eq_zero_iff.1 (by omega)) (chain_ne hl)
  | n + 1, e, m => by
    unfold collect
    cases hs : S.source e with
    | none =>
      constructor
      · intro h
        injection h with h
        exact ⟨[e], .last hs, by simp, h.symm⟩
      · rintro ⟨l, hl, _, rfl⟩
        cases hl with
        | last => rfl
        | cause h => rw [hs] at h; exact absurd h (by simp)
    | some c =>
      show Option.map _ (collect S n c) = some m ↔ _
      rw [Option.map_eq_some_iff]
      constructor
      · rintro ⟨m', hm, rfl⟩
        obtain ⟨l, hl, hn, rfl⟩ := (collect_joined S n c m').1 hm
        refine ⟨e :: l, .cause hs hl, by simpa using hn, ?_⟩
        cases l with
        | nil => exact absurd rfl (chain_ne hl)
        | cons y r => rfl
      · rintro ⟨l, hl, hn, rfl⟩
        cases hl with
        | last h => rw [hs] at h; exact absurd h (by simp)
        | @cause _ c' l h h2 =>
          rw [hs] at h
          cases h
          refine ⟨joined (l.map S.text), (collect_joined S n c _).2 ⟨l, h2, by simpa using hn, rfl⟩, ?_⟩
          cases l with
          | nil => exact absurd rfl (chain_ne h2)
          | cons y r => rfl

theorem between_lines : between = '\n' :: (causedBy ++ ['\n']) := by
  unfold between causedBy lit; decide

theorem causedBy_one : '\n' ∉ causedBy := by unfold causedBy lit; decide

theorem linesOf_break (x t : Text) : linesOf (x ++ '\n' :: t) = linesOf x ++ linesOf t := by
  induction x with
  | nil => simp [linesOf]
  | cons a x ih =>
    simp only [List.cons_append, linesOf]
    split
    · rw [ih]; rfl
    · rw [ih]
      cases hx : linesOf x with
      | nil => exact absurd hx (linesOf_ne x)
      | cons y r => rfl

theorem linesOf_joined : ∀ l : List Text, l ≠ [] → linesOf (joined l) = report l
  | [], h => absurd rfl h
  | [x], _ => rfl
  | x :: y :: r, _ => by
    show linesOf (x ++ (between ++ joined (y :: r))) = linesOf x ++ causedBy :: report (y :: r)
    rw [between_lines, List.cons_append, linesOf_break, List.append_assoc, List.singleton_append, linesOf_append _ _ causedBy_one,
      linesOf_joined (y :: r) (by simp)]

theorem linesOf_inj {x y : Text} (h : linesOf x = linesOf y) : x = y := by
  induction x generalizing y with
  | nil =>
    cases y with
    | nil => rfl
    | cons b y =>
      simp only [linesOf] at h
      by_cases hb : b = '\n'
      · rw [if_pos hb] at h
        have : linesOf y = [] := by simpa using h.symm
        exact absurd this (linesOf_ne y)
      · rw [if_neg hb] at h
        cases hy : linesOf y with
        | nil => exact absurd hy (linesOf_ne y)
        | cons z r => rw [hy] at h; simp at h
  | cons a x ih =>
    cases y with
    | nil =>
      simp only [linesOf] at h
      by_cases hb : a = '\n'
      · rw [if_pos hb] at h
        have : linesOf x = [] := by simpa using h
        exact absurd this (linesOf_ne x)
      · rw [if_neg hb] at h
        cases hy : linesOf x with
        | nil => exact absurd hy (linesOf_ne x)
        | cons z r => rw [hy] at h; simp at h
    | cons b y =>
      simp only [linesOf] at h
      cases hx : linesOf x with
      | nil => exact absurd hx (linesOf_ne x)
      | cons u r =>
        cases hy : linesOf y with
        | nil => exact absurd hy (linesOf_ne y)
        | cons v s =>
          rw [hx, hy] at h
          by_cases ha : a = '\n' <;> by_cases hb : b = '\n'
          · rw [if_pos ha, if_pos hb] at h
            injection h with _ h
            rw [ih (hx.trans (h.trans hy.symm)), ha, hb]
          · rw [if_pos ha, if_neg hb] at h; simp at h
          · rw [if_neg ha, if_pos hb] at h; simp at h
          · rw [if_neg ha, if_neg hb] at h
            injection h with h1 h2
            injection h1 with h0 h1
            have hxy : x = y := ih (by rw [hx, hy, h1, h2])
            rw [h0, hxy]

theorem split_unique {α : Type} {s : α} : ∀ {a b x y : List α}, s ∉ a → s ∉ b → a ++ s :: x = b ++ s :: y → a = b ∧ x = y
  | [], [], x, y, _, _, h => by simpa using h
  | [], b :: bs, x, y, _, hb, h => by
    simp only [List.nil_append, List.cons_append, List.cons.injEq] at h
    exact absurd (by simp [h.1]) hb
  | a :: as, [], x, y, ha, _, h => by
    simp only [List.nil_append, List.cons_append, List.cons.injEq] at h
    exact absurd (by simp [h.1]) ha
  | a :: as, b :: bs, x, y, ha, hb, h => by
    simp only [List.cons_append, List.cons.injEq] at h
    simp only [List.mem_cons, not_or] at ha hb
    obtain ⟨h1, h2⟩ := split_unique ha.2 hb.2 h.2
    exact ⟨by rw [h.1, h1], h2⟩

theorem report_inj : ∀ {l l' : List Text}, l ≠ [] → l' ≠ [] → (∀ x ∈ l, causedBy ∉ linesOf x) → (∀ x ∈ l', causedBy ∉ linesOf x) →
    report l = report l' → l = l'
  | [], _, h, _, _, _, _ => absurd rfl h
  | _, [], _, h, _, _, _ => absurd rfl h
  | [x], [y], _, _, _, _, h => by rw [linesOf_inj h]
  | [x], y :: z :: r, _, _, hx, _, h => by
    exfalso
    have h : linesOf x = linesOf y ++ causedBy :: report (z :: r) := h
    apply hx x (by simp)
    rw [h]; simp
  | x :: z :: r, [y], _, _, _, hy, h => by
    exfalso
    have h : linesOf x ++ causedBy :: report (z :: r) = linesOf y := h
    apply hy y (by simp)
    rw [← h]; simp
  | x :: z :: r, y :: w :: s, _, _, hx, hy, h => by
    obtain ⟨h1, h2⟩ := split_unique (hx x (by simp)) (hy y (by simp)) h
    rw [linesOf_inj h1, report_inj (by simp) (by simp) (fun u hu => hx u (by simp [hu])) (fun u hu => hy u (by simp [hu])) h2]

/-! ## Theorems -/

/-- **C91**: the message of the exception consists of the messages of the error, its cause, the cause of that and so on to the end, in this
order and nothing else, each cause announced by a line `Caused by:`. -/
theorem C91_message {E : Type} (S : Errors E) (n : Nat) (e : E) (m : Text) :
    collect S n e = some m ↔ ∃ l, Chain S e l ∧ l.length ≤ n ∧ linesOf m = report (l.map S.text) := by
  rw [collect_joined]
  constructor
  · rintro ⟨l, hl, hn, rfl⟩
    exact ⟨l, hl, hn, linesOf_joined _ (by simpa using chain_ne hl)⟩
  · rintro ⟨l, hl, hn, h⟩
    refine ⟨l, hl, hn, linesOf_inj ?_⟩
    rw [h, linesOf_joined _ (by simpa using chain_ne hl)]

/-- **C91**: an error whose chain of causes ends is always reported, by as many nested calls as it has members. -/
theorem C91_reported {E : Type} (S : Errors E) (e : E) (l : List E) (h : Chain S e l) (n : Nat) :
    (∃ m, collect S n e = some m) ↔ l.length ≤ n := by
  constructor
  · rintro ⟨m, hm⟩
    obtain ⟨l', hl', hn, _⟩ := (C91_message S n e m).1 hm
    rw [chain_unique h hl']; exact hn
  · exact fun hn => ⟨_, (collect_joined S n e _).2 ⟨l, h, hn, rfl⟩⟩

/-- **C91**: the message tells the messages of the chain apart, unless one of them has a line `Caused by:` itself. -/
theorem C91_determines {E : Type} (S : Errors E) (e e' : E) (l l' : List E) (h : Chain S e l) (h' : Chain S e' l')
    (hl : ∀ x ∈ l, causedBy ∉ linesOf (S.text x)) (hl' : ∀ x ∈ l', causedBy ∉ linesOf (S.text x)) (n : Nat) (m : Text)
    (hm : collect S n e = some m) (hm' : collect S n e' = some m) : l.map S.text = l'.map S.text := by
  obtain ⟨k, hk, _, hr⟩ := (C91_message S n e m).1 hm
  obtain ⟨k', hk', _, hr'⟩ := (C91_message S n e' m).1 hm'
  cases chain_unique h hk
  cases chain_unique h' hk'
  refine report_inj (by simpa using chain_ne h) (by simpa using chain_ne h') ?_ ?_ (hr.symm.trans hr')
  · intro x hx; obtain ⟨y, hy, rfl⟩ := List.mem_map.1 hx; exact hl y hy
  · intro x hx; obtain ⟨y, hy, rfl⟩ := List.mem_map.1 hx; exact hl' y hy

/-- **C91**: a call of a generated `def` raises an exception exactly if what the Rust function returned contains an error, and then with the
report of the first one (the chain of its causes ends after at most `n` errors). -/
theorem C91_call (env : Env) (t P : RTy) (c : Py.RExp) (h : genRet env t .call = some (P, c)) (heap : List Int) (v : Val)
    (hv : Returns env heap false t v) (S : Errors Int) (n : Nat) (hfin : ∀ e ∈ errs v, ∃ l, Chain S e l ∧ l.length ≤ n) :
    (errs v = [] → ∃ w, reply S n (evalR env c heap v) = some (.value w)) ∧
    ∀ e, (errs v).head? = some e → ∃ m l, reply S n (evalR env c heap v) = some (.raised m) ∧ Chain S e l ∧
      linesOf m = report (l.map S.text) := by
  obtain ⟨h1, h2⟩ := Py.C57_results env t P c h heap v hv
  constructor
  · intro he
    obtain ⟨w, hw, _⟩ := h1 he
    exact ⟨w, by rw [hw]; rfl⟩
  · intro e he
    obtain ⟨l, hl, hn⟩ := hfin e (List.mem_of_mem_head? he)
    obtain ⟨m, hm⟩ := (C91_reported S e l hl n).2 hn
    obtain ⟨l', hl', _, hr⟩ := (C91_message S n e m).1 hm
    refine ⟨m, l', ?_, hl', hr⟩
    rw [h2 e he]
    show (collect S n e).map Reply.raised = _
    rw [hm]; rfl

/-- **C91 (finding)**: an error that has no last cause (such as one that names itself as its source) overflows every stack, so the process ends
instead of an exception being raised. -/
theorem C91_finding_endless {E : Type} (S : Errors E) (e : E) (h : ∀ l, ¬ Chain S e l) (n : Nat) : collect S n e = none := by
  cases hc : collect S n e with
  | none => rfl
  | some m =>
    obtain ⟨l, hl, _⟩ := (C91_message S n e m).1 hc
    exact absurd hl (h l)

theorem self_source {E : Type} {S : Errors E} {e : E} (h : S.source e = some e) : ∀ l, ¬ Chain S e l := by
  intro l hl
  generalize hx : e = x at hl
  induction hl with
  | last hs => rw [← hx, h] at hs; exact absurd hs (by simp)
  | cause hs _ ih =>
    rw [← hx, h] at hs
    cases hs
    exact ih rfl

/-- **C91 (finding)**: such errors exist: one that is its own cause. -/
theorem C91_finding_self_cause {E : Type} (S : Errors E) (e : E) (h : S.source e = some e) (n : Nat) : collect S n e = none :=
  C91_finding_endless S e (self_source h) n

/-! ## Examples -/

/-- A configuration cannot be read because a file is missing; and an error that writes both texts itself. -/
def demoErrors : Errors Nat where
  text
    | 0 => lit "cannot read configuration"
    | 1 => lit "no such file"
    | _ => lit "cannot read configuration\nCaused by:\nno such file"
  source
    | 0 => some 1
    | _ => none

theorem demo_chain : Chain demoErrors 0 [0, 1] := .cause rfl (.last rfl)

example : collect demoErrors 10 0 = some (lit "cannot read configuration\nCaused by:\nno such file") := by
  unfold collect demoErrors between lit; decide +kernel
example : ∀ x ∈ [0, 1], causedBy ∉ linesOf (demoErrors.text x) := by
  unfold demoErrors causedBy lit; decide +kernel

/-- **C91 (finding)**: an error whose message has a line `Caused by:` cannot be told from one with a cause. -/
theorem C91_finding_confused : ∃ (S : Errors Nat) (l l' : List Nat), Chain S 0 l ∧ Chain S 2 l' ∧ l.map S.text ≠ l'.map S.text ∧
    collect S 10 0 = collect S 10 2 := by
  refine ⟨demoErrors, _, _, demo_chain, .last rfl, by simp, ?_⟩
  unfold collect demoErrors between lit; decide +kernel

example : ∃ v P c, genRet Py.demo (.res .unit .str) .call = some (P, c) ∧ Returns Py.demo [] false (.res .unit .str) v ∧ errs v = [5] := by
  refine ⟨.errv 5, _, _, rfl, ?_, rfl⟩
  exact .err _ _ _

end Flapi.PyErrors
