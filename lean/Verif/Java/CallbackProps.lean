import Verif.Java.Callback
/-!
# C36: Java callback threads are attached and detached in balance
-/
namespace Flapi.JavaCallback

/-! ## Specification -/

/-- No callback exists, no thread is inside one. -/
def Initial (s : St) : Prop := s.cbs = [] ∧ ∀ t, (s.threads t).stack = [] ∧ s.panicked t = false

/-! ## Invariant -/

structure ThreadOk (th : Thread) : Prop where
  /-- a thread inside a callback is attached -/
  inside : th.stack ≠ [] → th.attached = true
  /-- a holder detaches iff it attached -/
  detach : ∀ h ∈ th.stack, h.needDetach = !h.before
  /-- only the outermost holder can have found the thread detached -/
  inner : ∀ h ∈ th.stack.dropLast, h.before = true

structure Inv (s : St) : Prop where
  threads : ∀ t, ThreadOk (s.threads t)
  cbs : ∀ cb ∈ s.cbs, (cb.owned = true → cb.deleted = 0) ∧ cb.deleted ≤ 1

theorem getEnv_env {a : Bool} {vm : VmAnswer} {a' : Bool} {h : Holder} (hg : getEnv a vm = some (a', h)) :
    (h.env = true → a' = true) ∧ h.needDetach = (h.env && !a) ∧ h.before = a ∧ (h.env = false → a' = a ∧ a = false) ∧
      dropHolder a' h = a := by
  cases a <;> cases vm <;> simp [getEnv] at hg <;> obtain ⟨rfl, rfl⟩ := hg <;> simp [dropHolder]

theorem inv_step {s s' : St} (hI : Inv s) (h : Step s s') : Inv s' := by
  have hupd : ∀ t th, ThreadOk th → ∀ t', ThreadOk (upd s.threads t th t') := by
    intro t th hth t'
    by_cases htt : t' = t
    · subst htt; simpa [upd] using hth
    · simpa [upd, htt] using hI.threads t'
  cases h with
  | create t ha =>
    refine ⟨hI.threads, fun cb hcb => ?_⟩
    rcases List.mem_append.1 hcb with hcb | hcb
    · exact hI.cbs cb hcb
    · rw [List.mem_singleton.1 hcb]; simp
  | enter t c cb vm a h hp hc ho hg he =>
    refine ⟨hupd _ _ ?_, hI.cbs⟩
    obtain ⟨h1, h2, h3, _, _⟩ := getEnv_env hg
    have hT := hI.threads t
    refine ⟨fun _ => h1 he, ?_, ?_⟩
    · intro k hk
      rcases List.mem_cons.1 hk with rfl | hk
      · rw [h2, h3, he]; rfl
      · exact hT.detach k hk
    · intro k hk
      cases hst : (s.threads t).stack with
      | nil => rw [hst] at hk; simp at hk
      | cons b l =>
        rw [hst] at hk
        simp only [List.dropLast_cons_cons] at hk
        rcases List.mem_cons.1 hk with rfl | hk
        · rw [h3]; exact hT.inside (by rw [hst]; simp)
        · exact hT.inner k (by rw [hst]; exact hk)
  | noEnv t c cb vm a h r hp hc ho hg he =>
    refine ⟨hupd _ _ ?_, hI.cbs⟩
    obtain ⟨_, _, _, _, h5⟩ := getEnv_env hg
    rw [h5]
    exact hI.threads t
  | getEnvPanic t c cb vm hp hc ho hg => exact ⟨hI.threads, hI.cbs⟩
  | exit t h rest hst =>
    refine ⟨hupd _ _ ?_, hI.cbs⟩
    have hT := hI.threads t
    refine ⟨fun hr => ?_, ?_, ?_⟩
    · have hb : h.before = true := hT.inner h (by
        rw [hst]
        cases rest with
        | nil => exact absurd rfl hr
        | cons b l => simp)
      have hd := hT.detach h (by rw [hst]; exact List.mem_cons_self)
      rw [hb] at hd
      simp only [dropHolder, hd]
      exact hT.inside (by rw [hst]; simp)
    · intro k hk; exact hT.detach k (by rw [hst]; exact List.mem_cons_of_mem _ hk)
    · intro k hk
      refine hT.inner k ?_
      rw [hst]
      cases rest with
      | nil => simp at hk
      | cons b l => exact List.mem_cons_of_mem _ hk
  | dropCb t c cb vm a h hp hc ho hg =>
    refine ⟨hupd _ _ ?_, fun cb' hcb => ?_⟩
    · obtain ⟨_, _, _, _, h5⟩ := getEnv_env hg
      rw [h5]
      exact hI.threads t
    · rcases List.mem_or_eq_of_mem_set hcb with hcb | rfl
      · exact hI.cbs cb' hcb
      · have := (hI.cbs cb (List.mem_of_getElem? hc)).1 ho
        refine ⟨fun h => (Bool.noConfusion h), ?_⟩
        simp only [this]
        split <;> omega
  | app t a hst => exact ⟨hupd _ _ ⟨fun h => absurd rfl h, fun h hh => by simp at hh, fun h hh => by simp at hh⟩, hI.cbs⟩

theorem inv_run {s s' : St} (h0 : Initial s) (hr : Run s s') : Inv s' := by
  induction hr with
  | refl =>
    refine ⟨fun t => ?_, fun cb hcb => ?_⟩
    · have := (h0.2 t).1
      exact ⟨fun h => absurd this h, fun h hh => by rw [this] at hh; simp at hh, fun h hh => by rw [this] at hh; simp at hh⟩
    · rw [h0.1] at hcb; simp at hcb
  | tail _ hs ih => exact inv_step ih hs

/-! ## Theorems -/

/-- C36: whatever threads do, Java code of a callback (and everything nested in it) only runs on a thread that is attached. -/
theorem C36_attached_inside {s s' : St} (h0 : Initial s) (hr : Run s s') (t : Nat) (h : (s'.threads t).stack ≠ []) :
    (s'.threads t).attached = true := ((inv_run h0 hr).threads t).inside h

/-- While thread `t` is inside the callback entered when its stack was `S`. -/
inductive RunInside (t : Nat) (S : List Holder) : St → St → Prop
  | refl (s : St) : RunInside t S s s
  | tail {s₁ s₂ s₃ : St} : RunInside t S s₁ s₂ → Step s₂ s₃ → S.length < (s₃.threads t).stack.length → RunInside t S s₁ s₃

theorem RunInside.run {t S s s'} (h : RunInside t S s s') : Run s s' := by
  induction h with
  | refl => exact .refl _
  | tail _ hs _ ih => exact .tail ih hs

/-- A step changes the stack of a thread by one holder at most. -/
theorem step_stack {s s' : St} (hs : Step s s') (t : Nat) :
    (s'.threads t).stack = (s.threads t).stack ∨
    (∃ h, (s'.threads t).stack = h :: (s.threads t).stack ∧ h.before = (s.threads t).attached) ∨
    (∃ h, (s.threads t).stack = h :: (s'.threads t).stack ∧ (s'.threads t).attached = dropHolder (s.threads t).attached h) := by
  cases hs with
  | create t' ha => exact .inl rfl
  | enter t' c cb vm a h hp hc ho hg he =>
    by_cases htt : t = t'
    · subst htt
      right; left
      exact ⟨h, by simp [upd], (getEnv_env hg).2.2.1⟩
    · left; simp [upd, htt]
  | noEnv t' c cb vm a h r hp hc ho hg he =>
    left
    by_cases htt : t = t'
    · subst htt; simp [upd]
    · simp [upd, htt]
  | getEnvPanic => exact .inl rfl
  | exit t' h rest hst =>
    by_cases htt : t = t'
    · subst htt
      right; right
      exact ⟨h, by simp [upd, hst], by simp [upd]⟩
    · left; simp [upd, htt]
  | dropCb t' c cb vm a h hp hc ho hg =>
    left
    by_cases htt : t = t'
    · subst htt; simp [upd]
    · simp [upd, htt]
  | app t' a hst =>
    left
    by_cases htt : t = t'
    · subst htt; simp [upd, hst]
    · simp [upd, htt]

theorem inside_bottom {t : Nat} {S : List Holder} {h : Holder} {s s' : St} (hr : RunInside t S s s') (h0 : (s.threads t).stack = h :: S) :
    ∃ pre, (s'.threads t).stack = pre ++ h :: S := by
  induction hr with
  | refl => exact ⟨[], h0⟩
  | tail _ hs hl ih =>
    obtain ⟨pre, hp⟩ := ih
    rcases step_stack hs t with h1 | ⟨k, h1, _⟩ | ⟨k, h1, _⟩
    · exact ⟨pre, h1.trans hp⟩
    · exact ⟨k :: pre, by rw [h1, hp]; rfl⟩
    · rw [hp] at h1
      cases pre with
      | nil =>
        simp only [List.nil_append, List.cons.injEq] at h1
        rw [← h1.2] at hl
        exact absurd hl (Nat.lt_irrefl _)
      | cons p pre =>
        simp only [List.cons_append, List.cons.injEq] at h1
        exact ⟨pre, h1.2.symm⟩

/-- C36: from the step that enters a callback to the step that leaves it, whatever happens in between on this thread (nested callbacks) and on
all other threads, the attachment state of the thread is restored. -/
theorem C36_exit_restores {s s₁ s₂ s₃ s₄ : St} (h0 : Initial s) (hr : Run s s₁) (t : Nat) (S : List Holder) (hS : (s₁.threads t).stack = S)
    (henter : Step s₁ s₂) (hin : (s₂.threads t).stack.length = S.length + 1) (hinside : RunInside t S s₂ s₃)
    (hleave : Step s₃ s₄) (hout : (s₄.threads t).stack.length = S.length) :
    (s₄.threads t).stack = S ∧ (s₄.threads t).attached = (s₁.threads t).attached := by
  rcases step_stack henter t with h1 | ⟨h, h1, hb⟩ | ⟨h, h1, _⟩
  · rw [h1, hS] at hin; omega
  · rw [hS] at h1
    obtain ⟨pre, hp⟩ := inside_bottom hinside h1
    have hI := inv_run h0 (show Run s s₃ from by
      have h3 : Run s s₂ := .tail hr henter
      have h4 := hinside.run
      clear hin h1 hp hleave hout hinside
      induction h4 with
      | refl => exact h3
      | tail _ hs ih => exact .tail ih hs)
    have hT := hI.threads t
    rcases step_stack hleave t with k1 | ⟨k, k1, _⟩ | ⟨k, k1, ka⟩
    · rw [k1, hp] at hout; simp at hout; omega
    · rw [k1, hp] at hout; simp at hout; omega
    · rw [hp] at k1
      cases pre with
      | nil =>
        simp only [List.nil_append, List.cons.injEq] at k1
        obtain ⟨rfl, k1⟩ := k1
        refine ⟨k1.symm, ?_⟩
        have hd := hT.detach h (by rw [hp]; simp)
        have hin := hT.inside (by rw [hp]; simp)
        rw [ka, ← hb, hin, dropHolder, hd]
        cases h.before <;> rfl
      | cons p pre =>
        simp only [List.cons_append, List.cons.injEq] at k1
        rw [← k1.2] at hout
        simp at hout; omega
  · rw [hS] at h1
    rw [h1] at hin
    simp at hin; omega

/-- C36: a thread is detached by a callback exactly if that callback attached it, and this is then the outermost one: an inner callback
never detaches the thread. -/
theorem C36_detach_outermost {s s' : St} (h0 : Initial s) (hr : Run s s') (t : Nat) {pre post : List Holder} {h : Holder}
    (hst : (s'.threads t).stack = pre ++ h :: post) : (h.needDetach = true ↔ h.before = false) ∧ (h.needDetach = true → post = []) := by
  have hT := (inv_run h0 hr).threads t
  have hd := hT.detach h (by rw [hst]; simp)
  refine ⟨by rw [hd]; simp, fun hn => ?_⟩
  apply Classical.byContradiction
  intro hp
  have : h.before = true := hT.inner h (by
    rw [hst, List.dropLast_append_of_ne_nil (by simp)]
    refine List.mem_append_right _ ?_
    cases post with
    | nil => exact absurd rfl hp
    | cons b l => simp)
  rw [hd, this] at hn
  cases hn

/-- C36: the global reference of a callback is deleted at most once, and not while Rust code still owns the callback. -/
theorem C36_global_ref {s s' : St} (h0 : Initial s) (hr : Run s s') : ∀ cb ∈ s'.cbs, (cb.owned = true → cb.deleted = 0) ∧ cb.deleted ≤ 1 :=
  (inv_run h0 hr).cbs

/-- C36: dropping a callback on a thread that is attached, or that the VM lets attach, deletes its global reference and leaves the thread
as it was. -/
theorem C36_drop {s s' : St} (h0 : Initial s) (hr : Run s s') {t c : Nat} {cb : Cb} {vm : VmAnswer} (hc : s'.cbs[c]? = some cb)
    (ho : cb.owned = true) (hp : s'.panicked t = false) (hvm : (s'.threads t).attached = true ∨ vm = .attachOk) :
    ∃ s'', Step s' s'' ∧ s''.cbs[c]? = some ⟨false, 1⟩ ∧ (s''.threads t) = (s'.threads t) := by
  have h0' := ((inv_run h0 hr).cbs cb (List.mem_of_getElem? hc)).1 ho
  have : ∃ a h, getEnv (s'.threads t).attached vm = some (a, h) ∧ h.env = true := by
    cases ha : (s'.threads t).attached with
    | true => exact ⟨_, _, rfl, rfl⟩
    | false =>
      rcases hvm with h | rfl
      · rw [ha] at h; cases h
      · exact ⟨_, _, rfl, rfl⟩
  obtain ⟨a, h, hg, he⟩ := this
  refine ⟨_, Step.dropCb s' t c cb vm a h hp hc ho hg, ?_, ?_⟩
  · have := (List.getElem?_eq_some_iff.1 hc).1
    simp [this, he, h0']
  · simp only [upd, if_true]
    obtain ⟨_, _, _, _, h5⟩ := getEnv_env hg
    rw [h5]

/-- Finding: if the thread that drops the callback cannot be attached, the global reference is never deleted. -/
theorem C36_finding_leak : ∃ s', Run ⟨fun t => ⟨t == 0, []⟩, [], fun _ => false⟩ s' ∧ s'.cbs = [⟨false, 0⟩] := by
  refine ⟨_, .tail (.tail (.refl _) (Step.create _ 0 rfl)) (Step.dropCb _ 1 0 ⟨true, 0⟩ .attachError false ⟨false, false, false⟩ rfl rfl rfl rfl), rfl⟩

/-- C36: the `i`-th method of the trait calls the Java method found for the name and signature of the `i`-th method of the interface. -/
theorem C36_dispatch {M I : Type} {find : M → Option I} {ms : List M} {ids : List I} (h : methodIds find ms = some ids) :
    ids.length = ms.length ∧ ∀ i m, ms[i]? = some m → dispatch ids i = find m := by
  induction ms generalizing ids with
  | nil => cases h; exact ⟨rfl, fun i m hm => by simp at hm⟩
  | cons a l ih =>
    simp only [methodIds, Option.bind_eq_bind, Option.bind_eq_some_iff, Option.pure_def, Option.some.injEq] at h
    obtain ⟨x, hx, xs, hxs, rfl⟩ := h
    obtain ⟨h1, h2⟩ := ih hxs
    refine ⟨by simp [h1], fun i m hm => ?_⟩
    cases i with
    | zero => simp only [List.getElem?_cons_zero, Option.some.injEq] at hm; subst hm; simp [dispatch, hx]
    | succ i => exact h2 i m hm

/-- C36: the Java method receives the argument the Rust caller passed: the cast for the variadic C call keeps all bits the VM looks at. -/
theorem C36_variadic (t : JType) (v : BitVec t.width) : (castArg t v).setWidth t.width = v := by
  have hz : ∀ v : BitVec 8, BitVec.setWidth 8 (BitVec.setWidth 32 v) = v := by
    intro v; apply BitVec.eq_of_getLsbD_eq; intro i hi; simp [BitVec.getLsbD_setWidth, hi, show i < 32 by omega]
  have hb : ∀ v : BitVec 8, BitVec.setWidth 8 (BitVec.signExtend 32 v) = v := by
    intro v; apply BitVec.eq_of_getLsbD_eq; intro i hi; rw [BitVec.getLsbD_setWidth, BitVec.getLsbD_signExtend]; simp [hi, show i < 32 by omega]
  have hs : ∀ v : BitVec 16, BitVec.setWidth 16 (BitVec.signExtend 32 v) = v := by
    intro v; apply BitVec.eq_of_getLsbD_eq; intro i hi; rw [BitVec.getLsbD_setWidth, BitVec.getLsbD_signExtend]; simp [hi, show i < 32 by omega]
  cases t
  · exact hz v
  · exact hb v
  · exact hs v
  · exact BitVec.setWidth_eq _
  · exact BitVec.setWidth_eq _

/-- A nested run: thread 1 is detached, a callback attaches it, a second one is nested, both end, the thread is detached again. -/
example : ∃ s', Run ⟨fun t => ⟨t == 0, []⟩, [], fun _ => false⟩ s' ∧ (s'.threads 1) = ⟨false, []⟩ ∧ s'.cbs = [⟨true, 0⟩] := by
  refine ⟨_, .tail (.tail (.tail (.tail (.tail (.refl _) (Step.create _ 0 rfl))
    (Step.enter _ 1 0 ⟨true, 0⟩ .attachOk true ⟨true, true, false⟩ rfl rfl rfl rfl rfl))
    (Step.enter _ 1 0 ⟨true, 0⟩ .attachError true ⟨true, false, true⟩ rfl rfl rfl rfl rfl))
    (Step.exit _ 1 ⟨true, false, true⟩ [⟨true, true, false⟩] rfl)) (Step.exit _ 1 ⟨true, true, false⟩ [] rfl), rfl, rfl⟩

example : methodIds (fun n : Nat => if n < 5 then some (n + 100) else none) [3, 1] = some [103, 101] := by decide
example : (castArg .jbyte (255#8 : BitVec 8)).toNat = 4294967295 := by decide

end Flapi.JavaCallback
