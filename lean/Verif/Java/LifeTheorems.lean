import Verif.Java.LifeSafe
/-!
# C35: theorems
-/
namespace Flapi.JavaLife

/-- C35: as long as calls on one wrapper object do not overlap in time (calls of `delete()`, also by finalisers, may overlap with each
other) and no call lends an object before giving it away, no native object is used after it was destroyed, and none is destroyed twice:
for every program, number of threads, schedule and behaviour of the garbage collector. -/
theorem C35_safe {s s' : St} (h : Initial s) (hr : Run Tame s s') : s'.mem.bad = false ∧ ∀ a, s'.mem.destroyed a ≤ 1 :=
  have := good_run (fun _ _ h => h) (good_init h) hr
  ⟨this.bad, this.once⟩

/-! ### One thread -/

/-- No finaliser runs. -/
def NoGc (_ : St) : Label → Prop
  | .gc _ => False
  | _ => True

/-- One thread. -/
structure Solo (s : St) : Prop where
  one : ∃ th, s.threads = [th] ∧ ∀ o ∈ th.todo, o.NoLendThenGive

theorem solo_tame {s s' : St} {l : Label} (h : Solo s) (hs : Step s l s') (hg : NoGc s l) : Tame s l ∧ Solo s' := by
  obtain ⟨th0, hth0, hal⟩ := h.one
  cases hs with
  | start t th o rest ha hth hc htodo hcan =>
    rw [hth0] at hth
    obtain ⟨ht, hth⟩ := List.getElem?_eq_some_iff.1 hth
    have ht0 : t = 0 := by simpa using ht
    subst ht0
    simp only [List.getElem_cons_zero] at hth
    subst hth
    refine ⟨⟨fun t' th' hne ht' _ => ?_, hal o (by rw [htodo]; exact List.mem_cons_self)⟩,
      ⟨⟨rest, o, compile o, fun _ => 0⟩, ?_, ?_⟩⟩
    · rw [hth0] at ht'
      have := (List.getElem?_eq_some_iff.1 ht').1
      exact absurd (by simpa using this) hne
    · simp [hth0]
    · intro o' ho'; exact hal o' (by rw [htodo]; exact List.mem_cons_of_mem _ ho')
  | exec t th i c m r c' ha hth hc he =>
    rw [hth0] at hth
    obtain ⟨ht, hth⟩ := List.getElem?_eq_some_iff.1 hth
    have ht0 : t = 0 := by simpa using ht
    subst ht0
    simp only [List.getElem_cons_zero] at hth
    subst hth
    exact ⟨trivial, ⟨{ th0 with code := c', regs := r }, by simp [hth0], hal⟩⟩
  | gc x => exact hg.elim

/-- C35: a single thread can create, use, give away and delete wrapper objects in any order, as often as it likes: nothing is used
after it was destroyed and nothing is destroyed twice. -/
theorem C35_single_thread {s s' : St} {th : Thread} (h : Initial s) (h1 : s.threads = [th])
    (h2 : ∀ o ∈ th.todo, o.NoLendThenGive) (hr : Run NoGc s s') : s'.mem.bad = false ∧ ∀ a, s'.mem.destroyed a ≤ 1 := by
  have : Good s' ∧ Solo s' := by
    induction hr with
    | refl => exact ⟨good_init h, ⟨th, h1, h2⟩⟩
    | tail _ hs ho ih =>
      obtain ⟨hg, hso⟩ := ih
      obtain ⟨ht, hso'⟩ := solo_tame hso hs ho
      exact ⟨good_step hg hs ht, hso'⟩
  exact ⟨this.1.bad, this.1.once⟩

/-! ### The garbage collector -/

/-- Every object the call uses has a reachability fence after the call (a receiver has none unless it is also an argument). -/
def Op.Fenced : Op → Prop
  | .call (some x) args => x ∈ argObjs args
  | _ => True

/-- Objects a thread works with, now or later. -/
def Thread.refs (th : Thread) (x : Obj) : Prop := (th.code ≠ [] ∧ x ∈ th.cur.objs) ∨ ∃ o ∈ th.todo, x ∈ o.objs

/-- The thread only deletes. -/
def Thread.onlyDeletes (th : Thread) : Prop := (∀ o ∈ th.todo, o.isDelete = true) ∧ (th.code ≠ [] → th.cur.isDelete = true)

/-- Threads share no wrapper object, except for deleting it; every call is fenced. -/
structure Separate (s : St) : Prop where
  sep : ∀ (t t' : Nat) (th th' : Thread), t ≠ t' → s.threads[t]? = some th → s.threads[t']? = some th' → ∀ x, th.refs x → th'.refs x →
    th.onlyDeletes ∧ th'.onlyDeletes
  ops : ∀ th ∈ s.threads, ∀ o ∈ th.todo, o.Fenced ∧ o.NoLendThenGive
  last : ∀ th ∈ s.threads, th.code ≠ [] → ∃ pre i, th.code = pre ++ [i] ∧ ∀ x ∈ th.cur.objs, x ∈ i.objs

theorem compile_last (o : Op) (h : o.Fenced) : ∃ pre i, compile o = pre ++ [i] ∧ ∀ x ∈ o.objs, x ∈ i.objs := by
  cases o with
  | delete x => exact ⟨[.acquire x, .ifSet x, .load 0 x, .take 0, .clear x], .release x, rfl, fun y hy => hy⟩
  | call recv args =>
    refine ⟨_, _, rfl, fun y hy => ?_⟩
    cases recv with
    | none => exact hy
    | some x =>
      rcases List.mem_cons.1 hy with rfl | hy
      · exact h
      · exact hy
  | new x args => exact ⟨_, _, rfl, fun y hy => hy⟩

theorem exec_code {t : Nat} {i : Instr} {c c' : List Instr} {m m' : Mem} {r r' : Regs}
    (he : exec t i m r c = some (m', r', c')) : c' = c ∨ c' = [] ∨ ∃ x, i = .ifSet x ∧ c' = [.release x] := by
  cases hi : i.isLock with
  | false =>
    rcases (exec_unlocked hi he).2 with h | h
    · exact .inl h
    · exact .inr (.inl h)
  | true =>
    cases i <;> first | cases hi | skip
    · simp only [exec] at he
      split at he
      · simp only [Option.some.injEq, Prod.mk.injEq] at he; exact .inl he.2.2.symm
      · cases he
    · simp only [exec, Option.some.injEq, Prod.mk.injEq] at he; exact .inl he.2.2.symm
    · rename_i x
      simp only [exec, Option.some.injEq, Prod.mk.injEq] at he
      obtain ⟨_, _, rfl⟩ := he
      split
      · exact .inr (.inr ⟨x, rfl, rfl⟩)
      · exact .inl rfl

theorem refs_exec {th : Thread} {c' : List Instr} {r : Regs} {x : Obj} (hc : th.code ≠ [])
    (h : Thread.refs { th with code := c', regs := r } x) : th.refs x := by
  rcases h with ⟨_, h⟩ | h
  · exact .inl ⟨hc, h⟩
  · exact .inr h

theorem onlyDeletes_exec {th : Thread} {c' : List Instr} {r : Regs} (hc : th.code ≠ []) (h : th.onlyDeletes) :
    Thread.onlyDeletes { th with code := c', regs := r } := ⟨h.1, fun _ => h.2 hc⟩

theorem separate_step {s s' : St} {l : Label} (hg : Good s) (h : Separate s) (hs : Step s l s') : Tame s l ∧ Separate s' := by
  cases hs with
  | start t th o rest ha hth hc htodo hcan =>
    have hmem : th ∈ s.threads := List.mem_of_getElem? hth
    have ho := h.ops th hmem o (by rw [htodo]; exact List.mem_cons_self)
    have href : ∀ x, Thread.refs ⟨rest, o, compile o, fun _ => 0⟩ x → th.refs x := by
      intro x hx
      rcases hx with ⟨_, hx⟩ | ⟨o', ho', hx⟩
      · exact .inr ⟨o, by rw [htodo]; exact List.mem_cons_self, hx⟩
      · exact .inr ⟨o', by rw [htodo]; exact List.mem_cons_of_mem _ ho', hx⟩
    have hdel : th.onlyDeletes → Thread.onlyDeletes ⟨rest, o, compile o, fun _ => 0⟩ := by
      intro hd
      refine ⟨fun o' ho' => hd.1 o' (by rw [htodo]; exact List.mem_cons_of_mem _ ho'), fun _ => hd.1 o (by rw [htodo]; exact List.mem_cons_self)⟩
    refine ⟨⟨fun t' th' hne ht' hc' => ?_, ho.2⟩, ⟨?_, ?_, ?_⟩⟩
    · apply Classical.byContradiction
      intro hn
      rw [not_or] at hn
      obtain ⟨hn1, hn2⟩ := hn
      have : ∃ x ∈ o.objs, x ∈ th'.cur.objs := by
        apply Classical.byContradiction
        intro hno
        exact hn2 fun x hx hx' => hno ⟨x, hx, hx'⟩
      obtain ⟨x, hx, hx'⟩ := this
      have := h.sep t t' th th' (fun h => hne h.symm) hth ht' x (.inr ⟨o, by rw [htodo]; exact List.mem_cons_self, hx⟩) (.inl ⟨hc', hx'⟩)
      exact hn1 ⟨this.1.1 o (by rw [htodo]; exact List.mem_cons_self), this.2.2 hc'⟩
    · intro t1 t2 th1 th2 hne h1 h2 x hx1 hx2
      rcases get_set h1 with ⟨e1, f1⟩ | ⟨hn1, k1⟩
      · rcases get_set h2 with ⟨e2, f2⟩ | ⟨hn2, k2⟩
        · exact absurd (e1.trans e2.symm) hne
        · subst f1
          have := h.sep t t2 th th2 (e1 ▸ hne) hth k2 x (href x hx1) hx2
          exact ⟨hdel this.1, this.2⟩
      · rcases get_set h2 with ⟨e2, f2⟩ | ⟨hn2, k2⟩
        · subst f2
          have := h.sep t1 t th1 th (e2 ▸ hne) k1 hth x hx1 (href x hx2)
          exact ⟨this.1, hdel this.2⟩
        · exact h.sep t1 t2 th1 th2 hne k1 k2 x hx1 hx2
    · intro th1 h1 o' ho'
      rcases List.mem_or_eq_of_mem_set h1 with h1 | rfl
      · exact h.ops th1 h1 o' ho'
      · exact h.ops th hmem o' (by rw [htodo]; exact List.mem_cons_of_mem _ ho')
    · intro th1 h1 hc1
      rcases List.mem_or_eq_of_mem_set h1 with h1 | rfl
      · exact h.last th1 h1 hc1
      · exact compile_last o ho.1
  | exec t th i c m r c' ha hth hc he =>
    have hmem : th ∈ s.threads := List.mem_of_getElem? hth
    have hcn : th.code ≠ [] := by rw [hc]; simp
    refine ⟨trivial, ⟨?_, ?_, ?_⟩⟩
    · intro t1 t2 th1 th2 hne h1 h2 x hx1 hx2
      rcases get_set h1 with ⟨e1, f1⟩ | ⟨hn1, k1⟩
      · rcases get_set h2 with ⟨e2, f2⟩ | ⟨hn2, k2⟩
        · exact absurd (e1.trans e2.symm) hne
        · subst f1
          have := h.sep t t2 th th2 (e1 ▸ hne) hth k2 x (refs_exec hcn hx1) hx2
          exact ⟨onlyDeletes_exec hcn this.1, this.2⟩
      · rcases get_set h2 with ⟨e2, f2⟩ | ⟨hn2, k2⟩
        · subst f2
          have := h.sep t1 t th1 th (e2 ▸ hne) k1 hth x hx1 (refs_exec hcn hx2)
          exact ⟨this.1, onlyDeletes_exec hcn this.2⟩
        · exact h.sep t1 t2 th1 th2 hne k1 k2 x hx1 hx2
    · intro th1 h1 o' ho'
      rcases List.mem_or_eq_of_mem_set h1 with h1 | rfl
      · exact h.ops th1 h1 o' ho'
      · exact h.ops th hmem o' ho'
    · intro th1 h1 hc1
      rcases List.mem_or_eq_of_mem_set h1 with h1 | rfl
      · exact h.last th1 h1 hc1
      · obtain ⟨pre, j, hj, hx⟩ := h.last th hmem hcn
        rcases exec_code he with rfl | rfl | ⟨x, rfl, rfl⟩
        · cases pre with
          | nil =>
            rw [hc] at hj
            simp only [List.nil_append, List.cons.injEq] at hj
            exact absurd hj.2 hc1
          | cons p pre =>
            rw [hc] at hj
            simp only [List.cons_append, List.cons.injEq] at hj
            exact ⟨pre, j, hj.2, hx⟩
        · exact absurd rfl hc1
        · have hsh := (hg.inv ha).shape t th hth hcn
          refine ⟨[], .release x, rfl, fun y hy => ?_⟩
          show y ∈ [x]
          unfold Thread.shape at hsh
          split at hsh
          · rename_i z hz
            rw [hc] at hsh
            have hzx : x = z := by
              simp only [deleteCode, List.mem_cons, List.cons.injEq, reduceCtorEq, false_and, or_false, false_or, List.not_mem_nil,
                Instr.ifSet.injEq] at hsh
              exact hsh.1
            have hy' : y ∈ th.cur.objs := hy
            rw [hz] at hy'
            rw [hzx]; exact hy'
          · have := hsh (.ifSet x) (by rw [hc]; exact List.mem_cons_self)
            cases this
  | gc x ha hm hr =>
    have hno : ∀ th ∈ s.threads, ¬ th.refs x := by
      intro th hth hx
      refine hr th hth ?_
      rcases hx with ⟨hc, hx⟩ | hx
      · obtain ⟨pre, i, hi, hxi⟩ := h.last th hth hc
        exact .inl ⟨i, by rw [hi]; simp, hxi x hx⟩
      · exact .inr hx
    have hrefs : ∀ y, Thread.refs ⟨[.delete x], .delete x, [], fun _ => 0⟩ y → y = x := by
      intro y hy
      rcases hy with ⟨hc, _⟩ | ⟨o, ho, hy⟩
      · exact absurd rfl hc
      · rw [List.mem_singleton.1 ho] at hy; exact List.mem_singleton.1 hy
    refine ⟨trivial, ⟨?_, ?_, ?_⟩⟩
    · intro t1 t2 th1 th2 hne h1 h2 y hy1 hy2
      rcases get_append h1 with k1 | f1
      · rcases get_append h2 with k2 | f2
        · exact h.sep t1 t2 th1 th2 hne k1 k2 y hy1 hy2
        · subst f2
          have := hrefs y hy2
          subst this
          exact absurd hy1 (hno th1 (List.mem_of_getElem? k1))
      · rcases get_append h2 with k2 | f2
        · subst f1
          have := hrefs y hy1
          subst this
          exact absurd hy2 (hno th2 (List.mem_of_getElem? k2))
        · subst f1; subst f2
          have hd : Thread.onlyDeletes ⟨[.delete x], .delete x, [], fun _ => 0⟩ :=
            ⟨fun o ho => by rw [List.mem_singleton.1 ho]; rfl, fun h => absurd rfl h⟩
          exact ⟨hd, hd⟩
    · intro th1 h1 o ho
      rcases List.mem_append.1 h1 with h1 | h1
      · exact h.ops th1 h1 o ho
      · rw [List.mem_singleton.1 h1] at ho
        rw [List.mem_singleton.1 ho]
        exact ⟨trivial, List.Pairwise.nil⟩
    · intro th1 h1 hc
      rcases List.mem_append.1 h1 with h1 | h1
      · exact h.last th1 h1 hc
      · rw [List.mem_singleton.1 h1] at hc; exact absurd rfl hc

/-- C35: threads that do not share wrapper objects (except objects they only delete) may use them freely while the garbage collector
finalises unreachable objects at any time: for every schedule nothing is used after it was destroyed and nothing is destroyed twice.
This needs the reachability fence on every object used by a call. -/
theorem C35_gc {s s' : St} (h : Initial s)
    (hsep : ∀ (t t' : Nat) (th th' : Thread), t ≠ t' → s.threads[t]? = some th → s.threads[t']? = some th' →
      ∀ o ∈ th.todo, ∀ o' ∈ th'.todo, ∀ x ∈ o.objs, x ∈ o'.objs → th.onlyDeletes ∧ th'.onlyDeletes)
    (hops : ∀ th ∈ s.threads, ∀ o ∈ th.todo, o.Fenced ∧ o.NoLendThenGive)
    (hr : Run (fun _ _ => True) s s') : s'.mem.bad = false ∧ ∀ a, s'.mem.destroyed a ≤ 1 := by
  have : Good s' ∧ Separate s' := by
    induction hr with
    | refl =>
      refine ⟨good_init h, ⟨?_, hops, ?_⟩⟩
      · intro t t' th th' hne h1 h2 x hx1 hx2
        rcases hx1 with ⟨hc, _⟩ | ⟨o, ho, hx1⟩
        · exact absurd (h.idle th (List.mem_of_getElem? h1)) hc
        · rcases hx2 with ⟨hc, _⟩ | ⟨o', ho', hx2⟩
          · exact absurd (h.idle th' (List.mem_of_getElem? h2)) hc
          · exact hsep t t' th th' hne h1 h2 o ho o' ho' x hx1 hx2
      · intro th hth hc; exact absurd (h.idle th hth) hc
    | tail _ hs ho ih =>
      obtain ⟨hg, hso⟩ := ih
      obtain ⟨ht, hso'⟩ := separate_step hg hso hs
      exact ⟨good_step hg hs ht, hso'⟩
  exact ⟨this.1.bad, this.1.once⟩

/-! ### `delete()` from any number of threads -/

/-- What holds while every thread only deletes; `f₀` are the fields at the start. -/
structure Deleting (f₀ : Obj → Addr) (s : St) : Prop where
  only : ∀ th ∈ s.threads, th.onlyDeletes
  notAborted : s.mem.aborted = false
  field : ∀ x, s.mem.field x = f₀ x ∨ (s.mem.field x = 0 ∧ (f₀ x ≠ 0 → s.mem.destroyed (f₀ x) = 1))
  loc : ∀ (t : Nat) (th : Thread) (x : Obj), s.threads[t]? = some th → th.cur = .delete x →
    (th.code = [.load 0 x, .take 0, .clear x, .release x] → s.mem.field x ≠ 0) ∧
    (th.code = [.take 0, .clear x, .release x] → s.mem.field x ≠ 0 ∧ th.regs 0 = s.mem.field x) ∧
    (th.code = [.clear x, .release x] → s.mem.field x ≠ 0 ∧ s.mem.destroyed (s.mem.field x) = 1) ∧
    (th.code = [.release x] → s.mem.field x = 0)

theorem onlyDeletes_start {th : Thread} {o : Op} {rest : List Op} {r : Regs} (h : th.onlyDeletes) (ht : th.todo = o :: rest) :
    Thread.onlyDeletes ⟨rest, o, compile o, r⟩ := by
  refine ⟨fun o' ho' => h.1 o' (by rw [ht]; exact List.mem_cons_of_mem _ ho'), fun _ => h.1 o (by rw [ht]; exact List.mem_cons_self)⟩

theorem deleting_step {f₀ : Obj → Addr} {s s' : St} {l : Label} (hg : Good s) (hd : Deleting f₀ s) (hs : Step s l s') :
    Tame s l ∧ Deleting f₀ s' := by
  cases hs with
  | start t th o rest ha hth hc htodo hcan =>
    have hmem : th ∈ s.threads := List.mem_of_getElem? hth
    have ho : o.isDelete = true := (hd.only th hmem).1 o (by rw [htodo]; exact List.mem_cons_self)
    refine ⟨⟨fun t' th' _ ht' hc' => .inl ⟨ho, (hd.only th' (List.mem_of_getElem? ht')).2 hc'⟩, ?_⟩, ⟨?_, ha, hd.field, ?_⟩⟩
    · obtain ⟨x, rfl⟩ := delete_of_isDelete ho
      exact List.Pairwise.nil
    · intro th1 h1
      rcases List.mem_or_eq_of_mem_set h1 with h1 | rfl
      · exact hd.only th1 h1
      · exact onlyDeletes_start (hd.only th hmem) htodo
    · intro t1 th1 x h1 hcur
      rcases get_set h1 with ⟨e1, f1⟩ | ⟨hn1, k1⟩
      · subst f1
        have hcur' : o = .delete x := hcur
        subst hcur'
        simp [compile, deleteCode]
      · exact hd.loc t1 th1 x k1 hcur
  | exec t th i c m r c' ha hth hc he =>
    have hI := hg.inv ha
    have hcn : th.code ≠ [] := by rw [hc]; simp
    have hmem : th ∈ s.threads := List.mem_of_getElem? hth
    have honly := hd.only th hmem
    obtain ⟨x, hx⟩ := delete_of_isDelete (honly.2 hcn)
    have hsh := hI.shape t th hth hcn
    have honly' : ∀ th1 ∈ s.threads.set t { th with code := c', regs := r }, Thread.onlyDeletes th1 := by
      intro th1 h1
      rcases List.mem_or_eq_of_mem_set h1 with h1 | rfl
      · exact hd.only th1 h1
      · exact onlyDeletes_exec hcn honly
    have hloc := hd.loc t th x hth hx
    -- an action that leaves the fields, and the count of everything another thread looks at, as they are
    have hkeep : ∀ (m : Mem), m.aborted = false → (∀ y, y ≠ x → m.field y = s.mem.field y) → (∀ a, s.mem.destroyed a = 1 → m.destroyed a = 1) →
        (m.field x = s.mem.field x ∨ (m.field x = 0 ∧ (f₀ x ≠ 0 → m.destroyed (f₀ x) = 1))) →
        ((m.field x ≠ s.mem.field x → ¬ th.waiting)) →
        ((c' = [.load 0 x, .take 0, .clear x, .release x] → m.field x ≠ 0) ∧
          (c' = [.take 0, .clear x, .release x] → m.field x ≠ 0 ∧ r 0 = m.field x) ∧
          (c' = [.clear x, .release x] → m.field x ≠ 0 ∧ m.destroyed (m.field x) = 1) ∧
          (c' = [.release x] → m.field x = 0)) →
        Deleting f₀ { s with mem := m, threads := s.threads.set t { th with code := c', regs := r } } := by
      intro m ham hf hdes hfx hnw hl
      refine ⟨honly', ham, fun y => ?_, fun t1 th1 y h1 hcur => ?_⟩
      · by_cases hyx : y = x
        · subst hyx
          rcases hfx with h | h
          · rcases hd.field y with h' | ⟨h', h''⟩
            · exact .inl (h.trans h')
            · exact .inr ⟨h.trans h', fun h0 => hdes _ (h'' h0)⟩
          · exact .inr h
        · rcases hd.field y with h' | ⟨h', h''⟩
          · exact .inl ((hf y hyx).trans h')
          · exact .inr ⟨(hf y hyx).trans h', fun h0 => hdes _ (h'' h0)⟩
      · rcases get_set h1 with ⟨e1, f1⟩ | ⟨hn1, k1⟩
        · subst f1
          have : y = x := by
            have hcur' : th.cur = .delete y := hcur
            rw [hx] at hcur'; cases hcur'; rfl
          subst this
          exact hl
        · by_cases hw1 : th1.code = [] ∨ th1.waiting
          · have hne : ∀ l, l ≠ deleteCode y → l ≠ [] → th1.code ≠ l := by
              intro l h1 h2 h3
              rcases hw1 with hw1 | hw1
              · exact h2 (by rw [← h3, hw1])
              · have := hw1.2
                rw [hcur] at this
                exact h1 (by rw [← h3]; exact this)
            refine ⟨fun h => absurd h (hne _ (by simp [deleteCode]) (by simp)), fun h => absurd h (hne _ (by simp [deleteCode]) (by simp)),
              fun h => absurd h (hne _ (by simp [deleteCode]) (by simp)), fun h => absurd h (hne _ (by simp [deleteCode]) (by simp))⟩
          · rw [not_or] at hw1
            have hl1 := hd.loc t1 th1 y k1 hcur
            have hfy : m.field y = s.mem.field y := by
              by_cases hyx : y = x
              · subst hyx
                apply Classical.byContradiction
                intro hne
                have h2 := hI.lock t th y hth hcn hx (hnw hne)
                have h3 := hI.lock t1 th1 y k1 hw1.1 hcur hw1.2
                rw [h2] at h3
                exact hn1 (Option.some.inj h3).symm
              · exact hf y hyx
            refine ⟨fun h => ?_, fun h => ?_, fun h => ?_, fun h => ?_⟩
            · rw [show (St.mk m s.made _).mem = m from rfl, hfy]; exact hl1.1 h
            · rw [show (St.mk m s.made _).mem = m from rfl, hfy]; exact hl1.2.1 h
            · rw [show (St.mk m s.made _).mem = m from rfl, hfy]; exact ⟨(hl1.2.2.1 h).1, hdes _ (hl1.2.2.1 h).2⟩
            · rw [show (St.mk m s.made _).mem = m from rfl, hfy]; exact hl1.2.2.2 h
    refine ⟨trivial, ?_⟩
    simp only [Thread.shape, hx, List.mem_cons, List.not_mem_nil, or_false] at hsh
    rcases hsh with h | h | h | h | h | h | h
    all_goals rw [hc] at h
    · -- acquire
      simp only [deleteCode, List.cons.injEq] at h
      obtain ⟨rfl, rfl⟩ := h
      simp only [exec] at he
      split at he
      case isFalse => cases he
      simp only [Option.some.injEq, Prod.mk.injEq] at he
      obtain ⟨rfl, rfl, rfl⟩ := he
      exact hkeep _ ha (fun _ _ => rfl) (fun _ h => h) (.inl rfl) (fun h => absurd rfl h) (by simp)
    · -- test
      simp only [List.cons.injEq] at h
      obtain ⟨rfl, rfl⟩ := h
      simp only [exec, Option.some.injEq, Prod.mk.injEq] at he
      obtain ⟨rfl, rfl, rfl⟩ := he
      refine hkeep _ ha (fun _ _ => rfl) (fun _ h => h) (.inl rfl) (fun h => absurd rfl h) ?_
      by_cases h0 : s.mem.field x = 0 <;> simp [h0]
    · -- load
      have hl := hloc.1 (by rw [hc, h])
      simp only [List.cons.injEq] at h
      obtain ⟨rfl, rfl⟩ := h
      simp only [exec, Option.some.injEq, Prod.mk.injEq] at he
      obtain ⟨rfl, rfl, rfl⟩ := he
      refine hkeep _ ha (fun _ _ => rfl) (fun _ h => h) (.inl rfl) (fun h => absurd rfl h) ?_
      refine ⟨by simp, fun _ => ⟨hl, upd_same ..⟩, by simp, by simp⟩
    · -- take
      have hl := hloc.2.1 (by rw [hc, h])
      have hnw : ¬ th.waiting := by
        intro hw
        have := hw.2
        rw [hc, h, hx] at this
        simp [compile, deleteCode] at this
      have hwp := hI.wps t th hth hcn hnw
      rw [hc] at hwp
      simp only [List.cons.injEq] at h
      obtain ⟨rfl, rfl⟩ := h
      have hr0 : th.regs 0 ≠ 0 := by rw [hl.2]; exact hl.1
      have hlv := (hwp hr0).1
      simp only [exec, Option.some.injEq, Prod.mk.injEq, if_neg hr0, Mem.takeOut, use_live hlv] at he
      obtain ⟨rfl, rfl, rfl⟩ := he
      refine hkeep _ ha (fun _ _ => rfl) (fun a h => ?_) (.inl rfl) (fun h => absurd rfl h) ?_
      · by_cases hax : a = th.regs 0
        · rw [hax, hlv.2.2] at h; cases h
        · simp only [Mem.destroy, upd, hax, if_false]; exact h
      · refine ⟨by simp, by simp, fun _ => ⟨hl.1, ?_⟩, by simp⟩
        simp only [Mem.destroy, ← hl.2, upd_same, hlv.2.2]
    · -- clear
      have hl := hloc.2.2.1 (by rw [hc, h])
      have hnw : ¬ th.waiting := by
        intro hw
        have := hw.2
        rw [hc, h, hx] at this
        simp [compile, deleteCode] at this
      simp only [List.cons.injEq] at h
      obtain ⟨rfl, rfl⟩ := h
      simp only [exec, Option.some.injEq, Prod.mk.injEq] at he
      obtain ⟨rfl, rfl, rfl⟩ := he
      refine hkeep _ ha (fun y hy => upd_other _ _ hy) (fun _ h => h) (.inr ⟨upd_same .., fun _ => ?_⟩) (fun _ => hnw) ?_
      · rcases hd.field x with h' | ⟨h', _⟩
        · show s.mem.destroyed (f₀ x) = 1
          rw [← h']; exact hl.2
        · exact absurd h' hl.1
      · refine ⟨by simp, by simp, by simp, fun _ => upd_same ..⟩
    · -- release
      simp only [List.cons.injEq] at h
      obtain ⟨rfl, rfl⟩ := h
      simp only [exec, Option.some.injEq, Prod.mk.injEq] at he
      obtain ⟨rfl, rfl, rfl⟩ := he
      exact hkeep _ ha (fun _ _ => rfl) (fun _ h => h) (.inl rfl) (fun h => absurd rfl h) (by simp)
    · cases h
  | gc x ha hm hr =>
    refine ⟨trivial, ⟨?_, ha, hd.field, ?_⟩⟩
    · intro th1 h1
      rcases List.mem_append.1 h1 with h1 | h1
      · exact hd.only th1 h1
      · rw [List.mem_singleton.1 h1]
        exact ⟨fun o ho => by rw [List.mem_singleton.1 ho]; rfl, fun h => absurd rfl h⟩
    · intro t1 th1 y h1 hcur
      rcases get_append h1 with k1 | f1
      · exact hd.loc t1 th1 y k1 hcur
      · subst f1; simp

/-- Thread `t` of the start has done its `delete x` when it is not in it and not about to. -/
theorem delete_done {f₀ : Obj → Addr} {s s' : St} (h0 : Initial s) (hd0 : Deleting f₀ s) (hr : Run (fun _ _ => True) s s') :
    Good s' ∧ Deleting f₀ s' ∧ ∀ (t : Nat) (th : Thread) (x : Obj), s.threads[t]? = some th → .delete x ∈ th.todo →
      ∃ th', s'.threads[t]? = some th' ∧ (.delete x ∈ th'.todo ∨ (th'.code ≠ [] ∧ th'.cur = .delete x) ∨ s'.mem.field x = 0) := by
  induction hr with
  | refl => exact ⟨good_init h0, hd0, fun t th x ht hx => ⟨th, ht, .inl hx⟩⟩
  | @tail s₂ s₃ l _ hs _ ih =>
    obtain ⟨hg, hd, hdone⟩ := ih
    obtain ⟨htm, hd'⟩ := deleting_step hg hd hs
    refine ⟨good_step hg hs htm, hd', fun t th x ht hx => ?_⟩
    obtain ⟨th', ht', hor⟩ := hdone t th x ht hx
    have hfz : s₂.mem.field x = 0 → s₃.mem.field x = 0 := by
      intro hz
      cases hs with
      | start => exact hz
      | gc => exact hz
      | exec t1 th1 i c m r c' ha hth hc he =>
        have hcn : th1.code ≠ [] := by rw [hc]; simp
        by_cases hw : th1.waiting
        · have hI := hg.inv ha
          obtain ⟨y, hy⟩ := delete_of_isDelete hw.1
          have hcode := hw.2
          rw [hy, hc, compile, deleteCode, List.cons.injEq] at hcode
          obtain ⟨rfl, rfl⟩ := hcode
          simp only [exec] at he
          split at he
          · simp only [Option.some.injEq, Prod.mk.injEq] at he
            obtain ⟨rfl, rfl, rfl⟩ := he
            exact hz
          · cases he
        · have hI := hg.inv ha
          have hwp := hI.wps t1 th1 hth hcn hw
          rw [hc] at hwp
          have hE := (exec_wp hwp he hI.fresh hI.pos hI.fieldLt ha).1
          rcases hd'.field x with h | ⟨h, _⟩
          · rcases hd.field x with h2 | ⟨h2, h3⟩
            · rw [h, ← h2]; exact hz
            · by_cases hf0 : f₀ x = 0
              · rw [h, hf0]
              · -- the value cannot come back
                rcases hE.field x with h4 | h4 | ⟨h4, h5, _⟩
                · exact h4.trans hz
                · exact h4
                · have h6 : f₀ x = s₂.mem.next := by rw [← h, ← h4]
                  have h7 := hI.fresh (f₀ x) (by rw [h6]; exact Nat.le_refl _)
                  rw [h3 hf0] at h7; cases h7
          · exact h
    rcases hs with ⟨t1, th1, o, rest, ha, hth, hc, htodo, hcan⟩ | ⟨t1, th1, i, c, m, r, c', ha, hth, hc, he⟩ | ⟨y, ha, hm, hrch⟩
    · by_cases htt : t = t1
      · subst htt
        rw [hth, Option.some.injEq] at ht'
        subst ht'
        refine ⟨_, get_set_self hth, ?_⟩
        rcases hor with h | ⟨h, _⟩ | h
        · rw [htodo] at h
          rcases List.mem_cons.1 h with h | h
          · exact .inr (.inl ⟨compile_ne_nil _, h.symm⟩)
          · exact .inl h
        · exact absurd hc h
        · exact .inr (.inr h)
      · exact ⟨th', by rw [get_set_ne htt]; exact ht', hor⟩
    · by_cases htt : t = t1
      · subst htt
        rw [hth, Option.some.injEq] at ht'
        subst ht'
        refine ⟨_, get_set_self hth, ?_⟩
        rcases hor with h | ⟨h, hcur⟩ | h
        · exact .inl h
        · by_cases hc0 : c' = []
          · right; right
            -- the last action was the release
            have hsh := (hg.inv ha).shape t th1 hth h
            have hl := (hd.loc t th1 x hth hcur).2.2.2
            simp only [Thread.shape, hcur, List.mem_cons, List.not_mem_nil, or_false] at hsh
            have hcr : th1.code = [.release x] := by
              rcases exec_code he with h1 | h1 | ⟨y, h1, h2⟩
              · rw [hc0] at h1
                rw [hc, ← h1] at hsh ⊢
                rcases hsh with h | h | h | h | h | h | h <;> simp [deleteCode] at h
                rw [h]
              · rcases hsh with h | h | h | h | h | h | h
                all_goals rw [hc] at h
                · simp only [deleteCode, List.cons.injEq] at h
                  obtain ⟨rfl, rfl⟩ := h
                  simp only [exec] at he
                  split at he <;> simp at he
                  rw [← he.2.2] at hc0; cases hc0
                · simp only [List.cons.injEq] at h
                  obtain ⟨rfl, rfl⟩ := h
                  simp only [exec, Option.some.injEq, Prod.mk.injEq] at he
                  rw [← he.2.2] at hc0
                  split at hc0 <;> cases hc0
                · simp only [List.cons.injEq] at h
                  obtain ⟨rfl, rfl⟩ := h
                  simp only [exec, Option.some.injEq, Prod.mk.injEq] at he
                  rw [← he.2.2] at hc0; cases hc0
                · simp only [List.cons.injEq] at h
                  obtain ⟨rfl, rfl⟩ := h
                  simp only [exec, Option.some.injEq, Prod.mk.injEq] at he
                  rw [← he.2.2] at hc0; cases hc0
                · simp only [List.cons.injEq] at h
                  obtain ⟨rfl, rfl⟩ := h
                  simp only [exec, Option.some.injEq, Prod.mk.injEq] at he
                  rw [← he.2.2] at hc0; cases hc0
                · rw [hc]; exact h
                · cases h
              · rw [h2] at hc0; cases hc0
            exact hfz (hl hcr)
          · exact .inr (.inl ⟨hc0, hcur⟩)
        · exact .inr (.inr (hfz h))
      · refine ⟨th', by rw [get_set_ne htt]; exact ht', ?_⟩
        rcases hor with h | h | h
        · exact .inl h
        · exact .inr (.inl h)
        · exact .inr (.inr (hfz h))
    · have := (List.getElem?_eq_some_iff.1 ht').1
      exact ⟨th', by rw [List.getElem?_append_left this]; exact ht', hor⟩

/-- C35: any number of threads call `delete()` on the same wrapper objects, and finalisers run whenever the collector likes: the native code
never panics, and when the threads have finished each object that was to be deleted has been destroyed exactly once and its wrapper
holds nothing. -/
theorem C35_concurrent_delete {s s' : St} (h : Initial s) (ha : s.mem.aborted = false)
    (hops : ∀ th ∈ s.threads, ∀ o ∈ th.todo, o.isDelete = true) (hr : Run (fun _ _ => True) s s') :
    s'.mem.bad = false ∧ s'.mem.aborted = false ∧
      ((∀ th ∈ s'.threads, th.code = [] ∧ th.todo = []) →
        ∀ th ∈ s.threads, ∀ x, .delete x ∈ th.todo → s.mem.field x ≠ 0 →
          s'.mem.destroyed (s.mem.field x) = 1 ∧ s'.mem.field x = 0) := by
  have hd0 : Deleting s.mem.field s := by
    refine ⟨fun th hth => ⟨hops th hth, fun hc => absurd (h.idle th hth) hc⟩, ha, fun x => .inl rfl, fun t th x ht _ => ?_⟩
    have := h.idle th (List.mem_of_getElem? ht)
    simp [this]
  obtain ⟨hg, hd, hdone⟩ := delete_done h hd0 hr
  refine ⟨hg.bad, hd.notAborted, fun hfin th hth x hx h0 => ?_⟩
  obtain ⟨t, ht⟩ := List.getElem?_of_mem hth
  obtain ⟨th', ht', hor⟩ := hdone t th x ht hx
  have hf := hfin th' (List.mem_of_getElem? ht')
  have hz : s'.mem.field x = 0 := by
    rcases hor with h | ⟨h, _⟩ | h
    · rw [hf.2] at h; cases h
    · exact absurd hf.1 h
    · exact h
  refine ⟨?_, hz⟩
  rcases hd.field x with h | ⟨_, h⟩
  · rw [hz] at h; exact absurd h.symm h0
  · exact h h0

end Flapi.JavaLife
