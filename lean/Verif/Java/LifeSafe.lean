import Verif.Java.LifeProps
/-!
# C35: memory safety of interleaved calls on Java wrapper objects
-/
namespace Flapi.JavaLife

/-- Thread is inside `delete()` but has not entered the `synchronized` part. -/
def Thread.waiting (th : Thread) : Prop := th.cur.isDelete = true ∧ th.code = compile th.cur

instance (th : Thread) : Decidable th.waiting := inferInstanceAs (Decidable (_ ∧ _))

/-- Objects the thread works on. -/
def Thread.holds (th : Thread) : List Obj := if th.code = [] ∨ th.waiting then [] else th.cur.objs

def Instr.isLock : Instr → Bool
  | .acquire _ | .release _ | .ifSet _ => true
  | _ => false

/-- Shape of the code of a thread inside an operation. -/
def Thread.shape (th : Thread) : Prop :=
  match th.cur with
  | .delete x => th.code ∈ [deleteCode x, [.ifSet x, .load 0 x, .take 0, .clear x, .release x], [.load 0 x, .take 0, .clear x, .release x],
      [.take 0, .clear x, .release x], [.clear x, .release x], [.release x], []]
  | _ => ∀ i ∈ th.code, i.isLock = false

structure Inv (s : St) : Prop where
  fresh : ∀ a, s.mem.next ≤ a → s.mem.destroyed a = 0
  pos : 0 < s.mem.next
  fieldLt : ∀ x, s.mem.field x < s.mem.next
  inj : ∀ x y, s.mem.field x ≠ 0 → s.mem.field x = s.mem.field y → x = y
  pair : ∀ (t t' : Nat) (th th' : Thread), t ≠ t' → s.threads[t]? = some th → s.threads[t']? = some th' → th.code ≠ [] → th'.code ≠ [] →
    (th.cur.isDelete = true ∧ th'.cur.isDelete = true) ∨ ∀ x ∈ th.cur.objs, x ∉ th'.cur.objs
  lock : ∀ (t : Nat) (th : Thread) (x : Obj), s.threads[t]? = some th → th.code ≠ [] → th.cur = .delete x → ¬ th.waiting → s.mem.lock x = some t
  waitRegs : ∀ (t : Nat) (th : Thread), s.threads[t]? = some th → th.code ≠ [] → th.waiting → ∀ i, th.regs i = 0
  regLt : ∀ (t : Nat) (th : Thread), s.threads[t]? = some th → th.code ≠ [] → ∀ i, th.regs i < s.mem.next
  sep1 : ∀ (t t' : Nat) (th th' : Thread), t ≠ t' → s.threads[t]? = some th → s.threads[t']? = some th' → th.code ≠ [] → th'.code ≠ [] →
    ∀ i j, th.regs i = th'.regs j → th.regs i = 0
  sep2 : ∀ (t : Nat) (th : Thread), s.threads[t]? = some th → th.code ≠ [] → ∀ y, y ∉ th.holds → ∀ i, th.regs i = s.mem.field y → th.regs i = 0
  free : ∀ y, (∀ (t : Nat) (th : Thread), s.threads[t]? = some th → y ∉ th.holds) → s.mem.field y ≠ 0 → s.mem.live (s.mem.field y)
  wps : ∀ (t : Nat) (th : Thread), s.threads[t]? = some th → th.code ≠ [] → ¬ th.waiting → wp th.cur.objs th.code s.mem th.regs
  shape : ∀ (t : Nat) (th : Thread), s.threads[t]? = some th → th.code ≠ [] → th.shape

structure Good (s : St) : Prop where
  bad : s.mem.bad = false
  once : ∀ a, s.mem.destroyed a ≤ 1
  inv : s.mem.aborted = false → Inv s

theorem get_set {l : List Thread} {t t' : Nat} {a b : Thread} (h : (l.set t a)[t']? = some b) :
    (t' = t ∧ b = a) ∨ (t' ≠ t ∧ l[t']? = some b) := by
  rw [List.getElem?_set] at h
  by_cases ht : t = t'
  · subst ht
    rw [if_pos rfl] at h
    split at h
    · exact .inl ⟨rfl, (Option.some.inj h).symm⟩
    · cases h
  · rw [if_neg ht] at h
    exact .inr ⟨fun h => ht h.symm, h⟩

theorem get_set_self {l : List Thread} {t : Nat} {a b : Thread} (h : l[t]? = some b) : (l.set t a)[t]? = some a := by
  have := (List.getElem?_eq_some_iff.1 h).1
  simp [this]

theorem get_set_ne {l : List Thread} {t t' : Nat} {a : Thread} (h : t' ≠ t) : (l.set t a)[t']? = l[t']? := by
  rw [List.getElem?_set, if_neg fun h' => h h'.symm]

theorem holds_idle {th : Thread} (h : th.code = []) : th.holds = [] := by simp [Thread.holds, h]

theorem holds_sub {th : Thread} {x : Obj} (h : x ∈ th.holds) : th.code ≠ [] ∧ ¬ th.waiting ∧ x ∈ th.cur.objs := by
  unfold Thread.holds at h
  split at h
  · cases h
  · rename_i hn
    exact ⟨fun hc => hn (.inl hc), fun hw => hn (.inr hw), h⟩

theorem holds_eq {th : Thread} (h1 : th.code ≠ []) (h2 : ¬ th.waiting) : th.holds = th.cur.objs := by
  unfold Thread.holds
  rw [if_neg]
  rintro (h | h)
  · exact h1 h
  · exact h2 h

theorem delete_of_isDelete {o : Op} (h : o.isDelete = true) : ∃ x, o = .delete x := by
  cases o with
  | delete x => exact ⟨x, rfl⟩
  | _ => cases h

/-- Two threads never work on the same object. -/
theorem Inv.disjoint {s : St} (hI : Inv s) {t t' : Nat} {th th' : Thread} (hne : t ≠ t') (ht : s.threads[t]? = some th)
    (ht' : s.threads[t']? = some th') {x : Obj} (hx : x ∈ th.holds) : x ∉ th'.holds := by
  intro hx'
  obtain ⟨h1, h2, h3⟩ := holds_sub hx
  obtain ⟨h1', h2', h3'⟩ := holds_sub hx'
  rcases hI.pair t t' th th' hne ht ht' h1 h1' with ⟨hd, hd'⟩ | hd
  · obtain ⟨y, hy⟩ := delete_of_isDelete hd
    obtain ⟨y', hy'⟩ := delete_of_isDelete hd'
    have e1 : x = y := by rw [hy] at h3; exact List.mem_singleton.1 h3
    have e2 : x = y' := by rw [hy'] at h3'; exact List.mem_singleton.1 h3'
    subst e1; subst e2
    have l1 := hI.lock t th x ht h1 hy h2
    have l2 := hI.lock t' th' x ht' h1' hy' h2'
    rw [l1] at l2
    exact hne (Option.some.inj l2)
  · exact hd x h3 h3'

theorem compile_ne_nil (o : Op) : compile o ≠ [] := by
  cases o <;> simp [compile, deleteCode]

theorem javaArgs_lock : ∀ (l : List Arg) (i : Nat), ∀ c ∈ javaArgs i l, c.isLock = false
  | [], _, c, h => by simp [javaArgs] at h
  | a :: l, i, c, h => by
    rw [javaArgs, List.mem_append] at h
    rcases h with h | h
    · cases a with
      | optValue o => cases o <;> simp [javaArg] at h; rcases h with rfl | rfl <;> rfl
      | optRef o => cases o <;> simp [javaArg] at h; subst h; rfl
      | value x => simp [javaArg] at h; rcases h with rfl | rfl <;> rfl
      | _ => simp [javaArg] at h; subst h; rfl
    · exact javaArgs_lock l _ c h

theorem native_lock {i : Instr} {k : Nat} {b : Bool} (h : Native i k b) : i.isLock = false := by cases h <;> rfl

theorem nativeArgs_lock (l : List Arg) (i : Nat) : ∀ c ∈ nativeArgs i l, c.isLock = false := by
  intro c h
  rw [← convEvs_map, List.mem_map] at h
  obtain ⟨e, he, rfl⟩ := h
  obtain ⟨p, a, _, h⟩ := mem_convEvs he
  exact native_lock (convEv_facts h).2.1

theorem bodyArgs_lock (l : List Arg) (i : Nat) : ∀ c ∈ bodyArgs i l, c.isLock = false := by
  intro c h
  rw [← bodyEvs_map, List.mem_map] at h
  obtain ⟨e, he, rfl⟩ := h
  obtain ⟨p, a, _, h⟩ := mem_bodyEvs he
  exact native_lock (bodyEv_facts h).2.1

theorem callCode_lock (l : List Arg) : ∀ c ∈ callCode l, c.isLock = false := by
  intro c h
  simp only [callCode, List.mem_append] at h
  rcases h with h | h | h
  · exact javaArgs_lock _ _ c h
  · exact nativeArgs_lock _ _ c h
  · exact bodyArgs_lock _ _ c h

theorem shape_start (o : Op) (rest : List Op) (r : Regs) : Thread.shape ⟨rest, o, compile o, r⟩ := by
  cases o with
  | delete x => simp [Thread.shape, compile]
  | call recv args =>
    intro c h
    simp only [compile, List.mem_append, List.mem_singleton] at h
    rcases h with h | rfl
    · exact callCode_lock _ c h
    · rfl
  | new x args =>
    intro c h
    simp only [compile, List.mem_append, List.mem_singleton] at h
    rcases h with h | rfl
    · exact callCode_lock _ c h
    · rfl

theorem wp_start {m : Mem} (o : Op) (hd : o.isDelete = false) (hs : Sound o.objs m)
    (hinj : ∀ x y, m.field x ≠ 0 → m.field x = m.field y → x = y) (hal : o.NoLendThenGive) :
    wp o.objs (compile o) m (fun _ => 0) := by
  cases o with
  | delete x => cases hd
  | call recv args =>
    refine wp_call _ ?_ hs hinj ?_ (fun m' r h => h)
    · intro a ha x hx
      cases recv with
      | none => exact List.mem_flatMap.2 ⟨a, ha, hx⟩
      | some y =>
        simp only [withRecv, List.mem_append, List.mem_singleton] at ha
        rcases ha with ha | rfl
        · exact List.mem_cons_of_mem _ (List.mem_flatMap.2 ⟨a, ha, hx⟩)
        · rw [List.mem_singleton.1 hx]; exact List.mem_cons_self
    · cases recv with
      | none => exact hal
      | some y =>
        refine List.pairwise_append.2 ⟨hal, List.pairwise_singleton _ _, fun a _ b hb x _ => ?_⟩
        rw [List.mem_singleton.1 hb]
        simp [Arg.gives]
  | new x args =>
    refine wp_call _ ?_ hs hinj hal (fun m' r h => ?_)
    · intro a ha y hy
      exact List.mem_cons_of_mem _ (List.mem_flatMap.2 ⟨a, ha, hy⟩)
    · exact ⟨rfl, List.mem_cons_self, fun y hy _ => h y hy⟩

theorem inv_start {s : St} (hI : Inv s) {t : Nat} {th : Thread} {o : Op} {rest : List Op} (ht : s.threads[t]? = some th)
    (hc : th.code = []) (hx : Exclusive s t o) (hal : o.NoLendThenGive) (made' : Obj → Bool) :
    Inv { s with made := made', threads := s.threads.set t ⟨rest, o, compile o, fun _ => 0⟩ } := by
  have hfreeO : o.isDelete = false → Sound o.objs s.mem := by
    intro hd x hxo h0
    refine hI.free x (fun t' th' ht' hh => ?_) h0
    obtain ⟨h1, _, h3⟩ := holds_sub hh
    by_cases htt : t' = t
    · subst htt
      rw [ht, Option.some.injEq] at ht'
      subst ht'
      exact h1 hc
    · rcases hx t' th' htt ht' h1 with ⟨hd', _⟩ | hdis
      · rw [hd'] at hd; cases hd
      · exact hdis x hxo h3
  refine ⟨hI.fresh, hI.pos, hI.fieldLt, hI.inj, ?_, ?_, ?_, ?_, ?_, ?_, ?_, ?_, ?_⟩
  · intro t1 t2 th1 th2 hne h1 h2 hc1 hc2
    rcases get_set h1 with ⟨rfl, rfl⟩ | ⟨hn1, k1⟩
    · rcases get_set h2 with ⟨rfl, rfl⟩ | ⟨hn2, k2⟩
      · exact absurd rfl hne
      · exact hx t2 th2 hn2 k2 hc2
    · rcases get_set h2 with ⟨rfl, rfl⟩ | ⟨hn2, k2⟩
      · rcases hx t1 th1 hn1 k1 hc1 with ⟨a, b⟩ | hd
        · exact .inl ⟨b, a⟩
        · exact .inr fun x hx1 hx2 => hd x hx2 hx1
      · exact hI.pair t1 t2 th1 th2 hne k1 k2 hc1 hc2
  · intro t1 th1 x h1 hc1 hcur hw
    rcases get_set h1 with ⟨rfl, rfl⟩ | ⟨hn1, k1⟩
    · refine absurd ⟨?_, rfl⟩ hw
      simp only at hcur
      rw [hcur]; rfl
    · exact hI.lock t1 th1 x k1 hc1 hcur hw
  · intro t1 th1 h1 hc1 hw
    rcases get_set h1 with ⟨rfl, rfl⟩ | ⟨hn1, k1⟩
    · intro i; rfl
    · exact hI.waitRegs t1 th1 k1 hc1 hw
  · intro t1 th1 h1 hc1 i
    rcases get_set h1 with ⟨rfl, rfl⟩ | ⟨hn1, k1⟩
    · exact hI.pos
    · exact hI.regLt t1 th1 k1 hc1 i
  · intro t1 t2 th1 th2 hne h1 h2 hc1 hc2 i j he
    rcases get_set h1 with ⟨rfl, rfl⟩ | ⟨hn1, k1⟩
    · rfl
    · rcases get_set h2 with ⟨rfl, rfl⟩ | ⟨hn2, k2⟩
      · exact he
      · exact hI.sep1 t1 t2 th1 th2 hne k1 k2 hc1 hc2 i j he
  · intro t1 th1 h1 hc1 y hy i he
    rcases get_set h1 with ⟨rfl, rfl⟩ | ⟨hn1, k1⟩
    · rfl
    · exact hI.sep2 t1 th1 k1 hc1 y hy i he
  · intro y hy h0
    refine hI.free y (fun t' th' ht' => ?_) h0
    by_cases htt : t' = t
    · subst htt
      rw [ht, Option.some.injEq] at ht'
      subst ht'
      rw [holds_idle hc]; simp
    · exact hy t' th' (by rw [get_set_ne htt]; exact ht')
  · intro t1 th1 h1 hc1 hw
    rcases get_set h1 with ⟨rfl, rfl⟩ | ⟨hn1, k1⟩
    · cases hd : o.isDelete with
      | true => exact absurd ⟨hd, rfl⟩ hw
      | false => exact wp_start o hd (hfreeO hd) hI.inj hal
    · exact hI.wps t1 th1 k1 hc1 hw
  · intro t1 th1 h1 hc1
    rcases get_set h1 with ⟨rfl, rfl⟩ | ⟨hn1, k1⟩
    · exact shape_start o rest _
    · exact hI.shape t1 th1 k1 hc1

theorem get_append {l : List Thread} {a b : Thread} {t : Nat} (h : (l ++ [a])[t]? = some b) : l[t]? = some b ∨ b = a := by
  rw [List.getElem?_append] at h
  split at h
  · exact .inl h
  · right
    have : a = b := by
      cases hk : t - l.length with
      | zero => rw [hk] at h; simpa using h
      | succ n => rw [hk] at h; simp at h
    exact this.symm

theorem inv_gc {s : St} (hI : Inv s) (a : Thread) (ha : a.code = []) : Inv { s with threads := s.threads ++ [a] } := by
  have key : ∀ {t : Nat} {th : Thread}, (s.threads ++ [a])[t]? = some th → th.code ≠ [] → s.threads[t]? = some th := by
    intro t th h hc
    rcases get_append h with h | rfl
    · exact h
    · exact absurd ha hc
  refine ⟨hI.fresh, hI.pos, hI.fieldLt, hI.inj, ?_, ?_, ?_, ?_, ?_, ?_, ?_, ?_, ?_⟩
  · intro t1 t2 th1 th2 hne h1 h2 hc1 hc2
    exact hI.pair t1 t2 th1 th2 hne (key h1 hc1) (key h2 hc2) hc1 hc2
  · intro t1 th1 x h1 hc1; exact hI.lock t1 th1 x (key h1 hc1) hc1
  · intro t1 th1 h1 hc1; exact hI.waitRegs t1 th1 (key h1 hc1) hc1
  · intro t1 th1 h1 hc1; exact hI.regLt t1 th1 (key h1 hc1) hc1
  · intro t1 t2 th1 th2 hne h1 h2 hc1 hc2
    exact hI.sep1 t1 t2 th1 th2 hne (key h1 hc1) (key h2 hc2) hc1 hc2
  · intro t1 th1 h1 hc1; exact hI.sep2 t1 th1 (key h1 hc1) hc1
  · intro y hy
    refine hI.free y fun t th ht => hy t th ?_
    have := (List.getElem?_eq_some_iff.1 ht).1
    rw [List.getElem?_append_left this]; exact ht
  · intro t1 th1 h1 hc1; exact hI.wps t1 th1 (key h1 hc1) hc1
  · intro t1 th1 h1 hc1; exact hI.shape t1 th1 (key h1 hc1) hc1

theorem exec_unlocked {t : Nat} {i : Instr} {c c' : List Instr} {m m' : Mem} {r r' : Regs} (hi : i.isLock = false)
    (he : exec t i m r c = some (m', r', c')) : m'.lock = m.lock ∧ (c' = c ∨ c' = []) := by
  cases i <;> first | cases hi | skip
  all_goals simp only [exec, Option.some.injEq, Prod.mk.injEq] at he
  all_goals obtain ⟨rfl, rfl, rfl⟩ := he
  all_goals first | exact ⟨rfl, .inl rfl⟩ | exact ⟨rfl, .inr rfl⟩ | skip
  all_goals refine ⟨?_, .inl rfl⟩
  all_goals simp only [Mem.use, Mem.takeOut, Mem.destroy]
  all_goals repeat' split
  all_goals rfl

theorem shape_exec {th : Thread} {t : Nat} {i : Instr} {c c' : List Instr} {m m' : Mem} {r' : Regs} (hs : th.shape)
    (hw : ¬ th.waiting) (hc : th.code = i :: c) (he : exec t i m th.regs c = some (m', r', c')) :
    Thread.shape { th with code := c', regs := r' } ∧ ¬ Thread.waiting { th with code := c', regs := r' } ∧
      (m'.lock = m.lock ∨ ∃ x, th.cur = .delete x ∧ m'.lock = upd m.lock x none ∧ c' = []) := by
  cases hcur : th.cur with
  | delete x =>
    simp only [Thread.shape, hcur] at hs
    simp only [Thread.shape, Thread.waiting, hcur, compile, Op.isDelete]
    have hw' : th.code ≠ deleteCode x := by
      intro h
      exact hw ⟨by rw [hcur]; rfl, by rw [hcur]; exact h⟩
    simp only [List.mem_cons, hw', false_or, List.not_mem_nil, or_false] at hs
    rcases hs with h | h | h | h | h | h
    all_goals rw [hc] at h
    · simp only [List.cons.injEq] at h
      obtain ⟨rfl, rfl⟩ := h
      simp only [exec, Option.some.injEq, Prod.mk.injEq] at he
      obtain ⟨rfl, rfl, rfl⟩ := he
      by_cases h0 : m.field x = 0 <;> simp [h0, deleteCode]
    · simp only [List.cons.injEq] at h
      obtain ⟨rfl, rfl⟩ := h
      simp only [exec, Option.some.injEq, Prod.mk.injEq] at he
      obtain ⟨rfl, rfl, rfl⟩ := he
      simp [deleteCode]
    · simp only [List.cons.injEq] at h
      obtain ⟨rfl, rfl⟩ := h
      have := (exec_unlocked (by rfl) he).1
      simp only [exec, Option.some.injEq, Prod.mk.injEq] at he
      obtain ⟨_, _, rfl⟩ := he
      exact ⟨by simp, by simp [deleteCode], .inl this⟩
    · simp only [List.cons.injEq] at h
      obtain ⟨rfl, rfl⟩ := h
      simp only [exec, Option.some.injEq, Prod.mk.injEq] at he
      obtain ⟨rfl, rfl, rfl⟩ := he
      simp [deleteCode]
    · simp only [List.cons.injEq] at h
      obtain ⟨rfl, rfl⟩ := h
      simp only [exec, Option.some.injEq, Prod.mk.injEq] at he
      obtain ⟨rfl, rfl, rfl⟩ := he
      refine ⟨by simp, by simp [deleteCode], .inr ⟨x, rfl, rfl, rfl⟩⟩
    · cases h
  | call recv args =>
    simp only [Thread.shape, hcur] at hs
    have h1 := exec_unlocked (hs i (by rw [hc]; exact List.mem_cons_self)) he
    refine ⟨?_, by simp [Thread.waiting, hcur, Op.isDelete], .inl h1.1⟩
    simp only [Thread.shape, hcur]
    intro j hj
    rcases h1.2 with rfl | rfl
    · exact hs j (by rw [hc]; exact List.mem_cons_of_mem _ hj)
    · cases hj
  | new x args =>
    simp only [Thread.shape, hcur] at hs
    have h1 := exec_unlocked (hs i (by rw [hc]; exact List.mem_cons_self)) he
    refine ⟨?_, by simp [Thread.waiting, hcur, Op.isDelete], .inl h1.1⟩
    simp only [Thread.shape, hcur]
    intro j hj
    rcases h1.2 with rfl | rfl
    · exact hs j (by rw [hc]; exact List.mem_cons_of_mem _ hj)
    · cases hj

theorem inv_exec {s : St} (hI : Inv s) {t : Nat} {th : Thread} {i : Instr} {c c' : List Instr} {m' : Mem} {r' : Regs}
    (ha : s.mem.aborted = false) (ht : s.threads[t]? = some th) (hw : ¬ th.waiting) (hc : th.code = i :: c)
    (he : exec t i s.mem th.regs c = some (m', r', c')) (ha' : m'.aborted = false) :
    Inv { s with mem := m', threads := s.threads.set t { th with code := c', regs := r' } } := by
  have hcn : th.code ≠ [] := by rw [hc]; simp
  have hwp := hI.wps t th ht hcn hw
  rw [hc] at hwp
  obtain ⟨hE, hwp'⟩ := exec_wp hwp he hI.fresh hI.pos hI.fieldLt ha
  replace hwp' := hwp' ha'
  obtain ⟨hsh, hnw, hlock⟩ := shape_exec (hI.shape t th ht hcn) hw hc he
  have hW : th.holds = th.cur.objs := holds_eq hcn hw
  -- facts about the memory
  have hdes : ∀ a, (∀ i, a ≠ th.regs i) → m'.destroyed a = s.mem.destroyed a := by
    intro a h
    rcases hE.destroyed a with h' | ⟨_, _, j, hj⟩
    · exact h'
    · exact absurd hj (h j)
  have hlive : ∀ a, a < s.mem.next → (∀ i, a ≠ th.regs i) → (m'.live a ↔ s.mem.live a) := by
    intro a hlt h
    have := hE.next
    simp only [Mem.live, hdes a h]
    constructor
    · rintro ⟨h1, _, h3⟩; exact ⟨h1, hlt, h3⟩
    · rintro ⟨h1, _, h3⟩; exact ⟨h1, Nat.lt_of_lt_of_le hlt this, h3⟩
  have hfield : ∀ y, m'.field y ≠ 0 → (m'.field y = s.mem.field y) ∨ (m'.field y = s.mem.next ∧ ∀ z, m'.field z = s.mem.next → z = y) := by
    intro y h0
    rcases hE.field y with h | h | ⟨h, _, hz⟩
    · exact .inl h
    · exact absurd h h0
    · exact .inr ⟨h, hz⟩
  have hne0 : ∀ y, m'.field y ≠ s.mem.next ∨ ∀ z, m'.field z = s.mem.next → z = y := by
    intro y
    by_cases h0 : m'.field y = 0
    · left; rw [h0]; exact Nat.ne_of_lt hI.pos
    · rcases hfield y h0 with h | ⟨_, h⟩
      · left; rw [h]; exact Nat.ne_of_lt (hI.fieldLt y)
      · exact .inr h
  -- a field of an object of another thread is not in our variables
  have hother : ∀ y, y ∉ th.holds → s.mem.field y ≠ 0 → ∀ j, s.mem.field y ≠ th.regs j := by
    intro y hy h0 j h
    have := hI.sep2 t th ht hcn y hy j h.symm
    rw [← h] at this
    exact h0 this
  have hregs' : ∀ t' th', t' ≠ t → s.threads[t']? = some th' → th'.code ≠ [] → ∀ j, th'.regs j ≠ 0 → ∀ k, th'.regs j ≠ th.regs k := by
    intro t' th' hne ht' hc' j h0 k h
    exact h0 (hI.sep1 t' t th' th hne ht' ht hc' hcn j k h)
  refine ⟨?_, Nat.lt_of_lt_of_le hI.pos hE.next, ?_, ?_, ?_, ?_, ?_, ?_, ?_, ?_, ?_, ?_, ?_⟩
  · -- fresh
    intro a hle
    have hle' : s.mem.next ≤ a := Nat.le_trans hE.next hle
    show m'.destroyed a = 0
    rw [hdes a fun j h => ?_]
    · exact hI.fresh a hle'
    · have := hI.regLt t th ht hcn j
      rw [← h] at this
      exact Nat.lt_irrefl _ (Nat.lt_of_lt_of_le this hle')
  · -- fieldLt
    intro y
    show m'.field y < m'.next
    rcases hE.field y with h | h | ⟨h, h', _⟩
    · rw [h]; exact Nat.lt_of_lt_of_le (hI.fieldLt y) hE.next
    · rw [h]; exact Nat.lt_of_lt_of_le hI.pos hE.next
    · rw [h, h']; exact Nat.lt_succ_self _
  · -- inj
    intro x y h0 hxy
    replace h0 : m'.field x ≠ 0 := h0
    replace hxy : m'.field x = m'.field y := hxy
    rcases hfield x h0 with h | ⟨h, hz⟩
    · rcases hfield y (by rw [← hxy]; exact h0) with h' | ⟨h', hz'⟩
      · exact hI.inj x y (by rw [← h]; exact h0) (by rw [← h, ← h', hxy])
      · have := hI.fieldLt x
        rw [← h, hxy, h'] at this
        exact absurd this (Nat.lt_irrefl _)
    · exact (hz y (by rw [← hxy, h])).symm
  · -- pair
    intro t1 t2 th1 th2 hne h1 h2 hc1 hc2
    rcases get_set h1 with ⟨e1, f1⟩ | ⟨hn1, k1⟩
    · rcases get_set h2 with ⟨e2, f2⟩ | ⟨hn2, k2⟩
      · exact absurd (e1.trans e2.symm) hne
      · rw [f1]; exact hI.pair t t2 th th2 (e1 ▸ hne) ht k2 hcn hc2
    · rcases get_set h2 with ⟨e2, f2⟩ | ⟨hn2, k2⟩
      · rw [f2]; exact hI.pair t1 t th1 th (e2 ▸ hne) k1 ht hc1 hcn
      · exact hI.pair t1 t2 th1 th2 hne k1 k2 hc1 hc2
  · -- lock
    intro t1 th1 x h1 hc1 hcur hw1
    show m'.lock x = some t1
    rcases get_set h1 with ⟨e1, f1⟩ | ⟨hn1, k1⟩
    · subst f1
      rcases hlock with hl | ⟨_, _, _, hl⟩
      · rw [hl, e1]; exact hI.lock t th x ht hcn hcur hw
      · exact absurd hl hc1
    · have hl1 := hI.lock t1 th1 x k1 hc1 hcur hw1
      rcases hlock with hl | ⟨y, hy, hl, _⟩
      · rw [hl]; exact hl1
      · have hl2 := hI.lock t th y ht hcn hy hw
        rw [hl, upd_other]
        · exact hl1
        · intro hxy
          subst hxy
          rw [hl1] at hl2
          exact hn1 (Option.some.inj hl2)
  · -- waitRegs
    intro t1 th1 h1 hc1 hw1
    rcases get_set h1 with ⟨e1, f1⟩ | ⟨hn1, k1⟩
    · subst f1; exact absurd hw1 hnw
    · exact hI.waitRegs t1 th1 k1 hc1 hw1
  · -- regLt
    intro t1 th1 h1 hc1 j
    show th1.regs j < m'.next
    rcases get_set h1 with ⟨e1, f1⟩ | ⟨hn1, k1⟩
    · subst f1
      show r' j < m'.next
      rcases hE.regs j with h | ⟨x, _, h⟩
      · rw [h]; exact Nat.lt_of_lt_of_le (hI.regLt t th ht hcn j) hE.next
      · rw [h]; exact Nat.lt_of_lt_of_le (hI.fieldLt x) hE.next
    · exact Nat.lt_of_lt_of_le (hI.regLt t1 th1 k1 hc1 j) hE.next
  · -- sep1
    have hs1 : ∀ t' th', t' ≠ t → s.threads[t']? = some th' → th'.code ≠ [] → ∀ j k, th'.regs j = r' k → th'.regs j = 0 := by
      intro t' th' hne ht' hc' j k h
      rcases hE.regs k with hk | ⟨x, hx, hk⟩
      · rw [hk] at h; exact hI.sep1 t' t th' th hne ht' ht hc' hcn j k h
      · rw [hk] at h
        have hx' : x ∉ th'.holds := hI.disjoint (fun h => hne h.symm) ht ht' (by rw [hW]; exact hx)
        exact hI.sep2 t' th' ht' hc' x hx' j h
    intro t1 t2 th1 th2 hne h1 h2 hc1 hc2 j k h
    rcases get_set h1 with ⟨e1, f1⟩ | ⟨hn1, k1⟩
    · rcases get_set h2 with ⟨e2, f2⟩ | ⟨hn2, k2⟩
      · exact absurd (e1.trans e2.symm) hne
      · subst f1
        have h' := hs1 t2 th2 hn2 k2 hc2 k j h.symm
        rw [h]; exact h'
    · rcases get_set h2 with ⟨e2, f2⟩ | ⟨hn2, k2⟩
      · subst f2; exact hs1 t1 th1 hn1 k1 hc1 j k h
      · exact hI.sep1 t1 t2 th1 th2 hne k1 k2 hc1 hc2 j k h
  · -- sep2
    intro t1 th1 h1 hc1 y hy j h
    replace h : th1.regs j = m'.field y := h
    rcases get_set h1 with ⟨e1, f1⟩ | ⟨hn1, k1⟩
    · subst f1
      have hy' : y ∉ th.cur.objs := by rw [holds_eq hc1 hnw] at hy; exact hy
      have h' : r' j = s.mem.field y := by rw [← hE.other y hy']; exact h
      show r' j = 0
      rcases hE.regs j with hj | ⟨x, hx, hj⟩
      · rw [hj] at h' ⊢; exact hI.sep2 t th ht hcn y (by rw [hW]; exact hy') j h'
      · apply Classical.byContradiction
        intro h0
        have : x = y := hI.inj x y (by rw [← hj]; exact h0) (by rw [← hj, h'])
        subst this
        exact hy' hx
    · apply Classical.byContradiction
      intro h0
      rcases hfield y (by rw [← h]; exact h0) with h' | ⟨h', _⟩
      · exact h0 (hI.sep2 t1 th1 k1 hc1 y hy j (by rw [h, h']))
      · have := hI.regLt t1 th1 k1 hc1 j
        rw [h, h'] at this
        exact Nat.lt_irrefl _ this
  · -- free
    intro y hy h0
    replace h0 : m'.field y ≠ 0 := h0
    show m'.live (m'.field y)
    have hyt := hy t _ (get_set_self ht)
    have hyo : ∀ t' th', t' ≠ t → s.threads[t']? = some th' → y ∉ th'.holds := fun t' th' hne ht' =>
      hy t' th' (by rw [get_set_ne hne]; exact ht')
    by_cases hyW : y ∈ th.cur.objs
    · by_cases hc0 : c' = []
      · subst hc0; exact hwp' y hyW h0
      · refine absurd ?_ hyt
        rw [holds_eq (th := { th with code := c', regs := r' }) hc0 hnw]; exact hyW
    · have hf := hE.other y hyW
      rw [hf] at h0 ⊢
      rw [hlive _ (hI.fieldLt y) (hother y (by rw [hW]; exact hyW) h0)]
      refine hI.free y (fun t' th' ht' => ?_) h0
      by_cases htt : t' = t
      · subst htt
        rw [ht, Option.some.injEq] at ht'
        subst ht'
        rw [hW]; exact hyW
      · exact hyo t' th' htt ht'
  · -- wps
    intro t1 th1 h1 hc1 hw1
    show wp th1.cur.objs th1.code m' th1.regs
    rcases get_set h1 with ⟨e1, f1⟩ | ⟨hn1, k1⟩
    · subst f1; exact hwp'
    · refine wp_frame _ ⟨fun x hx => ?_, fun j => ?_, fun x hx => ?_⟩ (hI.wps t1 th1 k1 hc1 hw1)
      all_goals have hd : ∀ x, x ∈ th1.cur.objs → x ∉ th.holds := fun x hx =>
        hI.disjoint hn1 k1 ht (by rw [holds_eq hc1 hw1]; exact hx)
      · exact hE.other x (by rw [← hW]; exact hd x hx)
      · by_cases h0 : th1.regs j = 0
        · simp [Mem.live, h0]
        · exact hlive _ (hI.regLt t1 th1 k1 hc1 j) (hregs' t1 th1 hn1 k1 hc1 j h0)
      · by_cases h0 : s.mem.field x = 0
        · simp [Mem.live, h0]
        · exact hlive _ (hI.fieldLt x) (hother x (hd x hx) h0)
  · -- shape
    intro t1 th1 h1 hc1
    rcases get_set h1 with ⟨e1, f1⟩ | ⟨hn1, k1⟩
    · subst f1; exact hsh
    · exact hI.shape t1 th1 k1 hc1

theorem inv_acquire {s : St} (hI : Inv s) {t : Nat} {th : Thread} {i : Instr} {c c' : List Instr} {m' : Mem} {r' : Regs}
    (ht : s.threads[t]? = some th) (hw : th.waiting) (hc : th.code = i :: c)
    (he : exec t i s.mem th.regs c = some (m', r', c')) :
    Inv { s with mem := m', threads := s.threads.set t { th with code := c', regs := r' } } ∧ m'.bad = s.mem.bad ∧
      m'.destroyed = s.mem.destroyed := by
  have hcn : th.code ≠ [] := by rw [hc]; simp
  obtain ⟨x, hx⟩ := delete_of_isDelete hw.1
  have hcode := hw.2
  rw [hx, hc, compile, deleteCode, List.cons.injEq] at hcode
  obtain ⟨rfl, rfl⟩ := hcode
  simp only [exec] at he
  split at he
  case isFalse => cases he
  case isTrue hl0 =>
  simp only [Option.some.injEq, Prod.mk.injEq] at he
  obtain ⟨rfl, rfl, rfl⟩ := he
  refine ⟨?_, rfl, rfl⟩
  have hr0 := hI.waitRegs t th ht hcn hw
  have hnw : ¬ Thread.waiting { th with code := [.ifSet x, .load 0 x, .take 0, .clear x, .release x], regs := th.regs } := by
    simp [Thread.waiting, hx, compile, deleteCode]
  have hholds : Thread.holds { th with code := [.ifSet x, .load 0 x, .take 0, .clear x, .release x], regs := th.regs } = [x] := by
    rw [holds_eq (by simp) hnw]
    simp only [hx]; rfl
  have hnone : ∀ (t' : Nat) (th' : Thread), s.threads[t']? = some th' → x ∉ th'.holds := by
    intro t' th' ht' hh
    obtain ⟨h1, h2, h3⟩ := holds_sub hh
    by_cases htt : t' = t
    · subst htt
      rw [ht, Option.some.injEq] at ht'
      subst ht'
      exact h2 hw
    · rcases hI.pair t' t th' th htt ht' ht h1 hcn with ⟨hd, _⟩ | hd
      · obtain ⟨y, hy⟩ := delete_of_isDelete hd
        have : x = y := by rw [hy] at h3; exact List.mem_singleton.1 h3
        subst this
        have := hI.lock t' th' x ht' h1 hy h2
        rw [hl0] at this; cases this
      · exact hd x h3 (by rw [hx]; exact List.mem_singleton.2 rfl)
  have hsound := hI.free x hnone
  refine ⟨hI.fresh, hI.pos, hI.fieldLt, hI.inj, ?_, ?_, ?_, ?_, ?_, ?_, ?_, ?_, ?_⟩
  · intro t1 t2 th1 th2 hne h1 h2 hc1 hc2
    rcases get_set h1 with ⟨e1, f1⟩ | ⟨hn1, k1⟩
    · rcases get_set h2 with ⟨e2, f2⟩ | ⟨hn2, k2⟩
      · exact absurd (e1.trans e2.symm) hne
      · rw [f1]; exact hI.pair t t2 th th2 (e1 ▸ hne) ht k2 hcn hc2
    · rcases get_set h2 with ⟨e2, f2⟩ | ⟨hn2, k2⟩
      · rw [f2]; exact hI.pair t1 t th1 th (e2 ▸ hne) k1 ht hc1 hcn
      · exact hI.pair t1 t2 th1 th2 hne k1 k2 hc1 hc2
  · intro t1 th1 y h1 hc1 hcur hw1
    show upd s.mem.lock x (some t) y = some t1
    rcases get_set h1 with ⟨e1, f1⟩ | ⟨hn1, k1⟩
    · subst f1
      have : y = x := by
        have hcur' : th.cur = .delete y := hcur
        rw [hx] at hcur'; cases hcur'; rfl
      rw [this, upd_same, e1]
    · have h1' := hI.lock t1 th1 y k1 hc1 hcur hw1
      rw [upd_other]
      · exact h1'
      · intro hyx
        rw [hyx, hl0] at h1'; cases h1'
  · intro t1 th1 h1 hc1 hw1
    rcases get_set h1 with ⟨e1, f1⟩ | ⟨hn1, k1⟩
    · subst f1; exact absurd hw1 hnw
    · exact hI.waitRegs t1 th1 k1 hc1 hw1
  · intro t1 th1 h1 hc1 j
    rcases get_set h1 with ⟨e1, f1⟩ | ⟨hn1, k1⟩
    · subst f1; exact hI.regLt t th ht hcn j
    · exact hI.regLt t1 th1 k1 hc1 j
  · intro t1 t2 th1 th2 hne h1 h2 hc1 hc2 j k h
    rcases get_set h1 with ⟨e1, f1⟩ | ⟨hn1, k1⟩
    · subst f1; exact hr0 j
    · rcases get_set h2 with ⟨e2, f2⟩ | ⟨hn2, k2⟩
      · subst f2; rw [h]; exact hr0 k
      · exact hI.sep1 t1 t2 th1 th2 hne k1 k2 hc1 hc2 j k h
  · intro t1 th1 h1 hc1 y hy j h
    rcases get_set h1 with ⟨e1, f1⟩ | ⟨hn1, k1⟩
    · subst f1; exact hr0 j
    · exact hI.sep2 t1 th1 k1 hc1 y hy j h
  · intro y hy h0
    refine hI.free y (fun t' th' ht' => ?_) h0
    by_cases htt : t' = t
    · subst htt
      rw [ht, Option.some.injEq] at ht'
      subst ht'
      intro hh
      exact (holds_sub hh).2.1 hw
    · exact hy t' th' (by rw [get_set_ne htt]; exact ht')
  · intro t1 th1 h1 hc1 hw1
    rcases get_set h1 with ⟨e1, f1⟩ | ⟨hn1, k1⟩
    · subst f1
      simp only [hx, Op.objs, wp, List.mem_singleton, true_and]
      have hS : ∀ m : Mem, m.field x = 0 → Sound [x] m := by
        intro m hm y hy h0
        rw [List.mem_singleton.1 hy] at h0
        exact absurd hm h0
      split
      · rename_i h0; exact hS _ h0
      · rename_i h0
        rw [upd_same]
        intro _
        exact ⟨hsound h0, hS _ (upd_same ..)⟩
    · exact wp_frame _ (m := s.mem) ⟨fun _ _ => rfl, fun _ => Iff.rfl, fun _ _ => Iff.rfl⟩ (hI.wps t1 th1 k1 hc1 hw1)
  · intro t1 th1 h1 hc1
    rcases get_set h1 with ⟨e1, f1⟩ | ⟨hn1, k1⟩
    · subst f1; simp [Thread.shape, hx]
    · exact hI.shape t1 th1 k1 hc1

theorem good_step {s s' : St} {l : Label} (h : Good s) (hs : Step s l s') (ht : Tame s l) : Good s' := by
  cases hs with
  | start t th o rest ha hth hc htodo hcan =>
    exact ⟨h.bad, h.once, fun _ => inv_start (h.inv ha) hth hc ht.1 ht.2 _⟩
  | exec t th i c m r c' ha hth hc he =>
    have hI := h.inv ha
    have hcn : th.code ≠ [] := by rw [hc]; simp
    by_cases hw : th.waiting
    · obtain ⟨hi, hb, hd⟩ := inv_acquire hI hth hw hc he
      exact ⟨by rw [hb]; exact h.bad, fun a => by rw [hd]; exact h.once a, fun _ => hi⟩
    · have hwp := hI.wps t th hth hcn hw
      rw [hc] at hwp
      have hE := (exec_wp hwp he hI.fresh hI.pos hI.fieldLt ha).1
      refine ⟨by rw [hE.bad]; exact h.bad, fun a => ?_, fun ha' => inv_exec hI ha hth hw hc he ha'⟩
      rcases hE.destroyed a with hd | ⟨hl, hd, _⟩
      · show m.destroyed a ≤ 1
        rw [hd]; exact h.once a
      · show m.destroyed a ≤ 1
        rw [hd, hl.2.2]; exact Nat.le_refl _
  | gc x ha hm hr =>
    exact ⟨h.bad, h.once, fun _ => inv_gc (h.inv ha) _ rfl⟩

theorem good_init {s : St} (h : Initial s) : Good s := by
  refine ⟨h.good, h.once, fun _ => ?_⟩
  have hidle : ∀ {t : Nat} {th : Thread}, s.threads[t]? = some th → th.code = [] := fun ht => h.idle _ (List.mem_of_getElem? ht)
  refine ⟨h.fresh, h.pos, ?_, h.inj, ?_, ?_, ?_, ?_, ?_, ?_, fun y _ => h.owned y, ?_, ?_⟩
  · intro x
    by_cases h0 : s.mem.field x = 0
    · rw [h0]; exact h.pos
    · exact (h.owned x h0).2.1
  · intro t t' th th' _ h1 _ hc; exact absurd (hidle h1) hc
  · intro t th x h1 hc; exact absurd (hidle h1) hc
  · intro t th h1 hc; exact absurd (hidle h1) hc
  · intro t th h1 hc; exact absurd (hidle h1) hc
  · intro t t' th th' _ h1 _ hc; exact absurd (hidle h1) hc
  · intro t th h1 hc; exact absurd (hidle h1) hc
  · intro t th h1 hc; exact absurd (hidle h1) hc
  · intro t th h1 hc; exact absurd (hidle h1) hc

theorem good_run {ok : St → Label → Prop} (hok : ∀ s l, ok s l → Tame s l) {s s' : St} (h : Good s) (hr : Run ok s s') : Good s' := by
  induction hr with
  | refl => exact h
  | tail _ hs ho ih => exact good_step ih hs (hok _ _ ho)

end Flapi.JavaLife
