import Verif.TypeMap.Threads
/-! # Threads that call exported functions at the same time (C87) -/
namespace Flapi.Threads
open Flapi.Pointers

/-! ## Specification -/

/-- The function uses only the contents of these mutexes. -/
def Prog.Within {V : Type} (L : List Nat) : Prog V → Prop
  | .done _ => True
  | .access m _ k => m ∈ L ∧ ∀ v, (k v).Within L

/-- The function run alone. -/
def Prog.run {V : Type} : Prog V → (Nat → V) → (Nat → V) × V
  | .done r, σ => (σ, r)
  | .access m w k, σ => (k (σ m)).run (put σ m (w (σ m)))

/-- The call is one a thread may make: its arguments are converted by the rules of the include files, only mutexes are taken on
the way, and the Rust function uses the objects it got. -/
structure Call.Ok {V : Type} (c : Call V) : Prop where
  good : ∀ a ∈ c.args, a.Good
  locks : ∀ rs, needs c.args = some rs → ∀ r ∈ rs, r.2 = .lock
  within : c.body.Within c.locks

/-- The calls, one after the other: from the store `σ` they lead to the store `σ'`, with the results listed. -/
inductive Sequential {V : Type} : (Nat → V) → List (Nat × Call V × V) → (Nat → V) → Prop
  | nil (σ : Nat → V) : Sequential σ [] σ
  | snoc {σ σ' : Nat → V} {l : List (Nat × Call V × V)} (h : Sequential σ l σ') (i : Nat) (c : Call V) :
      Sequential σ (l ++ [(i, c, (c.body.run σ').2)]) (c.body.run σ').1

/-- The thread is inside the Rust function of `c`. -/
def Thread.Runs {V : Type} (t : Thread V) (c : Call V) : Prop := ∃ held p, t.phase = .running c held p

/-- The call the thread is making and that did not return yet. -/
def Thread.current {V : Type} (t : Thread V) : List (Call V) :=
  match t.phase with
  | .taking c _ _ => [c]
  | .running c _ _ => [c]
  | _ => []

/-- The thread made all its calls. -/
def Thread.Finished {V : Type} (t : Thread V) : Prop := t.todo = [] ∧ t.phase = .idle

/-- All threads did. -/
def Sys.Finished {V : Type} (s : Sys V) : Prop := ∀ t ∈ s.threads, t.Finished

/-- The mutexes are locked in the order of `rank`. -/
def Call.Ordered {V : Type} (rank : Nat → Nat) (c : Call V) : Prop := c.locks.Pairwise fun a b => rank a < rank b

/-! ## Lemmas -/

theorem put_same {V : Type} (σ : Nat → V) (m : Nat) (v : V) : put σ m v m = v := by simp [put]
theorem put_other {V : Type} (σ : Nat → V) {m x : Nat} (v : V) (h : x ≠ m) : put σ m v x = σ x := by simp [put, h]

/-- Stores that agree on what a function uses. -/
theorem run_frame {V : Type} (L : List Nat) : ∀ (p : Prog V) (σ τ : Nat → V), p.Within L → (∀ m ∈ L, σ m = τ m) →
    (p.run σ).2 = (p.run τ).2 ∧ ∀ m ∈ L, (p.run σ).1 m = (p.run τ).1 m
  | .done r, σ, τ, _, h => ⟨rfl, h⟩
  | .access m w k, σ, τ, hw, h => by
    have hm := h m hw.1
    simp only [Prog.run]
    rw [hm]
    refine run_frame L (k (τ m)) _ _ (hw.2 _) ?_
    intro x hx
    by_cases e : x = m
    · subst e; rw [put_same, put_same]
    · rw [put_other _ _ e, put_other _ _ e]; exact h x hx

/-- A function leaves alone what it does not use. -/
theorem run_outside {V : Type} (L : List Nat) : ∀ (p : Prog V) (σ : Nat → V), p.Within L → ∀ m, m ∉ L → (p.run σ).1 m = σ m
  | .done r, σ, _, m, _ => rfl
  | .access n w k, σ, hw, m, hm => by
    simp only [Prog.run]
    rw [run_outside L (k (σ n)) _ (hw.2 _) m hm, put_other]
    intro e
    exact hm (e ▸ hw.1)

/-- What holds of every thread. -/
def ThreadOk {V : Type} (t : Thread V) : Prop :=
  (∀ c ∈ t.todo, c.Ok) ∧
  match t.phase with
  | .idle => True
  | .taking c held rest => c.Ok ∧ held ++ rest = c.locks
  | .running c held p => c.Ok ∧ held = c.locks ∧ p.Within c.locks
  | .leaving _ => True

theorem tstep_ok {V : Type} {free : Nat → Prop} {σ σ' : Nat → V} {t t' : Thread V} {ev : Option (Call V × V)}
    (h : TStep free σ t σ' t' ev) (ok : ThreadOk t) : ThreadOk t' := by
  cases h with
  | start c l => exact ⟨fun x hx => ok.1 x (List.mem_cons_of_mem _ hx), ok.1 c (List.mem_cons_self ..), by simp⟩
  | take c l held rest m h => exact ⟨ok.1, ok.2.1, by have := ok.2.2; simpa using this⟩
  | enter c l held => exact ⟨ok.1, ok.2.1, by have := ok.2.2; simpa using this, ok.2.1.within⟩
  | access c l held m w k => exact ⟨ok.1, ok.2.1, ok.2.2.1, ok.2.2.2.2 _⟩
  | ret c l held r => exact ⟨ok.1, trivial⟩
  | release l held m => exact ⟨ok.1, trivial⟩
  | leave l => exact ⟨ok.1, trivial⟩

/-- No mutex is held twice. -/
def Excl {V : Type} (ts : List (Thread V)) : Prop :=
  ∀ (i j : Nat) (t u : Thread V), ts[i]? = some t → ts[j]? = some u → i ≠ j → ∀ m, m ∈ t.held → m ∉ u.held

theorem tstep_held {V : Type} {free : Nat → Prop} {σ σ' : Nat → V} {t t' : Thread V} {ev : Option (Call V × V)}
    (h : TStep free σ t σ' t' ev) : ∀ m ∈ t'.held, m ∈ t.held ∨ free m := by
  cases h with
  | start c l => simp [Thread.held]
  | take c l held rest m h =>
    intro x hx
    simp only [Thread.held, List.mem_append, List.mem_singleton] at hx ⊢
    rcases hx with hx | rfl
    · exact Or.inl hx
    · exact Or.inr h
  | enter c l held => exact fun m hm => Or.inl hm
  | access c l held m w k => exact fun m hm => Or.inl hm
  | ret c l held r => exact fun m hm => Or.inl hm
  | release l held m => exact fun x hx => Or.inl (List.mem_append_left _ hx)
  | leave l => simp [Thread.held]

theorem get_set {α} {l : List α} {i j : Nat} {x y : α} (h : (l.set i x)[j]? = some y) : (j = i ∧ y = x) ∨ (j ≠ i ∧ l[j]? = some y) := by
  by_cases e : i = j
  · subst e
    rw [List.getElem?_set_self'] at h
    left
    refine ⟨rfl, ?_⟩
    cases hl : l[i]? with
    | none => rw [hl] at h; simp at h
    | some z => rw [hl] at h; simpa using h.symm
  · rw [List.getElem?_set_ne e] at h
    exact Or.inr ⟨fun e' => e e'.symm, h⟩

theorem step_excl {V : Type} {s s' : Sys V} (h : Step s s') (ex : Excl s.threads) : Excl s'.threads := by
  cases h with
  | mk i t t' σ' ev hi h =>
    intro a b x y ha hb hab m hm hm'
    dsimp only at ha hb
    have hh := tstep_held h
    rcases get_set ha with ⟨rfl, rfl⟩ | ⟨ha1, ha2⟩
    · rcases get_set hb with ⟨rfl, rfl⟩ | ⟨hb1, hb2⟩
      · exact hab rfl
      · rcases hh m hm with h1 | h1
        · exact ex _ _ _ _ hi hb2 (fun e => hab e) m h1 hm'
        · exact h1 y (List.mem_of_getElem? hb2) hm'
    · rcases get_set hb with ⟨rfl, rfl⟩ | ⟨hb1, hb2⟩
      · rcases hh m hm' with h1 | h1
        · exact ex _ _ _ _ ha2 hi (fun e => hab e) m hm h1
        · exact h1 x (List.mem_of_getElem? ha2) hm
      · exact ex _ _ _ _ ha2 hb2 hab m hm hm'

/-- How far the running functions are, compared with the calls run one after the other. -/
structure Agrees {V : Type} (ts : List (Thread V)) (σ τ : Nat → V) : Prop where
  rest : ∀ m, (∀ t ∈ ts, ∀ c held p, t.phase = .running c held p → m ∉ held) → σ m = τ m
  run : ∀ t ∈ ts, ∀ c held p, t.phase = .running c held p →
    (p.run σ).2 = (c.body.run τ).2 ∧ ∀ m ∈ held, (p.run σ).1 m = (c.body.run τ).1 m

/-- The invariant. -/
structure Inv {V : Type} (σ0 : Nat → V) (s : Sys V) : Prop where
  ok : ∀ t ∈ s.threads, ThreadOk t
  excl : Excl s.threads
  seq : ∃ τ, Sequential σ0 s.log τ ∧ Agrees s.threads s.store τ

theorem mem_set_of {α} {l : List α} {i : Nat} {x y : α} (h : y ∈ l.set i x) : y = x ∨ ∃ j, j ≠ i ∧ l[j]? = some y := by
  obtain ⟨j, hj⟩ := List.getElem?_of_mem h
  rcases get_set hj with ⟨_, e⟩ | ⟨e1, e2⟩
  · exact Or.inl e
  · exact Or.inr ⟨j, e1, e2⟩

theorem mem_set_self {α} {l : List α} {i : Nat} {x t : α} (h : l[i]? = some t) : x ∈ l.set i x := by
  have hlt : i < l.length := by
    rcases Nat.lt_or_ge i l.length with h' | h'
    · exact h'
    · rw [List.getElem?_eq_none h'] at h; cases h
  exact List.mem_iff_getElem?.2 ⟨i, by rw [List.getElem?_set_self hlt]⟩

theorem mem_set_other {α} {l : List α} {i j : Nat} {x y : α} (h : l[j]? = some y) (hne : j ≠ i) : y ∈ l.set i x :=
  List.mem_iff_getElem?.2 ⟨j, by rw [List.getElem?_set_ne (fun e => hne e.symm)]; exact h⟩

/-- A step of a thread that is not running before or after and does not touch the store. -/
theorem agrees_quiet {V : Type} {ts : List (Thread V)} {σ τ : Nat → V} {i : Nat} {t t' : Thread V} (ag : Agrees ts σ τ)
    (hi : ts[i]? = some t) (h1 : ∀ c held p, t.phase ≠ .running c held p) (h2 : ∀ c held p, t'.phase ≠ .running c held p) :
    Agrees (ts.set i t') σ τ := by
  constructor
  · intro m hm
    refine ag.rest m fun u hu c held p hp => ?_
    obtain ⟨j, hj⟩ := List.getElem?_of_mem hu
    by_cases e : j = i
    · subst e
      rw [hi] at hj
      cases hj
      exact absurd hp (h1 c held p)
    · exact hm u (mem_set_other hj e) c held p hp
  · intro u hu c held p hp
    rcases mem_set_of hu with rfl | ⟨j, _, hj⟩
    · exact absurd hp (h2 c held p)
    · exact ag.run u (List.mem_of_getElem? hj) c held p hp

theorem step_inv {V : Type} {σ0 : Nat → V} {s s' : Sys V} (h : Step s s') (inv : Inv σ0 s) : Inv σ0 s' := by
  have ex' := step_excl h inv.excl
  cases h with
  | mk i t t' σ' ev hi h =>
    have okt := inv.ok t (List.mem_of_getElem? hi)
    have okt' := tstep_ok h okt
    refine ⟨?_, ex', ?_⟩
    · intro u hu
      rcases mem_set_of hu with rfl | ⟨j, _, hj⟩
      · exact okt'
      · exact inv.ok u (List.mem_of_getElem? hj)
    · obtain ⟨τ, hs, ag⟩ := inv.seq
      have hother : ∀ (u : Thread V) (j : Nat), j ≠ i → s.threads[j]? = some u → ∀ c held p, u.phase = .running c held p → ∀ m ∈ t.held, m ∉ held := by
        intro u j hji hj c held p hp m hm hm'
        refine inv.excl i j t u hi hj (fun e => hji e.symm) m hm ?_
        simp only [Thread.held, hp]
        exact hm'
      have hwith : ∀ (u : Thread V) (j : Nat), s.threads[j]? = some u → ∀ c held p, u.phase = .running c held p → p.Within held ∧ c.body.Within held := by
        intro u j hj c held p hp
        have := inv.ok u (List.mem_of_getElem? hj)
        simp only [ThreadOk, hp] at this
        rw [this.2.2.1]
        exact ⟨this.2.2.2, this.2.1.within⟩
      cases h with
      | start c l =>
        refine ⟨τ, by simpa using hs, agrees_quiet ag hi (by simp) (by simp)⟩
      | take c l held rest m h =>
        refine ⟨τ, by simpa using hs, agrees_quiet ag hi (by simp) (by simp)⟩
      | release l held m =>
        refine ⟨τ, by simpa using hs, agrees_quiet ag hi (by simp) (by simp)⟩
      | leave l =>
        refine ⟨τ, by simpa using hs, agrees_quiet ag hi (by simp) (by simp)⟩
      | enter c l held =>
        refine ⟨τ, by simpa using hs, ?_, ?_⟩
        · intro m hm
          refine ag.rest m fun u hu c' held' p hp => ?_
          obtain ⟨j, hj⟩ := List.getElem?_of_mem hu
          by_cases e : j = i
          · subst e
            rw [hi] at hj
            cases hj
            cases hp
          · exact hm u (mem_set_other hj e) c' held' p hp
        · intro u hu c' held' p hp
          rcases mem_set_of hu with rfl | ⟨j, _, hj⟩
          · simp only [Phase.running.injEq] at hp
            obtain ⟨rfl, rfl, rfl⟩ := hp
            have hl : held = c.locks := by have := okt.2.2; simpa using this
            refine run_frame held c.body _ _ (hl ▸ okt.2.1.within) ?_
            intro m hm
            refine ag.rest m fun u hu c' held' p hp => ?_
            obtain ⟨j, hj⟩ := List.getElem?_of_mem hu
            by_cases e : j = i
            · subst e
              rw [hi] at hj
              cases hj
              cases hp
            · exact hother u j e hj c' held' p hp m hm
          · exact ag.run u (List.mem_of_getElem? hj) c' held' p hp
      | access c l held m w k =>
        have hmem : m ∈ held := by
          have := okt.2
          dsimp only at this
          rw [this.2.1]
          exact this.2.2.1
        refine ⟨τ, by simpa using hs, ?_, ?_⟩
        · intro x hx
          have hne : x ≠ m := by
            rintro rfl
            exact hx _ (mem_set_self hi) c held _ rfl hmem
          refine (put_other _ _ hne).trans ?_
          refine ag.rest x fun u hu c' held' p hp => ?_
          obtain ⟨j, hj⟩ := List.getElem?_of_mem hu
          by_cases e : j = i
          · subst e
            rw [hi] at hj
            cases hj
            simp only [Phase.running.injEq] at hp
            rw [← hp.2.1]
            exact hx _ (mem_set_self hi) c held _ rfl
          · exact hx u (mem_set_other hj e) c' held' p hp
        · intro u hu c' held' p hp
          rcases mem_set_of hu with rfl | ⟨j, hji, hj⟩
          · simp only [Phase.running.injEq] at hp
            obtain ⟨rfl, rfl, rfl⟩ := hp
            exact ag.run _ (List.mem_of_getElem? hi) c held _ rfl
          · have := ag.run u (List.mem_of_getElem? hj) c' held' p hp
            have hd := hother u j hji hj c' held' p hp m (by simpa [Thread.held] using hmem)
            obtain ⟨f1, f2⟩ := run_frame held' p (put s.store m (w (s.store m))) s.store (hwith u j hj c' held' p hp).1 (by
              intro x hx
              exact put_other _ _ (fun e => hd (e ▸ hx)))
            exact ⟨f1.trans this.1, fun x hx => (f2 x hx).trans (this.2 x hx)⟩
      | ret c l held r =>
        have hrun := ag.run _ (List.mem_of_getElem? hi) c held _ rfl
        simp only [Prog.run] at hrun
        have hl : held = c.locks := okt.2.2.1
        have hw : c.body.Within held := hl ▸ okt.2.1.within
        refine ⟨(c.body.run τ).1, ?_, ?_, ?_⟩
        · have := Sequential.snoc hs i c
          rw [← hrun.1] at this
          simpa using this
        · intro m hm
          by_cases hmh : m ∈ held
          · exact hrun.2 m hmh
          · rw [run_outside held c.body τ hw m hmh]
            refine ag.rest m fun u hu c' held' p hp => ?_
            obtain ⟨j, hj⟩ := List.getElem?_of_mem hu
            by_cases e : j = i
            · subst e
              rw [hi] at hj
              cases hj
              simp only [Phase.running.injEq] at hp
              rw [← hp.2.1]
              exact hmh
            · exact hm u (mem_set_other hj e) c' held' p hp
        · intro u hu c' held' p hp
          rcases mem_set_of hu with rfl | ⟨j, hji, hj⟩
          · cases hp
          · have hd : ∀ x ∈ held', x ∉ held := fun x hx hx' =>
              hother u j hji hj c' held' p hp x (by simpa [Thread.held] using hx') hx
            obtain ⟨f1, f2⟩ := run_frame held' c'.body (c.body.run τ).1 τ (hwith u j hj c' held' p hp).2 (by
              intro x hx
              exact run_outside held c.body τ hw x (hd x hx))
            have := ag.run u (List.mem_of_getElem? hj) c' held' p hp
            exact ⟨this.1.trans f1.symm, fun x hx => (this.2 x hx).trans (f2 x hx).symm⟩

theorem initial_inv {V : Type} {calls : List (List (Call V))} (hc : ∀ l ∈ calls, ∀ c ∈ l, c.Ok) (σ : Nat → V) : Inv σ (initial calls σ) := by
  have hm : ∀ t ∈ (initial calls σ).threads, ∃ l ∈ calls, t = ⟨l, .idle⟩ := by
    intro t ht
    obtain ⟨l, hl, rfl⟩ := List.mem_map.1 ht
    exact ⟨l, hl, rfl⟩
  refine ⟨?_, ?_, σ, .nil σ, ?_, ?_⟩
  · intro t ht
    obtain ⟨l, hl, rfl⟩ := hm t ht
    exact ⟨hc l hl, trivial⟩
  · intro i j t u hi hj _ m hmt
    obtain ⟨l, _, rfl⟩ := hm t (List.mem_of_getElem? hi)
    simp [Thread.held] at hmt
  · intro m _
    rfl
  · intro t ht c held p hp
    obtain ⟨l, _, rfl⟩ := hm t ht
    cases hp

theorem reach_inv {V : Type} {calls : List (List (Call V))} (hc : ∀ l ∈ calls, ∀ c ∈ l, c.Ok) {σ : Nat → V} {s : Sys V}
    (h : Reach (initial calls σ) s) : Inv σ s := by
  induction h with
  | refl => exact initial_inv hc σ
  | step _ h' ih => exact step_inv h' ih

/-! ## Theorems -/

/-- **C87**: two threads are never at the same time in Rust functions that got the same object protected by a mutex. -/
theorem C87_exclusion {V : Type} (calls : List (List (Call V))) (hc : ∀ l ∈ calls, ∀ c ∈ l, c.Ok) (σ : Nat → V) (s : Sys V)
    (h : Reach (initial calls σ) s) (i j : Nat) (t u : Thread V) (c d : Call V) (hi : s.threads[i]? = some t) (hj : s.threads[j]? = some u)
    (hij : i ≠ j) (ht : t.Runs c) (hu : u.Runs d) : ∀ m ∈ c.locks, m ∉ d.locks := by
  have inv := reach_inv hc h
  obtain ⟨held, p, hp⟩ := ht
  obtain ⟨held', p', hp'⟩ := hu
  have o1 := inv.ok t (List.mem_of_getElem? hi)
  have o2 := inv.ok u (List.mem_of_getElem? hj)
  simp only [ThreadOk, hp] at o1
  simp only [ThreadOk, hp'] at o2
  intro m hm hm'
  refine inv.excl i j t u hi hj hij m ?_ ?_
  · simp only [Thread.held, hp]
    rw [o1.2.2.1]
    exact hm
  · simp only [Thread.held, hp']
    rw [o2.2.2.1]
    exact hm'

/-- **C87**: whatever the scheduler does, when no Rust function is running the contents of the objects and the results of all calls are those
of the calls made one after the other, in the order in which they returned; and while some are running, this holds of all objects they did
not get. -/
theorem C87_sequential {V : Type} (calls : List (List (Call V))) (hc : ∀ l ∈ calls, ∀ c ∈ l, c.Ok) (σ : Nat → V) (s : Sys V)
    (h : Reach (initial calls σ) s) :
    ∃ τ, Sequential σ s.log τ ∧ ∀ m, (∀ t ∈ s.threads, ∀ c, t.Runs c → m ∉ c.locks) → s.store m = τ m := by
  have inv := reach_inv hc h
  obtain ⟨τ, hs, ag⟩ := inv.seq
  refine ⟨τ, hs, fun m hm => ag.rest m fun t ht c held p hp => ?_⟩
  have o1 := inv.ok t ht
  simp only [ThreadOk, hp] at o1
  rw [o1.2.2.1]
  exact hm t ht c ⟨held, p, hp⟩

theorem needs_append : ∀ (as bs : List Arg) (r s : List (Nat × Mode)), needs as = some r → needs bs = some s → needs (as ++ bs) = some (r ++ s)
  | [], bs, r, s, h, h' => by
    simp only [needs, Option.some.injEq] at h
    subst h
    simpa using h'
  | a :: as, bs, r, s, h, h' => by
    simp only [needs, Option.bind_eq_some_iff, Option.map_eq_some_iff] at h
    obtain ⟨x, hx, y, hy, rfl⟩ := h
    simp only [List.cons_append, needs, hx, Option.bind_some, needs_append as bs y s hy h', Option.map_some, List.append_assoc]

/-- **C87**: a call of a method locks the objects it gets as arguments, in the order of the arguments, and then the object it is called on. -/
theorem C87_lock_order {V : Type} (this : Arg) (args : List Arg) (body : Prog V) (hg : ∀ a ∈ this :: args, a.Good) :
    ∃ rs r, needs args = some rs ∧ needs [this] = some r ∧ (methodCall this args body).locks = rs.map (·.1) ++ r.map (·.1) := by
  obtain ⟨rs, hrs⟩ := needs_good args fun a ha => hg a (List.mem_cons_of_mem _ ha)
  obtain ⟨r, hr⟩ := needs_good [this] fun a ha => hg a (by rw [List.mem_singleton.1 ha]; exact List.mem_cons_self ..)
  refine ⟨rs, r, hrs, hr, ?_⟩
  unfold Call.locks methodCall
  rw [needs_append args [this] rs r hrs hr]
  simp

/-- The calls of thread `i` that returned. -/
def returned {V : Type} (log : List (Nat × Call V × V)) (i : Nat) : List (Call V) := (log.filter fun e => e.1 == i).map fun e => e.2.1

theorem returned_append {V : Type} (l l' : List (Nat × Call V × V)) (i : Nat) : returned (l ++ l') i = returned l i ++ returned l' i := by
  simp [returned]

theorem tstep_calls {V : Type} {free : Nat → Prop} {σ σ' : Nat → V} {t t' : Thread V} {ev : Option (Call V × V)}
    (h : TStep free σ t σ' t' ev) : t.current ++ t.todo = (ev.map (·.1)).toList ++ (t'.current ++ t'.todo) := by
  cases h <;> simp [Thread.current]

theorem step_length {V : Type} {s s' : Sys V} (h : Step s s') : s'.threads.length = s.threads.length := by
  cases h
  simp

/-- **C87**: no call is lost, repeated or reordered: at any time the calls of a thread that returned, the one it is making and those it will
make are the calls it was given. -/
theorem C87_calls_in_order {V : Type} (calls : List (List (Call V))) (σ : Nat → V) (s : Sys V) (h : Reach (initial calls σ) s) (i : Nat)
    (t : Thread V) (hi : s.threads[i]? = some t) : ∃ l, calls[i]? = some l ∧ returned s.log i ++ t.current ++ t.todo = l := by
  induction h generalizing t with
  | refl =>
    simp only [initial, List.getElem?_map, Option.map_eq_some_iff] at hi
    obtain ⟨l, hl, rfl⟩ := hi
    exact ⟨l, hl, by simp [returned, initial, Thread.current]⟩
  | step h0 h' ih =>
    cases h' with
    | mk k u u' σ' ev hk hu =>
      rw [returned_append]
      rcases get_set hi with ⟨rfl, rfl⟩ | ⟨hne, hi'⟩
      · obtain ⟨l, hl, e⟩ := ih u hk
        refine ⟨l, hl, ?_⟩
        have hc := tstep_calls hu
        rw [← e]
        simp only [List.append_assoc] at hc ⊢
        rw [hc]
        congr 1
        cases ev <;> simp [returned]
      · obtain ⟨l, hl, e⟩ := ih t hi'
        refine ⟨l, hl, ?_⟩
        rw [← e]
        have : returned ((ev.map fun e => (k, e)).toList) i = [] := by
          cases ev with
          | none => rfl
          | some e => simp [returned]; exact fun e' => hne e'.symm
        rw [this]
        simp

/-- **C87**: the order of the calls is that of real time: the calls that returned stay where they are, calls that return later come after
them. -/
theorem C87_real_time {V : Type} (s s' : Sys V) (h : Reach s s') : s.log <+: s'.log := by
  induction h with
  | refl => exact List.prefix_refl _
  | step _ h' ih =>
    cases h' with
    | mk k u u' σ' ev hk hu => exact ih.trans (List.prefix_append _ _)

/-! ### Deadlocks -/

/-- The locks a thread in the conversions has and wants are ordered, and so are those of the calls to come. -/
def ThreadRank {V : Type} (rank : Nat → Nat) (t : Thread V) : Prop :=
  (∀ c ∈ t.todo, c.Ordered rank) ∧ ∀ c held rest, t.phase = .taking c held rest → (held ++ rest).Pairwise fun a b => rank a < rank b

theorem tstep_rank {V : Type} {rank : Nat → Nat} {free : Nat → Prop} {σ σ' : Nat → V} {t t' : Thread V} {ev : Option (Call V × V)}
    (h : TStep free σ t σ' t' ev) (ok : ThreadRank rank t) : ThreadRank rank t' := by
  cases h with
  | start c l =>
    refine ⟨fun x hx => ok.1 x (List.mem_cons_of_mem _ hx), ?_⟩
    intro c' held rest e
    simp only [Phase.taking.injEq] at e
    obtain ⟨rfl, rfl, rfl⟩ := e
    exact ok.1 c (List.mem_cons_self ..)
  | take c l held rest m h =>
    refine ⟨ok.1, ?_⟩
    intro c' held' rest' e
    simp only [Phase.taking.injEq] at e
    obtain ⟨rfl, rfl, rfl⟩ := e
    have := ok.2 _ _ _ rfl
    simpa using this
  | enter c l held => exact ⟨ok.1, by simp⟩
  | access c l held m w k => exact ⟨ok.1, by simp⟩
  | ret c l held r => exact ⟨ok.1, by simp⟩
  | release l held m => exact ⟨ok.1, by simp⟩
  | leave l => exact ⟨ok.1, by simp⟩

theorem reach_rank {V : Type} {rank : Nat → Nat} {calls : List (List (Call V))} (hc : ∀ l ∈ calls, ∀ c ∈ l, c.Ordered rank) {σ : Nat → V}
    {s : Sys V} (h : Reach (initial calls σ) s) : ∀ t ∈ s.threads, ThreadRank rank t := by
  induction h with
  | refl =>
    intro t ht
    obtain ⟨l, hl, rfl⟩ := List.mem_map.1 ht
    exact ⟨hc l hl, by simp⟩
  | step _ h' ih =>
    cases h' with
    | mk k u u' σ' ev hk hu =>
      intro t ht
      rcases mem_set_of ht with rfl | ⟨j, _, hj⟩
      · exact tstep_rank hu (ih u (List.mem_of_getElem? hk))
      · exact ih t (List.mem_of_getElem? hj)

/-- The thread waits for `m`. -/
def Thread.Waits {V : Type} (t : Thread V) (m : Nat) : Prop := ∃ c held rest, t.phase = .taking c held (m :: rest)

/-- A thread can go on, or it made all its calls, or it waits for a mutex that is not free. -/
theorem thread_cases {V : Type} {s : Sys V} {i : Nat} {t : Thread V} (hi : s.threads[i]? = some t) :
    (∃ s', Step s s') ∨ t.Finished ∨ ∃ m, t.Waits m ∧ ∃ u ∈ s.threads, m ∈ u.held := by
  obtain ⟨todo, phase⟩ := t
  cases phase with
  | idle =>
    cases todo with
    | nil => exact Or.inr (Or.inl ⟨rfl, rfl⟩)
    | cons c l => exact Or.inl ⟨_, .mk i _ _ _ _ hi (.start c l)⟩
  | taking c held rest =>
    cases rest with
    | nil => exact Or.inl ⟨_, .mk i _ _ _ _ hi (.enter c todo held)⟩
    | cons m rest =>
      by_cases hf : s.free m
      · exact Or.inl ⟨_, .mk i _ _ _ _ hi (.take c todo held rest m hf)⟩
      · right; right
        simp only [Sys.free, Classical.not_forall, Classical.not_not] at hf
        obtain ⟨u, hu, hm⟩ := hf
        exact ⟨m, ⟨c, held, rest, rfl⟩, u, hu, hm⟩
  | running c held p =>
    cases p with
    | done r => exact Or.inl ⟨_, .mk i _ _ _ _ hi (.ret c todo held r)⟩
    | access m w k => exact Or.inl ⟨_, .mk i _ _ _ _ hi (.access c todo held m w k)⟩
  | leaving held =>
    rcases List.eq_nil_or_concat held with rfl | ⟨h, m, rfl⟩
    · exact Or.inl ⟨_, .mk i _ _ _ _ hi (.leave todo)⟩
    · exact Or.inl ⟨_, .mk i _ _ _ _ hi (by rw [List.concat_eq_append]; exact .release todo h m)⟩

/-- The rank of what a thread waits for. -/
def wanted {V : Type} (rank : Nat → Nat) (t : Thread V) : Nat :=
  match t.phase with
  | .taking _ _ (m :: _) => rank m
  | _ => 0

theorem wanted_le {V : Type} (rank : Nat → Nat) (ts : List (Thread V)) : ∃ B, ∀ t ∈ ts, wanted rank t ≤ B := by
  induction ts with
  | nil => exact ⟨0, by simp⟩
  | cons t l ih =>
    obtain ⟨B, hB⟩ := ih
    refine ⟨wanted rank t + B, ?_⟩
    intro u hu
    rcases List.mem_cons.1 hu with rfl | hu
    · omega
    · have := hB u hu
      omega

/-- **C87**: if all calls lock their mutexes in one common order, the threads never block each other for ever: as long as a thread did not
make all its calls, some thread can go on. -/
theorem C87_no_deadlock {V : Type} (rank : Nat → Nat) (calls : List (List (Call V))) (hc : ∀ l ∈ calls, ∀ c ∈ l, c.Ordered rank) (σ : Nat → V)
    (s : Sys V) (h : Reach (initial calls σ) s) (hn : ¬ s.Finished) : ∃ s', Step s s' := by
  have hr := reach_rank hc h
  rcases Classical.em (∃ s', Step s s') with hy | hno
  · exact hy
  · exfalso
    obtain ⟨B, hB⟩ := wanted_le rank s.threads
    have climb : ∀ n, ∀ t ∈ s.threads, ∀ m, t.Waits m → B - rank m = n → False := by
      intro n
      induction n using Nat.strongRecOn with
      | ind n ih =>
        intro t ht m hw hnm
        obtain ⟨i, hi⟩ := List.getElem?_of_mem ht
        have hle : rank m ≤ B := by
          obtain ⟨c, held, rest, e⟩ := hw
          have := hB t ht
          simpa [wanted, e] using this
        obtain ⟨m0, hw0, u, hu, hmu⟩ : ∃ m0, t.Waits m0 ∧ ∃ u ∈ s.threads, m0 ∈ u.held := by
          rcases thread_cases hi with h1 | h1 | h1
          · exact absurd h1 hno
          · obtain ⟨c, held, rest, e⟩ := hw
            rw [h1.2] at e
            cases e
          · exact h1
        have hmm : m0 = m := by
          obtain ⟨c, held, rest, e⟩ := hw
          obtain ⟨c', held', rest', e'⟩ := hw0
          rw [e] at e'
          simp only [Phase.taking.injEq, List.cons.injEq] at e'
          exact e'.2.2.1.symm
        subst hmm
        obtain ⟨j, hj⟩ := List.getElem?_of_mem hu
        rcases thread_cases hj with h1 | h1 | ⟨m1, hw1, _⟩
        · exact hno h1
        · simp only [Thread.held, h1.2] at hmu
          cases hmu
        · have hw1' := hw1
          obtain ⟨c, held, rest, e⟩ := hw1
          have hp := (hr u hu).2 c held _ e
          have hlt : rank m0 < rank m1 := by
            simp only [Thread.held, e] at hmu
            exact (List.pairwise_append.1 hp).2.2 m0 hmu m1 (List.mem_cons_self ..)
          have hle1 : rank m1 ≤ B := by
            have := hB u hu
            simpa [wanted, e] using this
          exact ih (B - rank m1) (by omega) u hu m1 hw1' rfl
    have hex : ∃ t ∈ s.threads, ¬ t.Finished := by
      simp only [Sys.Finished, Classical.not_forall] at hn
      obtain ⟨t, ht, hf⟩ := hn
      exact ⟨t, ht, hf⟩
    obtain ⟨t, ht, hf⟩ := hex
    obtain ⟨i, hi⟩ := List.getElem?_of_mem ht
    rcases thread_cases hi with h1 | h1 | ⟨m, hw, _⟩
    · exact hno h1
    · exact hf h1
    · exact climb _ t ht m hw rfl

/-- **C87**: so there is no deadlock if every call gets at most one such object. -/
theorem C87_one_object {V : Type} (calls : List (List (Call V))) (hc : ∀ l ∈ calls, ∀ c ∈ l, c.locks.length ≤ 1) (σ : Nat → V)
    (s : Sys V) (h : Reach (initial calls σ) s) (hn : ¬ s.Finished) : ∃ s', Step s s' := by
  refine C87_no_deadlock id calls ?_ σ s h hn
  intro l hl c hcl
  have := hc l hl c hcl
  unfold Call.Ordered
  cases hk : c.locks with
  | nil => exact .nil
  | cons m r =>
    cases r with
    | nil => simp
    | cons m' r => rw [hk] at this; simp at this

/-! ### Termination -/

/-- A step of a thread, whatever the others do. -/
def TAny {V : Type} (t' t : Thread V) : Prop := ∃ free σ σ' ev, TStep free σ t σ' t' ev

theorem acc_thread {V : Type} : ∀ (l : List (Call V)) (ph : Phase V), Acc TAny (⟨l, ph⟩ : Thread V) := by
  intro l
  induction l with
  | nil =>
    have hidle : Acc TAny (⟨[], .idle⟩ : Thread V) := ⟨_, fun t' ⟨_, _, _, _, h⟩ => by cases h⟩
    exact acc_phase [] hidle
  | cons c l ih =>
    have hidle : Acc TAny (⟨c :: l, .idle⟩ : Thread V) := ⟨_, fun t' ⟨_, _, _, _, h⟩ => by
      cases h with
      | start c l => exact ih _⟩
    exact acc_phase (c :: l) hidle
where
  acc_phase {V : Type} (l : List (Call V)) (hidle : Acc TAny (⟨l, .idle⟩ : Thread V)) (ph : Phase V) : Acc TAny (⟨l, ph⟩ : Thread V) := by
    have hleave : ∀ n, ∀ held : List Nat, held.length = n → Acc TAny (⟨l, .leaving held⟩ : Thread V) := by
      intro n
      induction n with
      | zero =>
        intro held hl
        refine ⟨_, fun t' ⟨_, _, _, _, h⟩ => ?_⟩
        generalize hq : (⟨l, .leaving held⟩ : Thread V) = q at h
        cases h with
        | release l' held' m =>
          simp only [Thread.mk.injEq, Phase.leaving.injEq] at hq
          rw [hq.2] at hl
          simp at hl
        | leave l' =>
          simp only [Thread.mk.injEq] at hq
          rw [← hq.1]
          exact hidle
        | _ => simp at hq
      | succ n ih =>
        intro held hl
        refine ⟨_, fun t' ⟨_, _, _, _, h⟩ => ?_⟩
        generalize hq : (⟨l, .leaving held⟩ : Thread V) = q at h
        cases h with
        | release l' held' m =>
          simp only [Thread.mk.injEq, Phase.leaving.injEq] at hq
          rw [hq.2] at hl
          rw [← hq.1]
          exact ih held' (by simpa using hl)
        | leave l' =>
          simp only [Thread.mk.injEq] at hq
          rw [← hq.1]
          exact hidle
        | _ => simp at hq
    have hrun : ∀ (p : Prog V) (c : Call V) (held : List Nat), Acc TAny (⟨l, .running c held p⟩ : Thread V) := by
      intro p
      induction p with
      | done r =>
        intro c held
        refine ⟨_, fun t' ⟨_, _, _, _, h⟩ => ?_⟩
        cases h with
        | ret => exact hleave _ held rfl
      | access m w k ih =>
        intro c held
        refine ⟨_, fun t' ⟨_, _, _, _, h⟩ => ?_⟩
        cases h with
        | access => exact ih _ c held
    have htake : ∀ (rest : List Nat) (c : Call V) (held : List Nat), Acc TAny (⟨l, .taking c held rest⟩ : Thread V) := by
      intro rest
      induction rest with
      | nil =>
        intro c held
        refine ⟨_, fun t' ⟨_, _, _, _, h⟩ => ?_⟩
        cases h with
        | enter => exact hrun _ c held
      | cons m rest ih =>
        intro c held
        refine ⟨_, fun t' ⟨_, _, _, _, h⟩ => ?_⟩
        cases h with
        | take => exact ih c _
    cases ph with
    | idle => exact hidle
    | taking c held rest => exact htake rest c held
    | running c held p => exact hrun p c held
    | leaving held => exact hleave _ held rfl

/-- One element of the list makes a step. -/
def OneSmaller {V : Type} (ts' ts : List (Thread V)) : Prop := ∃ i t t', ts[i]? = some t ∧ TAny t' t ∧ ts' = ts.set i t'

theorem acc_cons {V : Type} (t : Thread V) (ht : Acc TAny t) : ∀ ts : List (Thread V), Acc OneSmaller ts → Acc OneSmaller (t :: ts) := by
  induction ht with
  | intro t _ iht =>
    intro ts hts
    induction hts with
    | intro ts hts' ihts =>
      refine ⟨_, ?_⟩
      rintro ts' ⟨i, u, u', hi, hu, rfl⟩
      cases i with
      | zero =>
        simp only [List.getElem?_cons_zero, Option.some.injEq] at hi
        subst hi
        exact iht u' hu ts ⟨_, hts'⟩
      | succ i => exact ihts _ ⟨i, u, u', by simpa using hi, hu, rfl⟩

theorem acc_list {V : Type} : ∀ ts : List (Thread V), Acc OneSmaller ts
  | [] => ⟨_, by rintro ts' ⟨i, u, u', hi, _⟩; simp at hi⟩
  | t :: ts => acc_cons t (acc_thread t.todo t.phase) ts (acc_list ts)

/-- **C87**: there is no infinite schedule: the threads make finitely many steps, whatever the scheduler does. -/
theorem C87_terminates {V : Type} (s : Sys V) : Acc (fun a b => Step b a) s := by
  have : ∀ ts : List (Thread V), Acc OneSmaller ts → ∀ s : Sys V, s.threads = ts → Acc (fun a b => Step b a) s := by
    intro ts h
    induction h with
    | intro ts _ ih =>
      intro s hs
      refine ⟨_, ?_⟩
      intro s' hstep
      cases hstep with
      | mk i t t' σ' ev hi h =>
        exact ih _ ⟨i, t, t', hs ▸ hi, ⟨_, _, _, _, h⟩, by rw [← hs]⟩ _ rfl
  exact this _ (acc_list s.threads) s rfl

/-- **C87**: so if all calls lock in one common order, every schedule leads to the end of all calls: one that cannot be continued has served
them all, and none is infinite; and the calls that returned are then all calls. -/
theorem C87_all_served {V : Type} (rank : Nat → Nat) (calls : List (List (Call V))) (hc : ∀ l ∈ calls, ∀ c ∈ l, c.Ordered rank) (σ : Nat → V)
    (s : Sys V) (h : Reach (initial calls σ) s) :
    (∃ s', Reach s s' ∧ s'.Finished) ∧
    ((∀ s', ¬ Step s s') → ∀ i l, calls[i]? = some l → returned s.log i = l) := by
  constructor
  · have hacc := C87_terminates s
    induction hacc with
    | intro s _ ih =>
      by_cases hf : s.Finished
      · exact ⟨s, .refl, hf⟩
      · obtain ⟨s', hs'⟩ := C87_no_deadlock rank calls hc σ s h hf
        obtain ⟨s2, h2, f2⟩ := ih s' hs' (.step h hs')
        refine ⟨s2, ?_, f2⟩
        clear f2 ih
        induction h2 with
        | refl => exact .step .refl hs'
        | step _ h3 ih3 => exact .step ih3 h3
  · intro hno i l hl
    have hf : s.Finished := by
      rcases Classical.em s.Finished with hf | hf
      · exact hf
      · obtain ⟨s', hs'⟩ := C87_no_deadlock rank calls hc σ s h hf
        exact absurd hs' (hno s')
    have hlen : s.threads.length = calls.length := by
      clear hno hf hl
      induction h with
      | refl => simp [initial]
      | step _ h' ih => rw [step_length h', ih]
    have hlt : i < s.threads.length := by
      rw [hlen]
      rcases Nat.lt_or_ge i calls.length with h' | h'
      · exact h'
      · rw [List.getElem?_eq_none h'] at hl; cases hl
    have hi : s.threads[i]? = some s.threads[i] := List.getElem?_eq_getElem hlt
    obtain ⟨l', hl', e⟩ := C87_calls_in_order calls σ s h i _ hi
    rw [hl] at hl'
    have hfi := hf _ (List.mem_of_getElem? hi)
    rw [Option.some.inj hl', ← e, hfi.1]
    simp [Thread.current, hfi.2]

/-! ## Findings and examples -/

/-- A shared object behind mutex `m`, used as `&mut T`. -/
def sharedArg (m : Nat) : Arg := ⟨.wrap .arc (.wrap (.mutex m) (.obj m)), [.deref false, .lock, .deref true]⟩

/-- Something that adds the content of one object to another. -/
def addTo (a b : Nat) : Prog Nat := .access b id fun v => .access a (· + v) fun w => .done (w + v)

/-- `this.add(other)` -/
def addCall (this other : Nat) : Call Nat := methodCall (sharedArg this) [sharedArg other] (addTo this other)

theorem addCall_locks (this other : Nat) : (addCall this other).locks = [other, this] := rfl

theorem addCall_ok (this other : Nat) : (addCall this other).Ok := by
  have hk : (PVal.obj 0).HasTy (.path none false (.cons ['X'] .none .nil)) := by
    refine ⟨by simp, ?_⟩
    rintro k x ⟨q, l, e⟩
    simp at e
  have hty : ∀ m, (PVal.wrap .arc (.wrap (.mutex m) (.obj m))).HasTy (wrap "Arc".toList (wrap "Mutex".toList (.path none false (.cons ['X'] .none .nil)))) :=
    fun m => ⟨_, ⟨_, _, rfl⟩, _, ⟨_, _, rfl⟩, hk⟩
  have hg : ∀ m, (sharedArg m).Good := fun m =>
    ⟨_, _, hty m, .cons (.arcMutex _ _ _ ⟨_, _, rfl⟩ ⟨_, _, rfl⟩) (.cons (.lock none _ _ ⟨_, _, rfl⟩) (.cons (.guard true _ _ ⟨_, _, rfl⟩) (.nil _)))⟩
  refine ⟨?_, ?_, ?_⟩
  · intro a ha
    simp only [addCall, methodCall, List.cons_append, List.nil_append, List.mem_cons, List.not_mem_nil, or_false] at ha
    rcases ha with rfl | rfl
    · exact hg _
    · exact hg _
  · intro rs hrs r hr
    have : needs (addCall this other).args = some [(other, .lock), (this, .lock)] := rfl
    rw [this] at hrs
    rw [← Option.some.inj hrs] at hr
    simp only [List.mem_cons, List.not_mem_nil, or_false] at hr
    rcases hr with rfl | rfl <;> rfl
  · rw [addCall_locks]
    exact ⟨by simp, fun v => ⟨by simp, fun w => trivial⟩⟩

/-- **C87 (finding)**: the object of a method is locked after the arguments, so two threads that call `a.f(b)` and `b.f(a)` at the same time
can block each other for ever. -/
theorem C87_finding_opposite_orders (a b : Nat) (hab : a ≠ b) (σ : Nat → Nat) :
    ∃ s, Reach (initial [[addCall a b], [addCall b a]] σ) s ∧ ¬ s.Finished ∧ ∀ s', ¬ Step s s' := by
  let s1 : Sys Nat := ⟨[⟨[], .taking (addCall a b) [] [b, a]⟩, ⟨[addCall b a], .idle⟩], σ, []⟩
  let s2 : Sys Nat := ⟨[⟨[], .taking (addCall a b) [b] [a]⟩, ⟨[addCall b a], .idle⟩], σ, []⟩
  let s3 : Sys Nat := ⟨[⟨[], .taking (addCall a b) [b] [a]⟩, ⟨[], .taking (addCall b a) [] [a, b]⟩], σ, []⟩
  let s4 : Sys Nat := ⟨[⟨[], .taking (addCall a b) [b] [a]⟩, ⟨[], .taking (addCall b a) [a] [b]⟩], σ, []⟩
  have h1 : Step (initial [[addCall a b], [addCall b a]] σ) s1 := .mk 0 _ _ _ _ rfl (.start (addCall a b) [])
  have h2 : Step s1 s2 := .mk 0 _ _ _ _ rfl (.take (addCall a b) [] [] [a] b (by intro t ht; simp [s1] at ht; rcases ht with rfl | rfl <;> simp [Thread.held]))
  have h3 : Step s2 s3 := .mk 1 _ _ _ _ rfl (.start (addCall b a) [])
  have h4 : Step s3 s4 := .mk 1 _ _ _ _ rfl (.take (addCall b a) [] [] [b] a (by
    intro t ht; simp [s3] at ht; rcases ht with rfl | rfl <;> simp [Thread.held, hab]))
  refine ⟨s4, .step (.step (.step (.step .refl h1) h2) h3) h4, ?_, ?_⟩
  · intro hf
    have := (hf _ (List.mem_cons_self ..)).2
    cases this
  · intro s' hs
    cases hs with
    | mk i t t' σ' ev hi h =>
      match i, hi with
      | 0, hi =>
        cases Option.some.inj hi
        cases h with
        | take c l held rest m hf => exact hf ⟨[], .taking (addCall b a) [a] [b]⟩ (by simp [s4]) (by simp [Thread.held])
      | 1, hi =>
        cases Option.some.inj hi
        cases h with
        | take c l held rest m hf => exact hf ⟨[], .taking (addCall a b) [b] [a]⟩ (by simp [s4]) (by simp [Thread.held])

/-- **C87 (finding)**: a call that gets the same object twice never returns, even without other threads. -/
theorem C87_finding_same_object (a : Nat) (σ : Nat → Nat) (s : Sys Nat) (h : Reach (initial [[addCall a a]] σ) s) : s.log = [] := by
  have : s.log = [] ∧ (s.threads = [⟨[addCall a a], .idle⟩] ∨ s.threads = [⟨[], .taking (addCall a a) [] [a, a]⟩] ∨
      s.threads = [⟨[], .taking (addCall a a) [a] [a]⟩]) := by
    induction h with
    | refl => exact ⟨rfl, Or.inl rfl⟩
    | step _ h' ih =>
      obtain ⟨hl, hts⟩ := ih
      cases h' with
      | mk i t t' σ' ev hi h =>
        have hi0 : i = 0 := by
          rcases i with _ | i
          · rfl
          · rcases hts with e | e | e <;> (rw [e] at hi; simp at hi)
        subst hi0
        rcases hts with e | e | e
        · rw [e] at hi
          cases Option.some.inj hi
          cases h with
          | start c l => exact ⟨by simp [hl], Or.inr (Or.inl (by rw [e]; rfl))⟩
        · rw [e] at hi
          cases Option.some.inj hi
          cases h with
          | take c l held rest m hf => exact ⟨by simp [hl], Or.inr (Or.inr (by rw [e]; rfl))⟩
        · rw [e] at hi
          cases Option.some.inj hi
          cases h with
          | take c l held rest m hf => exact absurd (by simp [Thread.held]) (hf ⟨[], .taking (addCall a a) [a] [a]⟩ (by rw [e]; simp))
  exact this.1

/-- A method like `fn name(&self) -> &str`: it looks at its object and returns a view of it, here the number of the mutex behind which the text
lives.  The exported function turns the view into an address and a length (macroslib/src/cpp/cpp-include.rs:133-141, 386-388) and then releases the lock. -/
def viewCall (this : Nat) : Call Nat := methodCall (sharedArg this) [] (.access this id fun _ => .done this)

/-- A method that changes its object. -/
def changeCall (this : Nat) : Call Nat := methodCall (sharedArg this) [] (.access this (· + 1) fun v => .done v)

/-- **C87 (finding)**: a view (`&str`) returned by a method of a mutex-protected object outlives the lock: one thread has got its view of the
object and holds no lock, and at the same moment another thread is in a Rust function about to change that very object. -/
theorem C87_finding_view (a : Nat) (σ : Nat → Nat) :
    ∃ s, Reach (initial [[viewCall a], [changeCall a]] σ) s ∧ (0, viewCall a, a) ∈ s.log ∧
      (∃ t, s.threads[0]? = some t ∧ t.held = []) ∧
      ∃ t k, s.threads[1]? = some t ∧ t.Runs (changeCall a) ∧ t.phase = .running (changeCall a) [a] (.access a (· + 1) k) := by
  let w : List (Call Nat) := [changeCall a]
  let s1 : Sys Nat := ⟨[⟨[], .taking (viewCall a) [] [a]⟩, ⟨w, .idle⟩], σ, []⟩
  let s2 : Sys Nat := ⟨[⟨[], .taking (viewCall a) [a] []⟩, ⟨w, .idle⟩], σ, []⟩
  let s3 : Sys Nat := ⟨[⟨[], .running (viewCall a) [a] (viewCall a).body⟩, ⟨w, .idle⟩], σ, []⟩
  let s4 : Sys Nat := ⟨[⟨[], .running (viewCall a) [a] (.done a)⟩, ⟨w, .idle⟩], put σ a (id (σ a)), []⟩
  let s5 : Sys Nat := ⟨[⟨[], .leaving [a]⟩, ⟨w, .idle⟩], s4.store, [(0, viewCall a, a)]⟩
  let s6 : Sys Nat := ⟨[⟨[], .leaving []⟩, ⟨w, .idle⟩], s4.store, [(0, viewCall a, a)]⟩
  let s7 : Sys Nat := ⟨[⟨[], .idle⟩, ⟨w, .idle⟩], s4.store, [(0, viewCall a, a)]⟩
  let s8 : Sys Nat := ⟨[⟨[], .idle⟩, ⟨[], .taking (changeCall a) [] [a]⟩], s4.store, [(0, viewCall a, a)]⟩
  let s9 : Sys Nat := ⟨[⟨[], .idle⟩, ⟨[], .taking (changeCall a) [a] []⟩], s4.store, [(0, viewCall a, a)]⟩
  let s10 : Sys Nat := ⟨[⟨[], .idle⟩, ⟨[], .running (changeCall a) [a] (changeCall a).body⟩], s4.store, [(0, viewCall a, a)]⟩
  have h1 : Step (initial [[viewCall a], [changeCall a]] σ) s1 := .mk 0 _ _ _ _ rfl (.start (viewCall a) [])
  have h2 : Step s1 s2 := .mk 0 _ _ _ _ rfl (.take (viewCall a) [] [] [] a (by
    intro t ht; simp [s1] at ht; rcases ht with rfl | rfl <;> simp [Thread.held]))
  have h3 : Step s2 s3 := .mk 0 _ _ _ _ rfl (.enter (viewCall a) [] [a])
  have h4 : Step s3 s4 := .mk 0 _ _ _ _ rfl (.access (viewCall a) [] [a] a id fun _ => .done a)
  have h5 : Step s4 s5 := .mk 0 _ _ _ _ rfl (.ret (viewCall a) [] [a] a)
  have h6 : Step s5 s6 := .mk 0 _ _ _ _ rfl (.release [] [] a)
  have h7 : Step s6 s7 := .mk 0 _ _ _ _ rfl (.leave [])
  have h8 : Step s7 s8 := .mk 1 _ _ _ _ rfl (.start (changeCall a) [])
  have h9 : Step s8 s9 := .mk 1 _ _ _ _ rfl (.take (changeCall a) [] [] [] a (by
    intro t ht; simp [s8] at ht; rcases ht with rfl | rfl <;> simp [Thread.held]))
  have h10 : Step s9 s10 := .mk 1 _ _ _ _ rfl (.enter (changeCall a) [] [a])
  refine ⟨s10, .step (.step (.step (.step (.step (.step (.step (.step (.step (.step .refl h1) h2) h3) h4) h5) h6) h7) h8) h9) h10, ?_, ?_, ?_⟩
  · simp [s10]
  · exact ⟨_, rfl, rfl⟩
  · exact ⟨_, _, rfl, ⟨_, _, rfl⟩, rfl⟩

/-- The hypotheses can be met: two threads that lock in the same order. -/
example : ∀ l ∈ [[addCall 2 1, addCall 3 2], [addCall 2 1]], ∀ c ∈ l, c.Ok ∧ c.Ordered id := by
  intro l hl c hc
  simp only [List.mem_cons, List.not_mem_nil, or_false] at hl
  rcases hl with rfl | rfl <;> simp only [List.mem_cons, List.not_mem_nil, or_false] at hc
  · rcases hc with rfl | rfl
    · exact ⟨addCall_ok _ _, by simp [Call.Ordered, addCall_locks]⟩
    · exact ⟨addCall_ok _ _, by simp [Call.Ordered, addCall_locks]⟩
  · subst hc
    exact ⟨addCall_ok _ _, by simp [Call.Ordered, addCall_locks]⟩

/-- The results of the calls one after the other. -/
example : ((addTo 2 1).run fun m => 10 * m).2 = 30 ∧ ((addTo 2 1).run fun m => 10 * m).1 2 = 30 ∧ ((addTo 2 1).run fun m => 10 * m).1 1 = 10 := by
  decide

end Flapi.Threads
