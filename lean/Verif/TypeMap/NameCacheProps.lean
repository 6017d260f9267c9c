import Verif.TypeMap.NameCache
import Verif.TypeMap.TyProps
/-!
# C84: the names of types are computed once per thread and stay valid
-/
namespace Flapi.NameCache

variable {K N : Type} [DecidableEq K]

/-! ## Specification -/

/-- No `exit t` in the history. -/
def Alive (t : Nat) (l : List (Op K)) : Prop := ∀ o ∈ l, o ≠ Op.exit t

/-! ## Invariant -/

/-- Boxes are numbered below `next`, an address is alive at most once; every entry of a cache is a live box with the name of its
key; the boxes of different entries (of one or of two caches) are different; a cache has every key once. -/
structure Inv (norm : K → N) (s : St K N) : Prop where
  below : ∀ c ∈ s.heap.cells, c.1 < s.heap.next
  value : ∀ t k p, (k, p) ∈ s.caches t → s.heap.read p = some (norm k)
  apart : ∀ t k u k' p, (k, p) ∈ s.caches t → (k', p) ∈ s.caches u → t = u ∧ k = k'
  once : ∀ t k p q, (k, p) ∈ s.caches t → (k, q) ∈ s.caches t → p = q

theorem read_some {h : Heap N} {p : Nat} {v : N} (hr : h.read p = some v) : ∃ c ∈ h.cells, c.1 = p := by
  unfold Heap.read at hr
  simp only [Option.map_eq_some_iff] at hr
  obtain ⟨c, hc, _⟩ := hr
  exact ⟨c, List.mem_of_find?_eq_some hc, by simpa using List.find?_some hc⟩

theorem read_alloc (h : Heap N) (v : N) (p : Nat) :
    (h.alloc v).2.read p = if p = h.next then some v else h.read p := by
  unfold Heap.alloc Heap.read
  simp only [List.find?_cons]
  by_cases e : p = h.next
  · subst e; simp
  · have : (h.next == p) = false := by simpa using fun hh => e hh.symm
    simp [this, e]

theorem read_free (h : Heap N) (p q : Nat) : (h.free q).read p = if p = q then none else h.read p := by
  unfold Heap.free Heap.read
  simp only
  induction h.cells with
  | nil => simp
  | cons c l ih =>
    by_cases hc : c.1 = q
    · have : (c.1 != q) = false := by simp [hc]
      rw [List.filter_cons_of_neg (by simp [this]), ih]
      by_cases hp : p = q
      · simp [hp]
      · have h2 : (c.1 == p) = false := by simp [hc]; exact fun h => hp h.symm
        simp [hp, List.find?_cons, h2]
    · have : (c.1 != q) = true := by simp [hc]
      rw [List.filter_cons_of_pos (by simp [this])]
      simp only [List.find?_cons]
      by_cases h2 : c.1 = p
      · subst h2; simp [hc]
      · have h3 : (c.1 == p) = false := by simpa using h2
        simp only [h3]
        exact ih

theorem free_below {h : Heap N} (hb : ∀ c ∈ h.cells, c.1 < h.next) (q : Nat) :
    ∀ c ∈ (h.free q).cells, c.1 < (h.free q).next := fun c hc => hb c (List.mem_filter.1 hc).1

theorem get_some {c : Cache K} {k : K} {p : Nat} (h : c.get k = some p) : (k, p) ∈ c := by
  unfold Cache.get at h
  simp only [Option.map_eq_some_iff] at h
  obtain ⟨⟨k', p'⟩, hf, rfl⟩ := h
  have hk := List.find?_some hf
  simp only [decide_eq_true_eq] at hk
  subst hk
  exact List.mem_of_find?_eq_some hf

theorem get_none {c : Cache K} {k : K} (h : c.get k = none) : ∀ p, (k, p) ∉ c := by
  intro p hm
  unfold Cache.get at h
  simp only [Option.map_eq_none_iff, List.find?_eq_none, decide_eq_true_eq] at h
  exact h (k, p) hm rfl

theorem start_inv (norm : K → N) : Inv norm (start : St K N) :=
  ⟨fun _ h => (by cases h), fun _ _ _ h => (by cases h), fun _ _ _ _ _ h => (by cases h), fun _ _ _ _ h => (by cases h)⟩

/-- What a call does when the name is not known yet. -/
theorem insert_new {s : St K N} {t : Nat} {ty : K} {v : N} (h : (s.caches t).get ty = none) :
    insert s t ty v = (s.heap.next, ⟨s.setCache t ((ty, s.heap.next) :: s.caches t), (s.heap.alloc v).2⟩) := by
  unfold insert
  simp only [h]
  rfl

theorem normalize_inv (norm : K → N) {s : St K N} (hi : Inv norm s) (t : Nat) (ty : K) :
    let r := normalizeType norm s t ty
    Inv norm r.2 ∧ (ty, r.1) ∈ r.2.caches t ∧ (∀ u k p, (k, p) ∈ s.caches u → (k, p) ∈ r.2.caches u) := by
  unfold normalizeType
  cases hg : (s.caches t).get ty with
  | some p => exact ⟨hi, get_some hg, fun _ _ _ h => h⟩
  | none =>
    simp only [insert_new hg]
    have hnew : ∀ u k p, (k, p) ∈ s.caches u → p ≠ s.heap.next := by
      intro u k p hm e
      obtain ⟨c, hc, h1⟩ := read_some (hi.value u k p hm)
      have := hi.below c hc
      omega
    have hmem : ∀ u k p, (k, p) ∈ s.setCache t ((ty, s.heap.next) :: s.caches t) u →
        (u = t ∧ k = ty ∧ p = s.heap.next) ∨ (k, p) ∈ s.caches u := by
      intro u k p hm
      unfold St.setCache at hm
      by_cases hu : u = t
      · rw [if_pos hu] at hm
        rcases List.mem_cons.1 hm with h | h
        · cases h; exact Or.inl ⟨hu, rfl, rfl⟩
        · rw [hu]; exact Or.inr h
      · rw [if_neg hu] at hm; exact Or.inr hm
    refine ⟨⟨?_, ?_, ?_, ?_⟩, ?_, ?_⟩
    · intro c hc
      rcases List.mem_cons.1 hc with h | h
      · subst h; exact Nat.lt_succ_self _
      · exact Nat.lt_succ_of_lt (hi.below c h)
    · intro u k p hm
      dsimp only
      rw [read_alloc]
      rcases hmem u k p hm with ⟨_, rfl, rfl⟩ | h
      · rw [if_pos rfl]
      · rw [if_neg (hnew u k p h)]; exact hi.value u k p h
    · intro u k u' k' p h1 h2
      rcases hmem _ _ _ h1 with ⟨a1, a2, a3⟩ | a <;> rcases hmem _ _ _ h2 with ⟨b1, b2, b3⟩ | b
      · exact ⟨a1.trans b1.symm, a2.trans b2.symm⟩
      · exact absurd a3 (hnew _ _ _ b)
      · exact absurd b3 (hnew _ _ _ a)
      · exact hi.apart _ _ _ _ _ a b
    · intro u k p q h1 h2
      rcases hmem _ _ _ h1 with ⟨a1, a2, a3⟩ | a <;> rcases hmem _ _ _ h2 with ⟨b1, b2, b3⟩ | b
      · exact a3.trans b3.symm
      · subst a1; subst a2; exact absurd b (get_none hg q)
      · subst b1; subst b2; exact absurd a (get_none hg p)
      · exact hi.once _ _ _ _ a b
    · simp [St.setCache]
    · intro u k p hm
      simp only [St.setCache]
      by_cases hu : u = t
      · rw [if_pos hu]; subst hu; exact List.mem_cons_of_mem _ hm
      · rw [if_neg hu]; exact hm

theorem read_freeAll (l : List (K × Nat)) (h : Heap N) (p : Nat) :
    (l.foldl (fun h e => h.free e.2) h).read p = if p ∈ l.map (·.2) then none else h.read p := by
  induction l generalizing h with
  | nil => simp
  | cons e l ih =>
    rw [List.foldl_cons, ih, read_free, List.map_cons]
    by_cases h1 : p ∈ l.map (·.2)
    · simp [h1]
    · by_cases h2 : p = e.2
      · simp [h1, h2]
      · rw [if_neg h1, if_neg h2, if_neg]
        rw [List.mem_cons]
        rintro (h | h)
        · exact h2 h
        · exact h1 h

theorem below_freeAll (l : List (K × Nat)) (h : Heap N) (hb : ∀ c ∈ h.cells, c.1 < h.next) :
    ∀ c ∈ (l.foldl (fun h e => h.free e.2) h).cells, c.1 < (l.foldl (fun h e => h.free e.2) h).next := by
  induction l generalizing h with
  | nil => exact hb
  | cons e l ih => exact ih _ (free_below hb _)

theorem exit_inv (norm : K → N) {s : St K N} (hi : Inv norm s) (t : Nat) :
    Inv norm (exitThread s t) ∧ ∀ u k p, u ≠ t → (k, p) ∈ s.caches u → (k, p) ∈ (exitThread s t).caches u := by
  have hmem : ∀ u k p, (k, p) ∈ s.setCache t [] u → u ≠ t ∧ (k, p) ∈ s.caches u := by
    intro u k p hm
    unfold St.setCache at hm
    by_cases hu : u = t
    · rw [if_pos hu] at hm; cases hm
    · rw [if_neg hu] at hm; exact ⟨hu, hm⟩
  refine ⟨⟨below_freeAll _ _ hi.below, ?_, ?_, ?_⟩, ?_⟩
  · intro u k p hm
    obtain ⟨hu, hm⟩ := hmem u k p hm
    unfold exitThread
    dsimp only
    rw [read_freeAll, if_neg]
    · exact hi.value u k p hm
    · intro hx
      obtain ⟨⟨k', p'⟩, h1, h2⟩ := List.mem_map.1 hx
      dsimp only at h2
      subst h2
      exact hu (hi.apart _ _ _ _ _ hm h1).1
  · intro u k u' k' p h1 h2
    exact hi.apart _ _ _ _ _ (hmem _ _ _ h1).2 (hmem _ _ _ h2).2
  · intro u k p q h1 h2
    exact hi.once _ _ _ _ (hmem _ _ _ h1).2 (hmem _ _ _ h2).2
  · intro u k p hu hm
    unfold exitThread St.setCache
    dsimp only
    rw [if_neg hu]
    exact hm

theorem run_inv (norm : K → N) (l : List (Op K)) : ∀ (s : St K N), Inv norm s → Inv norm (run norm s l).2 := by
  induction l with
  | nil => exact fun _ h => h
  | cons o l ih =>
    intro s hi
    refine ih _ ?_
    cases o with
    | call t ty => exact (normalize_inv norm hi t ty).1
    | exit t => exact (exit_inv norm hi t).1

theorem run_keeps (norm : K → N) (l : List (Op K)) : ∀ (s : St K N), Inv norm s → ∀ t k p, Alive t l → (k, p) ∈ s.caches t →
    (k, p) ∈ (run norm s l).2.caches t := by
  induction l with
  | nil => exact fun _ _ _ _ _ _ h => h
  | cons o l ih =>
    intro s hi t k p ha hm
    have ha' : Alive t l := fun o ho => ha o (List.mem_cons_of_mem _ ho)
    cases o with
    | call u ty =>
      have h := normalize_inv norm hi u ty
      exact ih _ h.1 t k p ha' (h.2.2 t k p hm)
    | exit u =>
      have h := exit_inv norm hi u
      refine ih _ h.1 t k p ha' (h.2 t k p ?_ hm)
      rintro rfl
      exact ha _ List.mem_cons_self rfl

theorem run_append (norm : K → N) (l l' : List (Op K)) : ∀ s : St K N,
    (run norm s (l ++ l')).2 = (run norm (run norm s l).2 l').2 ∧
    (run norm s (l ++ l')).1 = (run norm s l).1 ++ (run norm (run norm s l).2 l').1 := by
  induction l with
  | nil => exact fun s => ⟨rfl, rfl⟩
  | cons o l ih => exact fun s => ⟨(ih _).1, congrArg _ (ih _).2⟩

theorem run_length (norm : K → N) (l : List (Op K)) : ∀ s : St K N, (run norm s l).1.length = l.length := by
  induction l with
  | nil => exact fun _ => rfl
  | cons o l ih => exact fun s => congrArg Nat.succ (ih _)

/-- The reference returned by the call in the middle of a history. -/
theorem ret_at (norm : K → N) (l l' : List (Op K)) (t : Nat) (ty : K) :
    (run norm start (l ++ Op.call t ty :: l')).1[l.length]? = some (some (normalizeType norm (run norm (start : St K N) l).2 t ty).1) := by
  rw [(run_append norm l _ _).2, List.getElem?_append_right (Nat.le_of_eq (run_length norm l _)), run_length, Nat.sub_self]
  rfl

/-! ## Property theorems -/

/-- **C84**: a reference to the name of a type can be read for as long as the thread that asked for it lives, whatever this and other
threads do in the meantime (ask for names of this or other types, end), and it always reads as the name that would be
computed for the type: nothing changes or frees a name that was handed out. -/
theorem C84_stays_valid (norm : K → N) (l l' : List (Op K)) (t : Nat) (ty : K) (ha : Alive t l') :
    ∃ p, (run norm (start : St K N) (l ++ Op.call t ty :: l')).1[l.length]? = some (some p) ∧
      (run norm (start : St K N) (l ++ Op.call t ty :: l')).2.heap.read p = some (norm ty) := by
  refine ⟨_, ret_at norm l l' t ty, ?_⟩
  rw [(run_append norm l _ _).1]
  have hi := run_inv norm l _ (start_inv norm)
  have h := normalize_inv norm hi t ty
  exact (run_inv norm l' _ h.1).value t _ _ (run_keeps norm l' _ h.1 t _ _ ha h.2.1)

/-- **C84**: the name is computed once: asking again on the same thread gives the same reference. -/
theorem C84_computed_once (norm : K → N) (l l1 l2 : List (Op K)) (t : Nat) (ty : K) (ha : Alive t l1) :
    ∃ p, (run norm (start : St K N) (l ++ Op.call t ty :: (l1 ++ Op.call t ty :: l2))).1[l.length]? = some (some p) ∧
      (run norm (start : St K N) (l ++ Op.call t ty :: (l1 ++ Op.call t ty :: l2))).1[l.length + 1 + l1.length]? = some (some p) := by
  refine ⟨_, ret_at norm l _ t ty, ?_⟩
  have hi := run_inv norm l _ (start_inv (N := N) norm)
  have h := normalize_inv norm hi t ty
  have e : l ++ Op.call t ty :: (l1 ++ Op.call t ty :: l2) = (l ++ Op.call t ty :: l1) ++ Op.call t ty :: l2 := by simp
  have hr := ret_at (N := N) norm (l ++ Op.call t ty :: l1) l2 t ty
  rw [← e] at hr
  have hl : (l ++ Op.call t ty :: l1).length = l.length + 1 + l1.length := by simp; omega
  rw [hl, (run_append norm l _ _).1] at hr
  rw [hr]
  have h1 := run_keeps norm l1 _ h.1 t _ _ ha h.2.1
  have hi1 := run_inv norm l1 _ h.1
  have h2 := normalize_inv norm hi1 t ty
  exact congrArg (fun x => some (some x)) (h2.1.once t ty _ _ h2.2.1 (h2.2.2 _ _ _ h1))

/-- **C84**: so the names of two types, asked for by a thread at any two moments of any history, are the same text exactly if the
computed names are the same. -/
theorem C84_compare (norm : K → N) (l l1 l2 : List (Op K)) (t : Nat) (a b : K) (h1 : Alive t l1) (h2 : Alive t l2) :
    let r := run norm (start : St K N) (l ++ Op.call t a :: (l1 ++ Op.call t b :: l2))
    ∃ p q, r.1[l.length]? = some (some p) ∧ r.1[l.length + 1 + l1.length]? = some (some q) ∧
      (r.2.heap.read p = r.2.heap.read q ↔ norm a = norm b) := by
  intro r
  have ha : Alive t (l1 ++ Op.call t b :: l2) := by
    intro o ho
    rcases List.mem_append.1 ho with h | h
    · exact h1 o h
    · rcases List.mem_cons.1 h with h | h
      · subst h; exact fun e => by cases e
      · exact h2 o h
  have e : l ++ Op.call t a :: (l1 ++ Op.call t b :: l2) = (l ++ Op.call t a :: l1) ++ Op.call t b :: l2 := by simp
  obtain ⟨p, p1, p2⟩ := C84_stays_valid (N := N) norm l _ t a ha
  obtain ⟨q, q1, q2⟩ := C84_stays_valid (N := N) norm (l ++ Op.call t a :: l1) l2 t b h2
  rw [← e] at q1 q2
  have hl : (l ++ Op.call t a :: l1).length = l.length + 1 + l1.length := by simp; omega
  rw [hl] at q1
  refine ⟨p, q, p1, q1, ?_⟩
  show (run norm start _).2.heap.read p = (run norm start _).2.heap.read q ↔ _
  rw [p2, q2]
  exact ⟨fun h => Option.some.inj h, congrArg some⟩

/-- **C84**: with C18: whatever was asked before and is asked in between and after, the names a thread gets for two types without trait bounds
are the same exactly if the types differ in lifetimes only. -/
theorem C84_types (l l1 l2 : List (Op Ast.Ty)) (t : Nat) (a b : Ast.Ty) (h1 : Alive t l1) (h2 : Alive t l2) (ha : a.plain) (hb : b.plain) :
    let r := run Ast.Ty.normName start (l ++ Op.call t a :: (l1 ++ Op.call t b :: l2))
    ∃ p q, r.1[l.length]? = some (some p) ∧ r.1[l.length + 1 + l1.length]? = some (some q) ∧
      (r.2.heap.read p = r.2.heap.read q ↔ Ast.Same a b) := by
  intro r
  obtain ⟨p, q, e1, e2, e3⟩ := C84_compare Ast.Ty.normName l l1 l2 t a b h1 h2
  exact ⟨p, q, e1, e2, e3.trans (Ast.C18_name_iff ha hb)⟩

/-- FINDING.  The references are typed `&'static str` but do not live that long: every name a thread has asked for is freed when the
thread ends. -/
theorem C84_finding_thread_end (norm : K → N) (l : List (Op K)) (t : Nat) (ty : K) :
    ∃ p, (run norm (start : St K N) (l ++ [Op.call t ty, Op.exit t])).1[l.length]? = some (some p) ∧
      (run norm (start : St K N) (l ++ [Op.call t ty, Op.exit t])).2.heap.read p = none := by
  refine ⟨_, ret_at norm l _ t ty, ?_⟩
  rw [(run_append norm l _ _).1]
  have hi := run_inv norm l _ (start_inv (N := N) norm)
  have h := normalize_inv norm hi t ty
  show (exitThread _ t).heap.read _ = none
  unfold exitThread
  dsimp only
  rw [read_freeAll, if_pos]
  exact List.mem_map.2 ⟨_, h.2.1, rfl⟩

/-! Non-vacuity: two threads, one of which ends. -/
example : (run (fun k : Nat => k + 100) start [.call 0 1, .call 1 1, .call 0 2, .exit 1, .call 0 1]).1 =
    [some 0, some 1, some 2, none, some 0] := by decide
example : ((run (fun k : Nat => k + 100) start [.call 0 1, .call 1 1, .call 0 2, .exit 1, .call 0 1]).2.heap.read 0,
    (run (fun k : Nat => k + 100) start [.call 0 1, .call 1 1, .call 0 2, .exit 1, .call 0 1]).2.heap.read 1) = (some 101, none) := by decide

end Flapi.NameCache
