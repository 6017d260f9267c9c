import Verif.Core.Aliasing
/-!
# When the references made by exported functions respect Rust's aliasing rules (C89)
-/
namespace Flapi.Aliasing

/-! ## Specification -/

/-- An argument may come after one that gave a reference of this kind to the same object: both only read, and the new one is made without an exclusive reference in
between. -/
def After (p : Perm) (v : Via) : Prop := p = .shared ∧ v = .plain

/-- What a call gets does not clash: whenever the same object is used twice, the first use was a copy, or both are plain shared references. -/
def Compatible (vs : List (Nat × Via)) : Prop := vs.Pairwise fun a b => a.1 = b.1 → ∀ p, a.2.gives = some p → After p b.2

/-- What a call gets does not clash with what running functions have. -/
def Fits (l : List Ref) (vs : List (Nat × Via)) : Prop := ∀ r ∈ l, ∀ v ∈ vs, r.obj = v.1 → After r.perm v.2

/-- What the Rust function that is called receives: which objects, and for what. -/
def received (c : Call) : List (Nat × Perm) := c.uses.filterMap fun v => v.2.gives.map fun p => (v.1, p)

/-- No call of the history clashes with itself, nor with what the functions that run at that time have; `fs`: what these have, innermost first. -/
def Clean : List (List (Nat × Perm)) → List Op → Prop
  | _, [] => True
  | fs, .enter c :: os => (∀ f ∈ fs, ∀ r ∈ f, ∀ v ∈ c.uses, r.1 = v.1 → After r.2 v.2) ∧ Compatible c.uses ∧ Clean (received c :: fs) os
  | fs, .use _ :: os => Clean fs os
  | fs, .leave :: os => Clean (fs.drop 1) os

/-- The history can be reached without undefined behaviour. -/
def Reached (s : Sys) : Prop := ∃ os, run initial os = some s

/-! ## Lemmas: the stack of one object -/

/-- Tags are different and not used up. -/
structure WF (m : Mem) : Prop where
  fresh : ∀ o, ∀ i ∈ m.stacks o, i.tag < m.next
  nodup : ∀ o, ((m.stacks o).map (·.tag)).Nodup

/-- The reference may be used still. -/
def Alive (m : Mem) (r : Ref) : Prop := ⟨r.tag, r.perm⟩ ∈ m.stacks r.obj

theorem held_iff {l : List Ref} {o : Nat} {i : Item} : held l o i = true ↔ ∃ r ∈ l, r.obj = o ∧ r.tag = i.tag := by
  simp [held, List.any_eq_true]

theorem nodup_tag {st : Stack} (h : (st.map (·.tag)).Nodup) {i j : Item} (hi : i ∈ st) (hj : j ∈ st) (e : i.tag = j.tag) : i = j := by
  induction st with
  | nil => cases hi
  | cons a st ih =>
    have h' := List.nodup_cons.1 (show (a.tag :: st.map (·.tag)).Nodup from h)
    rcases List.mem_cons.1 hi with e1 | h1
    · rcases List.mem_cons.1 hj with e2 | h2
      · rw [e1, e2]
      · exact absurd (List.mem_map.2 ⟨j, h2, (by rw [← e, e1])⟩) h'.1
    · rcases List.mem_cons.1 hj with e2 | h2
      · exact absurd (List.mem_map.2 ⟨i, h1, (by rw [e, e2])⟩) h'.1
      · exact ih h'.2 h1 h2

theorem splitAt_some {st : Stack} {t : Item} {a b : Stack} (h : splitAt st t = some (a, b)) : st = a ++ t :: b := by
  induction st generalizing a with
  | nil => cases h
  | cons j st ih =>
    unfold splitAt at h
    by_cases hj : j = t
    · rw [if_pos hj] at h
      cases h
      rw [hj]; rfl
    · rw [if_neg hj] at h
      obtain ⟨x, hx, e⟩ := Option.map_eq_some_iff.1 h
      obtain ⟨xa, xb⟩ := x
      cases e
      rw [ih hx]; rfl

theorem splitAt_mem {st : Stack} {t : Item} (h : t ∈ st) : ∃ a b, splitAt st t = some (a, b) := by
  induction st with
  | nil => cases h
  | cons j st ih =>
    unfold splitAt
    by_cases hj : j = t
    · rw [if_pos hj]; exact ⟨_, _, rfl⟩
    · rw [if_neg hj]
      rcases List.mem_cons.1 h with e | h
      · exact absurd e.symm hj
      · obtain ⟨a, b, e⟩ := ih h
        rw [e]; exact ⟨_, _, rfl⟩

/-- What running functions received is still there, and exclusive references are alone. -/
structure Inv (l : List Ref) (m : Mem) : Prop where
  wf : WF m
  alive : ∀ r ∈ l, Alive m r
  alone : ∀ r ∈ l, ∀ q ∈ l, r.obj = q.obj → r = q ∨ (r.perm = .shared ∧ q.perm = .shared)

/-- Items that running functions received are the ones of their references. -/
theorem Inv.item {l : List Ref} {m : Mem} (h : Inv l m) {o : Nat} {i : Item} (hi : i ∈ m.stacks o) (hh : held l o i = true) :
    ∃ r ∈ l, r.obj = o ∧ r.tag = i.tag ∧ r.perm = i.perm := by
  obtain ⟨r, hr, e1, e2⟩ := held_iff.1 hh
  have ha := h.alive r hr
  unfold Alive at ha
  rw [e1] at ha
  have := nodup_tag (h.wf.nodup o) ha hi e2
  exact ⟨r, hr, e1, e2, by rw [← this]⟩

theorem Mem.set_same (m : Mem) (o : Nat) (st : Stack) : (m.set o st).stacks o = st := by simp [Mem.set]
theorem Mem.set_other (m : Mem) {o x : Nat} (st : Stack) (h : x ≠ o) : (m.set o st).stacks x = m.stacks x := by simp [Mem.set, h]

theorem readRaw_some {l : List Ref} {o : Nat} {st st' : Stack} (h : readRaw l o st = some st') :
    st' = st.filter (·.perm = .shared) ∧ ∀ i ∈ st, i.perm = .unique → held l o i = false := by
  unfold readRaw at h
  split at h
  · cases h
  · rename_i hn
    refine ⟨(Option.some.inj h).symm, fun i hi hp => ?_⟩
    cases hh : held l o i with
    | false => rfl
    | true => exact absurd (List.any_eq_true.2 ⟨i, List.mem_filter.2 ⟨hi, by simp [hp]⟩, hh⟩) hn

theorem writeRaw_some {l : List Ref} {o : Nat} {st st' : Stack} (h : writeRaw l o st = some st') : st' = [] ∧ ∀ i ∈ st, held l o i = false := by
  unfold writeRaw at h
  split at h
  · cases h
  · rename_i hn
    refine ⟨(Option.some.inj h).symm, fun i hi => ?_⟩
    cases hh : held l o i with
    | false => rfl
    | true => exact absurd (List.any_eq_true.2 ⟨i, hi, hh⟩) hn

/-- Which references are left after making one. -/
theorem make_spec {l : List Ref} {m m' : Mem} {o : Nat} {v : Via} {r : Option Ref} (hw : WF m) (h : make l m o v = some (m', r)) :
    WF m' ∧ m.next ≤ m'.next ∧ (r.map fun r => (r.obj, r.perm)) = v.gives.map (fun p => (o, p)) ∧
    (∀ q, r = some q → Alive m' q ∧ m.next ≤ q.tag ∧ q.tag < m'.next) ∧
    ∀ q : Ref, q.tag < m.next → (Alive m' q ↔ Alive m q ∧ (q.obj = o → After q.perm v)) := by
  have other : ∀ (st : Stack) (n : Nat) (q : Ref), q.obj ≠ o → (Alive { m.set o st with next := n } q ↔ Alive m q) := by
    intro st n q hq
    unfold Alive
    show _ ∈ (m.set o st).stacks q.obj ↔ _
    rw [Mem.set_other m st hq]
  have wf : ∀ (st : Stack) (n : Nat), m.next ≤ n → (∀ i ∈ st, i.tag < n) → (st.map (·.tag)).Nodup → WF { m.set o st with next := n } := by
    intro st n hn h1 h2
    constructor
    · intro x i hi
      by_cases hx : x = o
      · subst hx
        rw [show ({ m.set x st with next := n } : Mem).stacks x = st from Mem.set_same ..] at hi
        exact h1 i hi
      · rw [show ({ m.set o st with next := n } : Mem).stacks x = m.stacks x from Mem.set_other _ _ hx] at hi
        exact Nat.lt_of_lt_of_le (hw.fresh x i hi) hn
    · intro x
      by_cases hx : x = o
      · subst hx
        rw [show ({ m.set x st with next := n } : Mem).stacks x = st from Mem.set_same ..]
        exact h2
      · rw [show ({ m.set o st with next := n } : Mem).stacks x = m.stacks x from Mem.set_other _ _ hx]
        exact hw.nodup x
  have same : ∀ (st : Stack) (n : Nat) (q : Ref), q.obj = o → (Alive { m.set o st with next := n } q ↔ (⟨q.tag, q.perm⟩ : Item) ∈ st) := by
    intro st n q hq
    unfold Alive
    show _ ∈ (m.set o st).stacks q.obj ↔ _
    rw [hq, Mem.set_same]
  cases v with
  | plain =>
    simp only [make] at h
    obtain ⟨st, hst, e⟩ := Option.map_eq_some_iff.1 h
    obtain ⟨rfl, _⟩ := readRaw_some hst
    cases e
    have hsub : ∀ i ∈ (m.stacks o).filter (·.perm = .shared), i ∈ m.stacks o := fun i hi => (List.mem_filter.1 hi).1
    refine ⟨wf _ _ (by omega) ?_ ?_, by simp, rfl, ?_, ?_⟩
    · intro i hi
      rcases List.mem_cons.1 hi with rfl | hi
      · exact Nat.lt_succ_self _
      · exact Nat.lt_succ_of_lt (hw.fresh o i (hsub i hi))
    · rw [List.map_cons, List.nodup_cons]
      refine ⟨?_, ((hw.nodup o).sublist (List.Sublist.map _ List.filter_sublist))⟩
      intro hmem
      obtain ⟨i, hi, e⟩ := List.mem_map.1 hmem
      have := hw.fresh o i (hsub i hi)
      simp only at e
      omega
    · intro q hq
      cases hq
      exact ⟨(same _ _ _ rfl).2 (List.mem_cons_self ..), Nat.le_refl _, Nat.lt_succ_self _⟩
    · intro q hq
      by_cases ho : q.obj = o
      · rw [same _ _ q ho]
        simp only [List.mem_cons, List.mem_filter, Alive, ho, After]
        constructor
        · rintro (h1 | ⟨h1, h2⟩)
          · have := congrArg Item.tag h1; simp only at this; omega
          · exact ⟨h1, fun _ => ⟨by simpa using h2, trivial⟩⟩
        · rintro ⟨h1, h2⟩
          exact Or.inr ⟨h1, by simpa using (h2 trivial).1⟩
      · rw [other _ _ q ho]
        simp [ho]
  | mutRef =>
    simp only [make] at h
    obtain ⟨st, hst, e⟩ := Option.map_eq_some_iff.1 h
    obtain ⟨rfl, _⟩ := writeRaw_some hst
    cases e
    refine ⟨wf _ _ (by omega) (by simp) (by simp), by simp, rfl, ?_, ?_⟩
    · intro q hq
      cases hq
      exact ⟨(same _ _ _ rfl).2 (List.mem_cons_self ..), Nat.le_refl _, Nat.lt_succ_self _⟩
    · intro q hq
      by_cases ho : q.obj = o
      · rw [same _ _ q ho]
        simp only [List.mem_singleton, Alive, ho, After]
        constructor
        · intro h1; have := congrArg Item.tag h1; simp only at this; omega
        · rintro ⟨_, h2⟩; exact absurd (h2 trivial).2 (by decide)
      · rw [other _ _ q ho]
        simp [ho]
  | viaMut =>
    simp only [make] at h
    obtain ⟨st, hst, e⟩ := Option.map_eq_some_iff.1 h
    obtain ⟨rfl, _⟩ := writeRaw_some hst
    cases e
    refine ⟨wf _ _ (by omega) (by simp) (by simp), by simp, rfl, ?_, ?_⟩
    · intro q hq
      cases hq
      exact ⟨(same _ _ _ rfl).2 (List.mem_cons_self ..), Nat.le_succ _, Nat.lt_succ_self _⟩
    · intro q hq
      by_cases ho : q.obj = o
      · rw [same _ _ q ho]
        simp only [List.mem_cons, List.not_mem_nil, or_false, Alive, ho, After]
        constructor
        · rintro (h1 | h1) <;> (have := congrArg Item.tag h1; simp only at this; omega)
        · rintro ⟨_, h2⟩; exact absurd (h2 trivial).2 (by decide)
      · rw [other _ _ q ho]
        simp [ho]
  | copy =>
    simp only [make] at h
    obtain ⟨st, hst, e⟩ := Option.map_eq_some_iff.1 h
    obtain ⟨rfl, _⟩ := writeRaw_some hst
    cases e
    refine ⟨wf _ _ (by omega) (by simp) (by simp), by simp, rfl, (fun q hq => by cases hq), ?_⟩
    intro q hq
    by_cases ho : q.obj = o
    · rw [same _ _ q ho]
      simp only [List.mem_singleton, Alive, ho, After]
      constructor
      · intro h1; have := congrArg Item.tag h1; simp only at this; omega
      · rintro ⟨_, h2⟩; exact absurd (h2 trivial).2 (by decide)
    · rw [other _ _ q ho]
      simp [ho]

/-- When a reference can be made. -/
theorem make_defined {l : List Ref} {m : Mem} (hI : Inv l m) (o : Nat) (v : Via) :
    (∃ x, make l m o v = some x) ↔ ∀ r ∈ l, r.obj = o → After r.perm v := by
  constructor
  · rintro ⟨x, h⟩ r hr ho
    obtain ⟨m', q⟩ := x
    have ha := hI.alive r hr
    unfold Alive at ha
    rw [ho] at ha
    have hheld : held l o ⟨r.tag, r.perm⟩ = true := held_iff.2 ⟨r, hr, ho, rfl⟩
    cases v with
    | plain =>
      simp only [make] at h
      obtain ⟨st, hst, _⟩ := Option.map_eq_some_iff.1 h
      obtain ⟨_, hn⟩ := readRaw_some hst
      refine ⟨?_, rfl⟩
      cases hp : r.perm with
      | shared => rfl
      | unique =>
        rw [hp] at ha hheld
        have := hn _ ha rfl
        rw [hheld] at this; cases this
    | mutRef =>
      simp only [make] at h
      obtain ⟨st, hst, _⟩ := Option.map_eq_some_iff.1 h
      have := (writeRaw_some hst).2 _ ha
      rw [hheld] at this; cases this
    | viaMut =>
      simp only [make] at h
      obtain ⟨st, hst, _⟩ := Option.map_eq_some_iff.1 h
      have := (writeRaw_some hst).2 _ ha
      rw [hheld] at this; cases this
    | copy =>
      simp only [make] at h
      obtain ⟨st, hst, _⟩ := Option.map_eq_some_iff.1 h
      have := (writeRaw_some hst).2 _ ha
      rw [hheld] at this; cases this
  · intro h
    have hwr : v ≠ .plain → writeRaw l o (m.stacks o) = some [] := by
      intro hv
      unfold writeRaw
      rw [if_neg]
      intro hany
      obtain ⟨i, hi, hh⟩ := List.any_eq_true.1 hany
      obtain ⟨r, hr, e, _⟩ := hI.item hi hh
      exact hv (h r hr e).2
    cases v with
    | plain =>
      have : readRaw l o (m.stacks o) = some ((m.stacks o).filter (·.perm = .shared)) := by
        unfold readRaw
        rw [if_neg]
        intro hany
        obtain ⟨i, hi, hh⟩ := List.any_eq_true.1 hany
        obtain ⟨hi, hp⟩ := List.mem_filter.1 hi
        obtain ⟨r, hr, e, _, e3⟩ := hI.item hi hh
        have := (h r hr e).1
        rw [e3] at this
        simp [this] at hp
      exact ⟨_, by simp only [make, this]; rfl⟩
    | mutRef => exact ⟨_, by simp only [make, hwr (by decide)]; rfl⟩
    | viaMut => exact ⟨_, by simp only [make, hwr (by decide)]; rfl⟩
    | copy => exact ⟨_, by simp only [make, hwr (by decide)]; rfl⟩

/-- Making a reference leaves what running functions received. -/
theorem make_inv {l : List Ref} {m m' : Mem} {o : Nat} {v : Via} {r : Option Ref} (hI : Inv l m) (h : make l m o v = some (m', r)) : Inv l m' := by
  obtain ⟨hw, _, _, _, ho⟩ := make_spec hI.wf h
  refine ⟨hw, fun q hq => (ho q (hI.wf.fresh _ _ (hI.alive q hq))).2 ⟨hI.alive q hq, ?_⟩, hI.alone⟩
  exact (make_defined hI o v).1 ⟨_, h⟩ q hq

/-- What is received, and what of it can be used. -/
theorem makeAll_spec {l : List Ref} : ∀ (vs : List (Nat × Via)) (m m' : Mem) (rs : List Ref), Inv l m → makeAll l m vs = some (m', rs) →
    Inv l m' ∧ m.next ≤ m'.next ∧ rs.map (fun r => (r.obj, r.perm)) = vs.filterMap (fun v => v.2.gives.map fun p => (v.1, p)) ∧
    (∀ r ∈ rs, r.tag < m'.next) ∧
    (∀ q : Ref, q.tag < m.next → (Alive m' q ↔ Alive m q ∧ ∀ v ∈ vs, q.obj = v.1 → After q.perm v.2)) ∧
    ((∀ r ∈ rs, Alive m' r) ↔ Compatible vs)
  | [], m, m', rs, hI, h => by
    cases h
    exact ⟨hI, Nat.le_refl _, rfl, by simp, by simp, by simp [Compatible]⟩
  | v :: vs, m, m', rs, hI, h => by
    unfold makeAll at h
    cases h1 : make l m v.1 v.2 with
    | none => rw [h1] at h; cases h
    | some x =>
      obtain ⟨m1, r⟩ := x
      rw [h1] at h
      simp only at h
      cases h2 : makeAll l m1 vs with
      | none => rw [h2] at h; cases h
      | some y =>
        obtain ⟨m2, rs'⟩ := y
        rw [h2] at h
        have e := Option.some.inj h
        simp only [Prod.mk.injEq] at e
        obtain ⟨rfl, rfl⟩ := e
        obtain ⟨a1, a2, a3, a4, a5⟩ := make_spec hI.wf h1
        obtain ⟨b0, b1, b2, b3, b4, b5⟩ := makeAll_spec vs m1 m2 rs' (make_inv hI h1) h2
        refine ⟨b0, Nat.le_trans a2 b1, ?_, ?_, ?_, ?_⟩
        · rw [List.map_append, b2, List.filterMap_cons]
          cases hg : v.2.gives with
          | none => rw [hg] at a3; cases r with
            | none => rfl
            | some r => cases a3
          | some p => rw [hg] at a3; cases r with
            | none => cases a3
            | some r =>
              simp only [Option.map_some, Option.toList_some, List.map_cons, List.map_nil]
              simp only [Option.map_some] at a3
              rw [Option.some.inj a3]; rfl
        · intro q hq
          rcases List.mem_append.1 hq with hq | hq
          · cases r with
            | none => cases hq
            | some r =>
              simp only [Option.toList_some, List.mem_singleton] at hq
              subst hq
              exact Nat.lt_of_lt_of_le (a4 _ rfl).2.2 b1
          · exact b3 q hq
        · intro q hq
          rw [b4 q (Nat.lt_of_lt_of_le hq a2), a5 q hq]
          simp only [List.mem_cons, forall_eq_or_imp]
          exact and_assoc
        · unfold Compatible
          rw [List.pairwise_cons]
          have key : (∀ q ∈ r.toList, Alive m2 q) ↔ ∀ b ∈ vs, v.1 = b.1 → ∀ p, v.2.gives = some p → After p b.2 := by
            cases r with
            | none =>
              have hg : v.2.gives = none := by
                cases hg : v.2.gives with
                | none => rfl
                | some p => rw [hg] at a3; cases a3
              simp [hg]
            | some r =>
              obtain ⟨c1, _, c3⟩ := a4 r rfl
              cases hg : v.2.gives with
              | none => rw [hg] at a3; cases a3
              | some p =>
                rw [hg] at a3
                simp only [Option.map_some, Option.some.injEq, Prod.mk.injEq] at a3
                simp only [Option.toList_some, List.mem_singleton, forall_eq]
                rw [b4 r c3]
                constructor
                · rintro ⟨_, h⟩ b hb e p' hp'
                  cases hp'
                  rw [← a3.2]
                  exact h b hb (by rw [a3.1]; exact e)
                · intro h
                  exact ⟨c1, fun b hb e => by rw [a3.2]; exact h b hb (by rw [← a3.1]; exact e) p rfl⟩
          rw [← key]
          refine Iff.trans ?_ (and_congr_right fun _ => b5)
          simp only [List.mem_append]
          constructor
          · intro h; exact ⟨fun q hq => h q (Or.inl hq), fun q hq => h q (Or.inr hq)⟩
          · rintro ⟨h, h'⟩ q (hq | hq)
            · exact h q hq
            · exact h' q hq

theorem makeAll_defined {l : List Ref} : ∀ (vs : List (Nat × Via)) (m : Mem), Inv l m → ((∃ x, makeAll l m vs = some x) ↔ Fits l vs)
  | [], m, hI => by simp [makeAll, Fits]
  | v :: vs, m, hI => by
    unfold makeAll
    cases h1 : make l m v.1 v.2 with
    | none =>
      have : ¬ ∀ r ∈ l, r.obj = v.1 → After r.perm v.2 := by
        rw [← make_defined hI v.1 v.2, h1]; simp
      simp only [Fits, List.mem_cons, forall_eq_or_imp]
      constructor
      · rintro ⟨x, hx⟩; cases hx
      · intro h; exact absurd (fun r hr => (h r hr).1) this
    | some x =>
      obtain ⟨m1, r⟩ := x
      have hd : ∀ r ∈ l, r.obj = v.1 → After r.perm v.2 := (make_defined hI v.1 v.2).1 ⟨_, h1⟩
      have ih := makeAll_defined vs m1 (make_inv hI h1)
      simp only
      constructor
      · rintro ⟨x, hx⟩
        cases h2 : makeAll l m1 vs with
        | none => rw [h2] at hx; cases hx
        | some y =>
          have := ih.1 ⟨y, h2⟩
          intro r hr w hw
          rcases List.mem_cons.1 hw with rfl | hw
          · exact hd r hr
          · exact this r hr w hw
      · intro h
        obtain ⟨y, h2⟩ := ih.2 (fun r hr w hw => h r hr w (List.mem_cons_of_mem _ hw))
        rw [h2]
        exact ⟨_, rfl⟩

/-! ## Lemmas: using and passing references -/

/-- Two references do not disturb each other. -/
def Shares (a b : Ref) : Prop := a.obj = b.obj → a.perm = .shared ∧ b.perm = .shared

theorem Shares.symm {a b : Ref} (h : Shares a b) : Shares b a := fun e => (h e.symm).symm

theorem useTag_some {l : List Ref} {m : Mem} {r : Ref} {st : Stack} (h : useTag l (m.stacks r.obj) r = some st) :
    Alive m r ∧ st.Sublist (m.stacks r.obj) := by
  unfold useTag at h
  cases hs : splitAt (m.stacks r.obj) ⟨r.tag, r.perm⟩ with
  | none => rw [hs] at h; cases h
  | some x =>
    obtain ⟨a, b⟩ := x
    rw [hs] at h
    have e := splitAt_some hs
    refine ⟨by unfold Alive; rw [e]; simp, ?_⟩
    rw [e]
    cases hp : r.perm with
    | shared =>
      simp only [hp] at h
      split at h
      · cases h
      · cases h
        exact List.Sublist.append List.filter_sublist (List.Sublist.refl _)
    | unique =>
      simp only [hp] at h
      split at h
      · cases h
      · cases h
        exact List.sublist_append_right ..

/-- What is still there can be used if nothing that running functions received is in the way. -/
theorem useTag_ok {l : List Ref} {m : Mem} {r : Ref} (hI : Inv l m) (ha : Alive m r) (hx : ∀ x ∈ l, x = r ∨ Shares x r) :
    ∃ st, useTag l (m.stacks r.obj) r = some st ∧ ∀ i ∈ m.stacks r.obj, (i = ⟨r.tag, r.perm⟩ ∨ (i.perm = .shared ∧ r.perm = .shared)) → i ∈ st := by
  obtain ⟨a, b, hs⟩ := splitAt_mem ha
  have e := splitAt_some hs
  have hnd : ∀ i ∈ a, i.tag ≠ r.tag := by
    have := hI.wf.nodup r.obj
    rw [e, List.map_append, List.map_cons, List.nodup_append] at this
    intro i hi
    exact this.2.2 _ (List.mem_map.2 ⟨i, hi, rfl⟩) _ (List.mem_cons_self ..)
  have hheld : ∀ i ∈ a, held l r.obj i = true → i.perm = .shared ∧ r.perm = .shared := by
    intro i hi hh
    obtain ⟨x, hxl, e1, e2, e3⟩ := hI.item (show i ∈ m.stacks r.obj by rw [e]; exact List.mem_append_left _ hi) hh
    rcases hx x hxl with rfl | hsh
    · exact absurd e2.symm (hnd i hi)
    · have := hsh e1
      rw [e3] at this; exact this
  unfold useTag
  rw [hs]
  cases hp : r.perm with
  | shared =>
    simp only
    rw [if_neg]
    · refine ⟨_, rfl, fun i hi hc => ?_⟩
      have hsh : i.perm = .shared := by
        rcases hc with rfl | hc
        · rfl
        · exact hc.1
      rw [e, hp] at hi
      rcases List.mem_append.1 hi with hi | hi
      · exact List.mem_append_left _ (List.mem_filter.2 ⟨hi, by simp [hsh]⟩)
      · exact List.mem_append_right _ hi
    · intro hany
      obtain ⟨i, hi, hh⟩ := List.any_eq_true.1 hany
      obtain ⟨hia, hu⟩ := List.mem_filter.1 hi
      rw [(hheld i hia hh).1] at hu
      simp at hu
  | unique =>
    simp only
    rw [if_neg]
    · refine ⟨_, rfl, fun i hi hc => ?_⟩
      rcases hc with rfl | hc
      · exact List.mem_cons_self ..
      · cases hc.2
    · intro hany
      obtain ⟨i, hi, hh⟩ := List.any_eq_true.1 hany
      have := (hheld i hi hh).2
      rw [hp] at this; cases this

/-- The references to pass are there and do not disturb each other, nor what running functions received. -/
structure Ready (l rs : List Ref) (m : Mem) : Prop where
  inv : Inv l m
  alive : ∀ r ∈ rs, Alive m r
  pair : rs.Pairwise Shares
  cross : ∀ r ∈ rs, ∀ x ∈ l, Shares x r

theorem WF.push {m : Mem} (hw : WF m) {o : Nat} {st : Stack} (h : st.Sublist (m.stacks o)) (p : Perm) :
    WF { m.set o (⟨m.next, p⟩ :: st) with next := m.next + 1 } := by
  constructor
  · intro x i hi
    by_cases hx : x = o
    · subst hx
      rw [show ({ m.set x (⟨m.next, p⟩ :: st) with next := m.next + 1 } : Mem).stacks x = _ from Mem.set_same ..] at hi
      rcases List.mem_cons.1 hi with rfl | hi
      · exact Nat.lt_succ_self _
      · exact Nat.lt_succ_of_lt (hw.fresh x i (h.subset hi))
    · rw [show ({ m.set o (⟨m.next, p⟩ :: st) with next := m.next + 1 } : Mem).stacks x = m.stacks x from Mem.set_other _ _ hx] at hi
      exact Nat.lt_succ_of_lt (hw.fresh x i hi)
  · intro x
    by_cases hx : x = o
    · subst hx
      rw [show ({ m.set x (⟨m.next, p⟩ :: st) with next := m.next + 1 } : Mem).stacks x = _ from Mem.set_same ..]
      rw [List.map_cons, List.nodup_cons]
      refine ⟨fun hm => ?_, (hw.nodup x).sublist (h.map _)⟩
      obtain ⟨i, hi, e⟩ := List.mem_map.1 hm
      have := hw.fresh x i (h.subset hi)
      simp only at e
      omega
    · rw [show ({ m.set o (⟨m.next, p⟩ :: st) with next := m.next + 1 } : Mem).stacks x = m.stacks x from Mem.set_other _ _ hx]
      exact hw.nodup x

theorem WF.shrink {m : Mem} (hw : WF m) {o : Nat} {st : Stack} (h : st.Sublist (m.stacks o)) : WF (m.set o st) := by
  constructor
  · intro x i hi
    by_cases hx : x = o
    · subst hx
      rw [Mem.set_same] at hi
      exact hw.fresh x i (h.subset hi)
    · rw [Mem.set_other _ _ hx] at hi
      exact hw.fresh x i hi
  · intro x
    by_cases hx : x = o
    · subst hx
      rw [Mem.set_same]
      exact (hw.nodup x).sublist (h.map _)
    · rw [Mem.set_other _ _ hx]
      exact hw.nodup x

theorem pass_some {l : List Ref} {m m' : Mem} {r q : Ref} (h : pass l m r = some (m', q)) :
    Alive m r ∧ m'.next = m.next + 1 ∧ ∀ x : Ref, x.tag < m.next → Alive m' x → Alive m x := by
  unfold pass at h
  obtain ⟨st, hst, e⟩ := Option.map_eq_some_iff.1 h
  cases e
  obtain ⟨ha, hsub⟩ := useTag_some hst
  refine ⟨ha, rfl, fun x hx hax => ?_⟩
  unfold Alive at hax ⊢
  by_cases hxo : x.obj = r.obj
  · rw [hxo] at hax ⊢
    rw [show ({ m.set r.obj (⟨m.next, r.perm⟩ :: st) with next := m.next + 1 } : Mem).stacks r.obj = _ from Mem.set_same ..] at hax
    rcases List.mem_cons.1 hax with e | hax
    · have := congrArg Item.tag e
      simp only at this
      omega
    · exact hsub.subset hax
  · rw [show ({ m.set r.obj (⟨m.next, r.perm⟩ :: st) with next := m.next + 1 } : Mem).stacks x.obj = m.stacks x.obj from Mem.set_other _ _ hxo] at hax
    exact hax

theorem pass_ok {l rs : List Ref} {m : Mem} {r : Ref} (h : Ready l (r :: rs) m) :
    ∃ m' q, pass l m r = some (m', q) ∧ Ready (q :: l) rs m' ∧ q.obj = r.obj ∧ q.perm = r.perm := by
  have ha := h.alive r (List.mem_cons_self ..)
  have hc := h.cross r (List.mem_cons_self ..)
  obtain ⟨st, hst, hkeep⟩ := useTag_ok h.inv ha (fun x hx => Or.inr (hc x hx))
  have hsub := (useTag_some hst).2
  have hpw := List.pairwise_cons.1 h.pair
  have keep : ∀ x : Ref, Shares x r → Alive m x → Alive { m.set r.obj (⟨m.next, r.perm⟩ :: st) with next := m.next + 1 } x := by
    intro x hx hax
    unfold Alive at hax ⊢
    by_cases hxo : x.obj = r.obj
    · rw [hxo] at hax ⊢
      rw [show ({ m.set r.obj (⟨m.next, r.perm⟩ :: st) with next := m.next + 1 } : Mem).stacks r.obj = _ from Mem.set_same ..]
      exact List.mem_cons_of_mem _ (hkeep _ hax (Or.inr (hx hxo)))
    · rw [show ({ m.set r.obj (⟨m.next, r.perm⟩ :: st) with next := m.next + 1 } : Mem).stacks x.obj = m.stacks x.obj from Mem.set_other _ _ hxo]
      exact hax
  have hnew : Alive { m.set r.obj (⟨m.next, r.perm⟩ :: st) with next := m.next + 1 } ⟨r.obj, m.next, r.perm⟩ := by
    unfold Alive
    rw [show ({ m.set r.obj (⟨m.next, r.perm⟩ :: st) with next := m.next + 1 } : Mem).stacks r.obj = _ from Mem.set_same ..]
    exact List.mem_cons_self ..
  refine ⟨{ m.set r.obj (⟨m.next, r.perm⟩ :: st) with next := m.next + 1 }, ⟨r.obj, m.next, r.perm⟩, by unfold pass; rw [hst]; rfl,
    ⟨⟨h.inv.wf.push hsub r.perm, ?_, ?_⟩, ?_, hpw.2, ?_⟩, rfl, rfl⟩
  · intro x hx
    rcases List.mem_cons.1 hx with rfl | hx
    · exact hnew
    · exact keep x (hc x hx) (h.inv.alive x hx)
  · intro x hx y hy e
    rcases List.mem_cons.1 hx with rfl | hx
    · rcases List.mem_cons.1 hy with rfl | hy
      · exact Or.inl rfl
      · exact Or.inr ((hc y hy) e.symm).symm
    · rcases List.mem_cons.1 hy with rfl | hy
      · exact Or.inr ((hc x hx) e)
      · exact h.inv.alone x hx y hy e
  · intro x hx
    exact keep x (Shares.symm (hpw.1 x hx)) (h.alive x (List.mem_cons_of_mem _ hx))
  · intro x hx y hy
    rcases List.mem_cons.1 hy with rfl | hy
    · exact hpw.1 x hx
    · exact h.cross x (List.mem_cons_of_mem _ hx) y hy

theorem Inv.of_mem {l l' : List Ref} {m : Mem} (h : Inv l m) (hs : ∀ x ∈ l', x ∈ l) : Inv l' m :=
  ⟨h.wf, fun r hr => h.alive r (hs r hr), fun r hr q hq => h.alone r (hs r hr) q (hs q hq)⟩

theorem passAll_ok : ∀ {l rs : List Ref} {m : Mem}, Ready l rs m →
    ∃ m' qs, passAll l m rs = some (m', qs) ∧ Inv (qs ++ l) m' ∧ qs.map (fun r => (r.obj, r.perm)) = rs.map fun r => (r.obj, r.perm)
  | l, [], m, h => ⟨m, [], rfl, h.inv, rfl⟩
  | l, r :: rs, m, h => by
    obtain ⟨m1, q, h1, hr, e1, e2⟩ := pass_ok h
    obtain ⟨m2, qs, h2, hi, e3⟩ := passAll_ok hr
    refine ⟨m2, q :: qs, by unfold passAll; rw [h1]; simp only; rw [h2], hi.of_mem ?_, by simp only [List.map_cons, e1, e2, e3]⟩
    intro x hx
    simp only [List.cons_append, List.mem_cons, List.mem_append] at hx ⊢
    rcases hx with h | h | h
    · exact Or.inr (Or.inl h)
    · exact Or.inl h
    · exact Or.inr (Or.inr h)

theorem passAll_alive : ∀ {l rs : List Ref} {m m' : Mem} {qs : List Ref}, (∀ r ∈ rs, r.tag < m.next) → passAll l m rs = some (m', qs) → ∀ r ∈ rs, Alive m r
  | l, [], m, m', qs, _, _ => by simp
  | l, r :: rs, m, m', qs, ht, h => by
    unfold passAll at h
    cases h1 : pass l m r with
    | none => rw [h1] at h; cases h
    | some x =>
      obtain ⟨m1, q⟩ := x
      rw [h1] at h
      simp only at h
      obtain ⟨a1, a2, a3⟩ := pass_some h1
      cases h2 : passAll (q :: l) m1 rs with
      | none => rw [h2] at h; cases h
      | some y =>
        obtain ⟨m2, ps⟩ := y
        intro x hx
        rcases List.mem_cons.1 hx with rfl | hx
        · exact a1
        · have hlt := ht x (List.mem_cons_of_mem _ hx)
          refine a3 x hlt (passAll_alive (fun y hy => ?_) h2 x hx)
          have := ht y (List.mem_cons_of_mem _ hy)
          omega

/-- Passing references: the object comes first, but all are passed. -/
theorem passed_perm (c : Call) (rs : List Ref) : (c.passed rs).Perm rs := by
  unfold Call.passed
  simp only
  exact List.perm_append_comm.trans (by rw [List.take_append_drop])

/-- What is received does not clash. -/
theorem pair_of_compatible {vs : List (Nat × Via)} (h : Compatible vs) :
    (vs.filterMap (fun v => v.2.gives.map fun p => (v.1, p))).Pairwise fun a b => a.1 = b.1 → a.2 = .shared ∧ b.2 = .shared := by
  refine List.Pairwise.filterMap _ ?_ h
  rintro a b hab x hx y hy e
  obtain ⟨p, hp, rfl⟩ := Option.map_eq_some_iff.1 hx
  obtain ⟨p', hp', rfl⟩ := Option.map_eq_some_iff.1 hy
  obtain ⟨h1, h2⟩ := hab e p hp
  refine ⟨h1, ?_⟩
  rw [h2] at hp'
  cases hp'; rfl

/-- A call is defined exactly if what it gets clashes neither with itself nor with what running functions have; then the invariant holds again. -/
theorem enter_spec {s : Sys} (hI : Inv s.active s.mem) (c : Call) :
    ((∃ s', step s (.enter c) = some s') ↔ Fits s.active c.uses ∧ Compatible c.uses) ∧
    ∀ s', step s (.enter c) = some s' → Inv s'.active s'.mem ∧ ∃ qs, s'.frames = qs :: s.frames ∧
      (qs.map fun r => (r.obj, r.perm)).Perm (c.uses.filterMap fun v => v.2.gives.map fun p => (v.1, p)) := by
  cases h1 : makeAll s.active s.mem c.uses with
  | none =>
    have hf : ¬ Fits s.active c.uses := by rw [← makeAll_defined c.uses s.mem hI, h1]; simp
    refine ⟨?_, ?_⟩
    · simp [step, h1, hf]
    · intro s' h
      simp [step, h1] at h
  | some x =>
    obtain ⟨m1, rs⟩ := x
    have hf : Fits s.active c.uses := (makeAll_defined c.uses s.mem hI).1 ⟨_, h1⟩
    obtain ⟨b0, b1, b2, b3, b4, b5⟩ := makeAll_spec c.uses s.mem m1 rs hI h1
    have hperm := passed_perm c rs
    have ready : Compatible c.uses → Ready s.active (c.passed rs) m1 := by
      intro hc
      have hal := b5.2 hc
      have hp := pair_of_compatible hc
      rw [← b2, List.pairwise_map] at hp
      refine ⟨b0, fun r hr => hal r (hperm.mem_iff.1 hr), ?_, ?_⟩
      · exact (hperm.pairwise_iff (fun h => Shares.symm h)).2 hp
      · intro r hr x hx e
        have hr := hperm.mem_iff.1 hr
        have : (r.obj, r.perm) ∈ rs.map fun r => (r.obj, r.perm) := List.mem_map.2 ⟨r, hr, rfl⟩
        rw [b2] at this
        obtain ⟨v, hv, hg⟩ := List.mem_filterMap.1 this
        obtain ⟨p, hp, ee⟩ := Option.map_eq_some_iff.1 hg
        simp only [Prod.mk.injEq] at ee
        obtain ⟨h1, h2⟩ := hf x hx v hv (by rw [e, ee.1])
        refine ⟨h1, ?_⟩
        rw [h2] at hp
        cases hp
        exact ee.2.symm
    refine ⟨⟨?_, ?_⟩, ?_⟩
    · rintro ⟨s', h⟩
      simp only [step, h1] at h
      obtain ⟨y, hy, _⟩ := Option.map_eq_some_iff.1 h
      obtain ⟨m2, qs⟩ := y
      refine ⟨hf, b5.1 fun r hr => ?_⟩
      exact passAll_alive (fun r hr => b3 r (hperm.mem_iff.1 hr)) hy r (hperm.mem_iff.2 hr)
    · rintro ⟨_, hc⟩
      obtain ⟨m2, qs, h2, _⟩ := passAll_ok (ready hc)
      exact ⟨_, by simp only [step, h1, h2]; rfl⟩
    · intro s' h
      simp only [step, h1] at h
      obtain ⟨y, hy, e⟩ := Option.map_eq_some_iff.1 h
      obtain ⟨m2, qs⟩ := y
      have hc : Compatible c.uses := b5.1 fun r hr =>
        passAll_alive (fun r hr => b3 r (hperm.mem_iff.1 hr)) hy r (hperm.mem_iff.2 hr)
      obtain ⟨m2', qs', h2, hi, em⟩ := passAll_ok (ready hc)
      rw [hy] at h2
      cases h2
      subst e
      refine ⟨hi, qs, rfl, ?_⟩
      rw [em, ← b2]
      exact hperm.map _

theorem use_spec {s : Sys} (hI : Inv s.active s.mem) (i : Nat) : ∃ s', step s (.use i) = some s' ∧ s'.frames = s.frames ∧ Inv s'.active s'.mem := by
  cases hf : s.frames with
  | nil => exact ⟨s, by simp [step, hf], hf, hI⟩
  | cons f fs =>
    cases hr : f[i]? with
    | none => exact ⟨s, by simp [step, hf, hr], hf, hI⟩
    | some r =>
      have hmem : r ∈ s.active := by
        unfold Sys.active
        rw [hf, List.flatten_cons]
        exact List.mem_append_left _ (List.mem_of_getElem? hr)
      have hal := hI.alive r hmem
      have hsh : ∀ x ∈ s.active, x = r ∨ Shares x r := by
        intro x hx
        by_cases e : x.obj = r.obj
        · rcases hI.alone x hx r hmem e with h | h
          · exact Or.inl h
          · exact Or.inr fun _ => h
        · exact Or.inr fun e' => absurd e' e
      obtain ⟨st, hst, hkeep⟩ := useTag_ok hI hal hsh
      have hsub := (useTag_some hst).2
      refine ⟨⟨s.mem.set r.obj st, s.frames⟩, by simp [step, hf, hr, hst], hf, hI.wf.shrink hsub, ?_, hI.alone⟩
      intro x hx
      have hax := hI.alive x hx
      show (⟨x.tag, x.perm⟩ : Item) ∈ (s.mem.set r.obj st).stacks x.obj
      unfold Alive at hax
      by_cases e : x.obj = r.obj
      · rw [e, Mem.set_same]
        rw [e] at hax
        refine hkeep _ hax ?_
        rcases hI.alone x hx r hmem e with h | h
        · exact Or.inl (by rw [h])
        · exact Or.inr h
      · rw [Mem.set_other _ _ e]
        exact hax

theorem leave_spec {s : Sys} (hI : Inv s.active s.mem) : Inv (s.frames.drop 1).flatten s.mem := by
  refine hI.of_mem fun x hx => ?_
  unfold Sys.active
  cases hf : s.frames with
  | nil => rw [hf] at hx; exact hx
  | cons f fs =>
    rw [hf] at hx
    rw [List.flatten_cons]
    exact List.mem_append_right _ hx

theorem step_inv {s s' : Sys} {o : Op} (hI : Inv s.active s.mem) (h : step s o = some s') : Inv s'.active s'.mem := by
  cases o with
  | enter c => exact ((enter_spec hI c).2 s' h).1
  | use i =>
    obtain ⟨t, ht, _, hi⟩ := use_spec hI i
    rw [ht] at h
    cases h; exact hi
  | leave =>
    simp only [step] at h
    cases h
    exact leave_spec hI

theorem run_inv : ∀ {os : List Op} {s s' : Sys}, Inv s.active s.mem → run s os = some s' → Inv s'.active s'.mem
  | [], s, s', hI, h => by cases h; exact hI
  | o :: os, s, s', hI, h => by
    unfold run at h
    obtain ⟨t, ht, hr⟩ := Option.bind_eq_some_iff.1 h
    exact run_inv (step_inv hI ht) hr

theorem initial_inv : Inv initial.active initial.mem :=
  ⟨⟨(by intro o i hi; cases hi), (by intro o; exact List.nodup_nil)⟩, (by intro r hr; cases hr), (by intro r hr; cases hr)⟩

theorem Reached.inv {s : Sys} (h : Reached s) : Inv s.active s.mem := by
  obtain ⟨os, h⟩ := h
  exact run_inv initial_inv h

/-- The functions that run have received what the specification says. -/
def Same : List (List Ref) → List (List (Nat × Perm)) → Prop
  | [], [] => True
  | a :: as, b :: bs => (∀ x, x ∈ b ↔ ∃ r ∈ a, (r.obj, r.perm) = x) ∧ Same as bs
  | _, _ => False

theorem Same.fits : ∀ {as : List (List Ref)} {bs : List (List (Nat × Perm))}, Same as bs → ∀ vs,
    (Fits as.flatten vs ↔ ∀ f ∈ bs, ∀ r ∈ f, ∀ v ∈ vs, r.1 = v.1 → After r.2 v.2)
  | [], [], _, vs => by simp [Fits]
  | a :: as, b :: bs, h, vs => by
    have ih := Same.fits h.2 vs
    constructor
    · intro hf f hfm r hr v hv e
      rcases List.mem_cons.1 hfm with rfl | hfm
      · obtain ⟨q, hq, rfl⟩ := (h.1 r).1 hr
        exact hf q (by rw [List.flatten_cons]; exact List.mem_append_left _ hq) v hv e
      · exact ih.1 (fun q hq => hf q (by rw [List.flatten_cons]; exact List.mem_append_right _ hq)) f hfm r hr v hv e
    · intro hs q hq v hv e
      rw [List.flatten_cons] at hq
      rcases List.mem_append.1 hq with hq | hq
      · exact hs b (List.mem_cons_self ..) (q.obj, q.perm) ((h.1 _).2 ⟨q, hq, rfl⟩) v hv e
      · exact ih.2 (fun f hf => hs f (List.mem_cons_of_mem _ hf)) q hq v hv e
  | [], _ :: _, h, _ => h.elim
  | _ :: _, [], h, _ => h.elim

theorem Same.drop : ∀ {as : List (List Ref)} {bs : List (List (Nat × Perm))}, Same as bs → Same (as.drop 1) (bs.drop 1)
  | [], [], h => h
  | _ :: _, _ :: _, h => h.2
  | [], _ :: _, h => h.elim
  | _ :: _, [], h => h.elim

theorem run_clean : ∀ (os : List Op) {s : Sys} {fs : List (List (Nat × Perm))}, Inv s.active s.mem → Same s.frames fs →
    ((∃ s', run s os = some s') ↔ Clean fs os)
  | [], s, fs, _, _ => by simp [run, Clean]
  | .enter c :: os, s, fs, hI, hs => by
    have he := enter_spec hI c
    have hf := hs.fits c.uses
    unfold run Clean
    rw [← hf, ← and_assoc, show s.frames.flatten = s.active from rfl, ← he.1]
    constructor
    · rintro ⟨s', h⟩
      obtain ⟨t, ht, hr⟩ := Option.bind_eq_some_iff.1 h
      obtain ⟨hi, qs, e, hp⟩ := he.2 t ht
      refine ⟨⟨t, ht⟩, (run_clean os hi ?_).1 ⟨s', hr⟩⟩
      rw [e]
      refine ⟨fun x => ?_, hs⟩
      rw [← List.mem_map]
      exact hp.mem_iff.symm
    · rintro ⟨⟨t, ht⟩, hc⟩
      obtain ⟨hi, qs, e, hp⟩ := he.2 t ht
      have : Same t.frames (received c :: fs) := by
        rw [e]
        refine ⟨fun x => ?_, hs⟩
        rw [← List.mem_map]
        exact hp.mem_iff.symm
      obtain ⟨s', hr⟩ := (run_clean os hi this).2 hc
      exact ⟨s', by rw [ht]; exact hr⟩
  | .use i :: os, s, fs, hI, hs => by
    obtain ⟨t, ht, e, hi⟩ := use_spec hI i
    unfold run Clean
    rw [ht]
    exact run_clean os hi (by rw [e]; exact hs)
  | .leave :: os, s, fs, hI, hs => by
    unfold run Clean
    exact run_clean os (s := ⟨s.mem, s.frames.drop 1⟩) (leave_spec hI) hs.drop

/-! ## Property theorems -/

/-- C89: whatever happened before and whatever is running, a call of an exported function is defined exactly if no object it is given clashes with another one
it is given, or with what the functions that are running have received. -/
theorem C89_call_defined {s : Sys} (h : Reached s) (c : Call) : (∃ s', step s (.enter c) = some s') ↔ Fits s.active c.uses ∧ Compatible c.uses :=
  (enter_spec h.inv c).1

/-- C89: the function that is called receives exactly the references the specification lists. -/
theorem C89_received {s s' : Sys} (h : Reached s) (c : Call) (hs : step s (.enter c) = some s') :
    ∃ qs, s'.frames = qs :: s.frames ∧ (qs.map fun r => (r.obj, r.perm)).Perm (received c) :=
  ((enter_spec h.inv c).2 s' hs).2

/-- C89: whatever a running function does with the references it has received, is defined: also after callbacks that called other exported functions. -/
theorem C89_uses_defined {s : Sys} (h : Reached s) (i : Nat) : (∃ s', step s (.use i) = some s') ∧ ∃ s', step s .leave = some s' := by
  obtain ⟨t, ht, _⟩ := use_spec h.inv i
  exact ⟨⟨t, ht⟩, ⟨_, rfl⟩⟩

/-- C89: a whole history of calls, uses, callbacks and returns is defined exactly if no call in it clashes. -/
theorem C89_history (os : List Op) : (∃ s, run initial os = some s) ↔ Clean [] os :=
  run_clean os initial_inv trivial

/-- C89: calls that get a different object for everything, and none while another function runs, never clash. -/
theorem C89_distinct {s : Sys} (h : Reached s) (hf : s.frames = []) (c : Call) (hd : (c.uses.map (·.1)).Nodup) : ∃ s', step s (.enter c) = some s' := by
  refine (C89_call_defined h c).2 ⟨?_, ?_⟩
  · intro r hr
    unfold Sys.active at hr
    rw [hf] at hr
    cases hr
  · unfold Compatible
    rw [List.nodup_iff_pairwise_ne, List.pairwise_map] at hd
    exact hd.imp fun hne e => absurd e hne

/-- C89, finding: `&self` is made through a mutable reference, so a method that takes another object of its class by `&T` may not be given the same object twice:
`a.same_as(a)` is undefined in C++, although both are shared references (for Java see `C89_finding_java_twice`). -/
theorem C89_finding_shared_self {s : Sys} (h : Reached s) (o : Nat) (pre post : List (Nat × Via)) :
    ¬ ∃ s', step s (.enter ⟨pre ++ (o, .plain) :: post, some (o, .viaMut)⟩) = some s' := by
  rw [C89_call_defined h]
  rintro ⟨_, hc⟩
  unfold Compatible Call.uses at hc
  simp only [Option.toList_some, List.append_assoc, List.cons_append] at hc
  have := (List.pairwise_cons.1 (List.pairwise_append.1 hc).2.1).1 (o, .viaMut) (by simp) rfl .shared rfl
  cases this.2

/-- C89, finding: in Java `&T` and `Option<&T>` arguments are made through a mutable reference, so no function may be given the same object twice, even if it only
reads it. -/
theorem C89_finding_java_twice {s : Sys} (h : Reached s) (o : Nat) (v w : Via) (hv : v = .viaMut ∨ v = .mutRef) (hw : w ≠ .plain)
    (a b c : List (Nat × Via)) (r : Option (Nat × Via)) :
    ¬ ∃ s', step s (.enter ⟨a ++ (o, v) :: b ++ (o, w) :: c, r⟩) = some s' := by
  rw [C89_call_defined h]
  rintro ⟨_, hc⟩
  unfold Compatible Call.uses at hc
  simp only [List.append_assoc, List.cons_append] at hc
  have h1 := (List.pairwise_cons.1 (List.pairwise_append.1 hc).2.1).1 (o, w) (by simp) rfl
  rcases hv with rfl | rfl
  · exact hw (h1 .shared rfl).2
  · exact hw (h1 .unique rfl).2

/-- C89, finding: a callback may not call any method, not even a `&self` one, of an object whose method is running: the reference of the running method is
removed.  Giving the object as a plain `&T` argument is allowed if the running method has `&self`. -/
theorem C89_finding_reentry {s : Sys} (h : Reached s) (r : Ref) (hr : r ∈ s.active) (args : List (Nat × Via)) (v : Via) (hv : v = .viaMut ∨ v = .mutRef) :
    ¬ ∃ s', step s (.enter ⟨args, some (r.obj, v)⟩) = some s' := by
  rw [C89_call_defined h]
  rintro ⟨hf, _⟩
  have := (hf r hr (r.obj, v) (by simp [Call.uses]) rfl).2
  rcases hv with rfl | rfl <;> cases this

/-! ## Non-vacuity -/

/-- `x.f(y, cb)` calls back, the callback calls `z.g(x)` with `x` as a plain `&T`, then all references are used. -/
def demo : List Op :=
  [.enter ⟨[(1, .plain), (1, .plain)], some (0, .viaMut)⟩, .use 0, .enter ⟨[(0, .plain), (3, .copy), (3, .mutRef)], some (2, .mutRef)⟩, .use 1, .use 0, .use 2, .leave,
    .use 0, .use 1, .use 2, .leave, .enter ⟨[], some (1, .mutRef)⟩, .use 0]

example : (run initial demo).map (fun s => (s.frames.map (·.map fun r => (r.obj, r.perm)), s.mem.next)) = some ([[(1, .unique)]], 16) := by decide

/-- The same, but the callback calls a `&self` method of `x`. -/
example : (run initial [.enter ⟨[(1, .plain)], some (0, .viaMut)⟩, .use 0, .enter ⟨[], some (0, .viaMut)⟩]).isSome = false := by decide

/-- A copied argument can be followed by a mutable reference to the same object, not the other way round. -/
example : (run initial [.enter ⟨[(0, .copy)], some (0, .mutRef)⟩]).isSome = true ∧ (run initial [.enter ⟨[(0, .mutRef), (0, .copy)], none⟩]).isSome = false := by
  decide

end Flapi.Aliasing
