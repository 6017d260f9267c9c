import Verif.Cpp.SliceViews
/-! # C++ views of Rust slices are moved, never duplicated, and go back unchanged (C82) -/
namespace Flapi.SliceViews

/-! ## Specification -/

/-- The view shows exactly the elements of the slice. -/
def Shows (v : View) (s : Slice) : Prop := v.data = some s.ptr ∧ v.len = s.len

/-- The slices have an element in common. -/
def Overlap (s t : Slice) : Prop :=
  s.ptr.buf = t.ptr.buf ∧ ∃ i, s.ptr.off ≤ i ∧ i < s.ptr.off + s.len ∧ t.ptr.off ≤ i ∧ i < t.ptr.off + t.len

/-- Element number `i` of a Rust slice. -/
def Slice.elem (s : Slice) (i : Nat) : Ptr := ⟨s.ptr.buf, s.ptr.off + i⟩

/-! ## Lemmas -/

/-- Every view shows a slice handed out earlier, different views different ones. -/
def Inv (st : State) : Prop :=
  ∃ f : Nat → Nat, (∀ x v, st.vars x = some v → v ≠ nullView → ∃ s, st.handed[f x]? = some s ∧ Shows v s) ∧
    ∀ x y v w, st.vars x = some v → st.vars y = some w → v ≠ nullView → w ≠ nullView → x ≠ y → f x ≠ f y

theorem put_same (f : Nat → Option View) (x : Nat) (v : Option View) : put f x v x = v := by simp [put]
theorem put_other (f : Nat → Option View) (x y : Nat) (v : Option View) (h : y ≠ x) : put f x v y = f y := by simp [put, h]

theorem inv_init : Inv init := ⟨fun _ => 0, by simp [init], by simp [init]⟩

/-- Nothing new is held. -/
theorem inv_less {st st' : State} (h : Inv st) (hh : st'.handed = st.handed)
    (hv : ∀ x v, st'.vars x = some v → v ≠ nullView → st.vars x = some v) : Inv st' := by
  obtain ⟨f, h1, h2⟩ := h
  refine ⟨f, ?_, ?_⟩
  · intro x v hx hn
    rw [hh]
    exact h1 x v (hv x v hx hn) hn
  · intro x y v w hx hy hn hm hxy
    exact h2 x y v w (hv x v hx hn) (hv y w hy hm) hn hm hxy

theorem inv_move {st : State} (h : Inv st) (x y : Nat) (v : View) (hy : st.vars y = some v) :
    Inv { st with vars := put (put st.vars x (some v)) y (some nullView) } := by
  by_cases e : x = y
  · subst e
    refine inv_less h rfl ?_
    intro z w hz hn
    simp only [put] at hz
    split at hz
    · cases hz; exact absurd rfl hn
    · exact hz
  · obtain ⟨f, h1, h2⟩ := h
    have look : ∀ z w, put (put st.vars x (some v)) y (some nullView) z = some w → w ≠ nullView →
        (z = x ∧ w = v) ∨ (z ≠ x ∧ z ≠ y ∧ st.vars z = some w) := by
      intro z w hz hn
      simp only [put] at hz
      split at hz
      · cases hz; exact absurd rfl hn
      · split at hz
        · cases hz; exact Or.inl ⟨by assumption, rfl⟩
        · exact Or.inr ⟨by assumption, by assumption, hz⟩
    refine ⟨fun z => if z = x then f y else f z, ?_, ?_⟩
    · intro z w hz hn
      rcases look z w hz hn with ⟨rfl, rfl⟩ | ⟨hx, _, hz⟩
      · simp only [if_true]; exact h1 y _ hy hn
      · simp only [if_neg hx]; exact h1 z w hz hn
    · intro z z' w w' hz hz' hn hn' hne
      rcases look z w hz hn with ⟨e1, rfl⟩ | ⟨k1, k2, k3⟩ <;> rcases look z' w' hz' hn' with ⟨e2, rfl⟩ | ⟨l1, l2, l3⟩
      · exact absurd (e1.trans e2.symm) hne
      · simp only [e1, if_true, if_neg l1]
        exact h2 y z' _ w' hy l3 hn hn' (Ne.symm l2)
      · simp only [e2, if_true, if_neg k1]
        exact h2 z y w _ k3 hy hn hn' k2
      · simp only [if_neg k1, if_neg l1]
        exact h2 z z' w w' k3 l3 hn hn' hne

theorem inv_step {st st' : State} (h : Inv st) (o : Op) (hs : step st o = some st') : Inv st' := by
  cases o with
  | alloc b n =>
    simp only [step] at hs
    split at hs
    · cases hs; exact inv_less h rfl fun _ _ h _ => h
    · cases hs
  | free b => simp only [step] at hs; cases hs; exact inv_less h rfl fun _ _ h _ => h
  | new x =>
    simp only [step] at hs
    split at hs
    · cases hs
      refine inv_less h rfl ?_
      intro z w hz hn
      simp only [put] at hz
      split at hz
      · cases hz; exact absurd rfl hn
      · exact hz
    · cases hs
  | drop x =>
    simp only [step] at hs
    cases hs
    refine inv_less h rfl ?_
    intro z w hz hn
    simp only [put] at hz
    split at hz
    · cases hz
    · exact hz
  | moveNew x y =>
    simp only [step] at hs
    split at hs
    · rename_i v hy; cases hs; exact inv_move h x y _ hy
    · cases hs
  | moveAssign x y =>
    simp only [step] at hs
    split at hs
    · rename_i v hy; cases hs; exact inv_move h x y _ hy
    · cases hs
  | receive x s =>
    simp only [step] at hs
    split at hs
    · cases hs
      obtain ⟨f, h1, h2⟩ := h
      have look : ∀ z w, put st.vars x (some (ofRust s)) z = some w → (z = x ∧ w = ofRust s) ∨ (z ≠ x ∧ st.vars z = some w) := by
        intro z w hz
        simp only [put] at hz
        split at hz
        · cases hz; exact Or.inl ⟨by assumption, rfl⟩
        · exact Or.inr ⟨by assumption, hz⟩
      have hlt : ∀ z w, st.vars z = some w → w ≠ nullView → f z < st.handed.length := by
        intro z w hz hn
        obtain ⟨s', h', _⟩ := h1 z w hz hn
        exact (List.getElem?_eq_some_iff.1 h').1
      refine ⟨fun z => if z = x then st.handed.length else f z, ?_, ?_⟩
      · intro z w hz hn
        rcases look z w hz with ⟨rfl, rfl⟩ | ⟨hx, hz⟩
        · exact ⟨s, by simp, rfl, rfl⟩
        · obtain ⟨s', h', k⟩ := h1 z w hz hn
          exact ⟨s', by simp only [if_neg hx]; rw [List.getElem?_append_left (hlt z w hz hn)]; exact h', k⟩
      · intro z z' w w' hz hz' hn hn' hne
        rcases look z w hz with ⟨e1, rfl⟩ | ⟨k1, k3⟩ <;> rcases look z' w' hz' with ⟨e2, rfl⟩ | ⟨l1, l3⟩
        · exact absurd (e1.trans e2.symm) hne
        · simp only [e1, if_true, if_neg l1]
          exact Nat.ne_of_gt (hlt z' w' l3 hn')
        · simp only [e2, if_true, if_neg k1]
          exact Nat.ne_of_lt (hlt z w k3 hn)
        · simp only [if_neg k1, if_neg l1]
          exact h2 z z' w w' k3 l3 hn hn' hne
    · cases hs

theorem inv_run : ∀ (os : List Op) (st st' : State), Inv st → run st os = some st' → Inv st'
  | [], st, st', h, hs => by cases hs; exact h
  | o :: os, st, st', h, hs => by
    simp only [run, Option.bind_eq_some_iff] at hs
    obtain ⟨s1, h1, h2⟩ := hs
    exact inv_run os s1 st' (inv_step h o h1) h2

/-! ## C82 -/

/-- **C82**: after any history, a view is empty (null) or shows exactly one of the slices Rust has handed out, and different variables show
different ones: a slice handed out is never held twice. -/
theorem C82_views (os : List Op) (st : State) (h : run init os = some st) :
    (∀ x v, st.vars x = some v → v = nullView ∨ ∃ s ∈ st.handed, Shows v s) ∧
    ∃ f : Nat → Nat, ∀ x y v w, st.vars x = some v → st.vars y = some w → v ≠ nullView → w ≠ nullView → x ≠ y → f x ≠ f y ∧
      (∃ s, st.handed[f x]? = some s ∧ Shows v s) ∧ ∃ s, st.handed[f y]? = some s ∧ Shows w s := by
  obtain ⟨f, h1, h2⟩ := inv_run os init st inv_init h
  refine ⟨fun x v hx => ?_, f, fun x y v w hx hy hn hm hxy => ⟨h2 x y v w hx hy hn hm hxy, h1 x v hx hn, h1 y w hy hm⟩⟩
  by_cases hn : v = nullView
  · exact Or.inl hn
  · obtain ⟨s, h3, h4⟩ := h1 x v hx hn
    exact Or.inr ⟨s, List.mem_of_getElem? h3, h4⟩

/-- **C82**: if the slices Rust hands out do not overlap (as Rust requires of exclusive ones), then the views in two different variables never
lead to a common element, so C++ code that changes elements through one never disturbs another. -/
theorem C82_exclusive (os : List Op) (st : State) (h : run init os = some st)
    (hd : ∀ (i j : Nat) s t, st.handed[i]? = some s → st.handed[j]? = some t → i ≠ j → ¬ Overlap s t)
    (x y : Nat) (v w : View) (hx : st.vars x = some v) (hy : st.vars y = some w) (hxy : x ≠ y) :
    ∀ p ∈ elements v, p ∉ elements w := by
  intro p hp hq
  obtain ⟨_, f, hf⟩ := C82_views os st h
  have hn : v ≠ nullView := by rintro rfl; simp [elements, nullView] at hp
  have hm : w ≠ nullView := by rintro rfl; simp [elements, nullView] at hq
  obtain ⟨h1, ⟨s, h2, h3, h3'⟩, t, h4, h5, h5'⟩ := hf x y v w hx hy hn hm hxy
  refine hd _ _ s t h2 h4 h1 ?_
  simp only [elements, h3, h5, List.mem_map, List.mem_range] at hp hq
  obtain ⟨i, hi, rfl⟩ := hp
  obtain ⟨j, hj, hq⟩ := hq
  simp only [Ptr.mk.injEq] at hq
  refine ⟨hq.1.symm, s.ptr.off + i, ?_, ?_, ?_, ?_⟩ <;> omega

/-- **C82**: the view of a slice has its length, its elements in order, nothing else, and indexing below the length gives the element, in
every build. -/
theorem C82_elements (s : Slice) (v : View) (h : Shows v s) :
    v.len = s.len ∧ elements v = (List.range s.len).map s.elem ∧
      ∀ ndebug k i, i < s.len → at? ndebug k v i = some (some (s.elem i)) := by
  obtain ⟨h1, h2⟩ := h
  refine ⟨h2, by simp [elements, h1, h2, Slice.elem], fun ndebug k i hi => ?_⟩
  have : ¬ s.len ≤ i := by omega
  simp [at?, h1, h2, Slice.elem, hi]

/-- **C82**: moving a view into another variable transfers the slice and leaves the source empty; all other variables and the memory
stay as they were, and dropping a view frees nothing. -/
theorem C82_moves (st st' : State) (x y : Nat) (v : View) (hy : st.vars y = some v) (hxy : x ≠ y)
    (h : step st (.moveNew x y) = some st' ∨ step st (.moveAssign x y) = some st') :
    st'.vars x = some v ∧ st'.vars y = some nullView ∧ (∀ z, z ≠ x → z ≠ y → st'.vars z = st.vars z) ∧ st'.heap = st.heap := by
  have : st' = { st with vars := put (put st.vars x (some v)) y (some nullView) } := by
    rcases h with h | h
    · simp only [step] at h
      rw [hy] at h
      split at h
      · rename_i e; cases e; exact (Option.some.inj h).symm
      · cases h
    · simp only [step] at h
      rw [hy] at h
      split at h
      · rename_i e; cases e; exact (Option.some.inj h).symm
      · cases h
  subst this
  refine ⟨by simp [put, hxy], by simp [put], fun z h1 h2 => by simp [put, h1, h2], rfl⟩

/-- **C82**: whatever happened in between, a view handed back to Rust is the very slice it came from as long as the buffer lives; it is
never rejected by the check, and it is undefined behaviour exactly if the view is empty (null) or the buffer does not hold the slice any more. -/
theorem C82_round_trip (os : List Op) (st : State) (h : run init os = some st) (x : Nat) (v : View) (hx : st.vars x = some v) (k : Kind) :
    (∀ s, Shows v s → inside st.heap s = true → toRust st.heap k v = .ok s) ∧ toRust st.heap k v ≠ .panic ∧
      (toRust st.heap k v = .ub ↔ v = nullView ∨ ∃ s ∈ st.handed, Shows v s ∧ inside st.heap s = false) := by
  have hcase := (C82_views os st h).1 x v hx
  have hns : ∀ s, ¬ Shows nullView s := by intro s hs; cases hs.1
  have hshow : ∀ s, Shows v s → toRust st.heap k v = if inside st.heap s then .ok s else .ub := by
    rintro ⟨p, n⟩ ⟨h1, h2⟩
    simp only at h1 h2
    cases k <;> simp [toRust, fromRawParts, h1, h2]
  have hnull : toRust st.heap k nullView = .ub := by cases k <;> simp [toRust, nullView, fromRawParts]
  refine ⟨fun s hs hi => by rw [hshow s hs, hi]; rfl, ?_, ?_⟩
  · rcases hcase with rfl | ⟨s, _, hs⟩
    · rw [hnull]; decide
    · rw [hshow s hs]; split <;> simp
  · constructor
    · intro hu
      rcases hcase with rfl | ⟨s, hm, hs⟩
      · exact Or.inl rfl
      · rw [hshow s hs] at hu
        refine Or.inr ⟨s, hm, hs, ?_⟩
        cases hi : inside st.heap s with
        | false => rfl
        | true => rw [hi] at hu; simp at hu
    · rintro (rfl | ⟨s, _, hs, hi⟩)
      · exact hnull
      · rw [hshow s hs, hi]; rfl

/-! ### Findings -/

/-- **C82 (finding)**: a view that was moved from, or default constructed, passes the length check and reaches `from_raw_parts` with a null pointer. -/
theorem C82_finding_moved_from (h : Heap) (k : Kind) : toRust h k nullView = .ub := by
  cases k <;> simp [toRust, nullView, fromRawParts]

/-- **C82 (finding)**: moving a view onto itself loses the slice. -/
theorem C82_finding_self_move (st st' : State) (x : Nat) (h : step st (.moveAssign x x) = some st') : st'.vars x = some nullView := by
  simp only [step] at h
  split at h
  · cases h; simp [put]
  · cases h

/-- **C82 (finding)**: nothing ties a view to the owner of its elements: after the owner is gone the view still has its length and gives out
addresses, and handing it back is undefined behaviour, unnoticed. -/
theorem C82_finding_dangling (x b n : Nat) (k : Kind) :
    ∃ st v, run init [.alloc b n, .receive x ⟨⟨b, 0⟩, n⟩, .free b] = some st ∧ st.vars x = some v ∧ v.len = n ∧
      (∀ i, i < n → at? false k v i = some (some ⟨b, i⟩)) ∧ toRust st.heap k v = .ub := by
  refine ⟨_, ofRust ⟨⟨b, 0⟩, n⟩, by simp [run, step, init, inside]; rfl, by simp [put], rfl, ?_, ?_⟩
  · intro i hi; simp [at?, ofRust, hi]
  · cases k <;> simp [toRust, ofRust, fromRawParts, inside]

/-- **C82 (finding)**: `as_c` is `const` and the object views are passed by copy, so one exclusive view passed for two arguments
makes two overlapping `&mut` slices. -/
theorem C82_finding_two_exclusive (h : Heap) (k : Kind) (s : Slice) (hi : inside h s = true) (hl : 0 < s.len) :
    toRust h k (ofRust s) = .ok s ∧ Overlap s s := by
  refine ⟨?_, rfl, s.ptr.off, by omega, by omega, by omega, by omega⟩
  have hi' : inside h ⟨s.ptr, s.len⟩ = true := hi
  cases k <;> simp [toRust, ofRust, fromRawParts, hi']

/-- **C82 (finding)**: the object views accept from C++ what the plain ones reject: a null pointer with a positive length. -/
theorem C82_finding_unchecked (h : Heap) (n : Nat) : toRust h .plain ⟨none, n + 1⟩ = .panic ∧ toRust h .object ⟨none, n + 1⟩ = .ub ∧
    toRust h .objectMut ⟨none, n + 1⟩ = .ub := by simp [toRust, fromRawParts]

/-- **C82 (finding)**: the pointer put into the struct has the type of the field except for exclusive slices of objects: returning one gives
Rust code that does not compile. -/
theorem C82_finding_pointer_type (k : Kind) : fieldMut k = exprMut k ↔ k ≠ .objectMut := by cases k <;> decide

/-! ### Not vacuous -/

/-- A history with two slices, moves and a drop. -/
def exOps : List Op := [.alloc 0 10, .receive 1 ⟨⟨0, 2⟩, 3⟩, .receive 2 ⟨⟨0, 5⟩, 4⟩, .new 3, .moveAssign 3 1, .moveNew 4 2, .drop 2]

example : (run init exOps).map (fun st => (st.vars 1, st.vars 2, st.vars 3, st.vars 4)) =
    some (some nullView, none, some ⟨some ⟨0, 2⟩, 3⟩, some ⟨some ⟨0, 5⟩, 4⟩) := by decide
example : (run init exOps).map (fun st => toRust st.heap .plain ⟨some ⟨0, 2⟩, 3⟩) = some (.ok ⟨⟨0, 2⟩, 3⟩) := by decide
example : ¬ Overlap ⟨⟨0, 2⟩, 3⟩ ⟨⟨0, 5⟩, 4⟩ := by
  rintro ⟨_, i, h1, h2, h3, h4⟩
  simp only at h1 h2 h3 h4
  omega

end Flapi.SliceViews
