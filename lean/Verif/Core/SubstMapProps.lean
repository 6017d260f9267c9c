import Verif.Core.SubstMap
/-!
# C03 – type parameter substitutions behave as a finite map
-/
namespace Flapi.SubstMap
variable {κ τ : Type} [DecidableEq κ]

/-! ## Specification: a partial function -/

/-- The abstract state: for each parameter, absent or (possibly still unknown) type. -/
abbrev Spec (κ τ : Type) := κ → Option (Option τ)

/-- Effect of one operation on the abstract state: insertion (re)binds; writing through `get_mut` rebinds only an
existing parameter. -/
def specStep (f : Spec κ τ) : Op κ τ → Spec κ τ
  | .insert k v => fun x => if x = k then some v else f x
  | .setMut k v => fun x => if x = k then (f k).map (fun _ => v) else f x

/-! ## Helper lemmas -/

theorem get_cons (k k' : κ) (v : Option τ) (l : List (κ × Option τ)) :
    (Map.mk ((k', v) :: l)).get k = if k' = k then some v else (Map.mk l).get k := by
  by_cases h : k' = k <;> simp [Map.get, h]

theorem get_append_one (l : List (κ × Option τ)) (k x : κ) (v : Option τ) :
    (Map.mk (l ++ [(k, v)])).get x = match (Map.mk l).get x with
      | some r => some r
      | none => if k = x then some v else none := by
  induction l with
  | nil => by_cases h : k = x <;> simp [Map.get, h]
  | cons a l ih =>
    obtain ⟨a, va⟩ := a
    rw [List.cons_append, get_cons, get_cons, ih]
    by_cases h : a = x <;> simp [h]

theorem setFirst_get (k x : κ) (v : Option τ) (l l' : List (κ × Option τ)) (h : setFirst k v l = some l') :
    (Map.mk l').get x = if x = k then some v else (Map.mk l).get x := by
  induction l generalizing l' with
  | nil => simp [setFirst] at h
  | cons a l ih =>
    obtain ⟨a, va⟩ := a
    unfold setFirst at h
    split at h
    · rename_i he
      simp at h; subst h
      rw [get_cons, get_cons]
      by_cases hx : x = k
      · simp [hx, he]
      · have : a ≠ x := by rintro rfl; exact hx he
        simp [hx, this]
    · rename_i hne
      simp only [Option.map_eq_some_iff] at h
      obtain ⟨l2, h2, rfl⟩ := h
      rw [get_cons, get_cons, ih _ h2]
      by_cases hx : x = k
      · subst hx; simp [hne]
      · by_cases hax : a = x <;> simp [hax, hx]

theorem setFirst_none (k : κ) (v : Option τ) (l : List (κ × Option τ)) :
    setFirst k v l = none ↔ k ∉ l.map (·.1) := by
  induction l with
  | nil => simp [setFirst]
  | cons a l ih =>
    unfold setFirst
    split
    · rename_i h; simp [h]
    · rename_i h
      simp only [Option.map_eq_none_iff, ih, List.map_cons, List.mem_cons, not_or]
      constructor
      · intro h2; exact ⟨fun e => h e.symm, h2⟩
      · exact fun h2 => h2.2

theorem setFirst_keys (k : κ) (v : Option τ) (l l' : List (κ × Option τ)) (h : setFirst k v l = some l') :
    l'.map (·.1) = l.map (·.1) := by
  induction l generalizing l' with
  | nil => simp [setFirst] at h
  | cons a l ih =>
    unfold setFirst at h
    split at h
    · simp at h; subst h; simp
    · simp only [Option.map_eq_some_iff] at h
      obtain ⟨l2, h2, rfl⟩ := h
      simp [ih _ h2]

theorem get_none_iff (k : κ) (l : List (κ × Option τ)) :
    (Map.mk l).get k = none ↔ k ∉ l.map (·.1) := by
  induction l with
  | nil => simp [Map.get]
  | cons a l ih =>
    obtain ⟨a, va⟩ := a
    rw [get_cons]
    by_cases h : a = k
    · simp [h]
    · have : ¬ k = a := fun e => h e.symm
      simp [h, ih, this]

theorem step_get (m : Map κ τ) (op : Op κ τ) (x : κ) :
    (step m op).get x = specStep m.get op x := by
  cases op with
  | insert k v =>
    simp only [step, Map.insert, specStep]
    split
    · rename_i l h; exact setFirst_get _ _ _ _ _ h
    · rename_i h
      rw [get_append_one]
      by_cases hx : x = k
      · subst hx
        have := (get_none_iff x m.inner).2 ((setFirst_none _ _ _).1 h)
        simp [this]
      · have hk : k ≠ x := fun e => hx e.symm
        simp only [hx, hk, if_false]
        cases m.get x <;> rfl
  | setMut k v =>
    simp only [step, Map.setMut, specStep]
    split
    · rename_i l h
      rw [setFirst_get _ _ _ _ _ h]
      by_cases hx : x = k
      · subst hx
        cases hg : m.get x with
        | none =>
          have h1 := (setFirst_none x v _).2 ((get_none_iff x m.inner).1 hg)
          rw [h] at h1; cases h1
        | some r => simp
      · simp [hx]
    · rename_i h
      by_cases hx : x = k
      · subst hx
        have := (get_none_iff x m.inner).2 ((setFirst_none _ _ _).1 h)
        have h2 : m.get x = none := this
        simp [h2]
      · simp [hx]

theorem step_nodup (m : Map κ τ) (op : Op κ τ) (h : (m.inner.map (·.1)).Nodup) :
    ((step m op).inner.map (·.1)).Nodup := by
  cases op with
  | insert k v =>
    simp only [step, Map.insert]
    split
    · rename_i l h2; simpa [setFirst_keys _ _ _ _ h2] using h
    · rename_i h2
      have hk := (setFirst_none _ _ _).1 h2
      simp only [List.map_append, List.map_cons, List.map_nil]
      refine List.nodup_append.2 ⟨h, by simp, ?_⟩
      intro a ha b hb
      simp at hb; subst hb
      rintro rfl; exact hk ha
  | setMut k v =>
    simp only [step, Map.setMut]
    split
    · rename_i l h2; simpa [setFirst_keys _ _ _ _ h2] using h
    · exact h

/-! ## Property theorems -/

/-- **C03 (refinement).** After any history of operations every lookup returns what the plain partial function
returns: the value most recently bound to that very parameter, and "absent" for never inserted parameters. -/
theorem C03_refines_partial_function (ops : List (Op κ τ)) (x : κ) :
    (run ops).get x = (ops.foldl specStep (fun _ => none)) x := by
  have gen : ∀ (ops : List (Op κ τ)) (m : Map κ τ) (f : Spec κ τ), (∀ y, m.get y = f y) →
      ∀ y, (ops.foldl step m).get y = (ops.foldl specStep f) y := by
    intro ops
    induction ops with
    | nil => intro m f h y; exact h y
    | cons op ops ih =>
      intro m f h
      refine ih _ _ ?_
      intro y
      rw [step_get]
      have : m.get = f := funext h
      rw [this]
  exact gen ops {} (fun _ => none) (by intro y; simp [Map.get]) x

/-- **C03 (no duplicates).** No parameter is listed twice, whatever the history. -/
theorem C03_keys_nodup (ops : List (Op κ τ)) : (((run ops).toList).map (·.1)).Nodup := by
  have gen : ∀ (ops : List (Op κ τ)) (m : Map κ τ), (m.inner.map (·.1)).Nodup →
      ((ops.foldl step m).inner.map (·.1)).Nodup := by
    intro ops
    induction ops with
    | nil => intro m h; exact h
    | cons op ops ih => intro m h; exact ih _ (step_nodup m op h)
  exact gen ops {} (by simp)

/-- **C03 (listing = lookup).** Listing the map and looking up agree: a pair is listed iff lookup returns it. -/
theorem C03_listed_iff_get (ops : List (Op κ τ)) (k : κ) (v : Option τ) :
    (k, v) ∈ (run ops).toList ↔ (run ops).get k = some v := by
  have hnd := C03_keys_nodup ops
  generalize hm : run ops = m at *
  obtain ⟨l⟩ := m
  simp only [Map.toList] at *
  clear hm
  induction l with
  | nil => simp [Map.get]
  | cons a l ih =>
    obtain ⟨a, va⟩ := a
    simp only [List.map_cons, List.nodup_cons] at hnd
    have ih' := ih hnd.2
    simp only [get_cons, List.mem_cons, ih']
    by_cases h : a = k
    · subst h
      have hn := (get_none_iff a l).2 hnd.1
      constructor
      · rintro (h | h)
        · simp at h; simp [h]
        · rw [hn] at h; cases h
      · intro h; simp at h; simp [h]
    · have hne : ¬ k = a := fun e => h e.symm
      simp [h, hne]

/-- **C03 (conversion to a list and back).** Rebuilding a map from its listing gives the same lookups. -/
theorem C03_list_round_trip (ops : List (Op κ τ)) (x : κ) :
    (ofList (run ops).toList).get x = (run ops).get x := by
  have hnd := C03_keys_nodup ops
  generalize run ops = m at *
  obtain ⟨l⟩ := m
  simp only [Map.toList] at *
  have gen : ∀ (l : List (κ × Option τ)) (m : Map κ τ), (l.map (·.1)).Nodup →
      (l.foldl (fun m it => m.insert it.1 it.2) m).get x
        = match (Map.mk l).get x with | some r => some r | none => m.get x := by
    intro l
    induction l with
    | nil => intro m _; simp [Map.get]
    | cons a l ih =>
      intro m hnd
      obtain ⟨a, va⟩ := a
      simp only [List.map_cons, List.nodup_cons] at hnd
      rw [List.foldl_cons, ih _ hnd.2, get_cons]
      have hs : (m.insert a va).get x = if x = a then some va else m.get x := step_get m (.insert a va) x
      simp only [hs]
      by_cases h : a = x
      · subst h
        have hn := (get_none_iff a l).2 hnd.1
        simp [hn]
      · have hne : ¬ x = a := fun e => h e.symm
        simp [h, hne]
  rw [ofList, gen l {} hnd]
  have : (({} : Map κ τ).get x) = none := by simp [Map.get]
  rw [this]
  cases (Map.mk l).get x <;> rfl

/-! Non-vacuity: a history with a rebinding and a write to an absent key. -/
example : (run [.insert "T".toList (none : Option Nat), .insert "U".toList (some 1), .setMut "T".toList (some 7),
    .setMut "V".toList (some 9), .insert "U".toList (some 2)]).toList
    = [("T".toList, some 7), ("U".toList, some 2)] := by decide

end Flapi.SubstMap
