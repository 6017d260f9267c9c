import Verif.Core.NameGen
/-!
# C01 – generated variable names never capture existing ones
-/
namespace Flapi.NameGen

/-! ## Helper lemmas about the loop -/

theorem loop_fresh (names : List Text) (templ : Text) :
    ∀ fuel idx cur r, loop names templ fuel idx cur = some r → r ∉ names := by
  intro fuel
  induction fuel with
  | zero =>
    intro idx cur r h
    unfold loop at h
    split at h
    · simp at h; subst h; assumption
    · simp at h
  | succ n ih =>
    intro idx cur r h
    unfold loop at h
    split at h
    · simp at h; subst h; assumption
    · simp only at h
      split at h
      · simp at h
      · exact ih _ _ _ h

theorem loop_min (names : List Text) (templ : Text) :
    ∀ fuel idx cur r, loop names templ fuel idx cur = some r →
      r = cur ∨ (cur ∈ names ∧ ∃ i, idx ≤ i ∧ r = templ ++ dec i ∧
        ∀ j, idx ≤ j → j < i → templ ++ dec j ∈ names) := by
  intro fuel
  induction fuel with
  | zero =>
    intro idx cur r h
    unfold loop at h
    split at h
    · simp at h; exact Or.inl h.symm
    · simp at h
  | succ n ih =>
    intro idx cur r h
    unfold loop at h
    split at h
    · simp at h; exact Or.inl h.symm
    · rename_i hc
      simp only at h
      split at h
      · simp at h
      · have hc' : cur ∈ names := by simpa using hc
        rcases ih _ _ _ h with h1 | ⟨hm, i, hi, hr, hall⟩
        · refine Or.inr ⟨hc', idx, Nat.le_refl _, h1, ?_⟩
          intro j h1 h2; omega
        · refine Or.inr ⟨hc', i, by omega, hr, ?_⟩
          intro j h1 h2
          by_cases hj : j = idx
          · subst hj; exact hm
          · exact hall j (by omega) h2

theorem loop_none (names : List Text) (templ : Text) :
    ∀ fuel idx cur, idx + fuel = u64Max → 0 < fuel → loop names templ fuel idx cur = none →
      cur ∈ names ∧ ∀ j, idx ≤ j → j + 1 < u64Max → templ ++ dec j ∈ names := by
  intro fuel
  induction fuel with
  | zero => intro idx cur _ h0; omega
  | succ n ih =>
    intro idx cur hs _ h
    unfold loop at h
    split at h
    · simp at h
    · rename_i hc
      have hc' : cur ∈ names := by simpa using hc
      simp only at h
      split at h
      · rename_i he
        exact ⟨hc', fun j h1 h2 => by omega⟩
      · rename_i hne
        have := ih _ _ (by omega) (by omega) h
        refine ⟨hc', fun j h1 h2 => ?_⟩
        by_cases hj : j = idx
        · subst hj; exact this.1
        · exact this.2 j (by omega) h2

theorem loop_bound (names : List Text) (templ : Text) :
    ∀ fuel idx cur r, idx + fuel = u64Max → loop names templ fuel idx cur = some r →
      r = cur ∨ ∃ i, i + 1 < u64Max ∧ r = templ ++ dec i := by
  intro fuel
  induction fuel with
  | zero =>
    intro idx cur r _ h
    unfold loop at h
    split at h
    · simp at h; exact Or.inl h.symm
    · simp at h
  | succ n ih =>
    intro idx cur r hs h
    unfold loop at h
    split at h
    · simp at h; exact Or.inl h.symm
    · simp only at h
      split at h
      · simp at h
      · rename_i hne
        rcases ih _ _ _ (by omega) h with h1 | h1
        · exact Or.inr ⟨idx, by omega, h1⟩
        · exact Or.inr h1

theorem append_dec_ne (t : Text) (n : Nat) : t ++ dec n ≠ t := by
  intro h
  exact dec_ne_nil n (by simpa using h)

theorem pigeon (names : List Text) (templ : Text) (M : Nat) (hM : 0 < M) (h0 : templ ∈ names)
    (hall : ∀ j, j + 1 < M → templ ++ dec j ∈ names) : M ≤ names.length := by
  have hnd : (templ :: (List.range (M - 1)).map (fun j => templ ++ dec j)).Nodup := by
    refine List.nodup_cons.2 ⟨?_, ?_⟩
    · intro hm
      obtain ⟨j, _, hj⟩ := List.mem_map.1 hm
      exact append_dec_ne _ _ hj
    · refine List.Pairwise.map _ ?_ (List.nodup_range (n := M - 1))
      intro a b hab he
      exact hab (dec_injective (List.append_cancel_left he))
  have hle := length_le_of_nodup_subset _ names hnd (by
    intro x hx
    rcases List.mem_cons.1 hx with rfl | hm
    · exact h0
    · obtain ⟨j, hj, rfl⟩ := List.mem_map.1 hm
      have := List.mem_range.1 hj
      exact hall j (by omega))
  simp at hle
  omega

/-! ## Property theorems -/

/-- **C01 (freshness).** A returned identifier is not among the used ones. -/
theorem C01_fresh (names : List Text) (templ r : Text)
    (h : newUniqueName names templ = some r) : r ∉ names :=
  loop_fresh _ _ _ _ _ _ h

/-- **C01 (which name).** The result is the preferred name if that one is free; otherwise it is the preferred name
followed by the least decimal number that makes it free. -/
theorem C01_least (names : List Text) (templ r : Text)
    (h : newUniqueName names templ = some r) :
    (templ ∉ names → r = templ) ∧
    (templ ∈ names → ∃ i, r = templ ++ dec i ∧ r ∉ names ∧ ∀ j < i, templ ++ dec j ∈ names) := by
  have hf := C01_fresh _ _ _ h
  constructor
  · intro hn
    unfold newUniqueName loop at h
    simp [hn] at h
    exact h.symm
  · intro hm
    rcases loop_min _ _ _ _ _ _ h with h1 | ⟨_, i, _, hr, hall⟩
    · subst h1; exact absurd hm hf
    · exact ⟨i, hr, hf, fun j hj => hall j (Nat.zero_le _) hj⟩

/-- **C01 (termination/success).** The search succeeds for every set with fewer than `u64::MAX` used names, whatever
they are; the `panic!` needs at least `u64::MAX` names in memory. -/
theorem C01_total (names : List Text) (templ : Text) (hlen : names.length < u64Max) :
    ∃ r, newUniqueName names templ = some r := by
  cases h : newUniqueName names templ with
  | some r => exact ⟨r, rfl⟩
  | none =>
    exfalso
    have hp : 0 < u64Max := by decide
    obtain ⟨h0, hall⟩ := loop_none names templ u64Max 0 templ (by omega) hp h
    have := pigeon names templ u64Max hp h0 (fun j hj => hall j (Nat.zero_le _) hj)
    omega

/-- **C01 (panic).** The search gives up exactly if the preferred name and the preferred name with every number below
2^64 - 2 are used. -/
theorem C01_panics_iff (names : List Text) (templ : Text) :
    newUniqueName names templ = none ↔ templ ∈ names ∧ ∀ j < 2 ^ 64 - 2, templ ++ dec j ∈ names := by
  have hM : u64Max = 2 ^ 64 - 1 := rfl
  constructor
  · intro h
    obtain ⟨h0, hall⟩ := loop_none names templ u64Max 0 templ (by omega) (by omega) h
    exact ⟨h0, fun j hj => hall j (Nat.zero_le _) (by omega)⟩
  · intro ⟨h0, hall⟩
    cases h : newUniqueName names templ with
    | none => rfl
    | some r =>
      have hf := C01_fresh _ _ _ h
      rcases loop_bound names templ u64Max 0 templ r (by omega) h with h1 | ⟨i, hi, h1⟩
      · exact absurd h0 (h1 ▸ hf)
      · exact absurd (hall i (by omega)) (h1 ▸ hf)

/-- **C01 (several requests).** A sequence of requests, each result being added to the used names, yields pairwise
distinct identifiers none of which was used before, one for each request. -/
theorem C01_sequence (names templs rs : List Text) (h : allocNames names templs = some rs) :
    rs.Nodup ∧ (∀ r ∈ rs, r ∉ names) ∧ rs.length = templs.length := by
  induction templs generalizing names rs with
  | nil => simp [allocNames] at h; subst h; simp
  | cons t ts ih =>
    simp only [allocNames, Option.bind_eq_bind, Option.bind_eq_some_iff, Option.pure_def] at h
    obtain ⟨n, hn, rest, hrest, he⟩ := h
    simp at he; subst he
    obtain ⟨h1, h2, h3⟩ := ih _ _ hrest
    refine ⟨List.nodup_cons.2 ⟨fun hm => h2 n hm (by simp), h1⟩, ?_, by simp [h3]⟩
    intro r hr
    rcases List.mem_cons.1 hr with rfl | hr
    · exact C01_fresh _ _ _ hn
    · exact fun hx => h2 r hr (by simp [hx])

/-! Non-vacuity: user names that collide twice. -/
example : newUniqueName ["ret".toList, "ret0".toList, "a".toList] "ret".toList = some "ret1".toList := by decide
example : ["ret".toList, "ret0".toList].length < u64Max := by decide
example : allocNames ["a".toList] ["a".toList, "a".toList, "b".toList]
    = some ["a0".toList, "a1".toList, "b".toList] := by decide

end Flapi.NameGen
