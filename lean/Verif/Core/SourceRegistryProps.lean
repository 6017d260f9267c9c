import Verif.Core.SourceRegistry
/-!
# C04 – source ids keep naming the code registered under them
-/
namespace Flapi.SourceRegistry

theorem registerAll_eq (r : Registry) (ss : List SourceCode) (ids : List SourceId) (r' : Registry)
    (h : registerAll r ss = some (ids, r')) :
    r' = r ++ ss ∧ ids = (List.range' r.length ss.length).map some := by
  induction ss generalizing r ids r' with
  | nil => simp [registerAll] at h; simp [h]
  | cons s ss ih =>
    simp only [registerAll, Option.bind_eq_bind, Option.bind_eq_some_iff, Option.pure_def,
      Option.some.injEq, Prod.exists] at h
    obtain ⟨id, r1, h1, ids2, r2, h2, h3⟩ := h
    unfold register at h1
    split at h1
    · simp at h1
    · simp at h1
      obtain ⟨rfl, rfl⟩ := h1
      simp at h3
      obtain ⟨rfl, rfl⟩ := h3
      obtain ⟨hr, hi⟩ := ih _ _ _ h2
      constructor
      · simp [hr]
      · simp [hi, List.range'_succ]

/-- **C04 (stability).** Every id issued during a history of registrations still denotes, at the end of the history,
exactly the source it was issued for – whatever was registered before and after. -/
theorem C04_ids_stable (before : Registry) (ss : List SourceCode) (ids : List SourceId) (final : Registry)
    (h : registerAll before ss = some (ids, final)) :
    ids.length = ss.length ∧
    ∀ (k : Nat) s id, ss[k]? = some s → ids[k]? = some id →
      srcWithId final id = some s ∧ src final id = some s.code := by
  obtain ⟨rfl, rfl⟩ := registerAll_eq _ _ _ _ h
  refine ⟨by simp, ?_⟩
  intro k s id hk hid
  have hlt : k < ss.length := by
    rcases Nat.lt_or_ge k ss.length with h | h
    · exact h
    · simp [List.getElem?_eq_none h] at hk
  simp [hlt] at hid
  subst hid
  have : srcWithId (before ++ ss) (some (before.length + k)) = some s := by
    simp [srcWithId, List.getElem?_append_right, hk]
  exact ⟨this, by simp [src, this]⟩

/-- **C04 (older ids).** An id that was valid before the history denotes the same source afterwards. -/
theorem C04_old_ids_stable (before : Registry) (ss : List SourceCode) (ids : List SourceId) (final : Registry)
    (h : registerAll before ss = some (ids, final)) (id : SourceId) (s : SourceCode)
    (hid : srcWithId before id = some s) : srcWithId final id = some s := by
  obtain ⟨rfl, _⟩ := registerAll_eq _ _ _ _ h
  cases id with
  | none => simp [srcWithId] at hid
  | some i =>
    simp only [srcWithId] at *
    rw [List.getElem?_append_left]
    · exact hid
    · rcases Nat.lt_or_ge i before.length with h | h
      · exact h
      · simp [List.getElem?_eq_none h] at hid

/-- **C04 (distinct).** The ids issued in one history are pairwise distinct. -/
theorem C04_ids_distinct (before : Registry) (ss : List SourceCode) (ids : List SourceId) (final : Registry)
    (h : registerAll before ss = some (ids, final)) : ids.Nodup := by
  obtain ⟨_, rfl⟩ := registerAll_eq _ _ _ _ h
  refine List.Pairwise.map _ ?_ (List.nodup_range' (s := before.length) (n := ss.length))
  intro a b hab he; exact hab (by simpa using he)

/-- **C04 (duplicates refused).** A history is accepted exactly if no two sources of the final registry share their
name, given that this held before. -/
theorem C04_duplicates_refused (before : Registry) (ss : List SourceCode)
    (hb : (before.map (·.idOfCode)).Nodup) :
    (registerAll before ss).isSome ↔ ((before ++ ss).map (·.idOfCode)).Nodup := by
  induction ss generalizing before with
  | nil => simpa [registerAll] using hb
  | cons s ss ih =>
    by_cases hd : s.idOfCode ∈ before.map (·.idOfCode)
    · have h1 : register before s = none := by
        obtain ⟨x, hx, he⟩ := List.mem_map.1 hd
        simp [register]
        exact ⟨x, hx, he⟩
      constructor
      · simp [registerAll, h1]
      · intro hn
        simp only [List.map_append, List.map_cons] at hn
        exact absurd rfl ((List.nodup_append.1 hn).2.2 _ hd s.idOfCode (by simp))
    · have h1 : register before s = some (some before.length, before ++ [s]) := by
        simp only [register]
        rw [if_neg]
        intro hc
        obtain ⟨x, hx, he⟩ := List.any_eq_true.1 hc
        exact hd (List.mem_map.2 ⟨x, hx, by simpa using he⟩)
      have hb' : ((before ++ [s]).map (·.idOfCode)).Nodup := by
        simp only [List.map_append, List.map_cons, List.map_nil]
        refine List.nodup_append.2 ⟨hb, by simp, ?_⟩
        intro a ha b hb
        simp at hb; subst hb
        rintro rfl; exact hd ha
      have := ih (before ++ [s]) hb'
      simp only [List.append_assoc, List.singleton_append] at this
      rw [← this]
      simp only [registerAll, h1, Option.bind_eq_bind, Option.bind_some]
      cases registerAll (before ++ [s]) ss <;> simp

/-! Non-vacuity -/
example : registerAll [] [⟨"a".toList, "x".toList⟩, ⟨"b".toList, "y".toList⟩]
    = some ([some 0, some 1], [⟨"a".toList, "x".toList⟩, ⟨"b".toList, "y".toList⟩]) := by decide
example : registerAll [] [⟨"a".toList, "x".toList⟩, ⟨"a".toList, "y".toList⟩] = none := by decide

end Flapi.SourceRegistry
