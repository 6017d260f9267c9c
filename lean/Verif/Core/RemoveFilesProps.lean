import Verif.Core.RemoveFiles
/-!
# Removing stale generated files (C28)
-/
namespace Flapi.Stale

/-! ## Specification -/

/-- `name` is `stem.ext` with a non-empty stem and no dot in `ext`. -/
def HasExt (name ext : Text) : Prop := ∃ stem, stem ≠ [] ∧ '.' ∉ ext ∧ name = stem ++ '.' :: ext

/-! ## Lemmas -/

theorem afterLastDot_none {t : Text} : afterLastDot t = none ↔ '.' ∉ t := by
  induction t with
  | nil => simp [afterLastDot]
  | cons c t ih =>
    rw [afterLastDot]
    cases h : afterLastDot t with
    | some v =>
      have : ¬ ('.' ∉ t) := fun hn => by rw [ih.2 hn] at h; cases h
      simp only [List.mem_cons, not_or]
      exact ⟨fun hh => (nomatch hh), fun hh => absurd hh.2 this⟩
    | none =>
      have hn := ih.1 h
      simp only [beq_iff_eq]
      split
      · rename_i hc
        simp [hc]
      · rename_i hc
        have hc' : ('.' : Char) ≠ c := fun h => hc h.symm
        simp [hn, hc']

theorem afterLastDot_some {t b a : Text} : afterLastDot t = some (b, a) ↔ t = b ++ '.' :: a ∧ '.' ∉ a := by
  induction t generalizing b with
  | nil => simp [afterLastDot]
  | cons c t ih =>
    rw [afterLastDot]
    cases h : afterLastDot t with
    | some v =>
      obtain ⟨b', a'⟩ := v
      simp only [Option.some.injEq, Prod.mk.injEq]
      constructor
      · rintro ⟨rfl, rfl⟩
        have := ih.1 h
        exact ⟨by rw [this.1]; rfl, this.2⟩
      · rintro ⟨he, hn⟩
        cases b with
        | nil =>
          simp only [List.nil_append, List.cons.injEq] at he
          obtain ⟨rfl, rfl⟩ := he
          rw [afterLastDot_none.2 hn] at h
          cases h
        | cons x b =>
          simp only [List.cons_append, List.cons.injEq] at he
          obtain ⟨rfl, he⟩ := he
          have := ih.2 ⟨he, hn⟩
          rw [h] at this
          cases this
          exact ⟨rfl, rfl⟩
    | none =>
      have hn := afterLastDot_none.1 h
      simp only [beq_iff_eq]
      split
      · rename_i hc
        subst hc
        simp only [Option.some.injEq, Prod.mk.injEq]
        constructor
        · rintro ⟨rfl, rfl⟩
          exact ⟨rfl, hn⟩
        · rintro ⟨he, hn'⟩
          cases b with
          | nil =>
            simp only [List.nil_append, List.cons.injEq, true_and] at he
            exact ⟨rfl, he⟩
          | cons x b =>
            simp only [List.cons_append, List.cons.injEq] at he
            exact absurd (by rw [he.2]; simp) hn
      · rename_i hc
        constructor
        · exact fun hh => nomatch hh
        · rintro ⟨he, -⟩
          cases b with
          | nil => simp only [List.nil_append, List.cons.injEq] at he; exact absurd he.1 hc
          | cons x b =>
            simp only [List.cons_append, List.cons.injEq] at he
            exact absurd (by rw [he.2]; simp) hn

theorem extension_iff (name ext : Text) (hne : ext ≠ []) : extension name = some ext ↔ HasExt name ext := by
  unfold extension HasExt
  split
  · rename_i h
    have h : name = "..".toList := by simpa using h
    constructor
    · exact fun hh => nomatch hh
    · rintro ⟨stem, hs, hn, he⟩
      rw [h] at he
      have hl := congrArg List.length he
      simp only [List.length_append, List.length_cons] at hl
      have h1 := List.length_pos_iff.2 hs
      have h2 := List.length_pos_iff.2 hne
      have h3 : ("..".toList).length = 2 := by decide
      omega
  · cases h : afterLastDot name with
    | none =>
      constructor
      · exact fun hh => nomatch hh
      · rintro ⟨stem, hs, hn, he⟩
        exact absurd (by rw [he]; simp) (afterLastDot_none.1 h)
    | some v =>
      obtain ⟨b, a⟩ := v
      have := afterLastDot_some.1 h
      simp only
      cases b with
      | nil =>
        simp only [List.isEmpty_nil, if_true]
        constructor
        · exact fun hh => nomatch hh
        · rintro ⟨stem, hs, hn, he⟩
          have h2 := (afterLastDot_some (b := stem)).2 ⟨he, hn⟩
          rw [h] at h2
          cases h2
          exact absurd rfl hs
      | cons x b =>
        simp only [List.isEmpty_cons, Bool.false_eq_true, if_false, Option.some.injEq]
        constructor
        · rintro rfl
          exact ⟨x :: b, by simp, this.2, this.1⟩
        · rintro ⟨stem, hs, hn, he⟩
          have h2 := (afterLastDot_some (b := stem)).2 ⟨he, hn⟩
          rw [h] at h2
          cases h2
          rfl

/-! ## Theorems -/

/-- **C28**: when the clean-up succeeds, exactly the entries satisfying the predicate are gone and every other entry is
there with its content, in any directory and for any listing order. -/
theorem C28_exact (filter : Text → Bool) (dir : List Entry) (l : List Entry) (h : removeIf filter dir = (l, true)) :
    l = dir.filter fun e => !filter e.name := by
  induction dir generalizing l with
  | nil => simp [removeIf] at h; simp [h]
  | cons e dir ih =>
    rw [removeIf] at h
    split at h
    · rename_i hf
      split at h
      · rw [ih l h]; simp [hf]
      · cases h
    · rename_i hf
      cases hr : removeIf filter dir with
      | mk l' ok =>
        rw [hr] at h
        cases h
        rw [ih l' hr]
        simp [hf]

/-- **C28**: it succeeds exactly if every entry that must go can be removed. -/
theorem C28_succeeds_iff (filter : Text → Bool) (dir : List Entry) :
    (removeIf filter dir).2 = true ↔ ∀ e ∈ dir, filter e.name = true → e.removable = true := by
  induction dir with
  | nil => simp [removeIf]
  | cons e dir ih =>
    rw [removeIf]
    split
    · rename_i hf
      split
      · rename_i hr
        rw [ih]; simp [hf, hr]
      · rename_i hr
        simp [hf, hr]
    · rename_i hf
      cases hr : removeIf filter dir with
      | mk l' ok =>
        rw [hr] at ih
        simp only
        rw [ih]
        simp [hf]

/-- **C28**: even when it fails half way, nothing outside the predicate is lost, and nothing is invented. -/
theorem C28_failure_safe (filter : Text → Bool) (dir : List Entry) :
    (∀ e ∈ dir, filter e.name = false → e ∈ (removeIf filter dir).1) ∧ ∀ e ∈ (removeIf filter dir).1, e ∈ dir := by
  induction dir with
  | nil => simp [removeIf]
  | cons e dir ih =>
    rw [removeIf]
    split
    · rename_i hf
      split
      · constructor
        · intro x hx hxf
          rcases List.mem_cons.1 hx with rfl | hx
          · rw [hf] at hxf; cases hxf
          · exact ih.1 x hx hxf
        · intro x hx; exact List.mem_cons_of_mem _ (ih.2 x hx)
      · exact ⟨fun x hx _ => hx, fun x hx => hx⟩
    · cases hr : removeIf filter dir with
      | mk l' ok =>
        rw [hr] at ih
        simp only [List.mem_cons]
        constructor
        · rintro x (rfl | hx) hxf
          · exact Or.inl rfl
          · exact Or.inr (ih.1 x hx hxf)
        · rintro x (rfl | hx)
          · exact Or.inl rfl
          · exact Or.inr (ih.2 x hx)

/-- **C28**: after a successful C++ generation with clean-up, an entry of the old directory is still there exactly if
it was generated now or is not a `.h`/`.hpp` file. -/
theorem C28_cpp (generated : List Text) (dir l : List Entry)
    (h : cleanUp true (cppStale generated) dir = (l, true)) (e : Entry) :
    e ∈ l ↔ e ∈ dir ∧ (e.name ∈ generated ∨ ¬ (HasExt e.name "h".toList ∨ HasExt e.name "hpp".toList)) := by
  have h := C28_exact _ _ _ (by simpa [cleanUp] using h)
  rw [h, List.mem_filter]
  apply and_congr_right
  intro _
  rw [← extension_iff _ _ (by decide), ← extension_iff _ _ (by decide)]
  unfold cppStale
  cases extension e.name with
  | none => simp
  | some ext =>
    simp only [Bool.not_and, Bool.not_not, Bool.or_eq_true, Bool.not_eq_true', Bool.or_eq_false_iff, beq_eq_false_iff_ne,
      List.contains_iff_mem, Option.some.injEq, not_or, ne_eq]
    rw [or_comm]

/-- **C28**: the same for Java with `.java` files. -/
theorem C28_java (generated : List Text) (dir l : List Entry)
    (h : cleanUp true (javaStale generated) dir = (l, true)) (e : Entry) :
    e ∈ l ↔ e ∈ dir ∧ (e.name ∈ generated ∨ ¬ HasExt e.name "java".toList) := by
  have h := C28_exact _ _ _ (by simpa [cleanUp] using h)
  rw [h, List.mem_filter]
  apply and_congr_right
  intro _
  rw [← extension_iff _ _ (by decide)]
  unfold javaStale
  cases extension e.name with
  | none => simp
  | some ext =>
    simp only [Bool.not_and, Bool.not_not, Bool.or_eq_true, Bool.not_eq_true', beq_eq_false_iff_ne,
      List.contains_iff_mem, Option.some.injEq, ne_eq]
    rw [or_comm]

/-- **C28**: without the switch nothing is touched. -/
theorem C28_disabled (filter : Text → Bool) (dir : List Entry) : cleanUp false filter dir = (dir, true) := rfl

/-! ## Non-vacuity -/

/-- A sample directory. -/
def sampleDir : List Entry :=
  [⟨"A.java".toList, "a".toList, true⟩, ⟨"B.java".toList, "b".toList, true⟩, ⟨".java".toList, "c".toList, true⟩,
   ⟨"x.hpp".toList, "d".toList, true⟩]

example : removeIf (javaStale ["A.java".toList]) sampleDir =
    ([⟨"A.java".toList, "a".toList, true⟩, ⟨".java".toList, "c".toList, true⟩, ⟨"x.hpp".toList, "d".toList, true⟩], true) := by
  decide

example : (removeIf (javaStale []) [⟨"sub.java".toList, [], false⟩, ⟨"A.java".toList, [], true⟩]) =
    ([⟨"sub.java".toList, [], false⟩, ⟨"A.java".toList, [], true⟩], false) := by decide

end Flapi.Stale
