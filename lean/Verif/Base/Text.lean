/-!
# Shared text helpers

Rust `String`/`&str`/`SmolStr` values are modelled as lists of Unicode scalar values.
-/
namespace Flapi

/-- A Rust string, as its sequence of Unicode scalar values. -/
abbrev Text := List Char

/-- Decimal rendering of an unsigned integer, i.e. Rust's `format!("{}", n)`. -/
def dec (n : Nat) : Text := Nat.toDigits 10 n

/-- Value denoted by a decimal numeral (used only to prove that `dec` is injective). -/
def undec (l : Text) : Nat := l.foldl (fun a c => 10 * a + (c.toNat - 48)) 0

theorem undec_append (l m : Text) :
    undec (l ++ m) = m.foldl (fun a c => 10 * a + (c.toNat - 48)) (undec l) := by
  simp [undec, List.foldl_append]

theorem undec_dec (n : Nat) : undec (dec n) = n := by
  induction n using Nat.strongRecOn with
  | ind n ih =>
    unfold dec at *
    by_cases h : n < 10
    · rw [Nat.toDigits_of_lt_base h]
      have := Nat.toNat_digitChar_sub_48_of_lt_ten h
      simp [undec, this]
    · rw [Nat.toDigits_of_base_le (by omega) (by omega), undec_append, ih (n / 10) (by omega)]
      have := Nat.toNat_digitChar_sub_48_of_lt_ten (n := n % 10) (by omega)
      simp only [List.foldl_cons, List.foldl_nil, this]
      omega

theorem dec_injective {m n : Nat} (h : dec m = dec n) : m = n := by
  have := congrArg undec h
  simpa [undec_dec] using this

theorem dec_ne_nil (n : Nat) : dec n ≠ [] := Nat.toDigits_ne_nil

theorem dec_isDigit {n : Nat} {c : Char} (h : c ∈ dec n) : c.isDigit :=
  Nat.isDigit_of_mem_toDigits (by omega) (by omega) h

/-- Pigeonhole: a duplicate-free list contained in another one is not longer. -/
theorem length_le_of_nodup_subset {α} [DecidableEq α] :
    ∀ (l m : List α), l.Nodup → (∀ x ∈ l, x ∈ m) → l.length ≤ m.length := by
  intro l
  induction l with
  | nil => intro m _ _; simp
  | cons a l ih =>
    intro m hnd hsub
    have ha : a ∈ m := hsub a (by simp)
    rw [List.nodup_cons] at hnd
    have := ih (m.erase a) hnd.2 (by
      intro x hx
      have hxm := hsub x (by simp [hx])
      have hne : x ≠ a := by rintro rfl; exact hnd.1 hx
      exact (List.mem_erase_of_ne hne).2 hxm)
    have hl := List.length_erase_of_mem ha
    have : 0 < m.length := List.length_pos_of_mem ha
    simp; omega

end Flapi
