/-!
# Sums over the first `n` numbers

A proof tool (no code of /repo): to count how many of the first `n` variables have a property.
-/
namespace Flapi

/-- `f 0 + … + f (n - 1)`. -/
def sumTo (f : Nat → Nat) : Nat → Nat
  | 0 => 0
  | n + 1 => sumTo f n + f n

theorem sumTo_same (f g : Nat → Nat) (n : Nat) (h : ∀ z, z < n → g z = f z) : sumTo g n = sumTo f n := by
  induction n with
  | zero => rfl
  | succ n ih => simp only [sumTo]; rw [ih (fun z hz => h z (by omega)), h n (by omega)]

theorem sumTo_update (f g : Nat → Nat) (x n : Nat) (hx : x < n) (h : ∀ z, z ≠ x → g z = f z) : sumTo g n + f x = sumTo f n + g x := by
  induction n with
  | zero => omega
  | succ n ih =>
    simp only [sumTo]
    by_cases hxn : x = n
    · subst hxn
      rw [sumTo_same f g x (fun z hz => h z (by omega))]
      omega
    · have := ih (by omega)
      rw [h n (Ne.symm hxn)]
      omega

theorem sumTo_zero (f : Nat → Nat) (n : Nat) (h : ∀ z, f z = 0) : sumTo f n = 0 := by
  induction n with
  | zero => rfl
  | succ n ih => simp only [sumTo, ih, h]

end Flapi
