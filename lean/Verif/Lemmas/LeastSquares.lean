import Mathlib.Algebra.BigOperators.Field
import Mathlib.Algebra.Order.BigOperators.Ring.Finset
import Mathlib.Data.Real.Basic
import Mathlib.Tactic.Linarith
import Mathlib.Tactic.FieldSimp
import Mathlib.Tactic.Positivity

/-!
A table fits numbers best (in the sense of squared errors) if each entry is the mean of the numbers that belong to it.
-/

namespace Verif

variable {X : Type} [Fintype X] [DecidableEq X] {n : ℕ}

theorem fit_regroup (key : Fin n → X) (f : X → ℝ) (g : Fin n → ℝ) : ∑ p, f (key p) * g p = ∑ x, f x * ∑ p with key p = x, g p := by
  rw [← Finset.sum_fiberwise Finset.univ key]
  refine Finset.sum_congr rfl fun x _ => ?_
  rw [Finset.mul_sum]
  refine Finset.sum_congr rfl fun p hp => ?_
  rw [(Finset.mem_filter.mp hp).2]

theorem least_squares (key : Fin n → X) (y : Fin n → ℝ) (Q : X → ℝ) :
    (∀ Q' : X → ℝ, ∑ p, (y p - Q (key p)) ^ 2 ≤ ∑ p, (y p - Q' (key p)) ^ 2) ↔ ∀ x, ∑ p with key p = x, (y p - Q x) = 0 := by
  have hfib : ∀ x, ∑ p with key p = x, (y p - Q (key p)) = ∑ p with key p = x, (y p - Q x) := by
    intro x
    refine Finset.sum_congr rfl fun p hp => ?_
    rw [(Finset.mem_filter.mp hp).2]
  have hsq : ∀ f : X → ℝ, ∑ p, (y p - (Q (key p) + f (key p))) ^ 2 = ∑ p, (y p - Q (key p)) ^ 2 + ∑ p, f (key p) ^ 2 -
      2 * ∑ x, f x * ∑ p with key p = x, (y p - Q x) := by
    intro f
    simp only [← hfib]
    rw [← fit_regroup key f fun p => y p - Q (key p), Finset.mul_sum, ← Finset.sum_add_distrib, ← Finset.sum_sub_distrib]
    exact Finset.sum_congr rfl fun p _ => by ring
  constructor
  · intro h x
    set r := ∑ p with key p = x, (y p - Q x) with hr
    by_contra hne
    set c : ℝ := ((Finset.univ.filter fun p => key p = x).card : ℝ) with hc
    have hcpos : 0 < c := by
      rcases Nat.eq_zero_or_pos (Finset.univ.filter fun p => key p = x).card with h0 | h0
      · rw [Finset.card_eq_zero] at h0
        exact absurd (by rw [hr, h0]; simp) hne
      · rw [hc]; exact_mod_cast h0
    have h1 := h fun z => Q z + if z = x then r / c else 0
    rw [hsq fun z => if z = x then r / c else 0] at h1
    have h2 : ∑ p, (if key p = x then r / c else 0) ^ 2 = c * (r / c) ^ 2 := by
      rw [hc, ← nsmul_eq_mul, ← Finset.sum_const, Finset.sum_filter]
      exact Finset.sum_congr rfl fun p _ => by split <;> simp
    have h3 : ∑ z, (if z = x then r / c else 0) * ∑ p with key p = z, (y p - Q z) = r / c * r := by
      rw [Finset.sum_eq_single x]
      · simp [hr]
      · intro b _ hb; simp [hb]
      · simp
    rw [h2, h3] at h1
    have e1 : c * (r / c) ^ 2 = r ^ 2 / c := by field_simp
    have e2 : r / c * r = r ^ 2 / c := by ring
    rw [e1, e2] at h1
    have : 0 < r ^ 2 / c := by positivity
    linarith
  · intro h Q'
    have h1 := hsq fun x => Q' x - Q x
    simp only [add_sub_cancel, h, mul_zero, Finset.sum_const_zero, sub_zero] at h1
    rw [h1]
    have : 0 ≤ ∑ p, (Q' (key p) - Q (key p)) ^ 2 := Finset.sum_nonneg fun p _ => sq_nonneg _
    linarith

end Verif
