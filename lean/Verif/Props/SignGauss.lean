import Verif.Model.Maths
import Verif.Model.Gauss
import Mathlib.Probability.Distributions.Gaussian.Real
import Mathlib.Algebra.Order.Ring.Abs

/-! # C87: sign, square and the Gaussian curve -/

namespace Heu

section C87

/-- C87: `sign` is one of -1, 0, 1 and every number is its sign times its absolute value. -/
theorem sign_spec {α : Type} [Field α] [LinearOrder α] [IsStrictOrderedRing α] (x : α) :
    (signOf x = 1 ↔ 0 < x) ∧ (signOf x = -1 ↔ x < 0) ∧ (signOf x = 0 ↔ x = 0) ∧ x = signOf x * |x| := by
  unfold signOf
  rcases lt_trichotomy x 0 with h | rfl | h
  · have h' : ¬ 0 < x := not_lt.2 h.le
    have e1 : ((-1 : α) = 1) ↔ False := by
      constructor
      · intro e; have : (0 : α) < 1 := zero_lt_one; linarith
      · exact False.elim
    simp [h, h', h.ne, abs_of_neg h, e1]
  · have e : ((0 : α) = -1) ↔ False := by simp
    simp
  · have h' : ¬ x < 0 := not_lt.2 h.le
    have e1 : ((1 : α) = -1) ↔ False := by
      constructor
      · intro e; have : (0 : α) < 1 := zero_lt_one; linarith
      · exact False.elim
    simp [h, h', h.ne', abs_of_pos h, e1]

/-- C87: `square` is the square: the power, never negative, blind to the sign. -/
theorem square_spec {α : Type} [Field α] [LinearOrder α] [IsStrictOrderedRing α] (x : α) :
    square x = x ^ 2 ∧ 0 ≤ square x ∧ square (-x) = square x := by
  unfold square
  exact ⟨(sq x).symm, mul_self_nonneg x, neg_mul_neg x x⟩

/-- C87: `gaussianCurve` is the density of the normal distribution with mean `mu` and standard deviation
`sigma`; in particular the area under it is 1. -/
theorem gaussianCurve_is_density (mu sigma : ℝ) (hs : 0 < sigma) :
    (∀ x, gaussianCurve x mu sigma = ProbabilityTheory.gaussianPDFReal mu (sigma ^ 2).toNNReal x) ∧
    (∫ x, gaussianCurve x mu sigma) = 1 := by
  have h : ∀ x, gaussianCurve x mu sigma =
      ProbabilityTheory.gaussianPDFReal mu (sigma ^ 2).toNNReal x := by
    intro x
    unfold gaussianCurve ProbabilityTheory.gaussianPDFReal
    have : √(2 * Real.pi * (sigma ^ 2)) = sigma * √(2 * Real.pi) := by
      rw [Real.sqrt_mul (by positivity), Real.sqrt_sq hs.le, mul_comm]
    rw [Real.coe_toNNReal _ (sq_nonneg sigma), this, one_div]
  refine ⟨h, ?_⟩
  simp_rw [h]
  apply ProbabilityTheory.integral_gaussianPDFReal_eq_one
  intro h0
  have := Real.toNNReal_eq_zero.1 h0
  have := pow_pos hs 2
  linarith

example : signOf (-3 : ℚ) = -1 ∧ signOf (0 : ℚ) = 0 ∧ square (-3 : ℚ) = 9 := by decide +kernel

end C87

end Heu
