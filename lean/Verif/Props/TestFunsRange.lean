import Verif.Props.TestFunsSO
import Verif.Props.TestFunsMO
import Mathlib.Analysis.SpecialFunctions.Pow.Real

/-!
# C78, C101: ranges and symmetries of the remaining test functions
-/

set_option linter.unusedVariables false

namespace Heu
open Spec TestFuns

/-! ### crossInTray -/

/-- **C101**.  The cross-in-tray function does not change when a coordinate changes its sign or the coordinates
are swapped, so each of its minimisers comes with its mirror images. -/
theorem crossInTray_symmetric (x y : ℝ) :
    crossInTray (-x) y = crossInTray x y ∧ crossInTray x (-y) = crossInTray x y ∧
      crossInTray y x = crossInTray x y := by
  refine ⟨?_, ?_, ?_⟩
  · simp only [crossInTray, Real.sin_neg, neg_mul, abs_neg, mul_neg, neg_neg]
  · simp only [crossInTray, Real.sin_neg, neg_mul, abs_neg, mul_neg, neg_neg]
  · simp only [crossInTray]
    rw [mul_comm (Real.sin y), add_comm (y * y)]

/-- **C101**.  It is never above -0.0001, equals -0.0001 exactly on the cross `sin x * sin y = 0`, on the
documented box (and far beyond) it is above `-0.0001 * (1 + e^100)^0.1`, and at `(π/2, π/2)` it is below
`-0.0001 * e^(10 - √2/20)`. -/
theorem crossInTray_range :
    (∀ x y, crossInTray x y ≤ -0.0001) ∧
    (∀ x y, crossInTray x y = -0.0001 ↔ Real.sin x * Real.sin y = 0) ∧
    (∀ x y, |x| ≤ 10 → |y| ≤ 10 → -0.0001 * (1 + Real.exp 100) ^ (0.1 : ℝ) ≤ crossInTray x y) ∧
    crossInTray (Real.pi / 2) (Real.pi / 2) < -0.0001 * Real.exp (10 - Real.sqrt 2 / 20) := by
  have h01 : (0 : ℝ) < 0.1 := by norm_num
  refine ⟨fun x y => ?_, fun x y => ⟨fun h => ?_, fun h => ?_⟩, fun x y hx hy => ?_, ?_⟩
  · unfold crossInTray
    have := Real.one_le_rpow (x := 1 + abs (Real.sin x * Real.sin y * Real.exp (abs (100 - √(x * x + y * y) / Real.pi))))
      (z := 0.1) (by linarith [abs_nonneg (Real.sin x * Real.sin y * Real.exp (abs (100 - √(x * x + y * y) / Real.pi)))])
      h01.le
    linarith
  · unfold crossInTray at h
    by_contra hne
    have hp : 0 < abs (Real.sin x * Real.sin y * Real.exp (abs (100 - √(x * x + y * y) / Real.pi))) :=
      abs_pos.2 (mul_ne_zero hne (Real.exp_pos _).ne')
    have := Real.one_lt_rpow (x := 1 + abs (Real.sin x * Real.sin y * Real.exp (abs (100 - √(x * x + y * y) / Real.pi))))
      (z := 0.1) (by linarith) h01
    linarith
  · unfold crossInTray
    rw [h]; simp
  · unfold crossInTray
    have hr : √(x * x + y * y) / Real.pi ≤ 200 := by
      rw [div_le_iff₀ Real.pi_pos, Real.sqrt_le_left (by positivity)]
      have := Real.pi_gt_three
      have h1 : x * x ≤ 100 := by nlinarith [abs_le.1 hx]
      have h2 : y * y ≤ 100 := by nlinarith [abs_le.1 hy]
      nlinarith
    have hr0 : 0 ≤ √(x * x + y * y) / Real.pi := by positivity
    have he : Real.exp (abs (100 - √(x * x + y * y) / Real.pi)) ≤ Real.exp 100 :=
      Real.exp_le_exp.2 (by rw [abs_le]; constructor <;> linarith)
    have hs : abs (Real.sin x * Real.sin y * Real.exp (abs (100 - √(x * x + y * y) / Real.pi))) ≤ Real.exp 100 := by
      rw [abs_mul, abs_mul, abs_of_pos (Real.exp_pos _)]
      calc |Real.sin x| * |Real.sin y| * Real.exp (abs (100 - √(x * x + y * y) / Real.pi))
          ≤ 1 * 1 * Real.exp 100 := by
            gcongr
            · exact Real.abs_sin_le_one x
            · exact Real.abs_sin_le_one y
        _ = _ := by ring
    have := Real.rpow_le_rpow (z := 0.1)
      (x := 1 + abs (Real.sin x * Real.sin y * Real.exp (abs (100 - √(x * x + y * y) / Real.pi)))) (y := 1 + Real.exp 100)
      (by positivity) (by linarith) h01.le
    linarith
  · unfold crossInTray
    have hs : √(Real.pi / 2 * (Real.pi / 2) + Real.pi / 2 * (Real.pi / 2)) / Real.pi = √2 / 2 := by
      have : Real.pi / 2 * (Real.pi / 2) + Real.pi / 2 * (Real.pi / 2) = 2 * (Real.pi / 2) ^ 2 := by ring
      rw [this, Real.sqrt_mul (by norm_num), Real.sqrt_sq (by positivity)]
      field_simp
    rw [hs, Real.sin_pi_div_two]
    have h2 : √2 < 2 := by rw [Real.sqrt_lt' (by norm_num)]; norm_num
    have e1 : |100 - √2 / 2| = 100 - √2 / 2 := abs_of_pos (by linarith)
    rw [e1, one_mul, one_mul, abs_of_pos (Real.exp_pos _)]
    have : Real.exp (10 - √2 / 20) = Real.exp (100 - √2 / 2) ^ (0.1 : ℝ) := by
      rw [← Real.exp_mul]; congr 1; ring
    rw [this]
    have := Real.rpow_lt_rpow (z := 0.1) (x := Real.exp (100 - √2 / 2)) (y := 1 + Real.exp (100 - √2 / 2))
      (Real.exp_pos _).le (by linarith) h01
    linarith

/-! ### eggHolder -/

/-- **C101**.  The eggholder function lies between `±(|x| + |y + 47|)`, so on the documented box it is at least
-1071, and the lower bound is attained arbitrarily far out: it has no minimum on the plane. -/
theorem eggHolder_range :
    (∀ x y, |eggHolder x y| ≤ |x| + |y + 47|) ∧
    (∀ x y, |x| ≤ 512 → |y| ≤ 512 → -1071 ≤ eggHolder x y) ∧
    (∀ M : ℝ, ∃ x y, M < x ∧ eggHolder x y = -(|x| + |y + 47|)) := by
  have hb : ∀ x y, |eggHolder x y| ≤ |x| + |y + 47| := by
    intro x y
    unfold eggHolder
    simp only
    have h1 : |-(y + 47) * Real.sin (√|x / 2 + (y + 47)|)| ≤ |y + 47| := by
      rw [abs_mul, abs_neg]
      exact mul_le_of_le_one_right (abs_nonneg _) (Real.abs_sin_le_one _)
    have h2 : |x * Real.sin (√|x - (y + 47)|)| ≤ |x| := by
      rw [abs_mul]
      exact mul_le_of_le_one_right (abs_nonneg _) (Real.abs_sin_le_one _)
    have h3 := abs_sub (-(y + 47) * Real.sin (√|x / 2 + (y + 47)|)) (x * Real.sin (√|x - (y + 47)|))
    linarith
  refine ⟨hb, fun x y hx hy => ?_, fun M => ?_⟩
  · have h1 := (abs_le.1 (hb x y)).1
    have h2 : |y + 47| ≤ 559 := by
      have := abs_le.1 hy
      rw [abs_le]; constructor <;> linarith
    linarith
  · obtain ⟨n, hn⟩ := exists_nat_gt M
    obtain ⟨a, ha⟩ : ∃ a : ℝ, a = (Real.pi / 2 + n * (2 * Real.pi)) ^ 2 := ⟨_, rfl⟩
    obtain ⟨b, hb'⟩ : ∃ b : ℝ, b = (Real.pi / 2) ^ 2 := ⟨_, rfl⟩
    have hsin : ∀ k : ℕ, Real.sin (√|(Real.pi / 2 + k * (2 * Real.pi)) ^ 2|) = 1 := by
      intro k
      rw [abs_of_nonneg (by positivity), Real.sqrt_sq (by positivity), Real.sin_add_nat_mul_two_pi,
        Real.sin_pi_div_two]
    have ha1 : Real.sin (√|a|) = 1 := by rw [ha]; exact hsin n
    have hb1 : Real.sin (√|b|) = 1 := by rw [hb']; simpa using hsin 0
    have hpi := Real.pi_gt_three
    have hab : b ≤ a := by
      rw [ha, hb']
      have : (0 : ℝ) ≤ n * (2 * Real.pi) := by positivity
      gcongr
      linarith
    have hb0 : 0 < b := by rw [hb']; positivity
    have han : (n : ℝ) * 12 ≤ a := by
      rw [ha]
      have h0 : (0 : ℝ) ≤ n := by positivity
      have h1 : (1 : ℝ) + n * 6 ≤ Real.pi / 2 + n * (2 * Real.pi) := by nlinarith
      have h2 : ((1 : ℝ) + n * 6) ^ 2 ≤ (Real.pi / 2 + n * (2 * Real.pi)) ^ 2 := by gcongr
      nlinarith
    refine ⟨2 / 3 * (a + b), a - (a + b) / 3 - 47, ?_, ?_⟩
    · have h0 : (0 : ℝ) ≤ n := by positivity
      linarith
    · unfold eggHolder
      simp only
      have e1 : 2 / 3 * (a + b) / 2 + (a - (a + b) / 3 - 47 + 47) = a := by ring
      have e2 : 2 / 3 * (a + b) - (a - (a + b) / 3 - 47 + 47) = b := by ring
      rw [e1, e2, ha1, hb1, abs_of_nonneg (by linarith : (0:ℝ) ≤ 2 / 3 * (a + b)),
        abs_of_nonneg (by linarith : (0:ℝ) ≤ a - (a + b) / 3 - 47 + 47)]
      ring

/-! ### Viennet -/

/-- **C78**.  Viennet's third objective is never below -0.1, reaches -0.1 at the origin only, and is
below `1 / (x^2 + y^2 + 1)`; it tends to zero from above: `x^2 + y^2 ≥ 3` makes it positive. -/
theorem viennet_third (x y : ℝ) :
    -0.1 ≤ viennet x y 2 ∧ (viennet x y 2 = -0.1 ↔ x = 0 ∧ y = 0) ∧
    viennet x y 2 < 1 / (x ^ 2 + y ^ 2 + 1) ∧ (3 ≤ x ^ 2 + y ^ 2 → 0 < viennet x y 2) := by
  obtain ⟨r, hr⟩ : ∃ r, r = x * x + y * y := ⟨_, rfl⟩
  have hr' : x ^ 2 + y ^ 2 = r := by rw [hr]; ring
  have hr0 : 0 ≤ r := by rw [hr]; nlinarith [mul_self_nonneg x, mul_self_nonneg y]
  have hv : viennet x y 2 = 1 / (r + 1) - 1.1 * Real.exp (-r) := by simp [viennet, hr]
  have hexp : Real.exp (-r) ≤ 1 / (r + 1) := by
    rw [Real.exp_neg, ← one_div]
    exact one_div_le_one_div_of_le (by linarith) (Real.add_one_le_exp r)
  have hq : 1 / (r + 1) ≤ 1 := by rw [div_le_one (by linarith)]; linarith
  have hzero : r = 0 ↔ x = 0 ∧ y = 0 := by
    constructor
    · intro h
      rw [hr] at h
      have := mul_self_nonneg x; have := mul_self_nonneg y
      exact ⟨mul_self_eq_zero.mp (by linarith), mul_self_eq_zero.mp (by linarith)⟩
    · rintro ⟨rfl, rfl⟩; rw [hr]; ring
  rw [hv, hr']
  refine ⟨by linarith, ⟨fun h => ?_, fun h => ?_⟩, ?_, fun h => ?_⟩
  · rw [← hzero]
    by_contra hne
    have : 0 < r := lt_of_le_of_ne hr0 (Ne.symm hne)
    have : 1 / (r + 1) < 1 := by rw [div_lt_one (by linarith)]; linarith
    linarith
  · rw [hzero.2 h]; norm_num
  · have := Real.exp_pos (-r)
    linarith
  · have he : (r + 1) * 1.1 < Real.exp r := by
      have h2 := Real.quadratic_le_exp_of_nonneg hr0
      nlinarith
    rw [Real.exp_neg, sub_pos, lt_div_iff₀ (by linarith), ← div_eq_mul_inv, div_mul_eq_mul_div,
      div_lt_one (Real.exp_pos _)]
    linarith

/-- Non-vacuity: points of the box, off the cross and on it. -/
example : |(3 : ℝ)| ≤ 10 ∧ |(500 : ℝ)| ≤ 512 ∧ Real.sin 0 * Real.sin 5 = 0 ∧ (3 : ℝ) ≤ 1 ^ 2 + 2 ^ 2 := by
  refine ⟨by norm_num [abs_of_pos], by norm_num [abs_of_pos], by simp, by norm_num⟩

end Heu
