import Verif.Props.RefPoints
import Mathlib.LinearAlgebra.Matrix.NonsingularInverse
import Mathlib.LinearAlgebra.Matrix.Notation
import Mathlib.Tactic.FinCases

/-! # C85: NSGA-III normalisation removes the scale of the objectives -/

set_option linter.unusedSectionVars false

namespace Heu

section C85
variable {α : Type} [Field α] [LinearOrder α] [IsStrictOrderedRing α] {m : Nat}

/-- Objective `i` measured in another unit: multiplied by `a i` and shifted by `b i`. -/
def rescale (a b f : Fin m → α) : Fin m → α := fun i => a i * f i + b i

theorem ideal_rescale (a b : Fin m → α) (ha : ∀ i, 0 < a i) (l : List (Fin m → α)) :
    ∀ first, nsga3Ideal (rescale a b first) (l.map (rescale a b)) = rescale a b (nsga3Ideal first l) := by
  induction l with
  | nil => intro first; rfl
  | cons g l ih =>
    intro first
    have h : (fun i => min (rescale a b first i) (rescale a b g i)) =
        rescale a b (fun i => min (first i) (g i)) := by
      funext i
      simp only [rescale]
      rw [min_add_add_right, mul_min_of_nonneg _ _ (ha i).le]
    unfold nsga3Ideal at *
    simp only [List.map_cons, List.foldl_cons]
    rw [h]
    exact ih _

theorem extreme_rescale (a b : Fin m → α) (ha : ∀ i, 0 < a i) (c : Fin m) (l : List (Fin m → α)) :
    ∀ first, nsga3Extreme (rescale a b first) (l.map (rescale a b)) c =
      rescale a b (nsga3Extreme first l c) := by
  induction l with
  | nil => intro first; rfl
  | cons g l ih =>
    intro first
    have h : (if rescale a b g c > rescale a b first c then rescale a b g else rescale a b first) =
        rescale a b (if g c > first c then g else first) := by
      have : rescale a b g c > rescale a b first c ↔ g c > first c := by
        simp only [rescale, gt_iff_lt, add_lt_add_iff_right]
        exact mul_lt_mul_iff_right₀ (ha c)
      by_cases hc : g c > first c
      · rw [if_pos hc, if_pos (this.2 hc)]
      · rw [if_neg hc, if_neg (fun h => hc (this.1 h))]
    unfold nsga3Extreme at *
    simp only [List.map_cons, List.foldl_cons]
    rw [h]
    exact ih _

theorem intercept_rescale (a : Fin m → α) (ha : ∀ i, 0 < a i) (P : Matrix (Fin m) (Fin m) α) (i : Fin m) :
    extremePoints2Intercept (Matrix.diagonal a * P) i = a i * extremePoints2Intercept P i := by
  unfold extremePoints2Intercept
  have hinv : (Matrix.diagonal a)⁻¹ = Matrix.diagonal (fun i => (a i)⁻¹) := by
    apply Matrix.inv_eq_right_inv
    rw [Matrix.diagonal_mul_diagonal, ← Matrix.diagonal_one]
    congr 1
    funext i
    exact mul_inv_cancel₀ (ha i).ne'
  rw [Matrix.transpose_mul, Matrix.diagonal_transpose, Matrix.mul_inv_rev, hinv, ← Matrix.mulVec_mulVec,
    Matrix.mulVec_diagonal]
  rw [one_div, one_div, mul_inv, inv_inv]

/-- The matrix of translated extreme points of a set of candidates. -/
def extremeMatrix (scan : List (Fin m → α)) (fl0 : Fin m → α) : Matrix (Fin m) (Fin m) α :=
  fun r c => nsga3Extreme fl0 scan c r - nsga3Ideal fl0 scan r

theorem extremeMatrix_rescale (a b : Fin m → α) (ha : ∀ i, 0 < a i) (scan : List (Fin m → α))
    (fl0 : Fin m → α) : extremeMatrix (scan.map (rescale a b)) (rescale a b fl0) =
      Matrix.diagonal a * extremeMatrix scan fl0 := by
  ext r c
  rw [Matrix.diagonal_mul]
  simp only [extremeMatrix]
  rw [ideal_rescale a b ha, extreme_rescale a b ha]
  simp only [rescale]; ring

/-- C85: measuring the objectives in other units (any positive factors, any offsets) does not change the
normalised fitness, provided both sets of extreme points get the same verdict from the singularity test. -/
theorem normalize_scale_invariant_partial (tiny : α) (a b : Fin m → α) (ha : ∀ i, 0 < a i)
    (selected : List (Fin m → α)) (fl0 : Fin m → α) (fl : List (Fin m → α)) (f : Fin m → α)
    (hsame : |(extremeMatrix (selected ++ fl0 :: fl) fl0).det| ≤ tiny ↔
      (∏ i, a i) * |(extremeMatrix (selected ++ fl0 :: fl) fl0).det| ≤ tiny) :
    (nsga3Normalize tiny (selected.map (rescale a b)) (rescale a b fl0) (fl.map (rescale a b))).2.2
        (rescale a b f) =
      (nsga3Normalize tiny selected fl0 fl).2.2 f := by
  have hscan : selected.map (rescale a b) ++ rescale a b fl0 :: fl.map (rescale a b) =
      (selected ++ fl0 :: fl).map (rescale a b) := by simp
  have hdet : |(extremeMatrix ((selected ++ fl0 :: fl).map (rescale a b)) (rescale a b fl0)).det| =
      (∏ i, a i) * |(extremeMatrix (selected ++ fl0 :: fl) fl0).det| := by
    rw [extremeMatrix_rescale a b ha, Matrix.det_mul, Matrix.det_diagonal, abs_mul,
      abs_of_pos (Finset.prod_pos fun i _ => ha i)]
  have hint : (nsga3Normalize tiny (selected.map (rescale a b)) (rescale a b fl0)
      (fl.map (rescale a b))).2.1 = fun i => a i * (nsga3Normalize tiny selected fl0 fl).2.1 i := by
    unfold nsga3Normalize
    simp only [hscan]
    change (if |(extremeMatrix ((selected ++ fl0 :: fl).map (rescale a b)) (rescale a b fl0)).det| ≤ tiny
      then fun r => extremeMatrix ((selected ++ fl0 :: fl).map (rescale a b)) (rescale a b fl0) r r
      else extremePoints2Intercept
        (extremeMatrix ((selected ++ fl0 :: fl).map (rescale a b)) (rescale a b fl0))) =
      fun i => a i * (if |(extremeMatrix (selected ++ fl0 :: fl) fl0).det| ≤ tiny
      then fun r => extremeMatrix (selected ++ fl0 :: fl) fl0 r r
      else extremePoints2Intercept (extremeMatrix (selected ++ fl0 :: fl) fl0)) i
    rw [hdet]
    by_cases h : |(extremeMatrix (selected ++ fl0 :: fl) fl0).det| ≤ tiny
    · rw [if_pos h, if_pos (hsame.1 h)]
      funext r
      rw [extremeMatrix_rescale a b ha, Matrix.diagonal_mul]
    · rw [if_neg h, if_neg (fun h' => h (hsame.2 h'))]
      funext r
      rw [extremeMatrix_rescale a b ha, intercept_rescale a ha]
  funext i
  change (rescale a b f i - nsga3Ideal (rescale a b fl0)
      (selected.map (rescale a b) ++ rescale a b fl0 :: fl.map (rescale a b)) i) /
      (nsga3Normalize tiny (selected.map (rescale a b)) (rescale a b fl0)
      (fl.map (rescale a b))).2.1 i = (f i - nsga3Ideal fl0 (selected ++ fl0 :: fl) i) /
      (nsga3Normalize tiny selected fl0 fl).2.1 i
  rw [hint, hscan, ideal_rescale a b ha]
  simp only [rescale]
  rw [show a i * f i + b i - (a i * nsga3Ideal fl0 (selected ++ fl0 :: fl) i + b i) =
    a i * (f i - nsga3Ideal fl0 (selected ++ fl0 :: fl) i) by ring]
  exact mul_div_mul_left _ _ (ha i).ne'

/-- C85, non-vacuity: both verdicts "regular" (determinant 3, factors 2 and 5). -/
example : (|(extremeMatrix ([![0, 0], ![2, 1], ![1, 2]] : List (Fin 2 → ℚ)) ![2, 1]).det| ≤ 1 / 10 ^ 10 ↔
    (∏ i, (![2, 5] : Fin 2 → ℚ) i) *
      |(extremeMatrix ([![0, 0], ![2, 1], ![1, 2]] : List (Fin 2 → ℚ)) ![2, 1]).det| ≤ 1 / 10 ^ 10) ∧
    |(extremeMatrix ([![0, 0], ![2, 1], ![1, 2]] : List (Fin 2 → ℚ)) ![2, 1]).det| = 3 := by
  decide +kernel

/-- C85, negation: the singularity test compares the determinant with an absolute threshold, so the unit of
measurement matters.  For the candidates `(0,0)`, `(2,1)`, `(1,2)` the second one is normalised to
`(2/3, 1/3)`; measured in units of a millionth it is normalised to `(1, 1/2)`. -/
theorem normalize_depends_on_units :
    (nsga3Normalize (1 / 10 ^ 10) [![0, 0]] ![2, 1] [![1, 2]]).2.2 (![2, 1] : Fin 2 → ℚ) =
      ![2 / 3, 1 / 3] ∧
    (nsga3Normalize (1 / 10 ^ 10) [![0, 0]] ![2 / 10 ^ 6, 1 / 10 ^ 6] [![1 / 10 ^ 6, 2 / 10 ^ 6]]).2.2
      (![2 / 10 ^ 6, 1 / 10 ^ 6] : Fin 2 → ℚ) = ![1, 1 / 2] := by
  constructor
  · have hP : (fun r c => nsga3Extreme (![2, 1] : Fin 2 → ℚ) ([![0, 0]] ++ ![2, 1] :: [![1, 2]]) c r -
        nsga3Ideal (![2, 1] : Fin 2 → ℚ) ([![0, 0]] ++ ![2, 1] :: [![1, 2]]) r) =
        (!![2, 1; 1, 2] : Matrix (Fin 2) (Fin 2) ℚ) := by
      change extremeMatrix _ _ = _; decide +kernel
    have hI : nsga3Ideal (![2, 1] : Fin 2 → ℚ) ([![0, 0]] ++ ![2, 1] :: [![1, 2]]) = ![0, 0] := by
      decide +kernel
    unfold nsga3Normalize
    simp only [hI] at hP ⊢
    rw [hP]
    have hinv : (!![2, 1; 1, 2] : Matrix (Fin 2) (Fin 2) ℚ).transpose⁻¹ = !![2/3, -1/3; -1/3, 2/3] := by
      apply Matrix.inv_eq_right_inv
      ext r c; fin_cases r <;> fin_cases c <;> simp [Matrix.mul_apply, Fin.sum_univ_two] <;> norm_num
    rw [if_neg (by rw [Matrix.det_fin_two]; simp; norm_num)]
    funext i
    unfold extremePoints2Intercept
    rw [hinv]
    fin_cases i <;> simp [Matrix.mulVec, dotProduct, Fin.sum_univ_two] <;> norm_num
  · have hP : (fun r c => nsga3Extreme (![2 / 10 ^ 6, 1 / 10 ^ 6] : Fin 2 → ℚ)
          ([![0, 0]] ++ ![2 / 10 ^ 6, 1 / 10 ^ 6] :: [![1 / 10 ^ 6, 2 / 10 ^ 6]]) c r -
        nsga3Ideal (![2 / 10 ^ 6, 1 / 10 ^ 6] : Fin 2 → ℚ)
          ([![0, 0]] ++ ![2 / 10 ^ 6, 1 / 10 ^ 6] :: [![1 / 10 ^ 6, 2 / 10 ^ 6]]) r) =
        (!![2 / 10 ^ 6, 1 / 10 ^ 6; 1 / 10 ^ 6, 2 / 10 ^ 6] : Matrix (Fin 2) (Fin 2) ℚ) := by
      change extremeMatrix _ _ = _; decide +kernel
    have hI : nsga3Ideal (![2 / 10 ^ 6, 1 / 10 ^ 6] : Fin 2 → ℚ)
        ([![0, 0]] ++ ![2 / 10 ^ 6, 1 / 10 ^ 6] :: [![1 / 10 ^ 6, 2 / 10 ^ 6]]) = ![0, 0] := by
      decide +kernel
    unfold nsga3Normalize
    simp only [hI] at hP ⊢
    rw [hP, if_pos (by rw [Matrix.det_fin_two]; simp; norm_num [abs_le])]
    funext i
    have h' := congrFun (congrFun hP i) i
    rw [h']
    fin_cases i <;> simp <;> norm_num

end C85

end Heu
