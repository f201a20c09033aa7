import Verif.Props.TestFunsSO
import Verif.Spec.Pareto
import Mathlib.Data.Fin.VecNotation

/-!
# C72, C73, C77, C78: multi-objective problems with one or two variables
-/

set_option linter.unusedVariables false

namespace Heu
open Spec TestFuns

/-- Dominance on `Fin 2 → ℝ` for minimisation, unfolded. -/
theorem dom2 (a b : Fin 2 → ℝ) :
    Dominates .lessBetter a b ↔ (a 0 ≤ b 0 ∧ a 1 ≤ b 1) ∧ (a 0 < b 0 ∨ a 1 < b 1) := by
  simp only [Dominates, Better, Fin.forall_fin_two, Fin.exists_fin_two, not_lt]

/-! ### C73: Schaffer's first problem -/

/-- C73: the Pareto-optimal points of Schaffer's first problem are exactly those of `[0, 2]`. -/
theorem schaffer1_pareto (x : ℝ) :
    (¬ ∃ y, Dominates .lessBetter (schafferMO1 y) (schafferMO1 x)) ↔ 0 ≤ x ∧ x ≤ 2 := by
  constructor
  · intro h
    constructor
    · by_contra hx
      push Not at hx
      refine h ⟨0, (dom2 _ _).2 ?_⟩
      simp only [schafferMO1, square, Matrix.cons_val_zero, Matrix.cons_val_one]
      exact ⟨⟨by nlinarith, by nlinarith⟩, .inl (by nlinarith)⟩
    · by_contra hx
      push Not at hx
      refine h ⟨2, (dom2 _ _).2 ?_⟩
      simp only [schafferMO1, square, Matrix.cons_val_zero, Matrix.cons_val_one]
      exact ⟨⟨by nlinarith, by nlinarith⟩, .inl (by nlinarith)⟩
  · rintro ⟨h0, h2⟩ ⟨y, hy⟩
    rw [dom2] at hy
    simp only [schafferMO1, square, Matrix.cons_val_zero, Matrix.cons_val_one] at hy
    obtain ⟨⟨ha, hb⟩, hc⟩ := hy
    have h1 : y ≤ x := by nlinarith
    have h3 : x ≤ y := by nlinarith
    have : x = y := le_antisymm h3 h1
    subst this
    rcases hc with hc | hc <;> exact lt_irrefl _ hc

example : ¬ ∃ y, Dominates .lessBetter (schafferMO1 y) (schafferMO1 1) :=
  (schaffer1_pareto 1).2 (by norm_num)
example : ∃ y, Dominates .lessBetter (schafferMO1 y) (schafferMO1 3) := by
  by_contra h
  have := (schaffer1_pareto 3).1 h
  norm_num at this

/-! ### C78: Schaffer's second problem -/

/-- The textbook second problem of Schaffer. -/
noncomputable def schaffer2Spec (x : ℝ) : Fin 2 → ℝ :=
  ![if x ≤ 1 then -x else if x ≤ 3 then x - 2 else if x ≤ 4 then 4 - x else x - 4, (x - 5) ^ 2]

/-- C78: the code agrees with the textbook problem exactly on `x ≤ 1` and `3 ≤ x ≤ 4`. -/
theorem schaffer2_agrees_partial (x : ℝ) :
    schafferMO2 x = schaffer2Spec x ↔ x ≤ 1 ∨ (3 ≤ x ∧ x ≤ 4) := by
  have h1 : schafferMO2 x 1 = schaffer2Spec x 1 := by
    simp [schafferMO2, schaffer2Spec, square, pow_two]
  have e : schafferMO2 x = schaffer2Spec x ↔ schafferMO2 x 0 = schaffer2Spec x 0 := by
    refine ⟨fun h => by rw [h], fun h => funext fun i => ?_⟩
    fin_cases i
    · exact h
    · exact h1
  rw [e]
  simp only [schafferMO2, schaffer2Spec, Matrix.cons_val_zero]
  by_cases a : x ≤ 1
  · simp [a]
  · have a' : ¬ x ≤ -3 := by linarith
    rw [if_neg a, if_neg a, if_neg a', ite_self]
    by_cases b : x ≤ 3
    · rw [if_pos b]
      constructor
      · intro h; right; constructor <;> linarith
      · rintro (h | h)
        · exact absurd h a
        · linarith [h.1]
    · rw [if_neg b]
      by_cases c : x ≤ 4
      · rw [if_pos c]
        simp only [true_iff]
        right; constructor <;> linarith
      · rw [if_neg c]
        constructor
        · intro h; exfalso; linarith
        · rintro (h | h)
          · exact absurd h a
          · exact absurd h.2 c

/-- C78: beyond 4 the first objective falls without bound, so it has no minimum at all, although the
textbook one is never below -1 on `[-5, 10]`. -/
theorem schaffer2_unbounded (b : ℝ) : ∃ x, schafferMO2 x 0 < b := by
  refine ⟨max 5 (5 - b), ?_⟩
  have h1 : (5 : ℝ) ≤ max 5 (5 - b) := le_max_left _ _
  have h2 : 5 - b ≤ max 5 (5 - b) := le_max_right _ _
  simp only [schafferMO2, Matrix.cons_val_zero]
  rw [if_neg (by linarith), if_neg (by linarith), ite_self]
  linarith

/-! ### C72: constrained problems -/

/-- The constraints of the Binh–Korn problem. -/
def BinhKornFeasible (x y : ℝ) : Prop :=
  (x - 5) ^ 2 + y ^ 2 ≤ 25 ∧ 7.7 ≤ (x - 8) ^ 2 + (y + 3) ^ 2

/-- The constraints of the Chankong–Haimes problem. -/
def ChankongHaimesFeasible (x y : ℝ) : Prop := x ^ 2 + y ^ 2 ≤ 225 ∧ x - 3 * y + 10 ≤ 0

theorem binhKorn_values (x y : ℝ) :
    (BinhKornFeasible x y →
      binhKorn x y 0 = 4 * x ^ 2 + 4 * y ^ 2 ∧ binhKorn x y 1 = (x - 5) ^ 2 + (y - 5) ^ 2) ∧
    (¬ BinhKornFeasible x y → 100000 < binhKorn x y 0 ∨ 100000 < binhKorn x y 1) := by
  simp only [BinhKornFeasible, binhKorn, Matrix.cons_val_zero, Matrix.cons_val_one]
  constructor
  · rintro ⟨h1, h2⟩
    rw [if_neg (by unfold square; nlinarith), if_neg (by unfold square; nlinarith)]
    simp only [square]
    constructor <;> ring
  · intro h
    by_cases h1 : (x - 5) ^ 2 + y ^ 2 ≤ 25
    · have h2 : (x - 8) ^ 2 + (y + 3) ^ 2 < 7.7 := by
        by_contra h2; exact h ⟨h1, by linarith⟩
      right
      rw [if_pos (by unfold square; nlinarith)]
      simp only [square]
      nlinarith [mul_self_nonneg (x - 5), mul_self_nonneg (y - 5)]
    · left
      rw [if_pos (by unfold square; nlinarith)]
      simp only [square]
      nlinarith [mul_self_nonneg x, mul_self_nonneg y]

/-- C72 (Binh–Korn): on the whole plane, feasible points get the two documented objective values, and
no infeasible point dominates a feasible point (which, being feasible, has first objective ≤ 400). -/
theorem binhKorn_constraints (x y x' y' : ℝ) (hf : BinhKornFeasible x y)
    (hi : ¬ BinhKornFeasible x' y') :
    (binhKorn x y 0 = 4 * x ^ 2 + 4 * y ^ 2 ∧ binhKorn x y 1 = (x - 5) ^ 2 + (y - 5) ^ 2) ∧
    ¬ Dominates .lessBetter (binhKorn x' y') (binhKorn x y) := by
  have hv := (binhKorn_values x y).1 hf
  refine ⟨hv, fun h => ?_⟩
  have h2 := (binhKorn_values x' y').2 hi
  rw [dom2, hv.1, hv.2] at h
  obtain ⟨⟨ha, hb⟩, _⟩ := h
  obtain ⟨f1, _⟩ := hf
  have b1 : x ≤ 10 := by nlinarith [sq_nonneg y]
  have b2 : 0 ≤ x := by nlinarith [sq_nonneg y]
  have b3 : y ≤ 5 := by nlinarith [sq_nonneg (x - 5)]
  have b4 : -5 ≤ y := by nlinarith [sq_nonneg (x - 5)]
  rcases h2 with h2 | h2 <;> nlinarith

example : BinhKornFeasible 1 1 ∧ ¬ BinhKornFeasible 12 0 := by
  unfold BinhKornFeasible; norm_num

theorem changkong_values (x y : ℝ) :
    (ChankongHaimesFeasible x y →
      changkongHaimes x y 0 = 2 + (x - 2) ^ 2 + (y - 1) ^ 2 ∧
      changkongHaimes x y 1 = 9 * x - (y - 1) ^ 2) ∧
    (¬ ChankongHaimesFeasible x y → 100000 < changkongHaimes x y 0 ∨
      100000 + (9 * x - (y - 1) ^ 2) < changkongHaimes x y 1) := by
  simp only [ChankongHaimesFeasible, changkongHaimes, Matrix.cons_val_zero, Matrix.cons_val_one]
  constructor
  · rintro ⟨h1, h2⟩
    rw [if_neg (by nlinarith), if_neg (by nlinarith)]
    simp only [square]
    constructor <;> ring
  · intro h
    by_cases h1 : x ^ 2 + y ^ 2 ≤ 225
    · have h2 : 0 < x - 3 * y + 10 := by
        by_contra h2; exact h ⟨h1, by linarith⟩
      right
      rw [if_pos (by linarith)]
      simp only [square]
      nlinarith
    · left
      rw [if_pos (by nlinarith)]
      simp only [square]
      nlinarith [mul_self_nonneg (x - 2), mul_self_nonneg (y - 1)]

/-- C72 (Chankong–Haimes): on the documented box `[-20, 20]²`, feasible points get the two documented
objective values, and no infeasible point dominates a feasible one. -/
theorem changkongHaimes_constraints (x y x' y' : ℝ) (hx' : -20 ≤ x' ∧ x' ≤ 20)
    (hy' : -20 ≤ y' ∧ y' ≤ 20) (hf : ChankongHaimesFeasible x y)
    (hi : ¬ ChankongHaimesFeasible x' y') :
    (changkongHaimes x y 0 = 2 + (x - 2) ^ 2 + (y - 1) ^ 2 ∧
      changkongHaimes x y 1 = 9 * x - (y - 1) ^ 2) ∧
    ¬ Dominates .lessBetter (changkongHaimes x' y') (changkongHaimes x y) := by
  have hv := (changkong_values x y).1 hf
  refine ⟨hv, fun h => ?_⟩
  have h2 := (changkong_values x' y').2 hi
  rw [dom2, hv.1, hv.2] at h
  obtain ⟨⟨ha, hb⟩, _⟩ := h
  obtain ⟨f1, _⟩ := hf
  have b1 : x ≤ 15 := by nlinarith [sq_nonneg y]
  have b2 : -15 ≤ x := by nlinarith [sq_nonneg y]
  have b3 : y ≤ 15 := by nlinarith [sq_nonneg x]
  have b4 : -15 ≤ y := by nlinarith [sq_nonneg x]
  rcases h2 with h2 | h2 <;> nlinarith [hx'.1, hx'.2, hy'.1, hy'.2, sq_nonneg (y - 1)]

example : ChankongHaimesFeasible (-5) 5 ∧ ¬ ChankongHaimesFeasible 18 0 := by
  unfold ChankongHaimesFeasible; norm_num

/-! ### C77: Kursawe -/

/-- The documented problem of Kursawe for three variables. -/
noncomputable def kursawe3 (a b c : ℝ) : Fin 2 → ℝ :=
  ![-10 * Real.exp (-0.2 * Real.sqrt (a ^ 2 + b ^ 2)) - 10 * Real.exp (-0.2 * Real.sqrt (b ^ 2 + c ^ 2)),
    |a| ^ (0.8 : ℝ) + 5 * Real.sin (a ^ 3) + (|b| ^ (0.8 : ℝ) + 5 * Real.sin (b ^ 3)) +
      (|c| ^ (0.8 : ℝ) + 5 * Real.sin (c ^ 3))]

theorem kursawe_eq (a b : ℝ) (rest : List ℝ) :
    kursaweStd (a :: b :: rest) = .ok ![-10 * Real.exp (-0.2 * Real.sqrt (a ^ 2 + b ^ 2)),
      |a| ^ (0.8 : ℝ) + 5 * Real.sin (a ^ 3) + (|b| ^ (0.8 : ℝ) + 5 * Real.sin (b ^ 3))] := by
  unfold kursaweStd forUp
  simp only [rd, square, List.range', List.foldlM_cons, List.foldlM_nil, List.getElem?_cons_zero,
    List.getElem?_cons_succ, Out.ok_bind, Out.pure_eq, Nat.add_one_sub_one, Nat.sub_zero, zero_add]
  congr 1
  funext i
  fin_cases i
  · simp only [Fin.zero_eta, Matrix.cons_val_zero]; ring_nf
  · simp only [Fin.mk_one, Matrix.cons_val_one, Matrix.cons_val_fin_one]; ring_nf

/-- C77, the part that holds: for two variables the code (std containers) returns the documented
values; the part that fails: with more variables all but the first two are ignored. -/
theorem kursawe_ignores_rest_partial (a b : ℝ) (rest : List ℝ) :
    kursaweStd (a :: b :: rest) = .ok ![-10 * Real.exp (-0.2 * Real.sqrt (a ^ 2 + b ^ 2)),
      |a| ^ (0.8 : ℝ) + 5 * Real.sin (a ^ 3) + (|b| ^ (0.8 : ℝ) + 5 * Real.sin (b ^ 3))] ∧
    kursaweStd (a :: b :: rest) = kursaweStd [a, b] := by
  rw [kursawe_eq, kursawe_eq]
  exact ⟨rfl, rfl⟩

/-- C77: so for three variables the code is wrong at every point (its first objective misses a
summand that is never 0). -/
theorem kursawe3_wrong (a b c : ℝ) : kursaweStd [a, b, c] ≠ .ok (kursawe3 a b c) := by
  rw [kursawe_eq]
  intro h
  injection h with h
  have := congrFun h 0
  simp only [kursawe3, Matrix.cons_val_zero] at this
  have hp := Real.exp_pos (-0.2 * Real.sqrt (b ^ 2 + c ^ 2))
  linarith

/-! ### Viennet -/

/-- Viennet's problem: the first objective is never negative and is 0 at the origin only; the
second is never below 15. -/
theorem viennet_bounds (x y : ℝ) :
    0 ≤ viennet x y 0 ∧ (viennet x y 0 = 0 ↔ x = 0 ∧ y = 0) ∧ 15 ≤ viennet x y 1 := by
  obtain ⟨r, hr⟩ : ∃ r, r = x * x + y * y := ⟨_, rfl⟩
  have hr0 : 0 ≤ r := by rw [hr]; nlinarith [mul_self_nonneg x, mul_self_nonneg y]
  have hv : viennet x y 0 = r / 2 + Real.sin r := by simp [viennet, hr]
  have hpos : 0 < r → 0 < r / 2 + Real.sin r := by
    intro h
    rcases le_or_gt r Real.pi with hp | hp
    · have := Real.sin_nonneg_of_nonneg_of_le_pi h.le hp; linarith
    · have := Real.neg_one_le_sin r; have := Real.pi_gt_three; linarith
  refine ⟨?_, ⟨fun h => ?_, fun h => ?_⟩, ?_⟩
  · rw [hv]
    rcases eq_or_lt_of_le hr0 with h | h
    · rw [← h]; simp
    · exact (hpos h).le
  · rw [hv] at h
    have : r = 0 := by
      rcases eq_or_lt_of_le hr0 with h' | h'
      · exact h'.symm
      · exact absurd h (hpos h').ne'
    rw [hr] at this
    have := mul_self_nonneg x; have := mul_self_nonneg y
    exact ⟨mul_self_eq_zero.mp (by linarith), mul_self_eq_zero.mp (by linarith)⟩
  · rw [hv, hr, h.1, h.2]; simp
  · simp only [viennet, square, Matrix.cons_val_one, Matrix.cons_val_zero]
    nlinarith [mul_self_nonneg (2 * x - 2 * y + 4), mul_self_nonneg (x - y + 1)]

/-- The documented second objective of Viennet's problem has `3x` where the code has `2x`: at
`(1, 0)` it is `49/8 + 4/27 + 15`, the code returns `36/8 + 4/27 + 15`. -/
theorem viennet_not_documented :
    viennet 1 0 1 = 36 / 8 + 4 / 27 + 15 ∧
      ((3 * 1 - 2 * 0 + 4 : ℝ) ^ 2 / 8 + (1 - 0 + 1) ^ 2 / 27 + 15 = 49 / 8 + 4 / 27 + 15) := by
  constructor
  · simp only [viennet, square, Matrix.cons_val_one, Matrix.cons_val_zero]; norm_num
  · norm_num

end Heu
