import Verif.Model.TestFuns
import Verif.Spec.TestFuns
import Mathlib.Analysis.SpecialFunctions.Trigonometric.Bounds
import Mathlib.Analysis.Real.Pi.Bounds
import Mathlib.Tactic.Linarith
import Mathlib.Tactic.NormNum
import Mathlib.Tactic.Positivity

/-!
# C54, C55, C57, C70, C71: single-objective test functions
-/

set_option linter.unusedVariables false

namespace Heu
open Spec TestFuns

/-! ### C54: the polynomial functions -/

theorem booth_minimum : UniqueMinimum booth 1 3 0 := by
  refine ⟨by norm_num [booth, square], fun x y => ⟨?_, fun h => ?_⟩⟩
  · simp only [booth, square]; nlinarith [mul_self_nonneg (x + 2 * y - 7), mul_self_nonneg (2 * x + y - 5)]
  · simp only [booth, square] at h
    have h1 : x + 2 * y - 7 = 0 := by
      have := mul_self_nonneg (x + 2 * y - 7); have := mul_self_nonneg (2 * x + y - 5)
      exact mul_self_eq_zero.mp (by linarith)
    have h2 : 2 * x + y - 5 = 0 := by
      have := mul_self_nonneg (x + 2 * y - 7); have := mul_self_nonneg (2 * x + y - 5)
      exact mul_self_eq_zero.mp (by linarith)
    constructor <;> linarith

theorem matyas_minimum : UniqueMinimum matyas 0 0 0 := by
  refine ⟨by norm_num [matyas], fun x y => ⟨?_, fun h => ?_⟩⟩
  · simp only [matyas]; nlinarith [mul_self_nonneg (x - y), mul_self_nonneg x, mul_self_nonneg y]
  · simp only [matyas] at h
    have := mul_self_nonneg (x - y); have := mul_self_nonneg x; have := mul_self_nonneg y
    constructor
    · exact mul_self_eq_zero.mp (by nlinarith)
    · exact mul_self_eq_zero.mp (by nlinarith)

theorem beale_minimum : UniqueMinimum beale 3 (1 / 2) 0 := by
  refine ⟨by norm_num [beale, square], fun x y => ⟨?_, fun h => ?_⟩⟩
  · simp only [beale, square]
    have := mul_self_nonneg (1.5 - x + x * y); have := mul_self_nonneg (2.25 - x + x * y * y)
    have := mul_self_nonneg (2.625 - x + x * y * y * y)
    linarith
  · simp only [beale, square] at h
    have e1 := mul_self_nonneg (1.5 - x + x * y); have e2 := mul_self_nonneg (2.25 - x + x * y * y)
    have e3 := mul_self_nonneg (2.625 - x + x * y * y * y)
    have h1 : 1.5 - x + x * y = 0 := mul_self_eq_zero.mp (by linarith)
    have h2 : 2.25 - x + x * y * y = 0 := mul_self_eq_zero.mp (by linarith)
    have h3 : x * (1 - y) = 1.5 := by linarith
    have h4 : (x * (1 - y)) * (1 + y) = 2.25 := by linarith
    rw [h3] at h4
    have hy : y = 1 / 2 := by norm_num at h4; linarith
    subst hy
    exact ⟨by norm_num at h3; linarith, rfl⟩

theorem himmelblau_minimum :
    (∀ x y, 0 ≤ himmelblau x y) ∧ himmelblau 3 2 = 0 ∧
      ∀ x y, himmelblau x y = 0 ↔ x ^ 2 + y = 11 ∧ x + y ^ 2 = 7 := by
  refine ⟨fun x y => ?_, by norm_num [himmelblau, square], fun x y => ⟨fun h => ?_, fun ⟨h1, h2⟩ => ?_⟩⟩
  · simp only [himmelblau, square]
    have := mul_self_nonneg (x * x + y - 11); have := mul_self_nonneg (x + y * y - 7)
    linarith
  · simp only [himmelblau, square] at h
    have e1 := mul_self_nonneg (x * x + y - 11); have e2 := mul_self_nonneg (x + y * y - 7)
    have h1 : x * x + y - 11 = 0 := mul_self_eq_zero.mp (by linarith)
    have h2 : x + y * y - 7 = 0 := mul_self_eq_zero.mp (by linarith)
    constructor <;> nlinarith
  · have h1' : x * x + y - 11 = 0 := by nlinarith
    have h2' : x + y * y - 7 = 0 := by nlinarith
    simp [himmelblau, square, h1', h2']

theorem threeHumpCamel_minimum : UniqueMinimum threeHumpCamel 0 0 0 := by
  have key : ∀ x y, threeHumpCamel x y =
      (y + x / 2) ^ 2 + x ^ 2 * ((x ^ 2 - 3.15) ^ 2 / 6 + 0.09625) := by
    intro x y; simp only [threeHumpCamel]; ring
  refine ⟨by norm_num [threeHumpCamel], fun x y => ⟨?_, fun h => ?_⟩⟩
  · rw [key]; positivity
  · rw [key] at h
    have e1 : 0 ≤ (y + x / 2) ^ 2 := by positivity
    have e2 : 0 ≤ x ^ 2 * ((x ^ 2 - 3.15) ^ 2 / 6 + 0.09625) := by positivity
    have e3 : x ^ 2 * ((x ^ 2 - 3.15) ^ 2 / 6 + 0.09625) = 0 := by linarith
    have hx : x = 0 := by
      rcases mul_eq_zero.mp e3 with h | h
      · exact pow_eq_zero_iff (two_ne_zero) |>.mp h
      · exfalso
        have : 0 < (x ^ 2 - 3.15) ^ 2 / 6 + 0.09625 := by positivity
        linarith
    subst hx
    refine ⟨rfl, ?_⟩
    have : (y + 0 / 2) ^ 2 = 0 := by linarith
    have := pow_eq_zero_iff (two_ne_zero) |>.mp this
    linarith

theorem foldl_add_map {β : Type} (h : β → ℝ) (l : List β) (a : ℝ) :
    l.foldl (fun acc t => acc + h t) a = a + (l.map h).sum := by
  induction l generalizing a with
  | nil => simp
  | cons x xs ih => simp [ih]; ring

theorem sum_map_nonneg {β : Type} (h : β → ℝ) (l : List β) (hn : ∀ t ∈ l, 0 ≤ h t) :
    0 ≤ (l.map h).sum := by
  induction l with
  | nil => simp
  | cons x xs ih =>
    simp only [List.map_cons, List.sum_cons]
    have := hn x (by simp); have := ih fun t ht => hn t (by simp [ht])
    linarith

theorem sum_map_eq_zero {β : Type} (h : β → ℝ) (l : List β) (hn : ∀ t ∈ l, 0 ≤ h t)
    (h0 : (l.map h).sum = 0) : ∀ t ∈ l, h t = 0 := by
  induction l with
  | nil => simp
  | cons x xs ih =>
    simp only [List.map_cons, List.sum_cons] at h0
    have h1 := hn x (by simp)
    have h2 := sum_map_nonneg h xs fun t ht => hn t (by simp [ht])
    intro t ht
    rcases List.mem_cons.mp ht with rfl | ht
    · linarith
    · exact ih (fun t ht => hn t (by simp [ht])) (by linarith) t ht

/-- C54 (sphere): the two container variants agree, the value is non-negative and is zero at the
origin only. -/
theorem sphere_minimum (v : Vec) (x : List ℝ) :
    0 ≤ sphere v x ∧ (sphere v x = 0 ↔ ∀ t ∈ x, t = 0) ∧ sphere .eigen x = sphere .std x := by
  have hs : sphere .std x = (x.map fun i => i ^ 2).sum := by
    simp only [sphere]
    rw [foldl_add_map (fun i => i * i)]
    simp [pow_two]
  have he : ∀ v, sphere v x = (x.map fun i => i ^ 2).sum := fun v => by
    cases v with
    | eigen => rfl
    | std => exact hs
  refine ⟨?_, ⟨fun h => ?_, fun h => ?_⟩, by rw [he, he]⟩
  · rw [he]; exact sum_map_nonneg _ _ fun t _ => by positivity
  · rw [he] at h
    intro t ht
    have := sum_map_eq_zero _ _ (fun t _ => by positivity) h t ht
    simpa using this
  · rw [he, List.map_congr_left (g := fun _ => (0 : ℝ)) (fun t ht => by simp [h t ht])]
    simp

/-! ### C55: Rastrigin -/

theorem rastrigin_eq (x : List ℝ) :
    rastrigin x = (x.map fun t => t ^ 2 + 10 * (1 - Real.cos (Real.pi * 2 * t))).sum := by
  unfold rastrigin
  rw [foldl_add_map]
  induction x with
  | nil => norm_num
  | cons t xs ih =>
    simp only [List.map_cons, List.sum_cons, List.length_cons, Nat.cast_add, Nat.cast_one]
    rw [← ih]
    simp only [square]
    norm_num
    ring

/-- C55: Rastrigin's function is non-negative in every dimension and is zero at the origin only. -/
theorem rastrigin_minimum (x : List ℝ) :
    0 ≤ rastrigin x ∧ (rastrigin x = 0 ↔ ∀ t ∈ x, t = 0) := by
  have hn : ∀ t ∈ x, 0 ≤ t ^ 2 + 10 * (1 - Real.cos (Real.pi * 2 * t)) := fun t _ => by
    have := Real.cos_le_one (Real.pi * 2 * t); nlinarith [sq_nonneg t]
  rw [rastrigin_eq]
  refine ⟨sum_map_nonneg _ _ hn, fun h t ht => ?_, fun h => ?_⟩
  · have := sum_map_eq_zero _ _ hn h t ht
    have h1 := Real.cos_le_one (Real.pi * 2 * t)
    have : t ^ 2 = 0 := by nlinarith [sq_nonneg t]
    simpa using this
  · rw [List.map_congr_left (g := fun _ => (0 : ℝ)) (fun t ht => by simp [h t ht])]
    simp

example : rastrigin [0, 0, 0] = 0 := ((rastrigin_minimum _).2).2 (by simp)
example : 0 < rastrigin [0, 1] :=
  lt_of_le_of_ne (rastrigin_minimum _).1 fun h => by
    have := ((rastrigin_minimum [0, 1]).2).1 h.symm 1 (by simp)
    norm_num at this

/-! ### C70: functions with roots, sines and exponentials -/

/-- Ackley's function has its only minimum, 0, at the origin (in spite of `M_2_PI`). -/
theorem ackley_minimum : UniqueMinimum ackley 0 0 0 := by
  have hb : ∀ x y, 20 * (1 - Real.exp (-0.2 * Real.sqrt (0.5 * (x * x + y * y)))) ≤ ackley x y := by
    intro x y
    unfold ackley
    have h1 := Real.cos_le_one (2 / Real.pi * x)
    have h2 := Real.cos_le_one (2 / Real.pi * y)
    have : Real.exp (0.5 * (Real.cos (2 / Real.pi * x) + Real.cos (2 / Real.pi * y))) ≤ Real.exp 1 :=
      Real.exp_le_exp.mpr (by linarith)
    linarith
  have hexp : ∀ x y : ℝ, Real.exp (-0.2 * Real.sqrt (0.5 * (x * x + y * y))) ≤ 1 := by
    intro x y
    rw [Real.exp_le_one_iff]
    have := Real.sqrt_nonneg (0.5 * (x * x + y * y))
    linarith
  refine ⟨?_, fun x y => ⟨?_, fun h => ?_⟩⟩
  · simp only [ackley]; norm_num; ring
  · have := hb x y; have := hexp x y; linarith
  · have h1 := hb x y; have h2 := hexp x y
    have h3 : Real.exp (-0.2 * Real.sqrt (0.5 * (x * x + y * y))) = 1 := by linarith
    rw [Real.exp_eq_one_iff] at h3
    have h4 : Real.sqrt (0.5 * (x * x + y * y)) = 0 := by linarith
    rw [Real.sqrt_eq_zero (by nlinarith [mul_self_nonneg x, mul_self_nonneg y])] at h4
    have := mul_self_nonneg x; have := mul_self_nonneg y
    exact ⟨mul_self_eq_zero.mp (by linarith), mul_self_eq_zero.mp (by linarith)⟩

theorem bukin_minimum : UniqueMinimum bukin (-10) 1 0 := by
  refine ⟨by norm_num [bukin], fun x y => ⟨?_, fun h => ?_⟩⟩
  · unfold bukin; positivity
  · unfold bukin at h
    have e1 := Real.sqrt_nonneg (abs (y - 0.01 * x * x))
    have e2 := abs_nonneg (x + 10)
    have h2 : abs (x + 10) = 0 := by linarith
    have h1 : Real.sqrt (abs (y - 0.01 * x * x)) = 0 := by linarith
    rw [Real.sqrt_eq_zero (abs_nonneg _), abs_eq_zero] at h1
    rw [abs_eq_zero] at h2
    have hx : x = -10 := by linarith
    subst hx
    exact ⟨rfl, by norm_num at h1; linarith⟩

theorem levy_minimum : UniqueMinimum levy 1 1 0 := by
  refine ⟨?_, fun x y => ⟨?_, fun h => ?_⟩⟩
  · have : Real.sin (3 * Real.pi) = 0 := by
      have := Real.sin_nat_mul_pi 3
      exact_mod_cast this
    simp [levy, square, this]
  · simp only [levy, square]
    have := mul_self_nonneg (Real.sin (3 * Real.pi * x))
    have := mul_nonneg (mul_self_nonneg (x - 1))
      (by nlinarith [mul_self_nonneg (Real.sin (3 * Real.pi * y))] :
        0 ≤ 1 + Real.sin (3 * Real.pi * y) * Real.sin (3 * Real.pi * y))
    have := mul_nonneg (mul_self_nonneg (y - 1))
      (by nlinarith [mul_self_nonneg (Real.sin (2 * Real.pi * y))] :
        0 ≤ 1 + Real.sin (2 * Real.pi * y) * Real.sin (2 * Real.pi * y))
    linarith
  · simp only [levy, square] at h
    have a1 := mul_self_nonneg (Real.sin (3 * Real.pi * x))
    have a2 := mul_nonneg (mul_self_nonneg (x - 1)) (mul_self_nonneg (Real.sin (3 * Real.pi * y)))
    have a3 := mul_nonneg (mul_self_nonneg (y - 1)) (mul_self_nonneg (Real.sin (2 * Real.pi * y)))
    have a4 := mul_self_nonneg (x - 1)
    have a5 := mul_self_nonneg (y - 1)
    have h1 : x - 1 = 0 := mul_self_eq_zero.mp (by nlinarith)
    have h2 : y - 1 = 0 := mul_self_eq_zero.mp (by nlinarith)
    constructor <;> linarith

theorem easom_minimum : UniqueMinimum easom Real.pi Real.pi (-1) := by
  have hcc : ∀ x y : ℝ, Real.cos x * Real.cos y ≤ 1 := fun x y => by
    have := Real.abs_cos_le_one x; have := Real.abs_cos_le_one y
    rw [abs_le] at *
    nlinarith [Real.sin_sq_add_cos_sq x, Real.sin_sq_add_cos_sq y, sq_nonneg (Real.cos x - Real.cos y),
      sq_nonneg (Real.sin x), sq_nonneg (Real.sin y)]
  have hE : ∀ x y : ℝ, Real.exp (-square (x - Real.pi) - square (y - Real.pi)) ≤ 1 := fun x y => by
    rw [Real.exp_le_one_iff]; simp only [square]
    have := mul_self_nonneg (x - Real.pi); have := mul_self_nonneg (y - Real.pi); linarith
  have hp : ∀ x y : ℝ, 0 < Real.exp (-square (x - Real.pi) - square (y - Real.pi)) :=
    fun x y => Real.exp_pos _
  refine ⟨by simp [easom, square], fun x y => ⟨?_, fun h => ?_⟩⟩
  · unfold easom
    have h1 := hcc x y; have h2 := hE x y; have h3 := hp x y
    nlinarith
  · unfold easom at h
    have h1 := hcc x y; have h2 := hE x y; have h3 := hp x y
    have h4 : Real.exp (-square (x - Real.pi) - square (y - Real.pi)) = 1 := by
      apply le_antisymm h2
      nlinarith
    rw [Real.exp_eq_one_iff] at h4
    simp only [square] at h4
    have e1 := mul_self_nonneg (x - Real.pi); have e2 := mul_self_nonneg (y - Real.pi)
    have := mul_self_eq_zero.mp (by linarith : (x - Real.pi) * (x - Real.pi) = 0)
    have := mul_self_eq_zero.mp (by linarith : (y - Real.pi) * (y - Real.pi) = 0)
    constructor <;> linarith

/-- The auxiliary inequality behind McCormick's minimum. -/
theorem mccormick_aux {w : ℝ} (hw : -2.41 ≤ w) :
    0 ≤ Real.sqrt 3 / 2 * (1 - Real.cos w) + (w - Real.sin w) / 2 := by
  have h3 : (1.732 : ℝ) ≤ Real.sqrt 3 := by
    rw [Real.le_sqrt (by norm_num) (by norm_num)]; norm_num
  have hc := Real.cos_le_one w
  rcases le_or_gt 0 w with h | h
  · have := Real.sin_le h
    nlinarith
  · obtain ⟨t, rfl⟩ : ∃ t, w = -t := ⟨-w, by ring⟩
    rw [Real.cos_neg, Real.sin_neg] at *
    have ht : 0 < t := by linarith
    have hp1 := Real.pi_gt_d4
    have hp2 := Real.pi_lt_d4
    rcases le_or_gt t (2 * Real.pi / 3) with hle | hgt
    · have hs := Real.sin_ge_sub_cube ht.le
      have hcos := Real.cos_le_one_sub_mul_cos_sq (x := t) (by rw [abs_of_pos ht]; linarith)
      have ht2 : 0 < t ^ 2 := by positivity
      have h1 : 2 / Real.pi ^ 2 * t ^ 2 ≤ 1 - Real.cos t := by linarith
      have h2 : (0.2026 : ℝ) ≤ 2 / Real.pi ^ 2 := by
        rw [le_div_iff₀ (by positivity)]
        nlinarith
      have h4 : 0.2026 * t ^ 2 ≤ 1 - Real.cos t := le_trans (by nlinarith) h1
      have h5 : 1.732 * (0.2026 * t ^ 2) ≤ Real.sqrt 3 * (1 - Real.cos t) :=
        mul_le_mul h3 h4 (by positivity) (by positivity)
      have h6 : t ^ 3 ≤ 2.0945 * t ^ 2 := by
        have : t ≤ 2.0945 := by linarith
        calc t ^ 3 = t * t ^ 2 := by ring
          _ ≤ 2.0945 * t ^ 2 := by nlinarith
      nlinarith
    · have hcos : Real.cos t ≤ -(1 / 2) := by
        have h1 : Real.cos (2 * Real.pi / 3) = -(1 / 2) := by
          have : 2 * Real.pi / 3 = Real.pi - Real.pi / 3 := by ring
          rw [this, Real.cos_pi_sub, Real.cos_pi_div_three]
        rw [← h1]
        exact Real.cos_le_cos_of_nonneg_of_le_pi (by linarith) (by linarith) hgt.le
      have hs : 0 ≤ Real.sin t := Real.sin_nonneg_of_nonneg_of_le_pi ht.le (by linarith)
      nlinarith

/-- McCormick's function on its box `[-1.5, 4] × [-3, 4]`: the minimum is
`-√3/2 - π/3 = -1.9132...`, at `(1/2 - π/3, -1/2 - π/3) = (-0.547..., -1.547...)`. -/
theorem mcCormick_minimum :
    MinimumOn (fun p : ℝ × ℝ => -1.5 ≤ p.1 ∧ p.1 ≤ 4 ∧ -3 ≤ p.2 ∧ p.2 ≤ 4)
      (fun p => mcCormick p.1 p.2) (1 / 2 - Real.pi / 3, -1 / 2 - Real.pi / 3)
      (-(Real.sqrt 3 / 2) - Real.pi / 3) := by
  have hp1 := Real.pi_gt_d4
  have hp2 := Real.pi_lt_d4
  have hc : Real.cos (2 * Real.pi / 3) = -(1 / 2) := by
    have : 2 * Real.pi / 3 = Real.pi - Real.pi / 3 := by ring
    rw [this, Real.cos_pi_sub, Real.cos_pi_div_three]
  have hs : Real.sin (2 * Real.pi / 3) = Real.sqrt 3 / 2 := by
    have : 2 * Real.pi / 3 = Real.pi - Real.pi / 3 := by ring
    rw [this, Real.sin_pi_sub, Real.sin_pi_div_three]
  refine ⟨⟨?_, ?_, ?_, ?_⟩, ?_, ?_⟩
  · norm_num; linarith
  · norm_num; linarith
  · norm_num; linarith
  · norm_num; linarith
  · simp only [mcCormick, square]
    have : 1 / 2 - Real.pi / 3 + (-1 / 2 - Real.pi / 3) = -(2 * Real.pi / 3) := by ring
    rw [this, Real.sin_neg, hs]
    ring
  · rintro ⟨x, y⟩ ⟨h1, _, h2, _⟩
    dsimp only at *
    have e : mcCormick x y = Real.sin (x + y) + (x + y) / 2 + (x - y - 1) ^ 2 := by
      simp only [mcCormick, square]; norm_num; ring
    have hw := mccormick_aux (w := x + y + 2 * Real.pi / 3) (by linarith)
    have hsin : Real.sin (x + y) = -(1 / 2) * Real.sin (x + y + 2 * Real.pi / 3) -
        Real.sqrt 3 / 2 * Real.cos (x + y + 2 * Real.pi / 3) := by
      have : x + y = (x + y + 2 * Real.pi / 3) - 2 * Real.pi / 3 := by ring
      conv_lhs => rw [this]
      rw [Real.sin_sub, hc, hs]; ring
    rw [e, hsin]
    nlinarith [sq_nonneg (x - y - 1)]

/-! ### Loops of the model -/

theorem forUp_sum (lo hi : Nat) (body : Nat → ℝ → Out ℝ) (h : Nat → ℝ)
    (hb : ∀ i, lo ≤ i → i < hi → ∀ s, body i s = .ok (s + h i)) (a : ℝ) :
    forUp lo hi body a = .ok (a + ((List.range' lo (hi - lo)).map h).sum) := by
  unfold forUp
  have gen : ∀ (l : List Nat), (∀ i ∈ l, lo ≤ i ∧ i < hi) → ∀ a : ℝ,
      l.foldlM (fun s i => body i s) a = .ok (a + (l.map h).sum) := by
    intro l
    induction l with
    | nil => intro _ a; simp
    | cons i l ih =>
      intro hl a
      have := hl i (by simp)
      rw [List.foldlM_cons, hb i this.1 this.2, Out.ok_bind, ih fun j hj => hl j (by simp [hj])]
      simp [add_assoc]
  apply gen
  intro i hi'
  rw [List.mem_range'_1] at hi'
  omega

theorem rd_ok {x : List ℝ} {i : Nat} (h : i < x.length) : rd x i = .ok x[i] := by
  simp [rd, List.getElem?_eq_getElem h]

/-! ### C71: any number of variables, both kinds of container -/

/-- The value of the code's Rosenbrock function. -/
theorem rosenbrock_eq (v : Vec) (x : List ℝ) (hx : x ≠ []) :
    rosenbrock v x = .ok ((List.zipWith (fun t b => 100 * (b - t) ^ 2 + (1 - t) ^ 2)
      x (x.drop 1)).sum) := by
  have hlen : x.length ≠ 0 := by simpa using hx
  have hsum : (List.zipWith (fun t b => 100 * (b - t) ^ 2 + (1 - t) ^ 2) x (x.drop 1)).sum =
      100 * (List.zipWith (fun t b => (t - b) ^ 2) (x.take (x.length - 1)) (x.drop 1)).sum +
        ((x.take (x.length - 1)).map fun t => (1 - t) ^ 2).sum := by
    clear hx hlen
    induction x with
    | nil => simp
    | cons a xs ih =>
      cases xs with
      | nil => simp
      | cons b ys =>
        simp only [List.drop_succ_cons, List.drop_zero, List.zipWith_cons_cons, List.sum_cons,
          List.length_cons, Nat.add_sub_cancel, List.take_succ_cons, List.map_cons] at ih ⊢
        rw [ih]
        ring
  unfold rosenbrock
  rw [if_neg hlen]
  cases v with
  | eigen => simp only [hsum]
  | std =>
    simp only
    rw [forUp_sum 0 (x.length - 1) _ (fun i => 100 * square (x[i + 1]! - x[i]!) + square (1 - x[i]!))]
    · congr 1
      rw [zero_add]
      congr 1
      apply List.ext_getElem
      · simp
      · intro i h1 h2
        simp at h1 h2
        simp only [List.getElem_map, List.getElem_range', List.getElem_zipWith, List.getElem_drop,
          square]
        rw [getElem!_pos x (0 + 1 * i + 1) (by omega), getElem!_pos x (0 + 1 * i) (by omega)]
        have e2 : 0 + 1 * i = i := by omega
        simp only [e2]
        ring_nf
    · intro i _ hi s
      have h1 : i + 1 < x.length := by omega
      have h2 : i < x.length := by omega
      simp only [rd_ok h1, rd_ok h2, Out.ok_bind, Out.pure_eq, getElem!_pos x (i + 1) h1,
        getElem!_pos x i h2]

/-- C71 (Rosenbrock): for every non-empty vector, of either kind, the code returns a non-negative
number, the same for both kinds; from two variables on it is zero at `(1, ..., 1)` only. -/
theorem rosenbrock_minimum (x : List ℝ) (hx : x ≠ []) :
    ∃ r : ℝ, (∀ v, rosenbrock v x = .ok r) ∧ 0 ≤ r ∧
      (2 ≤ x.length → (r = 0 ↔ ∀ t ∈ x, t = 1)) := by
  refine ⟨_, fun v => rosenbrock_eq v x hx, ?_, ?_⟩
  · clear hx
    induction x with
    | nil => simp
    | cons a xs ih =>
      cases xs with
      | nil => simp
      | cons b ys =>
        simp only [List.drop_succ_cons, List.drop_zero, List.zipWith_cons_cons, List.sum_cons] at ih ⊢
        have : 0 ≤ 100 * (b - a) ^ 2 + (1 - a) ^ 2 := by positivity
        linarith
  · clear hx
    have hnn : ∀ x : List ℝ, 0 ≤ (List.zipWith (fun t b => 100 * (b - t) ^ 2 + (1 - t) ^ 2)
        x (x.drop 1)).sum := by
      intro x
      induction x with
      | nil => simp
      | cons a xs ih =>
        cases xs with
        | nil => simp
        | cons b ys =>
          simp only [List.drop_succ_cons, List.drop_zero, List.zipWith_cons_cons,
            List.sum_cons] at ih ⊢
          have : 0 ≤ 100 * (b - a) ^ 2 + (1 - a) ^ 2 := by positivity
          linarith
    induction x with
    | nil => simp
    | cons a xs ih =>
      cases xs with
      | nil => simp
      | cons b ys =>
        intro _
        have hn := hnn (b :: ys)
        simp only [List.drop_succ_cons, List.drop_zero, List.zipWith_cons_cons,
          List.sum_cons] at ih hn ⊢
        constructor
        · intro h
          have e1 : 0 ≤ (b - a) ^ 2 := by positivity
          have e2 : 0 ≤ (1 - a) ^ 2 := by positivity
          have ha : (1 - a) ^ 2 = 0 := by linarith
          have hb : (b - a) ^ 2 = 0 := by linarith
          have ha' := pow_eq_zero_iff two_ne_zero |>.mp ha
          have hb' := pow_eq_zero_iff two_ne_zero |>.mp hb
          have a1 : a = 1 := by linarith
          have b1 : b = 1 := by linarith
          intro t ht
          rcases List.mem_cons.mp ht with rfl | ht
          · exact a1
          · cases ys with
            | nil => simp at ht; rw [ht]; exact b1
            | cons c zs =>
              refine (ih (by simp)).mp ?_ t ht
              rw [ha, hb] at h
              linarith
        · intro h
          have a1 := h a (by simp)
          have b1 := h b (by simp)
          cases ys with
          | nil => simp [a1, b1]
          | cons c zs =>
            rw [(ih (by simp)).mpr fun t ht => h t (by simp [ht]), a1, b1]
            norm_num

example : ∃ r : ℝ, (∀ v, rosenbrock v [1, 1, 1] = .ok r) ∧ r = 0 := by
  obtain ⟨r, h, _, h0⟩ := rosenbrock_minimum [1, 1, 1] (by simp)
  exact ⟨r, h, (h0 (by simp)).2 (by simp)⟩

/-- C57: the code's Rosenbrock function is not the documented one (which squares `x_i`):
at `(2, 2)` the documented value is 401, the code returns 1. -/
theorem rosenbrock_not_documented (v : Vec) :
    rosenbrock v [2, 2] = .ok 1 ∧ 100 * ((2 : ℝ) - 2 ^ 2) ^ 2 + (1 - 2) ^ 2 = 401 := by
  rw [rosenbrock_eq v _ (by simp)]
  norm_num

/-- C71 (Styblinski–Tang, std containers): in `n` variables the value is never below
`-39.16617 n`, and `(-2.903534, ..., -2.903534)` comes within `10⁻⁵ n` of that. -/
theorem styblinskiTang_std_minimum (x : List ℝ) :
    -39.16617 * (x.length : ℝ) ≤ styblinskiTang .std x ∧
      ∀ n : Nat, styblinskiTang .std (List.replicate n (-2.903534)) ≤ -39.16616 * (n : ℝ) := by
  have e : ∀ x : List ℝ, styblinskiTang .std x =
      (x.map fun t => (t * t * t * t - 16 * t * t + 5 * t) / 2).sum := by
    intro x
    simp only [styblinskiTang]
    rw [foldl_add_map (fun t => t * t * t * t - 16 * t * t + 5 * t)]
    induction x with
    | nil => simp
    | cons a xs ih => simp only [List.map_cons, List.sum_cons] at ih ⊢; rw [← ih]; ring
  constructor
  · rw [e]
    induction x with
    | nil => simp
    | cons a xs ih =>
      simp only [List.map_cons, List.sum_cons, List.length_cons, Nat.cast_add, Nat.cast_one]
      have : -39.16617 ≤ (a * a * a * a - 16 * a * a + 5 * a) / 2 := by
        nlinarith [sq_nonneg (a * a - 8.43051), sq_nonneg (a + 2.903534)]
      linarith
  · intro n
    rw [e, List.map_replicate, List.sum_replicate, nsmul_eq_mul]
    have : ((-2.903534 : ℝ) * -2.903534 * -2.903534 * -2.903534 - 16 * -2.903534 * -2.903534 +
      5 * -2.903534) / 2 ≤ -39.16616 := by norm_num
    have hn : (0 : ℝ) ≤ n := by positivity
    nlinarith

/-- C57: for the same numbers the Eigen variant of Styblinski–Tang returns twice the value of the
std variant (it does not halve), so the two disagree wherever the value is not 0. -/
theorem styblinskiTang_containers_disagree (x : List ℝ) :
    styblinskiTang .eigen x = 2 * styblinskiTang .std x := by
  simp only [styblinskiTang]
  rw [foldl_add_map (fun t => t * t * t * t - 16 * t * t + 5 * t)]
  have : (fun t : ℝ => t * t * t * t - 16 * t * t + 5 * t) = fun t => t ^ 4 - 16 * t ^ 2 + 5 * t := by
    funext t; ring
  rw [this]
  ring

example : styblinskiTang .eigen [1] = -10 ∧ styblinskiTang .std [1] = -5 := by
  have := styblinskiTang_containers_disagree [1]
  have h : styblinskiTang .eigen [1] = -10 := by simp [styblinskiTang]; norm_num
  exact ⟨h, by linarith⟩

/-! ### C57: functions that do not have the documented optimum -/

/-- The documented minimum of the Goldstein–Price function is 3, at (0, -1).  The code returns 12
there, and takes negative values inside the documented box `[-2, 2]²`. -/
theorem goldsteinPrice_wrong : goldsteinPrice 0 (-1) = 12 ∧ goldsteinPrice 2 0 < 0 := by
  norm_num [goldsteinPrice, square]

/-- The documented minimum of Schaffer's function no. 2 is 0, at the origin.  The code returns 0.75
there and never anything below 0.5. -/
theorem schaffer2_wrong : schaffer2 0 0 = 0.75 ∧ ∀ x y, 0.5 ≤ schaffer2 x y := by
  refine ⟨by norm_num [schaffer2, square], fun x y => ?_⟩
  have : 0 ≤ square (Real.sin (x * x - y * y) - 0.5) / square (1 + 0.001 * (x * x + y * y)) :=
    div_nonneg (mul_self_nonneg _) (mul_self_nonneg _)
  unfold schaffer2
  linarith

/-- Hölder's table: at every point with `|x| < |y|` – the four documented minimisers
`(±8.05502, ±9.66459)` among them – the code returns NaN. -/
theorem holderTable_wrong : (∀ x y, |x| < |y| → TestFuns.holderTable x y = none) ∧
    TestFuns.holderTable 8.05502 9.66459 = none := by
  have h : ∀ x y, |x| < |y| → TestFuns.holderTable x y = none := fun x y hxy => by
    unfold TestFuns.holderTable
    have := sq_lt_sq.mpr hxy
    rw [if_pos (by nlinarith)]
  refine ⟨h, h _ _ ?_⟩
  rw [abs_of_pos (by norm_num), abs_of_pos (by norm_num)]
  norm_num

/-- Hölder's table: where the code returns a number (`|y| ≤ |x|`) it is never positive; with `y = 0`, and only then
without the sign under the root mattering, it is the documented function. -/
theorem holderTable_defined : (∀ x y, |y| ≤ |x| → ∃ v, TestFuns.holderTable x y = some v ∧ v ≤ 0) ∧
    (∀ x, TestFuns.holderTable x 0 = some (Spec.holderTable x 0)) ∧
    (∀ x y, |x| = |y| → TestFuns.holderTable x y = some (-(|Real.sin x| * |Real.cos y| * Real.exp 1))) := by
  have hd : ∀ x y : ℝ, |y| ≤ |x| → ¬ x * x - y * y < 0 := fun x y h => by
    have := sq_le_sq.mpr h
    nlinarith
  refine ⟨fun x y h => ⟨_, if_neg (hd x y h), neg_nonpos.2 (abs_nonneg _)⟩, fun x => ?_, fun x y h => ?_⟩
  · unfold TestFuns.holderTable Spec.holderTable
    rw [if_neg (hd x 0 (by simp))]
    norm_num [sq]
  · unfold TestFuns.holderTable
    rw [if_neg (hd x y h.ge)]
    have : x * x - y * y = 0 := by
      have := (sq_eq_sq_iff_abs_eq_abs x y).2 h
      nlinarith
    rw [this]
    simp [abs_mul]

example : TestFuns.holderTable 2 0 = some (Spec.holderTable 2 0) := holderTable_defined.2.1 2

/-- Schaffer's function no. 4 is never below `cos²(1) = 0.2919...` (documented minimum 0.292579). -/
theorem schaffer4_lower (x y : ℝ) : Real.cos 1 ^ 2 ≤ schaffer4 x y := by
  have hs := Real.abs_sin_le_one (abs (x * x - y * y))
  have hpi := Real.pi_gt_three
  have hc1 : 0 ≤ Real.cos 1 := Real.cos_nonneg_of_mem_Icc ⟨by linarith, by linarith⟩
  have h1 : Real.cos 1 ≤ Real.cos (Real.sin (abs (x * x - y * y))) := by
    rw [← Real.cos_abs (Real.sin _)]
    exact Real.cos_le_cos_of_nonneg_of_le_pi (abs_nonneg _) (by linarith) hs
  have h2 : Real.cos 1 ^ 2 ≤ square (Real.cos (Real.sin (abs (x * x - y * y)))) := by
    unfold square; nlinarith
  have hcos : Real.cos 1 ^ 2 ≤ 1 / 2 := by
    have : Real.cos 1 ≤ Real.cos (Real.pi / 4) :=
      Real.cos_le_cos_of_nonneg_of_le_pi (by linarith) (by linarith) (by linarith [Real.pi_lt_four])
    rw [Real.cos_pi_div_four] at this
    have h2 : Real.sqrt 2 ^ 2 = 2 := Real.sq_sqrt (by norm_num)
    nlinarith
  have hd : 1 ≤ square (1 + 0.001 * (x * x + y * y)) := by
    unfold square; nlinarith [mul_self_nonneg x, mul_self_nonneg y, mul_self_nonneg (x*x+y*y)]
  unfold schaffer4
  rcases le_or_gt 0 (square (Real.cos (Real.sin (abs (x * x - y * y)))) - 0.5) with h | h
  · have := div_nonneg h (by linarith : 0 ≤ square (1 + 0.001 * (x * x + y * y)))
    linarith
  · have : square (Real.cos (Real.sin (abs (x * x - y * y)))) - 0.5 ≤
        (square (Real.cos (Real.sin (abs (x * x - y * y)))) - 0.5) /
          square (1 + 0.001 * (x * x + y * y)) := by
      rw [le_div_iff₀ (by linarith)]
      nlinarith
    linarith

end Heu
