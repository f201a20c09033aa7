import Verif.Props.AOS
import Verif.Model.Gauss
import Mathlib.Analysis.Complex.ExponentialBounds
import Mathlib.Tactic.Positivity

/-!
# C50 for the weights of the code: safe sizes, and a size that is not
-/

set_option linter.unusedVariables false

namespace Heu
open Spec

/-- The weights of the code, with the constant factor split off. -/
theorem layerWeight_eq (k : Nat) (hk : 1 ≤ k) (i : Nat) :
    layerWeight k i = (1 / ((k : ℝ) / 6 * Real.sqrt (2 * Real.pi))) *
      Real.exp (-(18 * ((i : ℝ) + 1) ^ 2 / (k : ℝ) ^ 2)) := by
  unfold layerWeight gaussianCurve
  congr 2
  have : (k : ℝ) ≠ 0 := by positivity
  field_simp
  ring

theorem layerWeight_pos (k : Nat) (hk : 1 ≤ k) (i : Nat) : 0 < layerWeight k i := by
  rw [layerWeight_eq k hk]
  have : (0 : ℝ) < k := by exact_mod_cast hk
  have := Real.pi_pos
  positivity

theorem layerWeight_ratio (k : Nat) (hk : 1 ≤ k) (i : Nat) :
    layerWeight k i = layerWeight k 0 * Real.exp (-(18 * (((i : ℝ) + 1) ^ 2 - 1) / (k : ℝ) ^ 2)) := by
  rw [layerWeight_eq k hk, layerWeight_eq k hk, mul_assoc, ← Real.exp_add]
  congr 2
  push_cast
  ring

/-- The weights of the code are legal for any legal draw of the number of layers. -/
theorem gaussianCurve_legal (o : AOSOption) (k : Nat) (h1 : 1 ≤ k) (h2 : k ≤ o.maxLayerNum) :
    LegalLayers o k (layerWeight k) := by
  refine ⟨h1, h2, fun i _ => layerWeight_pos k h1 i, ?_⟩
  intro i _
  rw [layerWeight_ratio k h1 i]
  have h0 := layerWeight_pos k h1 0
  have : Real.exp (-(18 * (((i : ℝ) + 1) ^ 2 - 1) / (k : ℝ) ^ 2)) ≤ 1 := by
    rw [Real.exp_le_one_iff, neg_nonpos]
    apply div_nonneg _ (by positivity)
    have : (0 : ℝ) ≤ i := by positivity
    nlinarith
  nlinarith

/-- **C50** (safe sizes).  With the weights of the code, `k` layers and `n` electrons, nothing leaves the
range when `2 n < exp (18 ((⌊k/2⌋ + 2)² - 1) / k²)`. -/
theorem aos_gaussian_safe_partial (k n : Nat) (hk : 1 ≤ k)
    (hn : 2 * (n : ℝ) < Real.exp (18 * (((k / 2 : Nat) + 2 : ℝ) ^ 2 - 1) / (k : ℝ) ^ 2)) :
    ¬ PlanTooSmall n (layerCounts (layerWeight k) k n) := by
  refine aos_plan_fits (layerWeight k) k n (k - k / 2 - 1) hk (by omega)
    (fun i _ => layerWeight_pos k hk i) ?_ (by omega)
  intro i hi1 hi2
  refine layerCounts_zero (layerWeight k) k n i hi2 (fun i _ => layerWeight_pos k hk i) ?_
  rw [layerWeight_ratio k hk i]
  have h0 := layerWeight_pos k hk 0
  have hle : Real.exp (-(18 * (((i : ℝ) + 1) ^ 2 - 1) / (k : ℝ) ^ 2)) ≤
      Real.exp (-(18 * (((k / 2 : Nat) + 2 : ℝ) ^ 2 - 1) / (k : ℝ) ^ 2)) := by
    rw [Real.exp_le_exp, neg_le_neg_iff]
    have hkp : (0 : ℝ) < (k : ℝ) ^ 2 := by
      have : (0 : ℝ) < k := by exact_mod_cast hk
      positivity
    rw [div_le_div_iff_of_pos_right hkp]
    have hi : ((k / 2 : Nat) : ℝ) + 2 ≤ (i : ℝ) + 1 := by
      have : k / 2 + 2 ≤ i + 1 := by omega
      exact_mod_cast this
    have : (0 : ℝ) ≤ ((k / 2 : Nat) : ℝ) := by positivity
    nlinarith
  have hlt : 2 * (n : ℝ) * Real.exp (-(18 * (((k / 2 : Nat) + 2 : ℝ) ^ 2 - 1) / (k : ℝ) ^ 2)) < 1 := by
    rw [Real.exp_neg, ← div_eq_mul_inv, div_lt_one (Real.exp_pos _)]
    exact hn
  have : 2 * (n : ℝ) * Real.exp (-(18 * (((i : ℝ) + 1) ^ 2 - 1) / (k : ℝ) ^ 2)) < 1 :=
    lt_of_le_of_lt (mul_le_mul_of_nonneg_left hle (by positivity)) hlt
  calc 2 * (n : ℝ) * (layerWeight k 0 * Real.exp (-(18 * (((i : ℝ) + 1) ^ 2 - 1) / (k : ℝ) ^ 2)))
      = layerWeight k 0 * (2 * (n : ℝ) * Real.exp (-(18 * (((i : ℝ) + 1) ^ 2 - 1) / (k : ℝ) ^ 2))) := by ring
    _ < layerWeight k 0 * 1 := mul_lt_mul_of_pos_left this h0
    _ = layerWeight k 0 := mul_one _

/-- Up to 5 layers (the default `maxLayerNum`) are safe with up to 10000 electrons (the default is
50). -/
theorem aos_gaussian_safe_five_partial (k n : Nat) (hk : 1 ≤ k) (hk5 : k ≤ 5) (hn : n ≤ 10000) :
    ¬ PlanTooSmall n (layerCounts (layerWeight k) k n) := by
  refine aos_gaussian_safe_partial k n hk ?_
  have h10 : (20000 : ℝ) < Real.exp 10 := by
    have h := Real.exp_one_gt_d9
    have e : Real.exp 10 = Real.exp 1 ^ 10 := by rw [← Real.exp_nat_mul]; norm_num
    rw [e]
    calc (20000 : ℝ) < 2.7 ^ 10 := by norm_num
      _ < Real.exp 1 ^ 10 := by gcongr; linarith
  have hx : (10 : ℝ) ≤ 18 * (((k / 2 : Nat) + 2 : ℝ) ^ 2 - 1) / (k : ℝ) ^ 2 := by
    interval_cases k <;> norm_num
  have hn' : (n : ℝ) ≤ 10000 := by exact_mod_cast hn
  have := Real.exp_le_exp.2 hx
  linarith

/-- Up to 45 electrons are safe with any number of layers. -/
theorem aos_gaussian_safe_any_partial (k n : Nat) (hk : 1 ≤ k) (hn : n ≤ 45) :
    ¬ PlanTooSmall n (layerCounts (layerWeight k) k n) := by
  refine aos_gaussian_safe_partial k n hk ?_
  have h9 : (90 : ℝ) < Real.exp (9 / 2) := by
    have h := Real.exp_one_gt_d9
    have e : Real.exp (9 / 2) ^ 2 = Real.exp 1 ^ 9 := by
      rw [← Real.exp_nat_mul, ← Real.exp_nat_mul]; norm_num
    have h2 : (90 : ℝ) ^ 2 < Real.exp (9 / 2) ^ 2 := by
      rw [e]
      calc (90 : ℝ) ^ 2 < 2.71828 ^ 9 := by norm_num
        _ < Real.exp 1 ^ 9 := by gcongr; linarith
    exact lt_of_pow_lt_pow_left₀ 2 (Real.exp_pos _).le h2
  have hx : (9 / 2 : ℝ) ≤ 18 * (((k / 2 : Nat) + 2 : ℝ) ^ 2 - 1) / (k : ℝ) ^ 2 := by
    have hkp : (0 : ℝ) < (k : ℝ) ^ 2 := by
      have : (0 : ℝ) < k := by exact_mod_cast hk
      positivity
    rw [le_div_iff₀ hkp]
    have : (k : ℝ) ≤ 2 * ((k / 2 : Nat) : ℝ) + 1 := by
      have : k ≤ 2 * (k / 2) + 1 := by omega
      exact_mod_cast this
    have h0 : (0 : ℝ) ≤ ((k / 2 : Nat) : ℝ) := by positivity
    have hk0 : (0 : ℝ) ≤ (k : ℝ) := by positivity
    nlinarith
  have hn' : (n : ℝ) ≤ 45 := by exact_mod_cast hn
  have := Real.exp_le_exp.2 hx
  linarith

/-- **C48/C50/C52** with the weights of the code and the default limits: with at most 5 layers and at most
10000 electrons, a run of an initialised solver returns unless more than `electronNum` electrons share
the best energy in some generation. -/
theorem aos_run_ok_gaussian_partial (impl : AOSImpl) (opt : FitnessOption) (o : AOSOption) (b : Box ℝ)
    (f : List ℝ → ℝ) (env : Nat → AOSEnv ℝ) (init : Nat → List ℝ) (junk : ℝ) (fuel : Nat)
    (hf : o.maxGeneration < fuel) (s0 : AOSState ℝ) (hi : aosInitializePop o init junk = .ok s0)
    (hlayer : o.maxLayerNum ≤ 5) (hnum : o.electronNum ≤ 10000)
    (hk : ∀ i, 1 ≤ (env i).layerNum ∧ (env i).layerNum ≤ o.maxLayerNum)
    (hg : ∀ i, (env i).gauss = layerWeight (env i).layerNum)
    (hties : ∀ i t, aosEval impl opt o b f env s0 i = .ok t → tiedForBest opt t.electrons ≤ o.electronNum) :
    ∃ r, aosRun impl opt o b f env fuel s0 = .ok r := by
  refine aos_run_ok impl opt o b f env init junk fuel hf s0 hi ?_ ?_ hties
  · intro i
    rw [hg i]
    exact gaussianCurve_legal o _ (hk i).1 (hk i).2
  · intro i
    rw [hg i]
    exact aos_gaussian_safe_five_partial _ _ (hk i).1 ((hk i).2.trans hlayer) hnum

/-! ### a size that is not safe -/

theorem exp_half_bounds : (0.606530659 : ℝ) < Real.exp (-(1 / 2)) ∧ Real.exp (-(1 / 2)) < 0.60653066 := by
  have h1 := Real.exp_one_gt_d9
  have h2 := Real.exp_one_lt_d9
  have e : Real.exp (-(1 / 2)) ^ 2 * Real.exp 1 = 1 := by
    rw [← Real.exp_nat_mul, ← Real.exp_add]; norm_num
  have hp := Real.exp_pos (-(1 / 2))
  have hp1 := Real.exp_pos 1
  constructor
  · by_contra hc
    push Not at hc
    have : Real.exp (-(1 / 2)) ^ 2 ≤ 0.606530659 ^ 2 := by gcongr
    nlinarith
  · by_contra hc
    push Not at hc
    have : (0.60653066 : ℝ) ^ 2 ≤ Real.exp (-(1 / 2)) ^ 2 := by gcongr
    nlinarith

theorem layerWeight_six (i : Nat) :
    layerWeight 6 i = layerWeight 6 0 * Real.exp (-(1 / 2)) ^ ((i + 1) ^ 2 - 1) := by
  rw [layerWeight_ratio 6 (by norm_num) i, ← Real.exp_nat_mul]
  congr 2
  have : 1 ≤ (i + 1) ^ 2 := Nat.one_le_pow _ _ (by omega)
  push_cast [Nat.cast_sub this]
  ring

theorem layerCounts_six : layerCounts (layerWeight 6) 6 239135 = [192539, 42961, 3526, 106, 1, 0] := by
  obtain ⟨x, hx⟩ : ∃ x, x = Real.exp (-(1 / 2)) := ⟨_, rfl⟩
  obtain ⟨w, hw⟩ : ∃ w, w = layerWeight 6 0 := ⟨_, rfl⟩
  have hb := exp_half_bounds
  have hwp : 0 < w := hw ▸ layerWeight_pos 6 (by norm_num) 0
  have hwi : ∀ i, layerWeight 6 i = w * x ^ ((i + 1) ^ 2 - 1) := by
    intro i; rw [hw, hx]; exact layerWeight_six i
  rw [← hx] at hb
  obtain ⟨hlo, hhi⟩ := hb
  have hx0 : 0 < x := by linarith
  have pl : ∀ m : Nat, (0.606530659 : ℝ) ^ m ≤ x ^ m := fun m => pow_le_pow_left₀ (by norm_num) hlo.le m
  have ph : ∀ m : Nat, x ^ m ≤ (0.60653066 : ℝ) ^ m := fun m => pow_le_pow_left₀ hx0.le hhi.le m
  have hcount : ∀ i c : Nat,
      (c : ℝ) * (1 + x ^ 3 + x ^ 8 + x ^ 15 + x ^ 24 + x ^ 35) ≤
        x ^ ((i + 1) ^ 2 - 1) * 239135 + 1 / 2 * (1 + x ^ 3 + x ^ 8 + x ^ 15 + x ^ 24 + x ^ 35) →
      x ^ ((i + 1) ^ 2 - 1) * 239135 + 1 / 2 * (1 + x ^ 3 + x ^ 8 + x ^ 15 + x ^ 24 + x ^ 35) <
        ((c : ℝ) + 1) * (1 + x ^ 3 + x ^ 8 + x ^ 15 + x ^ 24 + x ^ 35) →
      ⌊layerWeight 6 i / (((List.range 6).map (layerWeight 6)).foldl (· + ·) 0) * ((239135 : Nat) : ℝ)
        + 1 / 2⌋₊ = c := by
    intro i c h1 h2
    have hs : ((List.range 6).map (layerWeight 6)).foldl (· + ·) 0 =
        w * (1 + x ^ 3 + x ^ 8 + x ^ 15 + x ^ 24 + x ^ 35) := by
      simp only [List.range_succ, List.range_zero, List.map_cons, List.map_nil,
        List.nil_append, List.cons_append, List.foldl_cons, List.foldl_nil, hwi]
      norm_num
      ring
    have hP : 0 < 1 + x ^ 3 + x ^ 8 + x ^ 15 + x ^ 24 + x ^ 35 := by positivity
    obtain ⟨P, hPe⟩ : ∃ P, P = 1 + x ^ 3 + x ^ 8 + x ^ 15 + x ^ 24 + x ^ 35 := ⟨_, rfl⟩
    rw [hs, hwi i, ← hPe]
    rw [← hPe] at h1 h2 hP
    have hq : w * x ^ ((i + 1) ^ 2 - 1) / (w * P) * ((239135 : Nat) : ℝ) + 1 / 2 =
        (x ^ ((i + 1) ^ 2 - 1) * 239135 + 1 / 2 * P) / P := by
      push_cast
      field_simp
    rw [hq, Nat.floor_eq_iff (by positivity), le_div_iff₀ hP, div_lt_iff₀ hP]
    exact ⟨h1, h2⟩
  have l3 := pl 3; have l8 := pl 8; have l15 := pl 15; have l24 := pl 24; have l35 := pl 35
  have h3 := ph 3; have h8 := ph 8; have h15 := ph 15; have h24 := ph 24; have h35 := ph 35
  norm_num at l3 l8 l15 l24 l35 h3 h8 h15 h24 h35
  unfold layerCounts
  simp only [show List.range 6 = [0, 1, 2, 3, 4, 5] from rfl] at hcount ⊢
  simp only [List.map_cons, List.map_nil] at hcount ⊢
  rw [hcount 0 192539 (by norm_num; linarith) (by norm_num; linarith),
    hcount 1 42961 (by norm_num; linarith) (by norm_num; linarith),
    hcount 2 3526 (by norm_num; linarith) (by norm_num; linarith),
    hcount 3 106 (by norm_num; linarith) (by norm_num; linarith),
    hcount 4 1 (by norm_num; linarith) (by norm_num; linarith),
    hcount 5 0 (by norm_num; linarith) (by norm_num; linarith)]

/-- **C50** fails for the code: with 239135 electrons and 6 layers the rounded plan provides for 239133
electrons only, the last layer takes one of the other two, and the last electron is written past the end
of the vector of layers.  So a solver with `electronNum = 239135` and `maxLayerNum ≥ 6` has undefined
behaviour as soon as 6 layers are drawn. -/
theorem aos_layers_out_of_range (opt : FitnessOption) (o : AOSOption)
    (sort : Sorter (Cell (Gene (List ℝ) ℝ))) (s : AOSState ℝ) (hd : DistinctNodes s.electrons)
    (ho : o.electronNum = 239135) (hm : 6 ≤ o.maxLayerNum) (hs : 239135 ≤ s.electrons.length) :
    selectAndMakeLayers opt o sort 6 (layerWeight 6) s = .ub := by
  have hmin : min o.electronNum s.electrons.length = 239135 := by omega
  rw [(aos_layers_out_of_range_iff opt o sort 6 (layerWeight 6) s hd
    (gaussianCurve_legal o 6 (by norm_num) hm) (by rw [hmin]; norm_num)).1, hmin, layerCounts_six]
  unfold PlanTooSmall planned
  intro j hj
  simp at hj
  interval_cases j <;> decide

end Heu
