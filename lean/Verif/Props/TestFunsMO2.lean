import Verif.Props.TestFunsMO
import Mathlib.Analysis.Complex.Trigonometric

/-!
# C102, C103: Poloni and Fonseca–Fleming
-/

set_option linter.unusedVariables false

namespace Heu
open Spec TestFuns

/-! ### Numerical values of sine and cosine -/

theorem cos_sin_one :
    |Real.cos 1 - 607300185015708631061 / 1124000727777607680000| ≤ 1 / 10 ^ 23 ∧
    |Real.sin 1 - 4350744396907953273869 / 5170403347776995328000| ≤ 1 / 10 ^ 23 := by
  have hb := Complex.exp_bound (x := Complex.I) (by simp) (n := 24) (by norm_num)
  have hsum : ∑ m ∈ Finset.range 24, Complex.I ^ m / (m.factorial : ℂ) =
      ((607300185015708631061 / 1124000727777607680000 : ℝ) : ℂ) +
        ((4350744396907953273869 / 5170403347776995328000 : ℝ) : ℂ) * Complex.I := by
    have h : ∀ n, Complex.I ^ n = Complex.I ^ (n % 4) := Complex.I_pow_eq_pow_mod
    simp only [Finset.sum_range_succ, Finset.sum_range_zero]
    rw [h 4, h 5, h 6, h 7, h 8, h 9, h 10, h 11, h 12, h 13, h 14, h 15, h 16, h 17, h 18, h 19, h 20, h 21, h 22,
      h 23]
    norm_num [Nat.factorial]
    ring
  rw [hsum] at hb
  have he : Complex.exp Complex.I = (Real.cos 1 : ℂ) + (Real.sin 1 : ℂ) * Complex.I := by
    have := Complex.exp_mul_I 1
    rw [one_mul] at this
    rw [this]; push_cast; rfl
  rw [he] at hb
  have hd : ((Real.cos 1 : ℂ) + (Real.sin 1 : ℂ) * Complex.I) -
      (((607300185015708631061 / 1124000727777607680000 : ℝ) : ℂ) +
        ((4350744396907953273869 / 5170403347776995328000 : ℝ) : ℂ) * Complex.I) =
      ⟨Real.cos 1 - 607300185015708631061 / 1124000727777607680000,
        Real.sin 1 - 4350744396907953273869 / 5170403347776995328000⟩ := by
    generalize Real.cos 1 = C
    generalize Real.sin 1 = S
    apply Complex.ext
    · simp
    · simp
  rw [hd] at hb
  have hnum : ‖Complex.I‖ ^ 24 * ((Nat.succ 24 : ℝ) * ((Nat.factorial 24 : ℝ) * (24 : ℕ))⁻¹) ≤ 1 / 10 ^ 23 := by
    norm_num [Nat.factorial]
  have h1 := Complex.abs_re_le_norm (⟨Real.cos 1 - 607300185015708631061 / 1124000727777607680000,
        Real.sin 1 - 4350744396907953273869 / 5170403347776995328000⟩ : ℂ)
  have h2 := Complex.abs_im_le_norm (⟨Real.cos 1 - 607300185015708631061 / 1124000727777607680000,
        Real.sin 1 - 4350744396907953273869 / 5170403347776995328000⟩ : ℂ)
  exact ⟨h1.trans (hb.trans hnum), h2.trans (hb.trans hnum)⟩

/-- Poloni's first constant, as documented in the comment of the code. -/
noncomputable def poloniA1 : ℝ := 0.5 * Real.sin 1 - 2 * Real.cos 1 + Real.sin 2 - 1.5 * Real.cos 2
/-- Poloni's second constant, as documented in the comment of the code. -/
noncomputable def poloniA2 : ℝ := 1.5 * Real.sin 1 - Real.cos 1 + 2 * Real.sin 2 - 0.5 * Real.cos 2

theorem poloni_A :
    |0.87364856231406409441675015609208455034347519302074844792508553304659184302050078940737876109778881072998046875
      - poloniA1| ≤ 1 / 10 ^ 21 ∧
    |2.74857244326863962686864072157634249269337869363896678191405505936963961366448216949720517732203006744384765625
      - poloniA2| ≤ 1 / 10 ^ 21 := by
  obtain ⟨hc, hs⟩ := cos_sin_one
  have e2 : Real.sin 2 = 2 * Real.sin 1 * Real.cos 1 := by rw [← Real.sin_two_mul]; norm_num
  have e3 : Real.cos 2 = 2 * Real.cos 1 ^ 2 - 1 := by rw [← Real.cos_two_mul]; norm_num
  unfold poloniA1 poloniA2
  rw [e2, e3]
  obtain ⟨c, hc'⟩ : ∃ c, c = Real.cos 1 - 607300185015708631061 / 1124000727777607680000 := ⟨_, rfl⟩
  obtain ⟨s, hs'⟩ : ∃ s, s = Real.sin 1 - 4350744396907953273869 / 5170403347776995328000 := ⟨_, rfl⟩
  rw [← hc'] at hc
  rw [← hs'] at hs
  have ec : Real.cos 1 = c + 607300185015708631061 / 1124000727777607680000 := by rw [hc']; ring
  have es : Real.sin 1 = s + 4350744396907953273869 / 5170403347776995328000 := by rw [hs']; ring
  rw [ec, es]
  obtain ⟨c1, c2⟩ := abs_le.1 hc
  obtain ⟨s1, s2⟩ := abs_le.1 hs
  have hsc1 : s * c ≤ 1 / 10 ^ 23 := by nlinarith
  have hsc2 : -(1 / 10 ^ 23) ≤ s * c := by nlinarith
  have hcc1 : c * c ≤ 1 / 10 ^ 23 := by nlinarith
  have hcc2 : 0 ≤ c * c := mul_self_nonneg c
  norm_num at *
  constructor <;> rw [abs_le] <;> constructor <;> nlinarith

/-- **C102**.  Poloni's problem: the first objective is at least 1, and – the long constants of the code being
right to 21 decimals – equals 1 up to `10^-41` at `(1, 2)`; the second is at least 0 and vanishes at `(-3, -1)`
only, which is therefore the Pareto-optimal point at one end of the front. -/
theorem poloni_ranges :
    (∀ x y, 1 ≤ poloni x y 0) ∧ poloni 1 2 0 ≤ 1 + 1 / 10 ^ 41 ∧
    (∀ x y, 0 ≤ poloni x y 1) ∧ (∀ x y, poloni x y 1 = 0 ↔ x = -3 ∧ y = -1) ∧
    (¬ ∃ x y, Dominates .lessBetter (poloni x y) (poloni (-3) (-1))) := by
  have h1 : ∀ x y, poloni x y 1 = (x + 3) ^ 2 + (y + 1) ^ 2 := by
    intro x y; simp [poloni, square]; ring
  have h1z : ∀ x y, poloni x y 1 = 0 ↔ x = -3 ∧ y = -1 := by
    intro x y
    rw [h1]
    constructor
    · intro h
      have a := sq_nonneg (x + 3)
      have b := sq_nonneg (y + 1)
      have a0 : x + 3 = 0 := pow_eq_zero_iff (two_ne_zero) |>.1 (by linarith)
      have b0 : y + 1 = 0 := pow_eq_zero_iff (two_ne_zero) |>.1 (by linarith)
      exact ⟨by linarith, by linarith⟩
    · rintro ⟨rfl, rfl⟩; norm_num
  refine ⟨fun x y => ?_, ?_, fun x y => by rw [h1]; positivity, h1z, ?_⟩
  · simp only [poloni, square, Matrix.cons_val_zero]
    have := mul_self_nonneg
      (0.87364856231406409441675015609208455034347519302074844792508553304659184302050078940737876109778881072998046875
        - (0.5 * Real.sin x - 2 * Real.cos x + Real.sin y - 1.5 * Real.cos y))
    have := mul_self_nonneg
      (2.74857244326863962686864072157634249269337869363896678191405505936963961366448216949720517732203006744384765625
        - (1.5 * Real.sin x - Real.cos x + 2 * Real.sin y - 0.5 * Real.cos y))
    linarith
  · obtain ⟨ha, hb⟩ := poloni_A
    simp only [poloni, square, Matrix.cons_val_zero]
    unfold poloniA1 at ha
    unfold poloniA2 at hb
    obtain ⟨a1, a2⟩ := abs_le.1 ha
    obtain ⟨b1, b2⟩ := abs_le.1 hb
    have ha2 := mul_self_le_mul_self (abs_nonneg _) ha
    have hb2 := mul_self_le_mul_self (abs_nonneg _) hb
    rw [abs_mul_abs_self] at ha2 hb2
    have hn : (1 / 10 ^ 21 * (1 / 10 ^ 21) : ℝ) + 1 / 10 ^ 21 * (1 / 10 ^ 21) ≤ 1 / 10 ^ 41 := by norm_num
    linarith
  · rintro ⟨x, y, hd⟩
    rw [dom2] at hd
    have z : poloni (-3) (-1) 1 = 0 := (h1z _ _).2 ⟨rfl, rfl⟩
    obtain ⟨⟨d0, d1⟩, dd⟩ := hd
    have hxy : poloni x y 1 = 0 := le_antisymm (by rw [← z]; exact d1) (by rw [h1]; positivity)
    obtain ⟨rfl, rfl⟩ := (h1z x y).1 hxy
    rcases dd with h | h <;> exact lt_irrefl _ h

/-! ### Fonseca–Fleming -/

theorem sum_sq_split (x : List ℝ) (m c : ℝ) (hm : x.sum = x.length * m) :
    (x.map fun t => (t - c) ^ 2).sum = (x.map fun t => (t - m) ^ 2).sum + x.length * (m - c) ^ 2 := by
  have key : ∀ l : List ℝ, (l.map fun t => (t - c) ^ 2).sum =
      (l.map fun t => (t - m) ^ 2).sum + 2 * (m - c) * (l.sum - l.length * m) + l.length * (m - c) ^ 2 := by
    intro l
    induction l with
    | nil => simp
    | cons t l ih =>
      simp only [List.map_cons, List.sum_cons, List.length_cons, ih]
      push_cast
      ring
  rw [key, hm]; ring

theorem sum_sq_nonneg (x : List ℝ) (m : ℝ) : 0 ≤ (x.map fun t => (t - m) ^ 2).sum :=
  List.sum_nonneg (by intro a ha; obtain ⟨t, -, rfl⟩ := List.mem_map.1 ha; positivity)

theorem sum_sq_zero {x : List ℝ} {m : ℝ} (h : (x.map fun t => (t - m) ^ 2).sum ≤ 0) : ∀ t ∈ x, t = m := by
  induction x with
  | nil => simp
  | cons a x ih =>
    simp only [List.map_cons, List.sum_cons] at h
    have h1 := sum_sq_nonneg x m
    have h2 := sq_nonneg (a - m)
    intro t ht
    rcases List.mem_cons.1 ht with rfl | ht
    · have : (t - m) ^ 2 = 0 := by linarith
      have := pow_eq_zero_iff (two_ne_zero) |>.1 this
      linarith
    · exact ih (by linarith) t ht

/-- The textbook objectives of the Fonseca–Fleming problem for the constant `c` (which is `1 / sqrt n`). -/
noncomputable def fonsecaSpec (c : ℝ) (x : List ℝ) : Fin 2 → ℝ :=
  ![1 - Real.exp (-(x.map fun t => (t - c) ^ 2).sum), 1 - Real.exp (-(x.map fun t => (t + c) ^ 2).sum)]

/-- **C103**.  The Pareto set of the problem with constant `c > 0` in any number `n ≥ 1` of variables is the
segment of points with all coordinates equal to some `t ∈ [-c, c]`. -/
theorem fonseca_pareto (c : ℝ) (hc : 0 < c) (n : Nat) (hn : 0 < n) (x : List ℝ) (hx : x.length = n) :
    (¬ ∃ y : List ℝ, y.length = n ∧ Dominates .lessBetter (fonsecaSpec c y) (fonsecaSpec c x)) ↔
      ∃ t, -c ≤ t ∧ t ≤ c ∧ x = List.replicate n t := by
  have hnR : (0 : ℝ) < n := by exact_mod_cast hn
  have dom : ∀ y z : List ℝ, Dominates .lessBetter (fonsecaSpec c y) (fonsecaSpec c z) ↔
      ((y.map fun t => (t - c) ^ 2).sum ≤ (z.map fun t => (t - c) ^ 2).sum ∧
        (y.map fun t => (t + c) ^ 2).sum ≤ (z.map fun t => (t + c) ^ 2).sum) ∧
      ((y.map fun t => (t - c) ^ 2).sum < (z.map fun t => (t - c) ^ 2).sum ∨
        (y.map fun t => (t + c) ^ 2).sum < (z.map fun t => (t + c) ^ 2).sum) := by
    intro y z
    rw [dom2]
    simp only [fonsecaSpec, Matrix.cons_val_zero, Matrix.cons_val_one, sub_le_sub_iff_left, sub_lt_sub_iff_left,
      Real.exp_le_exp, Real.exp_lt_exp, neg_le_neg_iff, neg_lt_neg_iff]
  have split : ∀ y : List ℝ, y.length = n → ∃ m, y.sum = n * m ∧
      (y.map fun t => (t - c) ^ 2).sum = (y.map fun t => (t - m) ^ 2).sum + n * (m - c) ^ 2 ∧
      (y.map fun t => (t + c) ^ 2).sum = (y.map fun t => (t - m) ^ 2).sum + n * (m + c) ^ 2 := by
    intro y hy
    have hm : y.sum = y.length * (y.sum / n) := by rw [hy]; field_simp
    refine ⟨y.sum / n, by rw [hy] at hm; exact hm, ?_, ?_⟩
    · have := sum_sq_split y (y.sum / n) c hm
      rw [hy] at this; exact this
    · have := sum_sq_split y (y.sum / n) (-c) hm
      simpa [hy, sub_neg_eq_add] using this
  have rep : ∀ t u : ℝ, ((List.replicate n t).map fun s => (s - u) ^ 2).sum = n * (t - u) ^ 2 := by
    intro t u; simp
  have rep' : ∀ t u : ℝ, ((List.replicate n t).map fun s => (s + u) ^ 2).sum = n * (t + u) ^ 2 := by
    intro t u; simp
  constructor
  · intro h
    obtain ⟨m, hm, e1, e2⟩ := split x hx
    have hconst : x = List.replicate n m := by
      by_contra hne
      refine h ⟨List.replicate n m, by simp, (dom _ _).2 ?_⟩
      have hpos : 0 < (x.map fun t => (t - m) ^ 2).sum := by
        by_contra hle
        apply hne
        rw [List.eq_replicate_iff]
        exact ⟨hx, sum_sq_zero (not_lt.1 hle)⟩
      rw [rep, rep', e1, e2]
      exact ⟨⟨by linarith, by linarith⟩, Or.inl (by linarith)⟩
    refine ⟨m, ?_, ?_, hconst⟩
    · by_contra hlt
      refine h ⟨List.replicate n (-c), by simp, (dom _ _).2 ?_⟩
      rw [hconst, rep, rep', rep, rep']
      have a1 : (-c - c) ^ 2 ≤ (m - c) ^ 2 := by nlinarith
      have a2 : (-c + c) ^ 2 < (m + c) ^ 2 := by nlinarith
      exact ⟨⟨by nlinarith, by nlinarith⟩, Or.inr (by nlinarith)⟩
    · by_contra hlt
      refine h ⟨List.replicate n c, by simp, (dom _ _).2 ?_⟩
      rw [hconst, rep, rep', rep, rep']
      have a1 : (c - c) ^ 2 < (m - c) ^ 2 := by nlinarith
      have a2 : (c + c) ^ 2 ≤ (m + c) ^ 2 := by nlinarith
      exact ⟨⟨by nlinarith, by nlinarith⟩, Or.inl (by nlinarith)⟩
  · rintro ⟨t, t1, t2, rfl⟩ ⟨y, hy, hd⟩
    rw [dom, rep, rep'] at hd
    obtain ⟨⟨d1, d2⟩, dd⟩ := hd
    obtain ⟨m, hm, e1, e2⟩ := split y hy
    have hV := sum_sq_nonneg y m
    have m1 : (m - c) ^ 2 ≤ (t - c) ^ 2 := by
      have : n * (m - c) ^ 2 ≤ n * (t - c) ^ 2 := by linarith
      exact le_of_mul_le_mul_left this hnR
    have m2 : (m + c) ^ 2 ≤ (t + c) ^ 2 := by
      have : n * (m + c) ^ 2 ≤ n * (t + c) ^ 2 := by linarith
      exact le_of_mul_le_mul_left this hnR
    have hmt : m = t := by
      have a := abs_le_of_sq_le_sq (b := c - t) (a := m - c) (by nlinarith) (by linarith)
      have b := abs_le_of_sq_le_sq (b := t + c) (a := m + c) (by nlinarith) (by linarith)
      linarith [(abs_le.1 a).1, (abs_le.1 b).2]
    subst hmt
    rcases dd with d | d <;> linarith

/-- **C103**.  For Eigen vectors the code computes the problem with the constant `1 / sqrt 2`, whatever the number of
variables: for two variables this is the textbook problem. -/
theorem fonseca_eigen_partial (x : List ℝ) :
    fonsecaFleming .eigen x = .ok (fun i => some (fonsecaSpec (1 / Real.sqrt 2) x i)) := by
  unfold fonsecaFleming
  simp only [Out.ok.injEq]
  funext i
  match i with
  | 0 => simp [fonsecaSpec]
  | 1 => simp [fonsecaSpec]

/-- **C103**, negation: for `n > 2` variables the Pareto set of the code reaches beyond the textbook one
(and for `n = 1` not to its end): the end points are `±1/sqrt 2` instead of `±1/sqrt n`. -/
theorem fonseca_wrong_front (n : Nat) (hn : 2 < n) :
    let x := List.replicate n (1 / Real.sqrt 2)
    (¬ ∃ y : List ℝ, y.length = n ∧
      Dominates .lessBetter (fonsecaSpec (1 / Real.sqrt 2) y) (fonsecaSpec (1 / Real.sqrt 2) x)) ∧
    (∃ y : List ℝ, y.length = n ∧
      Dominates .lessBetter (fonsecaSpec (1 / Real.sqrt n) y) (fonsecaSpec (1 / Real.sqrt n) x)) := by
  have h2 : (0 : ℝ) < 1 / Real.sqrt 2 := by positivity
  have hnp : (0 : ℝ) < n := by exact_mod_cast (by omega : 0 < n)
  have hn' : (0 : ℝ) < 1 / Real.sqrt n := by positivity
  have hlt : 1 / Real.sqrt n < 1 / Real.sqrt 2 := by
    apply one_div_lt_one_div_of_lt (by positivity)
    exact Real.sqrt_lt_sqrt (by norm_num) (by exact_mod_cast hn)
  refine ⟨(fonseca_pareto _ h2 n (by omega) _ (by simp)).2 ⟨_, by linarith, le_rfl, rfl⟩, ?_⟩
  by_contra hno
  obtain ⟨t, -, ht, he⟩ := (fonseca_pareto _ hn' n (by omega) _ (by simp)).1 hno
  have : 1 / Real.sqrt 2 = t := by
    have := congrArg (fun l => l.head?) he
    rw [List.head?_replicate, List.head?_replicate, if_neg (by omega), if_neg (by omega)] at this
    exact Option.some.inj this
  linarith

/-- **C103**, negation: for std containers the first objective is NaN as soon as one of the first two variables is
below `1 / sqrt 2` – so at every Pareto-optimal point of the problem but one – and a vector of one variable is read
out of range. -/
theorem fonseca_std_nan (a b : ℝ) (rest : List ℝ) (h : a < 1 / Real.sqrt 2 ∨ b < 1 / Real.sqrt 2) :
    (∃ f, fonsecaFleming .std (a :: b :: rest) = .ok f ∧ f 0 = none) ∧
    fonsecaFleming .std [a] = .ub := by
  constructor
  · refine ⟨_, rfl, ?_⟩
    simp only [Matrix.cons_val_zero]
    rw [one_div] at h
    rcases h with h | h
    · simp [h]
    · by_cases ha : a < (Real.sqrt 2)⁻¹ <;> simp [ha, h]
  · rfl

/-- Non-vacuity: the origin is Pareto optimal, and on std containers its first objective is NaN. -/
example : (¬ ∃ y : List ℝ, y.length = 2 ∧
    Dominates .lessBetter (fonsecaSpec (1 / Real.sqrt 2) y) (fonsecaSpec (1 / Real.sqrt 2) [0, 0])) ∧
    (0 : ℝ) < 1 / Real.sqrt 2 :=
  ⟨(fonseca_pareto _ (by positivity) 2 (by norm_num) _ rfl).2
    ⟨0, by simp, by positivity, rfl⟩, by positivity⟩

end Heu
