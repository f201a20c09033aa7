import Verif.Props.DTLZ
import Verif.Props.Box

/-!
# C56 (attained fronts), C74, C75, C76: DTLZ4 to DTLZ9
-/

set_option linter.unusedVariables false
set_option linter.unusedSimpArgs false

namespace Heu
open Spec TestFuns

/-! ### C56: the spherical fronts are attained -/

theorem front_sph_surj (k : Nat) (hk : 1 ≤ k) (r : List ℝ) (p : ℝ) (hr : r ≠ [])
    (h0 : ∀ y ∈ r, 0 ≤ y) (hp : 0 ≤ p) (hs : (r.map (· ^ 2)).sum = p ^ 2) :
    ∃ as : List ℝ, as.length + 1 = r.length ∧ (∀ a ∈ as, 0 ≤ a ∧ a ≤ 1) ∧
      front (fun t => Real.sin (Real.pi / 2 * t ^ k)) (fun t => Real.cos (Real.pi / 2 * t ^ k)) p as = r := by
  induction r using List.reverseRecOn generalizing p with
  | nil => exact absurd rfl hr
  | append_singleton r y ih =>
    by_cases hr' : r = []
    · subst hr'
      refine ⟨[], by simp, by simp, ?_⟩
      have hy := h0 y (by simp)
      simp only [List.nil_append, List.map_cons, List.map_nil, List.sum_cons, List.sum_nil,
        add_zero] at hs
      have : p = y := by rw [← abs_of_nonneg hp, ← abs_of_nonneg hy]; exact (sq_eq_sq_iff_abs_eq_abs p y).mp hs.symm
      simp [front, this]
    · rw [List.map_append, List.sum_append] at hs
      simp only [List.map_cons, List.map_nil, List.sum_cons, List.sum_nil, add_zero] at hs
      have hy : 0 ≤ y := h0 y (by simp)
      have hrs : 0 ≤ (r.map (· ^ 2)).sum := sum_map_nonneg _ _ fun z _ => sq_nonneg z
      obtain ⟨as, hl, ha, hf⟩ := ih (Real.sqrt (p ^ 2 - y ^ 2)) hr'
        (fun z hz => h0 z (by simp [hz])) (Real.sqrt_nonneg _)
        (by rw [Real.sq_sqrt (by linarith)]; linarith)
      rcases eq_or_lt_of_le hp with hp0 | hp0
      · have hy0 : y = 0 := by
          have : y ^ 2 = 0 := by rw [← hp0] at hs; nlinarith [sq_nonneg y]
          exact pow_eq_zero_iff two_ne_zero |>.mp this
        refine ⟨0 :: as, by simp [hl], ?_, ?_⟩
        · intro a h; rcases List.mem_cons.mp h with rfl | h
          · norm_num
          · exact ha a h
        · rw [front, ← hp0]
          simp only [zero_mul]
          rw [← hp0, hy0] at hf
          simp only [ne_eq, OfNat.ofNat_ne_zero, not_false_eq_true, zero_pow, sub_self,
            Real.sqrt_zero] at hf
          rw [hf, hy0]
      · have hyp : y ≤ p := by nlinarith
        have hd0 : 0 ≤ y / p := by positivity
        have hd1 : y / p ≤ 1 := by rw [div_le_one hp0]; exact hyp
        have hpi := Real.pi_pos
        obtain ⟨b, hb⟩ : ∃ b, b = 2 / Real.pi * Real.arcsin (y / p) := ⟨_, rfl⟩
        have hb0 : 0 ≤ b := by
          rw [hb]; exact mul_nonneg (by positivity) (Real.arcsin_nonneg.mpr hd0)
        have hb1 : b ≤ 1 := by
          rw [hb, div_mul_eq_mul_div, div_le_one hpi]
          have := Real.arcsin_le_pi_div_two (y / p)
          linarith
        have hbk : (b ^ ((1 : ℝ) / k)) ^ k = b := by
          rw [← Real.rpow_natCast, ← Real.rpow_mul hb0, one_div, inv_mul_cancel₀ (by positivity),
            Real.rpow_one]
        have hang : Real.pi / 2 * b = Real.arcsin (y / p) := by rw [hb]; field_simp
        refine ⟨b ^ ((1 : ℝ) / k) :: as, by simp [hl], ?_, ?_⟩
        · intro a h; rcases List.mem_cons.mp h with rfl | h
          · exact ⟨Real.rpow_nonneg hb0 _, Real.rpow_le_one hb0 hb1 (by positivity)⟩
          · exact ha a h
        · rw [front, hbk, hang, Real.sin_arcsin (by linarith) hd1, Real.cos_arcsin]
          have e1 : p * Real.sqrt (1 - (y / p) ^ 2) = Real.sqrt (p ^ 2 - y ^ 2) := by
            rw [show p ^ 2 - y ^ 2 = p ^ 2 * (1 - (y / p) ^ 2) by field_simp,
              Real.sqrt_mul (sq_nonneg p), Real.sqrt_sq hp]
          have e2 : p * (y / p) = y := by field_simp
          rw [e1, e2, hf]

/-- C56: every point of the unit sphere with non-negative coordinates is the value of some point of
the unit cube (DTLZ2, DTLZ3, and DTLZ4 with a positive exponent). -/
theorem spherical_front_attained (P : Spherical) (hP : 1 ≤ P.pow) (v : Vec) (f r : List ℝ) (n : Nat)
    (hM : 1 ≤ f.length) (hn : f.length ≤ n) (hr : r.length = f.length) (h0 : ∀ y ∈ r, 0 ≤ y)
    (hs : (r.map (· ^ 2)).sum = 1) :
    ∃ x, UnitCube n x ∧ P.eval v x f = .ok r := by
  obtain ⟨as, hl, ha, hf⟩ := front_sph_surj P.pow hP r 1 (by rintro rfl; simp at hr; omega) h0
    (by norm_num) (by rw [hs]; norm_num)
  have hxl : (as ++ List.replicate (n - as.length) (1 / 2 : ℝ)).length = n := by
    rw [List.length_append, List.length_replicate]; omega
  have hal : f.length - 1 = as.length := by omega
  refine ⟨as ++ List.replicate (n - as.length) (1 / 2), ⟨hxl, ?_⟩, ?_⟩
  · intro t ht
    rw [List.mem_append] at ht
    rcases ht with ht | ht
    · exact ha t ht
    · rw [List.eq_of_mem_replicate ht]; norm_num
  · rw [spherical_eq P v hM (by rw [hxl]; exact hn)]
    have hg := (spherical_g P v (as ++ List.replicate (n - as.length) (1 / 2 : ℝ)) f.length hM
      (by rw [hxl]; exact hn)).2.mpr (by
        intro t ht
        rw [hal, List.drop_left] at ht
        exact List.eq_of_mem_replicate ht)
    rw [hg, hal, List.take_left, ← hf, add_zero]

example : ∃ x, UnitCube 7 x ∧ dtlz2 .std x [9, 9, 9] = .ok [0, 0.6, 0.8] :=
  spherical_front_attained .two (by simp [Spherical.pow]) .std [9, 9, 9] [0, 0.6, 0.8] 7 (by simp) (by simp) rfl
    (by simp; norm_num) (by norm_num)

/-! ### C76: DTLZ5 and DTLZ6 -/

theorem theta56_length {x : List ℝ} {M : Nat} {gr : ℝ} (h1 : 2 ≤ M) (h2 : M ≤ x.length) :
    ∃ th, theta56 x M gr = .ok th ∧ th.length = M - 1 ∧
      th[0]? = some (Real.pi / 2 * Real.pi / 2 * x.headD 0) := by
  unfold theta56
  have hx : 0 < x.length := by omega
  have hw : 0 < ((x.take (M - 1)).map fun t =>
    Real.pi / 2 * (1 + 2 * gr * t) * Real.pi / (4 * (1 + gr))).length := by simp; omega
  refine ⟨((x.take (M - 1)).map fun t =>
    Real.pi / 2 * (1 + 2 * gr * t) * Real.pi / (4 * (1 + gr))).set 0 (Real.pi / 2 * Real.pi / 2 * x.getD 0 0),
    ?_, ?_, ?_⟩
  · simp only [rd_ok hx, Out.ok_bind, wr, if_pos hw, List.getD_eq_getElem x 0 hx]
  · simp; omega
  · cases x with
    | nil => simp at hx
    | cons a x =>
      simp only [List.length_map, List.length_take] at hw
      simp only [List.getElem?_set_self', List.headD_cons, List.getD_cons_zero]
      rw [List.getElem?_eq_getElem (by simpa using hw)]
      rfl

/-- C76, the part that holds: for two or more objectives `DTLZ5` and `DTLZ6` never read or write out
of range and the squared objectives sum to `(1+g)²`, with `g` the sum of `(t - 1/2)²` or of
`t^0.1` over the distance variables. -/
theorem dtlz56_sphere_partial (x f : List ℝ) (hM : 2 ≤ f.length) (hN : f.length ≤ x.length) :
    (∃ r, dtlz5 x f = .ok r ∧ r.length = f.length ∧ (r.map (· ^ 2)).sum =
      (1 + ((x.drop (f.length - 1)).map fun t => (t - 1 / 2) ^ 2).sum) ^ 2) ∧
    (∃ r, dtlz6 x f = .ok r ∧ r.length = f.length ∧ (r.map (· ^ 2)).sum =
      (1 + ((x.drop (f.length - 1)).map fun t => t ^ (0.1 : ℝ)).sum) ^ 2) := by
  constructor
  · obtain ⟨th, h1, h2, _⟩ := theta56_length (gr := ((xM x f.length).map fun t => t ^ 2).sum) hM hN
    refine ⟨front Real.sin Real.cos (1 + gSphere .eigen x f.length) (th.take (f.length - 1)), ?_, ?_, ?_⟩
    · unfold dtlz5
      simp only [assertSize_ok hN, Out.ok_bind, h1]
      rw [objLoop_eq _ _ _ _ _ (by omega) (by omega)]
    · rw [front_length, List.length_take]; omega
    · rw [front_sq _ _ _ _ fun a => Real.sin_sq_add_cos_sq _, gSphere_eq]
      norm_num
  · obtain ⟨th, h1, h2, _⟩ := theta56_length (gr := ((xM x f.length).map fun t => t ^ 2).sum) hM hN
    refine ⟨front Real.sin Real.cos (1 + ((xM x f.length).map fun t => t ^ (0.1 : ℝ)).sum)
      (th.take (f.length - 1)), ?_, ?_, ?_⟩
    · unfold dtlz6
      simp only [assertSize_ok hN, Out.ok_bind, h1]
      rw [objLoop_eq _ _ _ _ _ (by omega) (by omega)]
    · rw [front_length, List.length_take]; omega
    · rw [front_sq _ _ _ _ fun a => Real.sin_sq_add_cos_sq _, xM]

/-- C76, the part that fails: with two objectives the angle is `π²/4 * x₀` instead of `π/2 * x₀`, so at
the corner `x = (1, 1/2)` of the unit cube `DTLZ5` returns a negative objective value. -/
theorem dtlz5_negative (f : List ℝ) (hf : f.length = 2) :
    ∃ r y, UnitCube 2 [1, 1 / 2] ∧ dtlz5 [1, 1 / 2] f = .ok r ∧ y ∈ r ∧ y < 0 := by
  obtain ⟨th, h1, h2, h3⟩ := theta56_length (x := [1, 1 / 2]) (M := f.length)
    (gr := ((xM [1, 1 / 2] f.length).map fun t => t ^ 2).sum) (by omega) (by simp; omega)
  have hth : th.take (f.length - 1) = [Real.pi / 2 * Real.pi / 2 * 1] := by
    cases th with
    | nil => simp at h3
    | cons a as =>
      rw [hf] at h2 ⊢
      have : as = [] := by simpa using h2
      subst this
      simpa using h3
  refine ⟨front Real.sin Real.cos (1 + gSphere .eigen [1, 1 / 2] f.length) (th.take (f.length - 1)),
    1 * Real.cos (Real.pi / 2 * Real.pi / 2 * 1), ⟨by simp, ?_⟩, ?_, ?_, ?_⟩
  · intro t ht
    simp at ht
    rcases ht with rfl | rfl <;> norm_num
  · unfold dtlz5
    have hsz : f.length ≤ ([1, 1 / 2] : List ℝ).length := by simp [hf]
    simp only [assertSize_ok hsz, Out.ok_bind, h1]
    rw [objLoop_eq _ _ _ _ _ (by omega) (by omega)]
  · rw [hth, hf]
    have : gSphere .eigen [1, 1 / 2] 2 = 0 := (gSphere_nonneg _ _ _).2.mpr (by simp)
    rw [this, add_zero]
    simp [front]
  · rw [one_mul]
    have h1 := Real.pi_gt_three
    have h2 := Real.pi_lt_four
    have h4 := Real.pi_lt_d2
    exact Real.cos_neg_of_pi_div_two_lt_of_lt (by nlinarith) (by nlinarith)

/-! ### Loops -/

theorem forUp_succ {σ : Type} (lo hi : Nat) (h : lo ≤ hi) (body : Nat → σ → Out σ) (s : σ) :
    forUp lo (hi + 1) body s = (forUp lo hi body s >>= body hi) := by
  unfold forUp
  have e : hi + 1 - lo = (hi - lo) + 1 := by omega
  rw [e, List.range'_concat, List.foldlM_append]
  have e2 : lo + 1 * (hi - lo) = hi := by omega
  rw [e2]
  cases List.foldlM (fun s i => body i s) s (List.range' lo (hi - lo)) with
  | ok a =>
    simp only [Out.ok_bind, List.foldlM_cons, List.foldlM_nil]
    cases body hi a <;> rfl
  | ub => rfl
  | timeout => rfl

theorem copy_loop (x f : List ℝ) (k : Nat) (h1 : k ≤ x.length) (h2 : k ≤ f.length) :
    forUp 0 k (fun idx f => do
      let a ← rd x idx
      wr f idx a) f = .ok (x.take k ++ f.drop k) := by
  induction k with
  | zero => simp [forUp]
  | succ k ih =>
    rw [forUp_succ _ _ (Nat.zero_le _), ih (by omega) (by omega), Out.ok_bind, rd_ok (by omega),
      Out.ok_bind, wr, if_pos (by simp; omega)]
    congr 1
    rw [List.set_append_right _ _ (by simp), List.length_take, Nat.min_eq_left (by omega), Nat.sub_self,
      List.drop_eq_getElem_cons (by omega : k < f.length), List.set_cons_zero,
      ← List.take_append_getElem (by omega : k < x.length)]
    rw [List.append_assoc, List.singleton_append]

/-! ### C74: DTLZ7 -/

/-- C74, Eigen vectors: the first `M - 1` objectives are the position variables, and the last one is
`(1+g) M - Σ xᵢ (1 + sin 3πxᵢ)` with `g = 1 + 9/k * Σ` of the distance variables. -/
theorem dtlz7_eigen_value (x f : List ℝ) (hM : 1 ≤ f.length) (hN : f.length ≤ x.length)
    (hpos : ∀ t ∈ x, 0 ≤ t) :
    dtlz7 .eigen x f = .ok (x.take (f.length - 1) ++
      [(2 + 9 / (x.drop (f.length - 1)).length * (x.drop (f.length - 1)).sum) * f.length -
        ((x.take (f.length - 1)).map fun t => t * (1 + Real.sin (3 * Real.pi * t))).sum]) := by
  unfold dtlz7
  simp only [assertSize_ok hN, Out.ok_bind]
  rw [copy_loop x f (f.length - 1) (by omega) (by omega), Out.ok_bind]
  obtain ⟨f', hf'⟩ : ∃ f', f' = x.take (f.length - 1) ++ f.drop (f.length - 1) := ⟨_, rfl⟩
  obtain ⟨g, hg⟩ : ∃ g : ℝ, g = 1 + 9.0 / ((xM x f.length).length : ℝ) * (xM x f.length).sum := ⟨_, rfl⟩
  rw [← hf', ← hg]
  have hsum0 : 0 ≤ (xM x f.length).sum :=
    List.sum_nonneg fun t ht => hpos t (List.mem_of_mem_drop ht)
  have hg1 : 1 ≤ g := by
    rw [hg]
    have : 0 ≤ 9.0 / ((xM x f.length).length : ℝ) * (xM x f.length).sum := by positivity
    linarith
  have hfl : f'.length = f.length := by rw [hf']; simp; omega
  rw [forUp_sum 0 (f.length - 1) _
    (fun i => -(f'.getD i 0 / (1 + g) * (1 + Real.sin (3 * Real.pi * f'.getD i 0)))) (by
      intro i _ hi s
      have : i < f'.length := by omega
      simp only [rd_ok this, Out.ok_bind, Out.pure_eq, List.getD_eq_getElem f' 0 this]
      rw [sub_eq_add_neg])]
  rw [Out.ok_bind, if_neg (by omega), wr, if_pos (by omega)]
  have hmap : ((List.range' 0 (f.length - 1 - 0)).map fun i =>
      -(f'.getD i 0 / (1 + g) * (1 + Real.sin (3 * Real.pi * f'.getD i 0)))) =
      (x.take (f.length - 1)).map fun t => -(t / (1 + g) * (1 + Real.sin (3 * Real.pi * t))) := by
    apply List.ext_getElem
    · simp; omega
    · intro i h1 h2
      simp at h1 h2
      have e : f'.getD (0 + 1 * i) 0 = x[i] := by
        rw [List.getD_eq_getElem f' 0 (by omega)]
        simp only [hf']
        rw [List.getElem_append_left (by simp; omega)]
        simp
      simp only [List.getElem_map, List.getElem_range', e, List.getElem_take]
  have hsums : ∀ l : List ℝ, (l.map fun t => -(t / (1 + g) * (1 + Real.sin (3 * Real.pi * t)))).sum =
      -((l.map fun t => t * (1 + Real.sin (3 * Real.pi * t))).sum / (1 + g)) := by
    intro l
    induction l with
    | nil => simp
    | cons a l ih => simp only [List.map_cons, List.sum_cons]; rw [ih]; ring
  rw [hmap, hsums]
  congr 1
  have hset : ∀ v : ℝ, f'.set (f.length - 1) v = x.take (f.length - 1) ++ [v] := by
    intro v
    have hd : f.drop (f.length - 1) = [f[f.length - 1]] := by
      rw [List.drop_eq_getElem_cons (by omega)]
      simp only [List.cons.injEq, true_and]
      rw [show f.length - 1 + 1 = f.length by omega, List.drop_length]
    rw [hf', List.set_append_right _ _ (by simp), hd]
    simp only [List.length_take, Nat.min_eq_left (by omega : f.length - 1 ≤ x.length), Nat.sub_self,
      List.set_cons_zero]
  rw [hset]
  congr 2
  have : (1 + g) ≠ 0 := by linarith
  have hg' : 2 + 9 / ((x.drop (f.length - 1)).length : ℝ) * (x.drop (f.length - 1)).sum = 1 + g := by
    rw [hg, xM]; norm_num; ring
  rw [hg']
  generalize ((x.take (f.length - 1)).map fun t => t * (1 + Real.sin (3 * Real.pi * t))).sum = S
  field_simp
  ring

/-- C74, Eigen vectors: a Pareto-optimal point of the unit cube has all its distance variables 0. -/
theorem dtlz7_eigen_pareto (f x : List ℝ) (n : Nat) (hM : 1 ≤ f.length) (hn : f.length ≤ n)
    (h : ParetoOptimal (fun y => (dtlz7 .eigen y f).toOption) (UnitCube n) x) :
    ∀ t ∈ x.drop (f.length - 1), t = 0 := by
  obtain ⟨hx, r, hr, hno⟩ := h
  by_contra hne
  push Not at hne
  have hpos : ∀ t ∈ x, 0 ≤ t := fun t ht => (hx.2 t ht).1
  beta_reduce at hr
  rw [dtlz7_eigen_value x f hM (by rw [hx.1]; exact hn) hpos] at hr
  obtain rfl := Option.some.inj hr
  obtain ⟨x', hx'⟩ : ∃ x' : List ℝ, x' = x.take (f.length - 1) ++ (x.drop (f.length - 1)).map fun _ => (0 : ℝ) := ⟨_, rfl⟩
  have hlen : f.length - 1 ≤ x.length := by rw [hx.1]; omega
  have hcube : UnitCube n x' := by
    refine ⟨?_, fun t ht => ?_⟩
    · rw [hx', List.length_append, List.length_map, List.length_take, List.length_drop, ← hx.1]; omega
    · rw [hx', List.mem_append] at ht
      rcases ht with ht | ht
      · exact hx.2 t (List.mem_of_mem_take ht)
      · rw [List.mem_map] at ht
        obtain ⟨_, _, rfl⟩ := ht
        norm_num
  have htake : x'.take (f.length - 1) = x.take (f.length - 1) := by
    rw [hx', List.take_append_of_le_length (by simp; omega), List.take_take, Nat.min_self]
  have hdrop : x'.drop (f.length - 1) = (x.drop (f.length - 1)).map fun _ => (0 : ℝ) := by
    rw [hx', List.drop_append_of_le_length (by simp; omega), List.drop_take, Nat.sub_self,
      List.take_zero, List.nil_append]
  refine hno ⟨x', _, hcube, congrArg Out.toOption (dtlz7_eigen_value x' f hM
    (by rw [hcube.1]; exact hn) fun t ht => (hcube.2 t ht).1), ?_⟩
  · rw [htake, hdrop]
    have hs0 : ((x.drop (f.length - 1)).map fun _ => (0 : ℝ)).sum = 0 := by simp
    rw [hs0]
    have hsum : 0 < (x.drop (f.length - 1)).sum := by
      obtain ⟨t, ht, ht0⟩ := hne
      have hnn : ∀ t ∈ x.drop (f.length - 1), 0 ≤ (id t : ℝ) := fun t ht => hpos t (List.mem_of_mem_drop ht)
      have h0 := sum_map_nonneg id _ hnn
      rw [List.map_id] at h0
      refine lt_of_le_of_ne h0 fun e => ht0 ?_
      exact sum_map_eq_zero id _ hnn (by rw [List.map_id]; exact e.symm) t ht
    have hl : (0 : ℝ) < (x.drop (f.length - 1)).length := by
      rw [List.length_drop, hx.1]
      have : 0 < n - (f.length - 1) := by omega
      exact_mod_cast this
    have hMr : (0 : ℝ) < f.length := by exact_mod_cast hM
    have hprod : 0 < 9 / ((x.drop (f.length - 1)).length : ℝ) * (x.drop (f.length - 1)).sum := by positivity
    have hlt : (2 + 9 / ((((x.drop (f.length - 1)).map fun _ => (0 : ℝ)).length : Nat) : ℝ) * 0) * f.length -
          ((x.take (f.length - 1)).map fun t => t * (1 + Real.sin (3 * Real.pi * t))).sum <
        (2 + 9 / ((x.drop (f.length - 1)).length : ℝ) * (x.drop (f.length - 1)).sum) * f.length -
          ((x.take (f.length - 1)).map fun t => t * (1 + Real.sin (3 * Real.pi * t))).sum := by
      rw [mul_zero, add_zero]
      nlinarith
    refine ⟨List.rel_append (List.forall₂_same.mpr fun _ _ => le_refl _) (by simpa using hlt.le), fun e => ?_⟩
    have := (List.append_cancel_left e)
    simp only [List.cons.injEq, and_true] at this
    linarith

/-- Non-vacuity: the origin is a Pareto-optimal point of DTLZ7. -/
example : ParetoOptimal (fun y => (dtlz7 .eigen y [7, 7]).toOption) (UnitCube 2) [0, 0] := by
  have hv : ∀ a b : ℝ, 0 ≤ a → 0 ≤ b → dtlz7 .eigen [a, b] [7, 7] =
      .ok [a, (2 + 9 * b) * 2 - a * (1 + Real.sin (3 * Real.pi * a))] := by
    intro a b ha hb
    rw [dtlz7_eigen_value [a, b] [7, 7] (by simp) (by simp) (by simp [ha, hb])]
    simp
  refine ⟨⟨rfl, by simp⟩, [0, (2 + 9 * 0) * 2 - 0 * (1 + Real.sin (3 * Real.pi * 0))], ?_, ?_⟩
  · show (dtlz7 .eigen [0, 0] [7, 7]).toOption = _
    rw [hv 0 0 le_rfl le_rfl]; rfl
  rintro ⟨x', r', ⟨hl, hu⟩, hr, hd⟩
  obtain ⟨a, b, rfl⟩ : ∃ a b, x' = [a, b] := by
    match x', hl with
    | [a, b], _ => exact ⟨a, b, rfl⟩
  have ha := hu a (by simp)
  have hb := hu b (by simp)
  change (dtlz7 .eigen [a, b] [7, 7]).toOption = _ at hr
  rw [hv a b ha.1 hb.1] at hr
  simp only [Out.toOption, Option.some.injEq] at hr
  subst hr
  obtain ⟨h1, h2⟩ := hd
  simp only [List.forall₂_cons, List.forall₂_nil_right_iff, and_true] at h1
  have ha0 : a = 0 := le_antisymm h1.1 ha.1
  subst ha0
  have hb0 : b = 0 := le_antisymm (by have := h1.2; simp at this; linarith) hb.1
  subst hb0
  exact h2 rfl

/-- C74, std vectors, the part that fails: with two or more objectives the second-to-last objective
is never written; the result holds whatever the result vector held there before the call. -/
theorem dtlz7_std_stale (x f r : List ℝ) (hM : 2 ≤ f.length) (h : dtlz7 .std x f = .ok r) :
    r[f.length - 2]? = f[f.length - 2]? := by
  by_cases hN : f.length ≤ x.length
  · unfold dtlz7 at h
    simp only [assertSize_ok hN, Out.ok_bind] at h
    rw [copy_loop x f (f.length - 2) (by omega) (by omega), Out.ok_bind] at h
    obtain ⟨h', _, h⟩ := Out.bind_eq_ok.mp h
    rw [if_neg (by omega), wr, if_pos (by simp; omega)] at h
    injection h with h
    rw [← h, List.getElem?_set_ne (by omega), List.getElem?_append_right (by simp)]
    have : f.length - 2 - (x.take (f.length - 2)).length = 0 := by simp; omega
    rw [this, List.getElem?_drop, Nat.add_zero]
  · exfalso
    unfold dtlz7 assertSize at h
    rw [if_neg (by omega)] at h
    simp at h

/-- The stale value is observable: the same point, evaluated into vectors with different previous
contents. -/
example : ∃ r1 r2, dtlz7 .std [0, 0] [0, 0] = .ok r1 ∧ dtlz7 .std [0, 0] [5, 0] = .ok r2 ∧
    r1[0]? = some 0 ∧ r2[0]? = some 5 := by
  have hex : ∀ f : List ℝ, f.length = 2 → ∃ r, dtlz7 .std [0, 0] f = .ok r := by
    intro f hf
    unfold dtlz7
    have hsz : f.length ≤ ([0, 0] : List ℝ).length := by simp [hf]
    simp only [assertSize_ok hsz, Out.ok_bind]
    rw [copy_loop [0, 0] f (f.length - 2) (by simp; omega) (by omega), Out.ok_bind]
    obtain ⟨f', hf'⟩ : ∃ f', f' = List.take (f.length - 2) [0, 0] ++ List.drop (f.length - 2) f := ⟨_, rfl⟩
    have hfl : f'.length = f.length := by rw [hf']; simp; omega
    rw [← hf']
    have hl : ∀ g : ℝ, forUp 0 (f.length - 1) (fun objIdx h => do
        let a ← rd f' objIdx
        return h - a / (1 + g) * (1 + Real.sin (3 * Real.pi * a))) (0 : ℝ) = .ok _ := fun g =>
      forUp_sum 0 (f.length - 1) _ (fun i => -(f'.getD i 0 / (1 + g) *
        (1 + Real.sin (3 * Real.pi * f'.getD i 0)))) (by
        intro i _ hi s
        have : i < f'.length := by omega
        simp only [rd_ok this, Out.ok_bind, Out.pure_eq, List.getD_eq_getElem f' 0 this]
        rw [sub_eq_add_neg]) 0
    rw [hl, Out.ok_bind, if_neg (by omega), wr, if_pos (by omega)]
    exact ⟨_, rfl⟩
  obtain ⟨r1, h1⟩ := hex [0, 0] rfl
  obtain ⟨r2, h2⟩ := hex [5, 0] rfl
  exact ⟨r1, r2, h1, h2, dtlz7_std_stale _ _ _ (by simp) h1, dtlz7_std_stale _ _ _ (by simp) h2⟩

/-! ### C75: DTLZ9 -/

theorem forUp_ub_last {σ : Type} (lo hi : Nat) (h : lo < hi) (body : Nat → σ → Out σ)
    (hb : ∀ s, body (hi - 1) s = .ub) (hno : ∀ i s, body i s ≠ .timeout) (s : σ) :
    forUp lo hi body s = .ub := by
  obtain ⟨k, rfl⟩ : ∃ k, hi = k + 1 := ⟨hi - 1, by omega⟩
  rw [forUp_succ _ _ (by omega)]
  have hnt : ∀ k, forUp lo k body s ≠ .timeout := by
    intro k
    unfold forUp
    have : ∀ (l : List Nat) (s : σ), l.foldlM (fun s i => body i s) s ≠ .timeout := by
      intro l
      induction l with
      | nil => intro s; simp
      | cons i l ih =>
        intro s
        rw [List.foldlM_cons]
        have h1 := hno i s
        cases hbi : body i s with
        | ok a => exact ih a
        | ub => simp
        | timeout => exact absurd hbi h1
    exact this _ _
  have h2 := hnt k
  cases hfu : forUp lo k body s with
  | ok a => rw [Out.ok_bind]; exact hb a
  | ub => rfl
  | timeout => exact absurd hfu h2

theorem forUp_no_timeout {σ : Type} (lo hi : Nat) (body : Nat → σ → Out σ)
    (hno : ∀ i s, body i s ≠ .timeout) (s : σ) : forUp lo hi body s ≠ .timeout := by
  unfold forUp
  generalize List.range' lo (hi - lo) = l
  induction l generalizing s with
  | nil => simp
  | cons i l ih =>
    rw [List.foldlM_cons]
    have h1 := hno i s
    cases hbi : body i s with
    | ok a => exact ih a
    | ub => simp
    | timeout => exact absurd hbi h1

theorem rd_ne_timeout (x : List ℝ) (i : Nat) : rd x i ≠ .timeout := by
  unfold rd
  cases x[i]? <;> simp

/-- C75, the part that fails: `DTLZ9` reads one entry behind the end of the decision vector, on
every input with at least one objective. -/
theorem dtlz9_always_ub (x f : List ℝ) (hM : 1 ≤ f.length) : dtlz9Values x f = .ub := by
  unfold dtlz9Values
  by_cases h : x.length ≤ f.length
  · simp [h]
  simp only [if_neg h]
  have hstep : ∀ (i : Nat) (s : ℝ), (do let a ← rd x i; return s + a ^ (0.1 : ℝ)) ≠ .timeout := by
    intro i s
    have := rd_ne_timeout x i
    cases hr : rd x i with
    | ok a => simp
    | ub => simp
    | timeout => exact absurd hr this
  refine forUp_ub_last 0 f.length (by omega) _ (fun s => ?_) (fun i s => ?_) f
  · have hend : (f.length - 1 + 1) * x.length / f.length = x.length := by
      rw [Nat.sub_add_cancel hM]
      exact Nat.mul_div_cancel_left _ (by omega)
    rw [hend, Nat.min_self]
    rw [forUp_ub_last _ _ _ _ (fun s => ?_) hstep]
    · rfl
    · have : (f.length - 1) * x.length / f.length ≤ x.length := by
        rw [Nat.div_le_iff_le_mul_add_pred (by omega)]
        have : (f.length - 1) * x.length ≤ f.length * x.length := Nat.mul_le_mul_right _ (by omega)
        omega
      omega
    · simp [rd]
  · have h1 := forUp_no_timeout (i * x.length / f.length) (min x.length ((i + 1) * x.length / f.length) + 1)
      (fun idx sum => do let a ← rd x idx; return sum + a ^ (0.1 : ℝ)) hstep 0
    cases hr : forUp (i * x.length / f.length) (min x.length ((i + 1) * x.length / f.length) + 1)
      (fun idx sum => do let a ← rd x idx; return sum + a ^ (0.1 : ℝ)) (0 : ℝ) with
    | ok a => simp only [hr, Out.ok_bind, wr]; split <;> simp
    | ub => simp [hr]
    | timeout => exact absurd hr h1

end Heu
