import Verif.Lemmas.Encode2

set_option linter.unusedSimpArgs false
set_option linter.unusedVariables false
set_option linter.unnecessarySeqFocus false
set_option linter.unnecessarySimpa false

namespace Heu
section
variable {F : Fmt}

theorem lt_fin (a b : Nat) : (Fl.lt (.fin false a) (.fin false b) = true) ↔ a < b := by
  simp [Fl.lt, Fl.units]

theorem lt_fin_neg (a b : Nat) : ¬ (Fl.lt (.fin false a) (.fin true b) = true) := by
  simp only [Fl.lt, Fl.units]; simp

theorem rndHE_scale (a b c : Nat) (hc : 0 < c) : rndHE (a * c) (b * c) = rndHE a b := by
  unfold rndHE
  simp only [Nat.mul_div_mul_right _ _ hc, Nat.mul_mod_mul_right]
  have e1 : (2 * (a % b * c) < b * c) ↔ (2 * (a % b) < b) := by
    rw [← mul_assoc]; exact Nat.mul_lt_mul_right hc
  have e2 : (b * c < 2 * (a % b * c)) ↔ (b < 2 * (a % b)) := by
    rw [← mul_assoc]; exact Nat.mul_lt_mul_right hc
  simp only [e1, e2]

theorem rndUnits_scale (mb a b c : Nat) (hc : 0 < c) :
    rndUnits mb (a * c) (b * c) = rndUnits mb a b := by
  unfold rndUnits
  simp only [Nat.mul_div_mul_right _ _ hc]
  rw [show b * c * 2 ^ (Nat.log2 (a / b) - mb) = b * 2 ^ (Nat.log2 (a / b) - mb) * c by ring,
    rndHE_scale _ _ _ hc]

/-- the rounded product `257 * seper` -/
theorem rnd257 (mb : Nat) (h : 9 ≤ mb) :
    rndUnits mb (257 * (2 ^ mb - 1)) 1 = 257 * 2 ^ mb - 256 := by
  obtain ⟨t, rfl⟩ : ∃ t, mb = t + 8 := ⟨mb - 8, by omega⟩
  have hP : 2 ^ (t + 8) = 256 * 2 ^ t := by rw [pow_add]; ring
  have hP2 : 2 ≤ 2 ^ t := by
    calc 2 = 2 ^ 1 := rfl
      _ ≤ 2 ^ t := Nat.pow_le_pow_right (by norm_num) (by omega)
  obtain ⟨P, hPP⟩ : ∃ P, P = 2 ^ t := ⟨_, rfl⟩
  unfold rndUnits
  have hlog : Nat.log2 (257 * (2 ^ (t + 8) - 1) / 1) = t + 16 := by
    rw [Nat.div_one, Nat.log2_eq_iff (by omega), show t + 16 + 1 = t + 17 by omega,
      show 2 ^ (t + 16) = 65536 * 2 ^ t by rw [pow_add]; ring,
      show 2 ^ (t + 17) = 131072 * 2 ^ t by rw [pow_add]; ring]
    omega
  simp only [hlog, show t + 16 - (t + 8) = 8 by omega]
  unfold rndHE
  clear hlog
  rw [← hPP] at hP hP2
  rw [hP]
  have hd : 257 * (256 * P - 1) / (1 * 2 ^ 8) = 257 * P - 2 := by norm_num; omega
  have hr : 257 * (256 * P - 1) % (1 * 2 ^ 8) = 255 := by norm_num; omega
  simp only [hd, hr]
  norm_num
  omega

theorem seper_eq (h : F.Good) : binDecode F (2 ^ F.mb - 1) = .ok (.fin false (2 ^ F.mb - 1)) := by
  have hp : 0 < 2 ^ F.mb := by positivity
  have := binDecode_finite h false 0 (2 ^ F.mb - 1) (by have := h.pow_eb; omega) (by omega)
  simpa [ieeeCode, ieeeDatum] using this

theorem seper257 (h : F.Good) : Fl.mul F (.ofNat F 257) (.fin false (2 ^ F.mb - 1)) =
    .fin false (257 * 2 ^ F.mb - 256) := by
  simp only [Fl.ofNat, Fl.mul, Bool.xor_false]
  rw [show 257 * 2 ^ F.one * (2 ^ F.mb - 1) = 257 * (2 ^ F.mb - 1) * 2 ^ F.one by ring]
  have := rndUnits_scale F.mb (257 * (2 ^ F.mb - 1)) 1 (2 ^ F.one) (by positivity)
  rw [one_mul] at this
  rw [this, rnd257 _ h.mb9, mk_ok]
  rw [h.top_eq, pow_add]
  have : 2 ^ 9 ≤ 2 ^ (2 * F.bias) :=
    Nat.pow_le_pow_right (by norm_num) (by have := h.wide; have := h.mb9; omega)
  have h2 := Nat.mul_le_mul_left (2 ^ F.mb) this
  have : 0 < 2 ^ F.mb := by positivity
  omega

/-! ### exponentVal -/

theorem expLoop1 (h : F.Good) (m : Nat) (hm0 : 2 ^ F.mb ≤ m) (hm : m < 2 ^ (F.mb + 1)) (f : Nat) :
    ∀ k c, k ≤ f → k + 1 ≤ 2 * F.bias → ∃ k' c', loopN (fun (s : Fl × Nat) =>
    .ok (if Fl.lt (.fin false (257 * 2 ^ F.mb - 256)) s.1
      then some (s.1.div F (.ofNat F 256), s.2 + 8) else none)) f (.fin false (m * 2 ^ k), c) =
      .ok (.fin false (m * 2 ^ k'), c') ∧ c' + k' = c + k ∧ k' ≤ k := by
  have hp : 2 ^ (F.mb + 1) = 2 * 2 ^ F.mb := by rw [pow_succ]; omega
  have hp9 : 512 ≤ 2 ^ F.mb := by
    calc 512 = 2 ^ 9 := rfl
      _ ≤ 2 ^ F.mb := Nat.pow_le_pow_right (by norm_num) h.mb9
  have hsmall : ∀ k, k ≤ 7 → ¬ (257 * 2 ^ F.mb - 256 < m * 2 ^ k) := by
    intro k hk
    have h1 : m * 2 ^ k ≤ m * 2 ^ 7 := Nat.mul_le_mul_left _ (Nat.pow_le_pow_right (by norm_num) hk)
    omega
  induction f with
  | zero =>
    intro k c hk _
    obtain rfl : k = 0 := by omega
    refine ⟨0, c, ?_, rfl, le_rfl⟩
    apply loopN_stop
    simp only
    rw [if_neg]
    rw [lt_fin]
    exact hsmall 0 (by omega)
  | succ f ih =>
    intro k c hk hk2
    by_cases hc : 257 * 2 ^ F.mb - 256 < m * 2 ^ k
    · have h8 : 8 ≤ k := by by_contra hcon; exact hsmall k (by omega) hc
      obtain ⟨k, rfl⟩ : ∃ j, k = j + 8 := ⟨k - 8, by omega⟩
      obtain ⟨k', c', h1, h2, h3⟩ := ih k (c + 8) (by omega) (by omega)
      refine ⟨k', c', ?_, by omega, by omega⟩
      rw [loopN]
      simp only
      rw [if_pos, div_pow (j := 8) hm (by norm_num) (lt_top h hm (by omega))]
      · exact h1
      · rw [lt_fin]; exact hc
    · refine ⟨k, c, ?_, rfl, le_rfl⟩
      apply loopN_stop
      simp only
      rw [if_neg]
      rw [lt_fin]; exact hc

theorem half_round (h : F.Good) (m : Nat) (hm : m < 2 ^ (F.mb + 1)) (hm0 : 2 ^ F.mb ≤ m) :
    Fl.div F (.fin false m) (.ofNat F 2) = .fin false (rndHE m 2) := by
  have hp : 2 ^ (F.mb + 1) = 2 * 2 ^ F.mb := by rw [pow_succ]; omega
  simp only [Fl.ofNat, Fl.div, Bool.xor_false]
  rw [if_neg (by positivity), rndUnits_scale _ _ _ _ (by positivity)]
  unfold rndUnits
  have hl : Nat.log2 (m / 2) - F.mb = 0 := by
    have : m / 2 < 2 ^ F.mb := by omega
    rcases Nat.eq_zero_or_pos (m / 2) with h0 | h0
    · rw [h0]; simp
    · have := (Nat.log2_lt (by omega)).2 this; omega
  simp only [hl, pow_zero, mul_one]
  rw [mk_ok]
  rw [h.top_eq]
  have h2 : 2 ^ (F.mb + 1) ≤ 2 ^ (F.mb + 2 * F.bias) :=
    Nat.pow_le_pow_right (by norm_num) (by have := h.wide; omega)
  have : rndHE m 2 ≤ m / 2 + 1 := by
    unfold rndHE; simp only; split_ifs <;> omega
  have : 512 ≤ 2 ^ F.mb := by
    calc 512 = 2 ^ 9 := rfl
      _ ≤ 2 ^ F.mb := Nat.pow_le_pow_right (by norm_num) h.mb9
  omega

theorem expLoop2_stop (n c f : Nat) (hn : n < 2 ^ F.mb) (s : Bool) :
    loopN (fun (s : Fl × Nat) =>
    .ok (if Fl.lt (.fin false (2 ^ F.mb - 1)) s.1 then some (s.1.div F (.ofNat F 2), s.2 + 1) else none)) f
      (.fin s n, c) = .ok (.fin s n, c) := by
  apply loopN_stop
  simp only
  rw [if_neg]
  cases s
  · rw [lt_fin]; omega
  · exact lt_fin_neg _ _

theorem expLoop2 (h : F.Good) (m : Nat) (hm0 : 2 ^ F.mb ≤ m) (hm : m < 2 ^ (F.mb + 1)) (f : Nat) :
    ∀ k c, k + 2 ≤ f → k + 1 ≤ 2 * F.bias → ∃ r, loopN (fun (s : Fl × Nat) =>
    .ok (if Fl.lt (.fin false (2 ^ F.mb - 1)) s.1
      then some (s.1.div F (.ofNat F 2), s.2 + 1) else none)) f (.fin false (m * 2 ^ k), c) =
      .ok (r, c + k + 1 + (if m = 2 ^ (F.mb + 1) - 1 then 1 else 0)) := by
  have hp : 2 ^ (F.mb + 1) = 2 * 2 ^ F.mb := by rw [pow_succ]; omega
  have hp9 : 512 ≤ 2 ^ F.mb := by
    calc 512 = 2 ^ 9 := rfl
      _ ≤ 2 ^ F.mb := Nat.pow_le_pow_right (by norm_num) h.mb9
  have heven : 2 ^ F.mb % 2 = 0 := by
    have := h.mb9
    obtain ⟨t, ht⟩ : ∃ t, F.mb = t + 1 := ⟨F.mb - 1, by omega⟩
    rw [ht, pow_succ]; omega
  induction f with
  | zero => intro k c hk; omega
  | succ f ih =>
    intro k c hk hk2
    have hbig : 2 ^ F.mb ≤ m * 2 ^ k :=
      le_trans hm0 (Nat.le_mul_of_pos_right _ (by positivity))
    rw [loopN]
    simp only
    rw [if_pos]
    rotate_left
    · rw [lt_fin]
      have : 0 < 2 ^ F.mb := by positivity
      omega
    rcases k with _ | k
    · rw [pow_zero, mul_one, half_round h m hm hm0]
      simp only
      by_cases hone : m = 2 ^ (F.mb + 1) - 1
      · have hr : rndHE m 2 = 2 ^ F.mb := by
          unfold rndHE
          have hd : m / 2 = 2 ^ F.mb - 1 := by omega
          have hr : m % 2 = 1 := by omega
          simp only [hd, hr]
          rw [if_neg (by norm_num), if_neg (by norm_num), if_neg (by omega)]
          omega
        rw [hr]
        obtain ⟨f, rfl⟩ : ∃ g, f = g + 1 := ⟨f - 1, by omega⟩
        rw [loopN]
        simp only
        rw [if_pos]
        rotate_left
        · rw [lt_fin]; omega
        rw [half_round h _ (by omega) le_rfl]
        have hr2 : rndHE (2 ^ F.mb) 2 < 2 ^ F.mb := by
          unfold rndHE
          simp only [heven]
          rw [if_pos (by norm_num)]; omega
        simp only
        rw [expLoop2_stop _ _ _ hr2, if_pos hone]
        exact ⟨_, rfl⟩
      · have hr : rndHE m 2 < 2 ^ F.mb := by
          unfold rndHE
          simp only
          split_ifs <;> omega
        rw [expLoop2_stop _ _ _ hr, if_neg hone]
        exact ⟨_, rfl⟩
    · rw [div_pow (j := 1) hm (by norm_num) (lt_top h hm (by omega))]
      obtain ⟨r, hr⟩ := ih k (c + 1) (by omega) (by omega)
      refine ⟨r, ?_⟩
      simp only
      rw [hr]; congr 2; omega

theorem absFl_fin (s : Bool) (n : Nat) (hn : 0 < n) : absFl (.fin s n) = .fin false n := by
  unfold absFl
  cases s <;> simp [Fl.le, Fl.units, Fl.neg]
  omega

theorem exponentVal_normal (h : F.Good) (s : Bool) (m k : Nat) (hm0 : 2 ^ F.mb ≤ m)
    (hm : m < 2 ^ (F.mb + 1)) (hk : k + 1 ≤ 2 * F.bias) :
    exponentVal F (.fin s (m * 2 ^ k)) =
      .ok (k + 1 + (if m = 2 ^ (F.mb + 1) - 1 then 1 else 0)) := by
  have hpos : 0 < m * 2 ^ k := by
    have : 0 < 2 ^ F.mb := by positivity
    have : 0 < m := by omega
    positivity
  have heb := h.pow_eb
  unfold exponentVal
  rw [seper_eq h]
  simp only [Out.ok_bind]
  rw [seper257 h, absFl_fin s _ hpos]
  obtain ⟨k', c', h1, h2, h3⟩ := expLoop1 h m hm0 hm (2 ^ F.eb + 2) k 0 (by omega) hk
  rw [h1]
  simp only [Out.ok_bind]
  obtain ⟨r, hr⟩ := expLoop2 h m hm0 hm (2 ^ F.eb + 2) k' c' (by omega) (by omega)
  rw [hr]
  simp only [Out.ok_bind]
  congr 1; omega

theorem exponentVal_sub (h : F.Good) (s : Bool) (n : Nat) (hn : n < 2 ^ F.mb) :
    exponentVal F (.fin s n) = .ok 0 := by
  have hp9 : 512 ≤ 2 ^ F.mb := by
    calc 512 = 2 ^ 9 := rfl
      _ ≤ 2 ^ F.mb := Nat.pow_le_pow_right (by norm_num) h.mb9
  unfold exponentVal
  rw [seper_eq h]
  simp only [Out.ok_bind]
  rw [seper257 h]
  have key : ∃ t, absFl (.fin s n) = .fin t n := by
    unfold absFl Fl.neg; split_ifs <;> exact ⟨_, rfl⟩
  obtain ⟨t, ht⟩ := key
  rw [ht, loopN_stop]
  · simp only [Out.ok_bind]
    rw [expLoop2_stop _ _ _ hn]
    rfl
  · simp only
    rw [if_neg]
    cases t
    · rw [lt_fin]; omega
    · exact lt_fin_neg _ _

/-! ### the mantissa -/

theorem mantissaLoop_eq (h : F.Good) (M : Nat) (hM : M < 2 ^ F.mb) :
    ∀ j, j ≤ F.mb → mantissaLoop F (.fin false (2 ^ (F.mb - 1))) j
      (.fin false ((M % 2 ^ j) * 2 ^ (F.mb - j))) (M / 2 ^ j * 2 ^ j) (maskOf j) = M := by
  have hw := h.wide
  have hmb := h.mb9
  intro j
  induction j with
  | zero => intro _; simp [mantissaLoop]
  | succ j ih =>
    intro hj
    have hmask : maskOf (j + 1) = 2 ^ j := by simp [maskOf]
    rw [mantissaLoop, maskOf_shift, hmask]
    have hsplit := mod_two_pow_succ_bit M j
    have hlt : M % 2 ^ j < 2 ^ j := Nat.mod_lt _ (by positivity)
    have hle : M % 2 ^ j ≤ M := Nat.mod_le _ _
    have hp : 2 ^ (F.mb + 1) = 2 * 2 ^ F.mb := by rw [pow_succ]; omega
    have hcmp : Fl.le (.fin false (2 ^ (F.mb - 1))) (.fin false (M % 2 ^ (j + 1) * 2 ^ (F.mb - (j + 1))))
        = M.testBit j := by
      simp only [Fl.le, Fl.units]
      have e : F.mb - 1 = j + (F.mb - (j + 1)) := by omega
      simp only [Bool.false_eq_true, if_false, Nat.cast_le]
      have e2 : (2 ^ (F.mb - 1) ≤ M % 2 ^ (j + 1) * 2 ^ (F.mb - (j + 1))) ↔ 2 ^ j ≤ M % 2 ^ (j + 1) := by
        rw [e, pow_add]
        exact Nat.mul_le_mul_right_iff (by positivity)
      simp only [e2]
      simp only [hsplit]
      cases M.testBit j
      · simp [hlt]
      · simp
    rw [hcmp]
    have hdiv : M / 2 ^ j = 2 * (M / 2 ^ (j + 1)) + (if M.testBit j then 1 else 0) := by
      rw [pow_succ, ← Nat.div_div_eq_div_mul, Nat.testBit_eq_decide_div_mod_eq]
      rcases Nat.mod_two_eq_zero_or_one (M / 2 ^ j) with h | h <;> simp [h] <;> omega
    have hfl : (if M.testBit j = true then
        Fl.sub F (.fin false (M % 2 ^ (j + 1) * 2 ^ (F.mb - (j + 1)))) (.fin false (2 ^ (F.mb - 1)))
        else .fin false (M % 2 ^ (j + 1) * 2 ^ (F.mb - (j + 1)))) =
        .fin false (M % 2 ^ j * 2 ^ (F.mb - (j + 1))) := by
      by_cases hb : M.testBit j = true
      · rw [if_pos hb]
        refine sub_pos (by omega) ?_ (lt_top h (by omega) (by omega))
        rw [hsplit, if_pos hb, Nat.add_mul, ← pow_add, Nat.add_comm]
        congr 2; omega
      · rw [if_neg hb, hsplit]; simp [hb]
    have hres : (if M.testBit j = true then M / 2 ^ (j + 1) * 2 ^ (j + 1) ||| 2 ^ j
        else M / 2 ^ (j + 1) * 2 ^ (j + 1)) = M / 2 ^ j * 2 ^ j := by
      rw [hdiv]
      by_cases hb : M.testBit j = true
      · rw [if_pos hb, if_pos hb]
        have := Nat.two_pow_add_eq_or_of_lt (i := j + 1) (b := 2 ^ j)
          (Nat.pow_lt_pow_right (by norm_num) (by omega)) (M / 2 ^ (j + 1))
        rw [Nat.mul_comm (M / 2 ^ (j + 1)), ← this, pow_succ]; ring
      · rw [if_neg hb, if_neg hb, pow_succ]; ring
    rw [hfl, hres, mul_pow (j := 1) (by omega) (by norm_num) (lt_top h (by omega) (by omega))]
    rw [show F.mb - (j + 1) + 1 = F.mb - j by omega]
    exact ih (by omega)

theorem mantissaLoop_negzero (h : F.Good) : ∀ j mask, mantissaLoop F (.fin false (2 ^ (F.mb - 1))) j
      (.fin true 0) 0 mask = 0 := by
  intro j
  induction j with
  | zero => intro _; rfl
  | succ j ih =>
    intro mask
    rw [mantissaLoop]
    have hc : Fl.le (.fin false (2 ^ (F.mb - 1))) (.fin true 0) = false := by
      simp only [Fl.le, Fl.units]
      simp
    rw [hc]
    simp only [Bool.false_eq_true, if_false]
    have : Fl.mul F (.fin true 0) (.ofNat F 2) = .fin true 0 := by
      have := mul_pow (F := F) (s := true) (m := 0) (k := 0) (c := 2) (j := 1) (by positivity) (by norm_num)
        (by simp)
      simpa using this
    rw [this]
    exact ih _

theorem compareNum_eq (h : F.Good) : expOf2 F (-(F.bias : Int)) = .ok (.fin false (2 ^ (F.mb - 1))) :=
  expOf2_neg h F.bias (F.mb - 1) (by have := h.one_eq; have := h.mb9; omega)

theorem expOf2_any (h : F.Good) (z : Int) (a : Nat) (hz : (F.one : Int) + z = a) (hz2 : z ≤ F.bias) :
    expOf2 F z = .ok (.fin false (2 ^ a)) := by
  rcases le_total 0 z with h0 | h0
  · obtain ⟨N, rfl⟩ := Int.eq_ofNat_of_zero_le h0
    rw [expOf2_nonneg h N (by omega)]
    congr 3; omega
  · obtain ⟨N, hN⟩ := Int.exists_eq_neg_ofNat h0
    subst hN
    exact expOf2_neg h N a (by omega)

theorem mantissaCode_normal (h : F.Good) (s : Bool) (M E : Nat) (hM : M < 2 ^ F.mb) (hE0 : 1 ≤ E)
    (hE : E ≤ 2 * F.bias) :
    mantissaCode F (.fin s ((2 ^ F.mb + M) * 2 ^ (E - 1))) =
      .ok (if M = 2 ^ F.mb - 1 then 0 else M) := by
  have hw := h.wide
  have hmb := h.mb9
  have hone := h.one_eq
  have hp : 2 ^ (F.mb + 1) = 2 * 2 ^ F.mb := by rw [pow_succ]; omega
  have hp9 : 512 ≤ 2 ^ F.mb := by
    calc 512 = 2 ^ 9 := rfl
      _ ≤ 2 ^ F.mb := Nat.pow_le_pow_right (by norm_num) h.mb9
  have hpos : 0 < (2 ^ F.mb + M) * 2 ^ (E - 1) := by positivity
  have hm : 2 ^ F.mb + M < 2 ^ (F.mb + 1) := by omega
  unfold mantissaCode absValWithExponentCode0
  rw [absFl_fin s _ hpos]
  simp only
  rw [exponentVal_normal h false _ _ (by omega) hm (by omega), compareNum_eq h]
  simp only [Out.ok_bind]
  rw [if_neg (by omega)]
  have hq : expOf2 F (-((F.bias : Int) - 1)) = .ok (.fin false (2 ^ F.mb)) :=
    expOf2_any h _ _ (by omega) (by omega)
  rw [hq]
  have hmask : 1 <<< (F.mb - 1) = maskOf F.mb := by
    rw [Nat.one_shiftLeft, maskOf, if_neg (by omega)]
  by_cases hM1 : M = 2 ^ F.mb - 1
  · rw [if_pos (by omega), if_pos hM1]
    rw [expOf2_any h _ (F.one + F.bias - E - 1) (by omega) (by omega)]
    simp only [Out.ok_bind]
    rw [mul_units (j := F.bias - 2) hm (by omega) (lt_top h hm (by omega))]
    have hsub : Fl.sub F (.fin false ((2 ^ F.mb + M) * 2 ^ (F.bias - 2))) (.ofNat F 1) =
        .fin true (2 ^ (F.bias - 2)) := by
      have e1 : 2 ^ F.one = 2 ^ (F.mb + 1) * 2 ^ (F.bias - 2) := by
        rw [← pow_add]; congr 1; omega
      have e2 : (2 ^ F.mb + M) + 1 = 2 ^ (F.mb + 1) := by omega
      have e3 : (2 ^ F.mb + M) * 2 ^ (F.bias - 2) + 2 ^ (F.bias - 2) = 2 ^ F.one := by
        rw [e1, ← e2]; ring
      simp only [Fl.sub, Fl.ofNat, Fl.neg, Fl.add, Fl.units, one_mul]
      have hpp : 0 < 2 ^ (F.bias - 2) := by positivity
      generalize (2 ^ F.mb + M) * 2 ^ (F.bias - 2) = u at e3
      rw [← e3]
      simp only [Bool.false_eq_true, if_false, Bool.not_false, if_true]
      rw [if_neg (by omega)]
      have e4 : ((u : Int) + -((u + 2 ^ (F.bias - 2) : Nat) : Int)).natAbs = 1 * 2 ^ (F.bias - 2) := by
        omega
      rw [e4, rndUnits_exact1 _ _ _ (Nat.one_lt_two_pow (by omega)), one_mul, mk_ok]
      · congr 1
        simp only [decide_eq_true_eq]; omega
      · have := lt_top h (m := 1) (k := F.bias - 2) (Nat.one_lt_two_pow (by omega)) (by omega)
        simpa using this
    rw [hsub]
    have hmul : Fl.mul F (.fin true (2 ^ (F.bias - 2))) (.fin false (2 ^ F.mb)) = .fin true 0 := by
      simp only [Fl.mul, Bool.xor_false]
      have e : 2 ^ F.one = 2 * (2 ^ (F.bias - 2) * 2 ^ F.mb) := by
        rw [← pow_add, ← pow_succ']; congr 1; omega
      rw [e]
      have := rndUnits_scale F.mb 1 2 (2 ^ (F.bias - 2) * 2 ^ F.mb) (by positivity)
      rw [one_mul] at this
      rw [this]
      have h0 : rndUnits F.mb 1 2 = 0 := by
        unfold rndUnits
        simp [rndHE]
      rw [h0, mk_ok (by positivity)]
    rw [hmul, mantissaLoop_negzero h]
  · rw [if_neg (by omega), if_neg hM1]
    rw [expOf2_any h _ (F.one + F.bias - E) (by omega) (by omega)]
    simp only [Out.ok_bind]
    rw [mul_units (j := F.bias - 1) hm (by omega) (lt_top h hm (by omega))]
    have hsub : Fl.sub F (.fin false ((2 ^ F.mb + M) * 2 ^ (F.bias - 1))) (.ofNat F 1) =
        .fin false (M * 2 ^ (F.bias - 1)) := by
      unfold Fl.ofNat
      refine sub_pos (by omega) ?_ (lt_top h (by omega) (by omega))
      have e1 : 2 ^ F.one = 2 ^ F.mb * 2 ^ (F.bias - 1) := by
        rw [← pow_add]; congr 1; omega
      rw [e1]; ring
    rw [hsub, mul_units (j := 0) (by omega) (by omega) (lt_top h (by omega) (by omega)), hmask]
    have := mantissaLoop_eq h M hM F.mb le_rfl
    rw [Nat.mod_eq_of_lt hM, Nat.sub_self, Nat.div_eq_of_lt hM, Nat.zero_mul] at this
    rw [this]

theorem mantissaCode_sub (h : F.Good) (s : Bool) (M : Nat) (hM : M < 2 ^ F.mb) :
    mantissaCode F (.fin s M) = .ok M := by
  have hmb := h.mb9
  unfold mantissaCode absValWithExponentCode0
  have hmask : 1 <<< (F.mb - 1) = maskOf F.mb := by
    rw [Nat.one_shiftLeft, maskOf, if_neg (by omega)]
  rw [compareNum_eq h]
  rcases Nat.eq_zero_or_pos M with h0 | h0
  · subst h0
    have ha : absFl (.fin s 0) = .fin s 0 := by cases s <;> rfl
    simp only [ha]
    rw [exponentVal_sub h _ _ hM]
    simp only [Out.ok_bind, if_true]
    cases s
    · have := mantissaLoop_eq h 0 hM F.mb le_rfl
      simp only [Nat.zero_mod, Nat.zero_mul, Nat.zero_div] at this
      rw [hmask, this]
    · rw [mantissaLoop_negzero h]
  · rw [absFl_fin s _ h0]
    simp only
    rw [exponentVal_sub h _ _ hM]
    simp only [Out.ok_bind, if_true]
    have := mantissaLoop_eq h M hM F.mb le_rfl
    rw [Nat.mod_eq_of_lt hM, Nat.sub_self, Nat.div_eq_of_lt hM, Nat.zero_mul, pow_zero, Nat.mul_one] at this
    rw [hmask, this]

/-! ### encode -/

theorem or_code (neg : Bool) (E M : Nat) (hE : E < 2 ^ F.eb) (hM : M < 2 ^ F.mb) :
    (if neg then 1 else 0) <<< (F.width - 1) ||| ((E <<< F.mb) % 2 ^ F.width) ||| M =
      ieeeCode F neg E M := by
  have hw : F.width - 1 = F.eb + F.mb := by unfold Fmt.width; omega
  have hw2 : F.width = F.eb + F.mb + 1 := by unfold Fmt.width; omega
  have habs := code_abs_lt E M hE hM
  have hlt : E * 2 ^ F.mb < 2 ^ (F.eb + F.mb) := by omega
  rw [Nat.shiftLeft_eq, Nat.shiftLeft_eq, hw, Nat.mod_eq_of_lt
    (lt_trans hlt (Nat.pow_lt_pow_right (by norm_num) (by omega))), Nat.or_assoc]
  have h1 := Nat.two_pow_add_eq_or_of_lt (i := F.mb) hM E
  rw [Nat.mul_comm E, ← h1]
  have h2 := Nat.two_pow_add_eq_or_of_lt (i := F.eb + F.mb) (b := 2 ^ F.mb * E + M)
    (by rw [Nat.mul_comm]; exact habs) (if neg then 1 else 0)
  rw [Nat.mul_comm _ (2 ^ (F.eb + F.mb)), ← h2]
  unfold ieeeCode
  cases neg <;> simp [Nat.mul_comm, Nat.add_assoc]

theorem signCode_fin (neg : Bool) (n : Nat) :
    signCode F (.fin neg n) = (if neg ∧ n ≠ 0 then 1 else 0) <<< (F.width - 1) := by
  unfold signCode isNotNegative
  cases neg
  · simp [Fl.le, Fl.units]
  · simp only [Fl.le, Fl.units]
    rcases Nat.eq_zero_or_pos n with h0 | h0
    · simp [h0]
    · have : n ≠ 0 := by omega
      simp [this]

theorem binEncode_fin (neg : Bool) (n : Nat) : binEncode F (.fin neg n) =
    (exponentCode F (.fin neg n) >>= fun e => mantissaCode F (.fin neg n) >>= fun m =>
      .ok (signCode F (.fin neg n) ||| e ||| m)) := by
  unfold binEncode
  rw [if_neg, if_neg]
  · unfold absFl; split_ifs <;> simp [Fl.le, Fl.neg]
  · simp only [Fl.le, Fl.units]
    cases neg <;> simp

/-- complete description of `encode` on finite data -/
theorem binEncode_finite (h : F.Good) (neg : Bool) (E M : Nat) (hE : E < 2 ^ F.eb - 1)
    (hM : M < 2 ^ F.mb) :
    binEncode F (ieeeDatum F neg E M) = .ok (
      if E = 0 ∧ M = 0 then 0
      else if E ≠ 0 ∧ M = 2 ^ F.mb - 1 then ieeeCode F neg (E + 1) 0
      else ieeeCode F neg E M) := by
  have heb := h.pow_eb
  have hp : 2 ^ (F.mb + 1) = 2 * 2 ^ F.mb := by rw [pow_succ]; omega
  have hp9 : 512 ≤ 2 ^ F.mb := by
    calc 512 = 2 ^ 9 := rfl
      _ ≤ 2 ^ F.mb := Nat.pow_le_pow_right (by norm_num) h.mb9
  unfold ieeeDatum
  rw [binEncode_fin, signCode_fin]
  unfold exponentCode
  by_cases hE0 : E = 0
  · subst hE0
    simp only [if_true, true_and, ne_eq, not_true_eq_false, false_and, if_false]
    rw [exponentVal_sub h _ _ hM, mantissaCode_sub h _ _ hM]
    simp only [Out.ok_bind]
    have hc := fun s => or_code (F := F) s 0 M (by omega) hM
    congr 1
    by_cases hM0 : M = 0
    · subst hM0
      simpa [ieeeCode] using hc false
    · rw [if_neg hM0, ← hc neg]; simp [hM0]
  · simp only [hE0, if_false, false_and, ne_eq, not_false_eq_true, true_and]
    have hm : 2 ^ F.mb + M < 2 ^ (F.mb + 1) := by omega
    have hne : (2 ^ F.mb + M) * 2 ^ (E - 1) ≠ 0 := by positivity
    rw [exponentVal_normal h _ _ _ (by omega) hm (by omega),
      mantissaCode_normal h _ _ _ hM (by omega) (by omega)]
    simp only [Out.ok_bind, hne, not_false_eq_true, and_true]
    rw [Out.ok.injEq]
    by_cases hM1 : M = 2 ^ F.mb - 1
    · rw [if_pos (show 2 ^ F.mb + M = 2 ^ (F.mb + 1) - 1 by omega), if_pos hM1, if_pos hM1, show E - 1 + 1 + 1 = E + 1 by omega]
      exact or_code neg (E + 1) 0 (by omega) (by omega)
    · rw [if_neg (show ¬ 2 ^ F.mb + M = 2 ^ (F.mb + 1) - 1 by omega), if_neg hM1, if_neg hM1, show E - 1 + 1 + 0 = E by omega]
      exact or_code neg E M (by omega) hM

/-- the datum really denotes the number of the standard -/
theorem ieeeDatum_number (h : F.Good) (neg : Bool) (E M : Nat) :
    (ieeeDatum F neg E M).number F = ieeeNumber F neg E M := by
  have hone := h.one_eq
  have hmb := h.mb9
  have hw := h.wide
  unfold ieeeDatum Fl.number ieeeNumber
  simp only
  congr 1
  by_cases hE : E = 0
  · simp only [hE, if_true]
    rw [show (-(F.one : ℤ)) = (1 - (F.bias : ℤ)) - (F.mb : ℤ) by omega, zpow_sub₀ (by norm_num),
      zpow_natCast]
    field_simp
  · simp only [hE, if_false]
    rw [show (-(F.one : ℤ)) = ((E : ℤ) - (F.bias : ℤ)) - ((F.mb : ℤ) + ((E - 1 : ℕ) : ℤ)) by omega,
      zpow_sub₀ (by norm_num), zpow_add₀ (by norm_num), zpow_natCast, zpow_natCast]
    push_cast
    field_simp

end
end Heu
