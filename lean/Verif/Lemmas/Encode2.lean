import Verif.Lemmas.Encode

set_option linter.unusedSimpArgs false
set_option linter.unusedVariables false
set_option linter.unnecessarySeqFocus false
set_option linter.unnecessarySimpa false

namespace Heu
section
variable {F : Fmt}

/-! ## Bits of a code -/

theorem nat_and_shiftLeft (x y n : Nat) : x &&& (y <<< n) = ((x >>> n) &&& y) <<< n := by
  apply Nat.eq_of_testBit_eq
  intro i
  simp only [Nat.testBit_and, Nat.testBit_shiftLeft, Nat.testBit_shiftRight]
  by_cases h : n ≤ i
  · simp [h, Nat.add_sub_cancel' h]
  · simp [h]

theorem code_mod (neg : Bool) (E M : Nat) (hE : E < 2 ^ F.eb) (hM : M < 2 ^ F.mb) :
    ieeeCode F neg E M % 2 ^ F.mb = M := by
  unfold ieeeCode
  have : (if neg then 2 ^ (F.eb + F.mb) else 0) = (if neg then 2 ^ F.eb else 0) * 2 ^ F.mb := by
    cases neg <;> simp [pow_add]
  rw [this, ← Nat.add_mul, Nat.add_comm, Nat.add_mul_mod_self_right, Nat.mod_eq_of_lt hM]

theorem code_div (neg : Bool) (E M : Nat) (hE : E < 2 ^ F.eb) (hM : M < 2 ^ F.mb) :
    ieeeCode F neg E M / 2 ^ F.mb = (if neg then 2 ^ F.eb else 0) + E := by
  unfold ieeeCode
  have : (if neg then 2 ^ (F.eb + F.mb) else 0) = (if neg then 2 ^ F.eb else 0) * 2 ^ F.mb := by
    cases neg <;> simp [pow_add]
  rw [this, ← Nat.add_mul, Nat.add_comm, Nat.add_mul_div_right _ _ (by positivity),
    Nat.div_eq_of_lt hM, Nat.zero_add]

theorem code_abs_lt (E M : Nat) (hE : E < 2 ^ F.eb) (hM : M < 2 ^ F.mb) :
    E * 2 ^ F.mb + M < 2 ^ (F.eb + F.mb) := by
  have : (E + 1) * 2 ^ F.mb ≤ 2 ^ F.eb * 2 ^ F.mb := Nat.mul_le_mul_right _ hE
  rw [pow_add]
  rw [Nat.succ_mul] at this
  omega

theorem code_abs (neg : Bool) (E M : Nat) (hE : E < 2 ^ F.eb) (hM : M < 2 ^ F.mb) :
    ieeeCode F neg E M &&& (2 ^ F.width - 1 - (1 <<< (F.width - 1))) = E * 2 ^ F.mb + M := by
  have hw : F.width - 1 = F.eb + F.mb := by unfold Fmt.width; omega
  have hw2 : F.width = F.eb + F.mb + 1 := by unfold Fmt.width; omega
  have : 2 ^ F.width - 1 - (1 <<< (F.width - 1)) = 2 ^ (F.eb + F.mb) - 1 := by
    rw [hw, Nat.one_shiftLeft, hw2, pow_succ]; omega
  rw [this, Nat.and_two_pow_sub_one_eq_mod]
  unfold ieeeCode
  have h := code_abs_lt E M hE hM
  cases neg
  · simp [Nat.mod_eq_of_lt h]
  · simp only [if_true]
    rw [Nat.add_assoc, Nat.add_mod_left, Nat.mod_eq_of_lt h]

theorem code_expMask (neg : Bool) (E M : Nat) (hE : E < 2 ^ F.eb) (hM : M < 2 ^ F.mb) :
    ieeeCode F neg E M &&& ((2 ^ F.eb - 1) <<< F.mb) = E * 2 ^ F.mb := by
  rw [nat_and_shiftLeft, Nat.and_two_pow_sub_one_eq_mod, Nat.shiftRight_eq_div_pow,
    code_div neg E M hE hM, Nat.shiftLeft_eq]
  cases neg
  · simp [Nat.mod_eq_of_lt hE]
  · simp only [if_true]
    rw [Nat.add_mod_left, Nat.mod_eq_of_lt hE]

theorem code_manMask (neg : Bool) (E M : Nat) (hE : E < 2 ^ F.eb) (hM : M < 2 ^ F.mb) :
    ieeeCode F neg E M &&& ((1 <<< F.mb) - 1) = M := by
  rw [Nat.one_shiftLeft, Nat.and_two_pow_sub_one_eq_mod, code_mod neg E M hE hM]

theorem code_sign (neg : Bool) (E M : Nat) (hE : E < 2 ^ F.eb) (hM : M < 2 ^ F.mb) :
    (ieeeCode F neg E M &&& (1 <<< (F.width - 1)) ≠ 0) ↔ neg = true := by
  have hw : F.width - 1 = F.eb + F.mb := by unfold Fmt.width; omega
  have h := code_abs_lt E M hE hM
  rw [hw, Nat.one_shiftLeft, Nat.and_two_pow]
  have : (ieeeCode F neg E M).testBit (F.eb + F.mb) = neg := by
    unfold ieeeCode
    cases neg
    · simp only [Bool.false_eq_true, if_false, Nat.zero_add]
      exact Nat.testBit_lt_two_pow h
    · simp only [if_true, Nat.add_assoc]
      rw [Nat.testBit_two_pow_add_eq, Nat.testBit_lt_two_pow h]; rfl
  rw [this]
  cases neg <;> simp

theorem code_bit (neg : Bool) (E M j : Nat) (hE : E < 2 ^ F.eb) (hM : M < 2 ^ F.mb) (hj : j < F.mb) :
    (ieeeCode F neg E M &&& 2 ^ j ≠ 0) ↔ M.testBit j = true := by
  rw [Nat.and_two_pow]
  have : (ieeeCode F neg E M).testBit j = M.testBit j := by
    have h := code_mod neg E M hE hM
    rw [← h, Nat.testBit_mod_two_pow]
    simp [hj, h]
  rw [this]
  cases h : M.testBit j <;> simp

theorem mod_two_pow_succ_bit (M j : Nat) :
    M % 2 ^ (j + 1) = (if M.testBit j then 2 ^ j else 0) + M % 2 ^ j := by
  rw [Nat.mod_pow_succ, Nat.testBit_eq_decide_div_mod_eq]
  have : M / 2 ^ j % 2 < 2 := Nat.mod_lt _ (by norm_num)
  rcases Nat.mod_two_eq_zero_or_one (M / 2 ^ j) with h | h <;> simp [h] <;> omega

/-! ## decode -/

theorem decodeMantissa_zero (code : Nat) : ∀ i res delta, decodeMantissa F code i res delta 0 = res := by
  intro i
  induction i with
  | zero => intros; rfl
  | succ i ih => intro res delta; simp [decodeMantissa, ih]

/-- mask of the mantissa loops when `j` bits remain -/
def maskOf (j : Nat) : Nat := if j = 0 then 0 else 2 ^ (j - 1)

theorem maskOf_shift (j : Nat) : maskOf (j + 1) >>> 1 = maskOf j := by
  unfold maskOf
  rcases j with _ | j
  · rfl
  · simp [Nat.shiftRight_eq_div_pow, pow_succ]

theorem decodeMantissa_eq (h : F.Good) (neg : Bool) (E M : Nat) (hE : E < 2 ^ F.eb) (hM : M < 2 ^ F.mb) :
    ∀ j i X, j ≤ i → j ≤ F.mb → X + M % 2 ^ j < 2 ^ (F.mb + 1) →
    decodeMantissa F (ieeeCode F neg E M) i (.fin false (X * 2 ^ (F.bias - 1)))
      (.fin false (2 ^ (F.bias + j - 2))) (maskOf j) =
      .fin false ((X + M % 2 ^ j) * 2 ^ (F.bias - 1)) := by
  have hw := h.wide
  have hmb := h.mb9
  have hm1 : 1 < 2 ^ (F.mb + 1) := Nat.one_lt_two_pow (by omega)
  intro j
  induction j with
  | zero =>
    intro i X _ _ _
    simp [maskOf, decodeMantissa_zero, Nat.mod_one]
  | succ j ih =>
    intro i X hji hjm hX
    obtain ⟨i, rfl⟩ : ∃ i', i = i' + 1 := ⟨i - 1, by omega⟩
    rw [mod_two_pow_succ_bit] at hX ⊢
    have hdelta : Fl.div F (.fin false (2 ^ (F.bias + (j + 1) - 2))) (.ofNat F 2)
        = .fin false (2 ^ (F.bias + j - 2)) := by
      have := div_pow (F := F) (s := false) (m := 1) (k := F.bias + j - 2) (c := 2) (j := 1) hm1 (by norm_num)
        (lt_top h hm1 (by omega))
      rw [one_mul, one_mul] at this
      rw [← this]; congr 3; omega
    have hmask : maskOf (j + 1) = 2 ^ j := by simp [maskOf]
    rw [decodeMantissa, maskOf_shift, hdelta]
    have hres : (if ieeeCode F neg E M &&& maskOf (j + 1) ≠ 0 then
        Fl.add F (.fin false (X * 2 ^ (F.bias - 1))) (.fin false (2 ^ (F.bias + (j + 1) - 2)))
        else .fin false (X * 2 ^ (F.bias - 1))) =
        .fin false ((X + if M.testBit j then 2 ^ j else 0) * 2 ^ (F.bias - 1)) := by
      rw [hmask]
      by_cases hb : M.testBit j
      · rw [if_pos ((code_bit neg E M j hE hM (by omega)).2 hb)]
        simp only [hb, if_true] at hX ⊢
        refine add_pos (by omega) ?_ (lt_top h (by omega) (by omega))
        rw [Nat.add_mul, ← pow_add]
        congr 2; omega
      · rw [if_neg (fun hc => hb ((code_bit neg E M j hE hM (by omega)).1 hc))]
        simp [hb]
    rw [hres, ih i _ (by omega) (by omega) (by omega), Nat.add_assoc]

theorem loopN_stop {σ : Type} (step : σ → Out (Option σ)) (f : Nat) (s : σ) (h : step s = .ok none) :
    loopN step f s = .ok s := by
  cases f <;> simp [loopN, h]

theorem binDecode_finite (h : F.Good) (neg : Bool) (E M : Nat) (hE : E < 2 ^ F.eb - 1)
    (hM : M < 2 ^ F.mb) : binDecode F (ieeeCode F neg E M) = .ok (ieeeDatum F neg E M) := by
  have hE' : E < 2 ^ F.eb := by omega
  have hw := h.wide
  have hmb := h.mb9
  have hone := h.one_eq
  have heb := h.pow_eb
  have hmm := h.mb52
  have hMM : M % 2 ^ F.mb = M := Nat.mod_eq_of_lt hM
  have hp : 2 ^ (F.mb + 1) = 2 ^ F.mb + 2 ^ F.mb := by rw [pow_succ]; omega
  have hmant : ∀ X, X + M < 2 ^ (F.mb + 1) → decodeMantissa F (ieeeCode F neg E M) 52
      (.fin false (X * 2 ^ (F.bias - 1))) (.fin false (2 ^ (F.one - 1))) (1 <<< (F.mb - 1)) =
      .fin false ((X + M) * 2 ^ (F.bias - 1)) := by
    intro X hX
    have := decodeMantissa_eq h neg E M hE' hM F.mb 52 X hmm le_rfl (by rw [hMM]; exact hX)
    rw [hMM] at this
    rw [← this]
    have e1 : F.one - 1 = F.bias + F.mb - 2 := by omega
    have e2 : 1 <<< (F.mb - 1) = maskOf F.mb := by
      rw [Nat.one_shiftLeft, maskOf, if_neg (by omega)]
    rw [e1, e2]
  unfold binDecode
  simp only
  rw [if_neg, if_neg]
  rotate_left
  · rw [code_abs neg E M hE' hM, Nat.shiftLeft_eq]
    have : (E + 1) * 2 ^ F.mb ≤ (2 ^ F.eb - 1) * 2 ^ F.mb := Nat.mul_le_mul_right _ hE
    rw [Nat.succ_mul] at this
    omega
  · rintro ⟨h1, -⟩
    rw [Nat.and_comm, code_expMask neg E M hE' hM, Nat.shiftLeft_eq] at h1
    have := Nat.eq_of_mul_eq_mul_right (by positivity) h1
    omega
  rw [code_expMask neg E M hE' hM, Nat.shiftRight_eq_div_pow, Nat.mul_div_cancel _ (by positivity)]
  have hs : ∀ x : Fl, (if ieeeCode F neg E M &&& 1 <<< (F.width - 1) ≠ 0 then Out.ok x.neg else Out.ok x)
      = Out.ok (if neg then x.neg else x) := by
    intro x
    by_cases hn : neg = true
    · rw [if_pos ((code_sign neg E M hE' hM).2 hn)]; simp [hn]
    · rw [if_neg (fun hc => hn ((code_sign neg E M hE' hM).1 hc))]; simp [hn]
  simp only [hs]
  have hfin : ∀ n, (if neg then (Fl.fin false n).neg else Fl.fin false n) = Fl.fin neg n := by
    intro n; cases neg <;> rfl
  by_cases hE0 : E = 0
  · subst hE0
    simp only [ne_eq, not_true_eq_false, if_false]
    have h0 := hmant 0 (by omega)
    rw [Nat.zero_mul, Nat.zero_add] at h0
    have e : expOf2 F ((F.bias : Int) - 1) = .ok (.fin false (2 ^ (F.one + (F.bias - 1)))) := by
      have := expOf2_nonneg h (F.bias - 1) (by omega)
      rw [← this]; congr 1; omega
    rw [h0, e]
    simp only [Out.ok_bind]
    have := div_units (F := F) (s := false) (m := M) (k := F.bias - 1) (a := F.one + (F.bias - 1)) (j := 0)
      (by omega) (by omega) (lt_top h (by omega) (by omega))
    rw [this, hfin]
    simp [ieeeDatum]
  · simp only [ne_eq, hE0, not_false_eq_true, if_true]
    have h1 : Fl.add F (.fin false 0) (.ofNat F 1) = .fin false (2 ^ F.mb * 2 ^ (F.bias - 1)) := by
      unfold Fl.ofNat
      refine add_pos (by omega) ?_ (lt_top h (by omega) (by omega))
      rw [Nat.zero_add, Nat.one_mul, ← pow_add]; congr 1; omega
    rw [h1, hmant (2 ^ F.mb) (by omega)]
    have hlt : 2 ^ F.mb + M < 2 ^ (F.mb + 1) := by omega
    rcases Nat.lt_or_ge E F.bias with hlt' | hge
    · have eN : ((E : Int) - F.bias) = -((F.bias - E : Nat) : Int) := by omega
      rw [eN, Int.natAbs_neg, Int.natAbs_natCast]
      rw [loopN_stop _ _ _ (by simp only; rw [if_neg (by omega)])]
      simp only [Out.ok_bind]
      have := loop_down2 h (F.bias - E) (2 ^ F.mb + M) (E - 1) (F.bias - E) hlt le_rfl
        (lt_top h hlt (by omega)) false
      rw [show E - 1 + (F.bias - E) = F.bias - 1 by omega] at this
      rw [this]
      simp only [Out.ok_bind, hfin]
      simp [ieeeDatum, hE0]
    · have eN : ((E : Int) - F.bias) = ((E - F.bias : Nat) : Int) := by omega
      rw [eN, Int.natAbs_natCast]
      have := loop_up2 h (E - F.bias) (2 ^ F.mb + M) (F.bias - 1) (E - F.bias) hlt le_rfl
        (lt_top h hlt (by omega)) false
      rw [show F.bias - 1 + (E - F.bias) = E - 1 by omega] at this
      rw [this]
      simp only [Out.ok_bind]
      rw [loopN_stop _ _ _ (by simp only; rw [if_neg (by omega)])]
      simp only [Out.ok_bind, hfin]
      simp [ieeeDatum, hE0]

/-- codes with all exponent bits set -/
theorem binDecode_special (h : F.Good) (neg : Bool) (M : Nat) (hM : M < 2 ^ F.mb) :
    binDecode F (ieeeCode F neg (2 ^ F.eb - 1) M) = .ok (if M = 0 then .inf neg else .nan) := by
  have hE : 2 ^ F.eb - 1 < 2 ^ F.eb := by have : 0 < 2 ^ F.eb := by positivity
                                          omega
  unfold binDecode
  simp only
  rw [Nat.and_comm ((2 ^ F.eb - 1) <<< F.mb), code_expMask neg _ M hE hM, Nat.and_comm (1 <<< F.mb - 1),
    code_manMask neg _ M hE hM, code_abs neg _ M hE hM, Nat.shiftLeft_eq]
  by_cases hM0 : M = 0
  · subst hM0
    simp only [ne_eq, not_true_eq_false, and_false, if_false, Nat.add_zero, le_refl, if_true]
    unfold ieeeCode
    have : 0 < 2 ^ (F.eb + F.mb) := by positivity
    cases neg
    · simp
    · rw [if_neg]; simp
  · simp [hM0]

end
end Heu
