import Verif.Lemmas.Encode3
import Mathlib.Analysis.Real.Pi.Bounds
import Mathlib.Analysis.Complex.ExponentialBounds

/-!
# C08 – C11, C63: numbers carried through template parameters
-/

set_option linter.unusedSimpArgs false
set_option linter.unusedVariables false

namespace Heu

/-! ## C08: DivCode -/

theorem mask32 : ∃ m : BitVec 64, (0xFFFFFFFF#64) = m ∧ ∀ i < 64, m.getLsbD i = decide (i < 32) :=
  ⟨_, rfl, by decide⟩

/-- C08.  Decoding an encoded pair yields exactly that pair, for every `int32_t` numerator and every
`uint32_t` denominator. -/
theorem divCode_roundtrip (a b : BitVec 32) :
    divNumerator (divEncode a b) = a ∧ divDenominator (divEncode a b) = b := by
  constructor
  · unfold divNumerator divEncode
    apply BitVec.eq_of_getLsbD_eq
    intro i hi
    have e1 : i < 64 := by omega
    have e2 : 32 + i < 64 := by omega
    simp only [BitVec.getLsbD_setWidth, BitVec.getLsbD_ushiftRight, BitVec.getLsbD_or,
      BitVec.getLsbD_shiftLeft, BitVec.getLsbD_signExtend, hi, e1, e2]
    simp [hi, e1]
  · unfold divDenominator divEncode
    obtain ⟨m, hm, hbit⟩ := mask32
    rw [hm]
    apply BitVec.eq_of_getLsbD_eq
    intro i hi
    have e1 : i < 64 := by omega
    simp only [BitVec.getLsbD_setWidth, BitVec.getLsbD_and, BitVec.getLsbD_or,
      BitVec.getLsbD_shiftLeft, hbit i e1, hi, e1]
    simp

/-- C08.  The number read back is the quotient of the two integers that were encoded. -/
theorem divCode_value (a b : BitVec 32) :
    divReal (divEncode a b) = (a.toInt : ℚ) / (b.toNat : ℚ) := by
  unfold divReal
  rw [(divCode_roundtrip a b).1, (divCode_roundtrip a b).2]

/-- C08.  Different pairs have different codes. -/
theorem divCode_injective (a b a' b' : BitVec 32) (h : divEncode a b = divEncode a' b') :
    a = a' ∧ b = b' := by
  have h1 := divCode_roundtrip a b
  have h2 := divCode_roundtrip a' b'
  rw [h] at h1
  exact ⟨h1.1.symm.trans h2.1, h1.2.symm.trans h2.2⟩

/-- Every 64-bit pattern is the code of exactly one pair: the encoding is onto as well. -/
theorem divCode_surjective (c : BitVec 64) :
    divEncode (divNumerator c) (divDenominator c) = c := by
  unfold divNumerator divDenominator divEncode
  obtain ⟨m, hm, hbit⟩ := mask32
  rw [hm]
  apply BitVec.eq_of_getLsbD_eq
  intro i hi
  simp only [BitVec.getLsbD_setWidth, BitVec.getLsbD_ushiftRight, BitVec.getLsbD_or, BitVec.getLsbD_and,
      BitVec.getLsbD_shiftLeft, BitVec.getLsbD_signExtend, hbit i hi, hi]
  by_cases h : i < 32
  · simp [h]
  · simp [h, show i - 32 < 32 by omega, show i - 32 < 64 by omega, show 32 + (i - 32) = i by omega]

-- non-vacuity: -7/3 goes through unchanged (the numerator is sign-extended)
example : divReal (divEncode (-7) 3) = -7 / 3 ∧ divEncode (-7) 3 = 0xFFFFFFF900000003#64 := by
  decide +kernel

/-! ## C63: the predefined DivCode constants -/

theorem divReal_cast_close {c : BitVec 64} {x : ℝ} (n d : ℤ) (hd : 0 < d)
    (hn : (divNumerator c).toInt = n) (hdn : ((divDenominator c).toNat : ℤ) = d) :
    ((divReal c : ℚ) : ℝ) = (n : ℝ) / (d : ℝ) := by
  unfold divReal
  have : ((divDenominator c).toNat : ℚ) = (d : ℚ) := by exact_mod_cast hdn
  rw [hn, this]; push_cast; rfl

/-- C63.  Every predefined constant except `DivCode_Pi_mul_2` decodes to the real number its name says
within `10^-8`. -/
theorem divCode_constants_partial :
    ((divReal divCodeHalf : ℚ) : ℝ) = 1 / 2 ∧
    |((divReal divCodePi : ℚ) : ℝ) - Real.pi| < 1 / 10 ^ 8 ∧
    |((divReal divCodePiMul3 : ℚ) : ℝ) - 3 * Real.pi| < 1 / 10 ^ 8 ∧
    |((divReal divCodePiMul4 : ℚ) : ℝ) - 4 * Real.pi| < 1 / 10 ^ 8 ∧
    |((divReal divCodePiMul6 : ℚ) : ℝ) - 6 * Real.pi| < 1 / 10 ^ 8 ∧
    |((divReal divCodePiDiv2 : ℚ) : ℝ) - Real.pi / 2| < 1 / 10 ^ 8 ∧
    |((divReal divCodePiDiv3 : ℚ) : ℝ) - Real.pi / 3| < 1 / 10 ^ 8 ∧
    |((divReal divCodePiDiv4 : ℚ) : ℝ) - Real.pi / 4| < 1 / 10 ^ 8 ∧
    |((divReal divCodePiDiv6 : ℚ) : ℝ) - Real.pi / 6| < 1 / 10 ^ 8 ∧
    |((divReal divCodeSqrt2 : ℚ) : ℝ) - Real.sqrt 2| < 1 / 10 ^ 8 ∧
    |((divReal divCodeOneDivSqrt2 : ℚ) : ℝ) - 1 / Real.sqrt 2| < 1 / 10 ^ 8 ∧
    |((divReal divCodeE : ℚ) : ℝ) - Real.exp 1| < 1 / 10 ^ 8 := by
  have p1 := Real.pi_gt_d20
  have p2 := Real.pi_lt_d20
  have e1 := Real.exp_one_gt_d9
  have e2 := Real.exp_one_lt_d9
  have s1 : Real.sqrt 2 < 1.41421356238 := by
    rw [Real.sqrt_lt' (by norm_num)]; norm_num
  have s2 : 1.41421356237 < Real.sqrt 2 := by
    apply Real.lt_sqrt_of_sq_lt; norm_num
  have s3 : 1 / Real.sqrt 2 = Real.sqrt 2 / 2 := by
    rw [div_eq_div_iff (by positivity) (by norm_num)]
    rw [Real.mul_self_sqrt (by norm_num)]; norm_num
  have q1 : divReal divCodeHalf = 1 / 2 := by decide +kernel
  have q2 : |divReal divCodePi - 3.14159265358979323846| < 1 / 10 ^ 9 := by decide +kernel
  have q3 : |divReal divCodePiMul3 - 3 * 3.14159265358979323846| < 1 / 10 ^ 9 := by decide +kernel
  have q4 : |divReal divCodePiMul4 - 4 * 3.14159265358979323846| < 1 / 10 ^ 9 := by decide +kernel
  have q5 : |divReal divCodePiMul6 - 6 * 3.14159265358979323846| < 1 / 10 ^ 9 := by decide +kernel
  have q6 : |divReal divCodePiDiv2 - 3.14159265358979323846 / 2| < 1 / 10 ^ 9 := by decide +kernel
  have q7 : |divReal divCodePiDiv3 - 3.14159265358979323846 / 3| < 1 / 10 ^ 9 := by decide +kernel
  have q8 : |divReal divCodePiDiv4 - 3.14159265358979323846 / 4| < 1 / 10 ^ 9 := by decide +kernel
  have q9 : |divReal divCodePiDiv6 - 3.14159265358979323846 / 6| < 1 / 10 ^ 9 := by decide +kernel
  have q10 : |divReal divCodeSqrt2 - 1.414213562375| < 1 / 10 ^ 9 := by decide +kernel
  have q11 : |divReal divCodeOneDivSqrt2 - 1.414213562375 / 2| < 1 / 10 ^ 9 := by decide +kernel
  have q12 : |divReal divCodeE - 2.7182818285| < 1 / 10 ^ 9 := by decide +kernel
  have up : ∀ {q : ℚ} {t r : ℚ}, |q - t| < r → |(q : ℝ) - (t : ℝ)| < (r : ℝ) := by
    intro q t r h; exact_mod_cast h
  have key : ∀ {q t : ℚ} {x : ℝ}, |q - t| < 1 / 10 ^ 9 → |(t : ℝ) - x| < 9 / 10 ^ 9 →
      |(q : ℝ) - x| < 1 / 10 ^ 8 := by
    intro q t x h1 h2
    have h1' := up h1
    push_cast at h1'
    rw [abs_lt] at h1' h2 ⊢
    constructor <;> norm_num at * <;> linarith [h1'.1, h1'.2, h2.1, h2.2]
  refine ⟨by rw [q1]; norm_num, key q2 ?_, key q3 ?_, key q4 ?_, key q5 ?_, key q6 ?_, key q7 ?_, key q8 ?_,
    key q9 ?_, key q10 ?_, key q11 ?_, key q12 ?_⟩
  all_goals
    try rw [s3]
    rw [abs_lt]
    constructor <;> norm_num at * <;> linarith

/-- C63, the missing part is false: `DivCode_Pi_mul_2` decodes to `2/π`, not to `2π`. -/
theorem divCode_Pi_mul_2_wrong :
    |((divReal divCodePiMul2 : ℚ) : ℝ) - 2 * Real.pi| > 5 ∧
    |((divReal divCodePiMul2 : ℚ) : ℝ) - 2 / Real.pi| < 1 / 10 ^ 8 := by
  have p1 := Real.pi_gt_d20
  have p2 := Real.pi_lt_d20
  have q : |divReal divCodePiMul2 - 0.63661977237| < 1 / 10 ^ 9 := by decide +kernel
  have q' : |((divReal divCodePiMul2 : ℚ) : ℝ) - ((0.63661977237 : ℚ) : ℝ)| < ((1 / 10 ^ 9 : ℚ) : ℝ) := by
    exact_mod_cast q
  push_cast at q'
  have hpi : 0.636619772367 < 2 / Real.pi ∧ 2 / Real.pi < 0.636619772368 := by
    constructor
    · rw [lt_div_iff₀ Real.pi_pos]; norm_num at *; linarith
    · rw [div_lt_iff₀ Real.pi_pos]; norm_num at *; linarith
  obtain ⟨h1, h2⟩ := hpi
  rw [abs_lt] at q'
  obtain ⟨h3, h4⟩ := q'
  constructor
  · rw [gt_iff_lt, lt_abs]; right; norm_num at *; linarith
  · rw [abs_lt]; constructor <;> norm_num at * <;> linarith

/-! ## C09: PowCode -/

theorem powAmplify_spec (f : Nat) : ∀ v j, 0 < v → v * 10 ^ j < 10 ^ 17 → powThreshold ≤ v * 10 ^ j → j ≤ f →
    powAmplify f v = .ok (v * 10 ^ j) := by
  induction f with
  | zero =>
    intro v j hv h1 h2 hj
    obtain rfl : j = 0 := by omega
    rw [powAmplify, if_neg (by omega), if_neg (by simpa using h2)]; simp
  | succ f ih =>
    intro v j hv h1 h2 hj
    rw [powAmplify, if_neg (by omega)]
    rcases j with _ | j
    · rw [if_neg (by simpa using h2)]; simp
    · have : v * 10 ≤ v * 10 ^ (j + 1) := Nat.mul_le_mul_left _ (by
        rw [pow_succ]; have : 0 < 10 ^ j := by positivity
        omega)
      rw [if_pos (by unfold powThreshold; omega)]
      have e : v * 10 ^ (j + 1) = 10 * v * 10 ^ j := by rw [pow_succ]; ring
      rw [e] at h1 h2 ⊢
      exact ih (10 * v) j (by omega) h1 h2 (by omega)

/-- the exponent `j` found by the amplifier -/
theorem exists_amp (v : Nat) (hv : 0 < v) (hv2 : v / 10 < powThreshold) :
    ∃ j, j ≤ 17 ∧ v * 10 ^ j < 10 ^ 17 ∧ powThreshold ≤ v * 10 ^ j := by
  have key : ∀ n v : Nat, 0 < v → v < 10 ^ 17 → 10 ^ 17 ≤ v * 10 ^ n →
      ∃ j, j ≤ n ∧ v * 10 ^ j < 10 ^ 17 ∧ powThreshold ≤ v * 10 ^ j := by
    intro n
    induction n with
    | zero => intro v h1 h2 h3; simp at h3; omega
    | succ n ih =>
      intro v h1 h2 h3
      by_cases hc : 10 ^ 17 ≤ v * 10
      · exact ⟨0, by omega, by simpa using h2, by unfold powThreshold; norm_num at *; omega⟩
      · obtain ⟨j, hj1, hj2, hj3⟩ := ih (v * 10) (by omega) (by omega) (by rw [pow_succ] at h3; rw [mul_assoc, mul_comm 10]; exact h3)
        refine ⟨j + 1, by omega, ?_, ?_⟩
        · rw [pow_succ, mul_comm (10 ^ j), ← mul_assoc]; exact hj2
        · rw [pow_succ, mul_comm (10 ^ j), ← mul_assoc]; exact hj3
  have h17 : v < 10 ^ 17 := by unfold powThreshold at hv2; norm_num; omega
  obtain ⟨j, h⟩ := key 17 v hv h17 (Nat.le_mul_of_pos_left _ hv)
  exact ⟨j, h⟩

theorem bitmask_ne_zero (pc : BitVec 64) (k : Nat) (hk : k < 64) :
    ((1#64 <<< k) &&& pc ≠ 0) ↔ pc.getLsbD k = true := by
  have e : (1#64 <<< k) &&& pc = if pc.getLsbD k then BitVec.twoPow 64 k else 0#64 := by
    rw [← BitVec.twoPow_eq, BitVec.and_comm, BitVec.and_twoPow]
  rw [e]
  cases h : pc.getLsbD k
  · simp
  · simp only [if_true, iff_true]
    intro hc
    have : (BitVec.twoPow 64 k).getLsbD k = (0#64).getLsbD k := by rw [hc]; rfl
    simp [hk] at this

/-- the 64-bit word assembled by `PowEncode` from the four fields -/
theorem powFields (neg pneg : Bool) (r : Nat) (q : BitVec 8) :
    let c : BitVec 64 := (((BitVec.ofBool neg).setWidth 64 <<< 63) ||| (BitVec.ofNat 64 r <<< 9)) |||
      (((BitVec.ofBool pneg).setWidth 64 <<< 8) ||| q.setWidth 64)
    powDecodeSig c = (if neg || r.testBit 54 then -((r % 2 ^ 54 : Nat) : Int) else ((r % 2 ^ 54 : Nat) : Int)) ∧
    powDecodePow c = (if pneg then -(q.toNat : Int) else (q.toNat : Int)) := by
  intro c
  obtain ⟨m, hm, hbit⟩ : ∃ m : BitVec 64, powUpperSigMask = m ∧
      ∀ i < 64, m.getLsbD i = decide (9 ≤ i ∧ i < 63) := ⟨_, rfl, by decide⟩
  obtain ⟨m', hm', hbit'⟩ : ∃ m : BitVec 64, (0xFF#64) = m ∧
      ∀ i < 64, m.getLsbD i = decide (i < 8) := ⟨_, rfl, by decide⟩
  have hbits : ∀ i < 64, c.getLsbD i = ((decide (i = 63) && neg) || (!decide (i < 9) && r.testBit (i - 9)) ||
      (decide (i = 8) && pneg) || q.getLsbD i) := by
    intro i hi
    simp only [c, BitVec.getLsbD_or, BitVec.getLsbD_shiftLeft, BitVec.getLsbD_setWidth, BitVec.getLsbD_ofNat,
      BitVec.getLsbD_ofBool, hi, decide_true, Bool.true_and]
    have e1 : (decide (i = 63)) = (!decide (i < 63) && decide (i - 63 = 0)) := by
      rw [Bool.eq_iff_iff]; simp; omega
    have e2 : ∀ b, (!decide (i < 9) && (decide (i - 9 < 64) && b)) = (!decide (i < 9) && b) := by
      intro b
      have : i - 9 < 64 := by omega
      simp [this]
    have e3 : i - 63 < 64 := by omega
    have e4 : i - 8 < 64 := by omega
    rw [e1, e2]
    simp only [e3, e4, decide_true, Bool.true_and]
    by_cases h8 : i = 8
    · subst h8
      cases pneg <;> simp
    · by_cases h8' : i < 8
      · have a1 : i < 63 := by omega
        simp [h8', h8, a1]
      · have : i - 8 ≠ 0 := by omega
        simp [h8, this]
        cases decide (i < 63) <;> cases decide (i - 63 = 0) <;> cases neg <;> simp
  have h1 : (c &&& powUpperSigMask) >>> 9 = (BitVec.ofNat 54 r).setWidth 64 := by
    rw [hm]
    apply BitVec.eq_of_getLsbD_eq
    intro i hi
    simp only [BitVec.getLsbD_ushiftRight, BitVec.getLsbD_and, BitVec.getLsbD_setWidth, BitVec.getLsbD_ofNat, hi]
    by_cases h : i < 54
    · have hq : q.getLsbD (9 + i) = false := BitVec.getLsbD_of_ge _ _ (by omega)
      rw [hbits _ (by omega), hbit _ (by omega), hq]
      have a1 : 9 + i ≠ 63 := by omega
      have a2 : ¬ 9 + i < 9 := by omega
      have a3 : 9 + i ≠ 8 := by omega
      have a4 : 9 + i - 9 = i := by omega
      have a5 : 9 + i < 63 := by omega
      simp [a1, a2, a3, a4, a5, h]
    · by_cases h2 : 9 + i < 64
      · rw [hbit _ h2]
        simp [h]; omega
      · rw [BitVec.getLsbD_of_ge m _ (by omega)]
        simp [h]
  have h2 : (0xFF#64 &&& c) = q.setWidth 64 := by
    rw [hm']
    apply BitVec.eq_of_getLsbD_eq
    intro i hi
    simp only [BitVec.getLsbD_and, BitVec.getLsbD_setWidth, hi, hbit' i hi, hbits i hi]
    by_cases h : i < 8
    · have a1 : i ≠ 63 := by omega
      have a2 : i < 9 := by omega
      have a3 : i ≠ 8 := by omega
      simp [h, a1, a2, a3]
    · rw [BitVec.getLsbD_of_ge q _ (by omega)]
      simp [h]
  have s1 : ((1#64 <<< 63) &&& c ≠ 0) ↔ (neg || r.testBit 54) = true := by
    rw [bitmask_ne_zero c 63 (by norm_num), hbits _ (by norm_num)]
    have hq : q.getLsbD 63 = false := BitVec.getLsbD_of_ge _ _ (by omega)
    simp [hq]
  have s2 : ((1#64 <<< 8) &&& c ≠ 0) ↔ pneg = true := by
    rw [bitmask_ne_zero c 8 (by norm_num), hbits _ (by norm_num)]
    have hq : q.getLsbD 8 = false := BitVec.getLsbD_of_ge _ _ (by omega)
    simp [hq]
  constructor
  · unfold powDecodeSig
    simp only [s1, h1]
    have : ((BitVec.ofNat 54 r).setWidth 64).toInt = ((r % 2 ^ 54 : Nat) : Int) := by
      rw [BitVec.toInt_eq_toNat_of_lt]
      · simp
        omega
      · simp
        omega
    rw [this]
    simp
  · unfold powDecodePow
    simp only [s2, h2]
    have : (q.setWidth 64).toInt = (q.toNat : Int) := by
      have := q.isLt
      rw [BitVec.toInt_eq_toNat_of_lt]
      · simp
        omega
      · simp
        omega
    rw [this]
    simp

/-- Scientific notation: `x` is the number written with the digits of `a`, the decimal point after the
first digit, times `10^p`; i.e. `x = μ·10^p` where `μ` is `a` shifted by a power of ten into `1 ≤ |μ| < 10`. -/
def SciValue (a p : ℤ) (x : ℚ) : Prop :=
  (a = 0 ∧ x = 0) ∨
  ∃ d : ℤ, 1 ≤ |(a : ℚ) * (10 : ℚ) ^ d| ∧ |(a : ℚ) * (10 : ℚ) ^ d| < 10 ∧
    x = ((a : ℚ) * (10 : ℚ) ^ d) * (10 : ℚ) ^ p

theorem powOneE_eq (p : ℤ) : powOneE p = (10 : ℚ) ^ p := by
  unfold powOneE
  split_ifs with h
  · obtain ⟨n, rfl⟩ := Int.eq_ofNat_of_zero_le (le_of_lt h)
    simp
  · obtain ⟨n, rfl⟩ := Int.exists_eq_neg_ofNat (not_lt.1 h)
    simp

/-- complete description of `PowDecode<PowEncode<a,p>>` -/
theorem powCode_general (a p : ℤ) (hp1 : -255 ≤ p) (hp2 : p ≤ 255) (j : Nat)
    (h0 : a ≠ 0) (h1 : powThreshold ≤ a.natAbs * 10 ^ j) (h2 : a.natAbs * 10 ^ j < 10 ^ 17) :
    ∃ c, powEncode a p = .ok (some c) ∧
      powReal c = (if decide (a < 0) || (a.natAbs * 10 ^ j).testBit 54 then -1 else 1) *
        ((a.natAbs * 10 ^ j % 2 ^ 54 : Nat) : ℚ) / 10 ^ 16 * (10 : ℚ) ^ p := by
  have hpos : 0 < a.natAbs := by omega
  have hle : a.natAbs ≤ a.natAbs * 10 ^ j := Nat.le_mul_of_pos_right _ (by positivity)
  have hj : j ≤ 17 := by
    by_contra hc
    have : 10 ^ 17 ≤ a.natAbs * 10 ^ j :=
      le_trans (Nat.pow_le_pow_right (by norm_num) (by omega)) (Nat.le_mul_of_pos_left _ hpos)
    omega
  unfold powEncode
  have hv : a.natAbs / 10 < powThreshold := by unfold powThreshold; norm_num at *; omega
  simp only [hv, hp1, hp2, decide_true, not_true_eq_false, if_false, Bool.not_true]
  rw [powAmplify_spec 17 a.natAbs j hpos h2 h1 hj]
  refine ⟨_, rfl, ?_⟩
  obtain ⟨f1, f2⟩ := powFields (decide (a < 0)) (decide (p < 0)) (a.natAbs * 10 ^ j) (BitVec.ofNat 8 p.natAbs)
  unfold powReal
  rw [f1, f2, powOneE_eq]
  have e : (if decide (p < 0) = true then -((BitVec.ofNat 8 p.natAbs).toNat : ℤ) else
      ((BitVec.ofNat 8 p.natAbs).toNat : ℤ)) = p := by
    have : (BitVec.ofNat 8 p.natAbs).toNat = p.natAbs := by
      rw [BitVec.toNat_ofNat, Nat.mod_eq_of_lt (by omega)]
    rw [this]
    by_cases hneg : p < 0
    · rw [if_pos (by simpa using hneg)]; omega
    · rw [if_neg (by simpa using hneg)]; omega
  rw [e]
  have et : ((powThreshold : ℕ) : ℚ) = 10 ^ 16 := by unfold powThreshold; norm_num
  rw [et]
  generalize a.natAbs * 10 ^ j % 2 ^ 54 = u
  split_ifs <;> push_cast <;> ring

theorem amp_abs (a : ℤ) (j : Nat) :
    |(a : ℚ) * (10 : ℚ) ^ ((j : ℤ) - 16)| = ((a.natAbs * 10 ^ j : Nat) : ℚ) / 10 ^ 16 := by
  rw [zpow_sub₀ (by norm_num), zpow_natCast, abs_mul]
  rw [abs_of_pos (a := (10 : ℚ) ^ j / 10 ^ (16 : ℤ)) (by positivity)]
  push_cast
  rw [Nat.cast_natAbs, mul_div_assoc]
  push_cast
  norm_cast

/-- C09, the provable part.  If the significand, shifted into `[1,10)`, is below
`2^54 / 10^16 = 1.8014398509481984`, the decoded number is exactly the number in scientific notation.
Missing: significands whose leading digits are 1.8014… or more; there the claim is false
(`powCode_large_significand_wrong`).  -/
theorem powCode_roundtrip_partial (a p : ℤ) (hp1 : -255 ≤ p) (hp2 : p ≤ 255)
    (ha : a.natAbs / 10 < 10 ^ 16)
    (hsmall : ∀ d : ℤ, |(a : ℚ) * (10 : ℚ) ^ d| < 10 → |(a : ℚ) * (10 : ℚ) ^ d| < 2 ^ 54 / 10 ^ 16) :
    ∃ c, powEncode a p = .ok (some c) ∧ SciValue a p (powReal c) := by
  by_cases h0 : a = 0
  · subst h0
    unfold powEncode
    have h3 : powThreshold > 0 := by unfold powThreshold; norm_num
    simp only [Int.natAbs_zero, Nat.zero_div, h3, hp1, hp2, decide_true, not_true_eq_false, if_false,
      Bool.not_true]
    have hamp : powAmplify 17 0 = .ok 0 := by rw [powAmplify]; simp
    rw [hamp]
    refine ⟨_, rfl, Or.inl ⟨rfl, ?_⟩⟩
    obtain ⟨f1, f2⟩ := powFields (decide ((0 : ℤ) < 0)) (decide (p < 0)) 0 (BitVec.ofNat 8 p.natAbs)
    unfold powReal
    rw [f1]
    simp
  · obtain ⟨j, hj, h1, h2⟩ := exists_amp a.natAbs (by omega) (by unfold powThreshold; norm_num at ha ⊢; omega)
    obtain ⟨c, hc, hv⟩ := powCode_general a p hp1 hp2 j h0 h2 h1
    have habs := amp_abs a j
    have h10 : |(a : ℚ) * (10 : ℚ) ^ ((j : ℤ) - 16)| < 10 := by
      rw [habs, div_lt_iff₀ (by positivity)]
      have : ((a.natAbs * 10 ^ j : Nat) : ℚ) < ((10 ^ 17 : Nat) : ℚ) := by exact_mod_cast h1
      push_cast at this ⊢
      norm_num at this ⊢; linarith
    have hs := hsmall _ h10
    have h54 : a.natAbs * 10 ^ j < 2 ^ 54 := by
      rw [habs, div_lt_div_iff_of_pos_right (by positivity)] at hs
      exact_mod_cast hs
    refine ⟨c, hc, Or.inr ⟨(j : ℤ) - 16, ?_, h10, ?_⟩⟩
    · rw [habs, le_div_iff₀ (by positivity)]
      have : ((powThreshold : Nat) : ℚ) ≤ ((a.natAbs * 10 ^ j : Nat) : ℚ) := by exact_mod_cast h2
      unfold powThreshold at this
      push_cast at this ⊢
      norm_num at this ⊢; linarith
    · rw [hv, Nat.mod_eq_of_lt h54, Nat.testBit_lt_two_pow h54, zpow_sub₀ (by norm_num), zpow_natCast]
      congr 1
      push_cast
      rw [Nat.cast_natAbs]
      push_cast
      rcases lt_or_gt_of_ne h0 with h | h
      · have : (a : ℚ) < 0 := by exact_mod_cast h
        rw [abs_of_neg this]
        have e : (10 : ℚ) ^ (16 : ℤ) = 10 ^ 16 := by norm_cast
        simp only [h, decide_true, Bool.true_or, if_true, e]; ring
      · have : 0 < (a : ℚ) := by exact_mod_cast h
        rw [abs_of_pos this]
        have e : (10 : ℚ) ^ (16 : ℤ) = 10 ^ 16 := by norm_cast
        simp only [not_lt.2 (le_of_lt h), decide_false, Bool.false_or, Bool.false_eq_true, if_false, e]; ring

/-- C09 is false for every other significand: if shifted into `[1,10)` it is at least
`1.8014398509481984`, the significand field overflows into the sign bit and beyond, and the decoded
number is never the encoded one. -/
theorem powCode_large_significand_wrong (a p : ℤ) (hp1 : -255 ≤ p) (hp2 : p ≤ 255)
    (d : ℤ) (hd1 : 2 ^ 54 / 10 ^ 16 ≤ |(a : ℚ) * (10 : ℚ) ^ d|) (hd2 : |(a : ℚ) * (10 : ℚ) ^ d| < 10)
    (ha : a.natAbs / 10 < 10 ^ 16) :
    ∃ c, powEncode a p = .ok (some c) ∧ ¬ SciValue a p (powReal c) := by
  have h0 : a ≠ 0 := by
    rintro rfl
    simp at hd1
    norm_num at hd1
  obtain ⟨j, hj, h1, h2⟩ := exists_amp a.natAbs (by omega) (by unfold powThreshold; norm_num at ha ⊢; omega)
  obtain ⟨c, hc, hv⟩ := powCode_general a p hp1 hp2 j h0 h2 h1
  refine ⟨c, hc, ?_⟩
  -- any exponent that normalises `a` has the same magnitude
  have huniq : ∀ e : ℤ, 1 ≤ |(a : ℚ) * (10 : ℚ) ^ e| → |(a : ℚ) * (10 : ℚ) ^ e| < 10 → e = d := by
    intro e he1 he2
    have hd1' : (1 : ℚ) ≤ |(a : ℚ) * (10 : ℚ) ^ d| := le_trans (by norm_num) hd1
    have hsplit : ∀ e : ℤ, |(a : ℚ) * (10 : ℚ) ^ e| = |(a : ℚ)| * (10 : ℚ) ^ e := by
      intro e; rw [abs_mul, abs_of_pos (a := (10 : ℚ) ^ e) (by positivity)]
    rw [hsplit] at *
    have hstep : ∀ u v : ℤ, u < v → |(a : ℚ)| * (10 : ℚ) ^ u * 10 ≤ |(a : ℚ)| * (10 : ℚ) ^ v := by
      intro u v huv
      rw [mul_assoc, ← zpow_add_one₀ (by norm_num)]
      exact mul_le_mul_of_nonneg_left (zpow_le_zpow_right₀ (by norm_num) (by omega)) (abs_nonneg _)
    rcases lt_trichotomy e d with h | h | h
    · have := hstep _ _ h; linarith
    · exact h
    · have := hstep _ _ h; linarith
  have habs := amp_abs a j
  have hjd : ((j : ℤ) - 16) = d := by
    apply huniq
    · rw [habs, le_div_iff₀ (by positivity)]
      have : ((powThreshold : Nat) : ℚ) ≤ ((a.natAbs * 10 ^ j : Nat) : ℚ) := by exact_mod_cast h2
      unfold powThreshold at this
      push_cast at this ⊢
      norm_num at this ⊢; linarith
    · rw [habs, div_lt_iff₀ (by positivity)]
      have : ((a.natAbs * 10 ^ j : Nat) : ℚ) < ((10 ^ 17 : Nat) : ℚ) := by exact_mod_cast h1
      push_cast at this ⊢
      norm_num at this ⊢; linarith
  rintro (⟨h, -⟩ | ⟨e, he1, he2, hx⟩)
  · exact h0 h
  · have hed := huniq e he1 he2
    subst hed
    have hmag : |powReal c| = ((a.natAbs * 10 ^ j % 2 ^ 54 : Nat) : ℚ) / 10 ^ 16 * (10 : ℚ) ^ p := by
      rw [hv]
      generalize a.natAbs * 10 ^ j % 2 ^ 54 = u
      rw [abs_mul, abs_div, abs_mul, abs_of_pos (a := (10 : ℚ) ^ p) (by positivity),
        abs_of_pos (a := (10 : ℚ) ^ 16) (by positivity), abs_of_nonneg (a := (u : ℚ)) (by positivity)]
      split_ifs <;> simp
    have hlt : ((a.natAbs * 10 ^ j % 2 ^ 54 : Nat) : ℚ) < 2 ^ 54 := by
      have : a.natAbs * 10 ^ j % 2 ^ 54 < 2 ^ 54 := Nat.mod_lt _ (by positivity)
      exact_mod_cast this
    have hx2 : |powReal c| = |(a : ℚ) * (10 : ℚ) ^ e| * (10 : ℚ) ^ p := by
      rw [hx, abs_mul, abs_of_pos (a := (10 : ℚ) ^ p) (by positivity)]
    rw [hmag] at hx2
    have hcancel := mul_right_cancel₀ (by positivity : (10 : ℚ) ^ p ≠ 0) hx2
    rw [← hcancel, div_le_div_iff_of_pos_right (by positivity)] at hd1
    linarith

-- non-vacuity: 1.7 is representable and goes through; 2 is not and comes back as -0.1985601490518016
example : (powEncode 17 0).satisfies (fun c => c.map powReal == some (17 / 10)) = true := by decide +kernel
example : (powEncode (-17) (-3)).satisfies (fun c => c.map powReal == some (-17 / 10000)) = true := by
  decide +kernel
example : (powEncode 2 0).satisfies (fun c => c.map powReal == some (-0.1985601490518016)) = true := by
  decide +kernel
example : ∀ d : ℤ, |((17 : ℤ) : ℚ) * (10 : ℚ) ^ d| < 10 → |((17 : ℤ) : ℚ) * (10 : ℚ) ^ d| < 2 ^ 54 / 10 ^ 16 := by
  intro d hd
  have h1 : d < 0 := by
    by_contra hc
    have : (10 : ℚ) ^ (0 : ℤ) ≤ (10 : ℚ) ^ d := zpow_le_zpow_right₀ (by norm_num) (not_lt.1 hc)
    rw [abs_of_pos (by positivity)] at hd
    rw [zpow_zero] at this
    push_cast at hd
    linarith
  have : (10 : ℚ) ^ d ≤ (10 : ℚ) ^ (-1 : ℤ) := zpow_le_zpow_right₀ (by norm_num) (by omega)
  rw [abs_of_pos (by positivity)]
  norm_num at this ⊢; linarith

/-! ## C10, C11: binCode64 / binCode32 -/

/-- C10, the provable part.  For every finite datum of the format given by sign, exponent field and
mantissa field, `encode` produces exactly its IEEE-754 bit pattern, except for negative zero and for
normal numbers whose mantissa bits are all ones.  (For those two the claim is false, see
`encode_allOnes_wrong` and `encode_negZero_wrong`.)  The datum is identified by the number the standard
assigns to the fields.  -/
theorem encode_ieee_partial (F : Fmt) (hF : F = binary64 ∨ F = binary32) (neg : Bool) (E M : Nat)
    (hE : E < 2 ^ F.eb - 1) (hM : M < 2 ^ F.mb)
    (hnot1 : ¬ (E ≠ 0 ∧ M = 2 ^ F.mb - 1)) (hnot2 : ¬ (neg = true ∧ E = 0 ∧ M = 0)) :
    (ieeeDatum F neg E M).number F = ieeeNumber F neg E M ∧
    binEncode F (ieeeDatum F neg E M) = .ok (ieeeCode F neg E M) := by
  have h : F.Good := by rcases hF with rfl | rfl; exacts [binary64_good, binary32_good]
  refine ⟨ieeeDatum_number h neg E M, ?_⟩
  rw [binEncode_finite h neg E M hE hM, if_neg hnot1]
  split_ifs with h0
  · obtain ⟨rfl, rfl⟩ := h0
    have : neg = false := by cases neg <;> simp_all
    subst this
    simp [ieeeCode]
  · rfl

/-- C10 fails for every normal number whose mantissa bits are all ones: the code produced is the one of
the next larger power of two (for the largest finite number: of infinity). -/
theorem encode_allOnes_wrong (F : Fmt) (hF : F = binary64 ∨ F = binary32) (neg : Bool) (E : Nat)
    (hE : E < 2 ^ F.eb - 1) (hE0 : E ≠ 0) :
    binEncode F (ieeeDatum F neg E (2 ^ F.mb - 1)) = .ok (ieeeCode F neg (E + 1) 0) ∧
    ieeeCode F neg (E + 1) 0 ≠ ieeeCode F neg E (2 ^ F.mb - 1) := by
  have h : F.Good := by rcases hF with rfl | rfl; exacts [binary64_good, binary32_good]
  have hp : 0 < 2 ^ F.mb := by positivity
  constructor
  · rw [binEncode_finite h neg E _ hE (by omega), if_neg (by omega), if_pos ⟨hE0, rfl⟩]
  · unfold ieeeCode
    rw [Nat.add_mul]
    omega

/-- C10 fails for negative zero: the code produced is the one of positive zero. -/
theorem encode_negZero_wrong (F : Fmt) (hF : F = binary64 ∨ F = binary32) :
    binEncode F (.fin true 0) = .ok (ieeeCode F false 0 0) ∧
    ieeeCode F false 0 0 ≠ ieeeCode F true 0 0 := by
  have h : F.Good := by rcases hF with rfl | rfl; exacts [binary64_good, binary32_good]
  have := binEncode_finite h true 0 0 (by have := h.pow_eb; have := h.wide; omega) (by positivity)
  constructor
  · simpa [ieeeDatum, ieeeCode] using this
  · unfold ieeeCode
    have : 0 < 2 ^ (F.eb + F.mb) := by positivity
    simp only [Bool.false_eq_true, if_false, if_true]
    omega

/-- Special values: infinities of `double` and the NaN code are right; `float` infinity is encoded with
the sign bit set. -/
theorem encode_special :
    binEncode binary64 (.inf false) = .ok (ieeeCode binary64 false 2047 0) ∧
    binEncode binary64 (.inf true) = .ok (ieeeCode binary64 true 2047 0) ∧
    binEncode binary64 .nan = .ok (ieeeCode binary64 false 2047 (2 ^ 51)) ∧
    binEncode binary32 (.inf true) = .ok (ieeeCode binary32 true 255 0) ∧
    binEncode binary32 .nan = .ok (ieeeCode binary32 false 255 (2 ^ 22)) ∧
    binEncode binary32 (.inf false) = .ok (ieeeCode binary32 true 255 0) := by
  decide +kernel

/-- C11 (decoder half).  `decode` of the bit pattern of any finite number is exactly that number, for
every pattern of either format. -/
theorem decode_ieee (F : Fmt) (hF : F = binary64 ∨ F = binary32) (neg : Bool) (E M : Nat)
    (hE : E < 2 ^ F.eb - 1) (hM : M < 2 ^ F.mb) :
    ∃ x, binDecode F (ieeeCode F neg E M) = .ok x ∧ x = ieeeDatum F neg E M ∧
      x.number F = ieeeNumber F neg E M := by
  have h : F.Good := by rcases hF with rfl | rfl; exacts [binary64_good, binary32_good]
  exact ⟨_, binDecode_finite h neg E M hE hM, rfl, ieeeDatum_number h neg E M⟩

/-- C11 (decoder half).  Patterns with all exponent bits set decode to the infinity of their sign or to
NaN. -/
theorem decode_special (F : Fmt) (hF : F = binary64 ∨ F = binary32) (neg : Bool) (M : Nat)
    (hM : M < 2 ^ F.mb) :
    binDecode F (ieeeCode F neg (2 ^ F.eb - 1) M) = .ok (if M = 0 then .inf neg else .nan) := by
  have h : F.Good := by rcases hF with rfl | rfl; exacts [binary64_good, binary32_good]
  exact binDecode_special h neg M hM

/-- Every code of the right width is one of those of `decode_ieee` and `decode_special`: decoding is
total, and it terminates without running out of the modelled iterations. -/
theorem decode_total (F : Fmt) (hF : F = binary64 ∨ F = binary32) (code : Nat) (hc : code < 2 ^ F.width) :
    ∃ x, binDecode F code = .ok x := by
  have h : F.Good := by rcases hF with rfl | rfl; exacts [binary64_good, binary32_good]
  have key : ∃ neg E M, E < 2 ^ F.eb ∧ M < 2 ^ F.mb ∧ code = ieeeCode F neg E M := by
    have hw : F.width = F.mb + F.eb + 1 := by unfold Fmt.width; omega
    have hq : code / 2 ^ F.mb < 2 * 2 ^ F.eb := by
      rw [Nat.div_lt_iff_lt_mul (by positivity)]
      calc code < 2 ^ F.width := hc
        _ = 2 * 2 ^ F.eb * 2 ^ F.mb := by rw [hw, pow_succ, pow_add]; ring
    refine ⟨decide (2 ^ F.eb ≤ code / 2 ^ F.mb), code / 2 ^ F.mb % 2 ^ F.eb, code % 2 ^ F.mb,
      Nat.mod_lt _ (by positivity), Nat.mod_lt _ (by positivity), ?_⟩
    have h1 := Nat.div_add_mod code (2 ^ F.mb)
    unfold ieeeCode
    by_cases hb : 2 ^ F.eb ≤ code / 2 ^ F.mb
    · simp only [hb, decide_true, if_true]
      have h2 : code / 2 ^ F.mb % 2 ^ F.eb = code / 2 ^ F.mb - 2 ^ F.eb := by
        rw [Nat.mod_eq_sub_mod hb, Nat.mod_eq_of_lt (by omega)]
      rw [h2, pow_add, ← Nat.add_mul, Nat.add_sub_cancel' hb, Nat.mul_comm]; omega
    · simp only [hb, decide_false, Bool.false_eq_true, if_false, Nat.zero_add]
      rw [Nat.mod_eq_of_lt (by omega), Nat.mul_comm]; omega
  obtain ⟨neg, E, M, hE, hM, rfl⟩ := key
  by_cases hE2 : E < 2 ^ F.eb - 1
  · exact ⟨_, binDecode_finite h neg E M hE2 hM⟩
  · obtain rfl : E = 2 ^ F.eb - 1 := by omega
    exact ⟨_, binDecode_special h neg M hM⟩

/-- C11, the provable part.  `decode (encode x) = x` for every finite number (of either sign, normal or
subnormal) other than negative zero and the normal numbers with an all-ones mantissa. -/
theorem decode_encode_partial (F : Fmt) (hF : F = binary64 ∨ F = binary32) (neg : Bool) (E M : Nat)
    (hE : E < 2 ^ F.eb - 1) (hM : M < 2 ^ F.mb)
    (hnot1 : ¬ (E ≠ 0 ∧ M = 2 ^ F.mb - 1)) (hnot2 : ¬ (neg = true ∧ E = 0 ∧ M = 0)) :
    (binEncode F (ieeeDatum F neg E M) >>= binDecode F) = .ok (ieeeDatum F neg E M) := by
  have h : F.Good := by rcases hF with rfl | rfl; exacts [binary64_good, binary32_good]
  rw [(encode_ieee_partial F hF neg E M hE hM hnot1 hnot2).2, Out.ok_bind, binDecode_finite h neg E M hE hM]

/-- C11 fails for an all-ones mantissa: the number comes back one unit in the last place larger; the
largest finite number comes back as infinity. -/
theorem decode_encode_allOnes_wrong (F : Fmt) (hF : F = binary64 ∨ F = binary32) (neg : Bool) (E : Nat)
    (hE : E < 2 ^ F.eb - 1) (hE0 : E ≠ 0) :
    (binEncode F (ieeeDatum F neg E (2 ^ F.mb - 1)) >>= binDecode F) =
      .ok (if E + 1 = 2 ^ F.eb - 1 then .inf neg else ieeeDatum F neg (E + 1) 0) := by
  have h : F.Good := by rcases hF with rfl | rfl; exacts [binary64_good, binary32_good]
  rw [(encode_allOnes_wrong F hF neg E hE hE0).1, Out.ok_bind]
  split_ifs with hc
  · rw [hc, binDecode_special h neg 0 (by positivity)]; simp
  · exact binDecode_finite h neg (E + 1) 0 (by omega) (by positivity)

-- non-vacuity: 3.0, the smallest subnormal and a negative normal number satisfy the hypotheses
example : binEncode binary64 (ieeeDatum binary64 false 1024 (2 ^ 51)) = .ok 0x4008000000000000 ∧
    ieeeNumber binary64 false 1024 (2 ^ 51) = 3 := by
  constructor
  · decide +kernel
  · unfold ieeeNumber binary64 Fmt.bias; norm_num
example : (binEncode binary32 (ieeeDatum binary32 true 0 1) >>= binDecode binary32) = .ok (.fin true 1) := by
  decide +kernel
-- and the largest `double` is encoded as infinity
example : binEncode binary64 (ieeeDatum binary64 false 2046 (2 ^ 52 - 1)) = .ok (2047 * 2 ^ 52) := by
  decide +kernel

end Heu
