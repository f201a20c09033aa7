import Verif.Model.Maths
import Mathlib.Tactic.Ring
import Mathlib.Tactic.NormNum
import Mathlib.Tactic.Linarith
import Mathlib.Data.Nat.Log

/-! # Rounding to 24 significant bits -/

namespace Heu

/-- a number with at most 24 significant bits -/
def Rep24 (n : Nat) : Prop := ∃ f s, f < 2 ^ 24 ∧ n = f * 2 ^ s

/-- The rounding decision, written out. -/
theorem roundF32_eq {q r s : Nat} (hq : 2 ^ 23 ≤ q) (hq' : q < 2 ^ 24) (hr : r < 2 ^ s) (hs : 1 ≤ s) :
    roundF32 (q * 2 ^ s + r) =
      if 2 * r < 2 ^ s then q * 2 ^ s
      else if 2 * r > 2 ^ s then (q + 1) * 2 ^ s
      else if q % 2 = 0 then q * 2 ^ s else (q + 1) * 2 ^ s := by
  have hlog : (q * 2 ^ s + r).log2 = 23 + s := by
    have h0 : q * 2 ^ s + r ≠ 0 := by positivity
    apply (Nat.log2_eq_iff h0).2
    constructor
    · rw [pow_add]
      nlinarith [Nat.mul_le_mul_right (2 ^ s) hq]
    · have : (q + 1) * 2 ^ s ≤ 2 ^ 24 * 2 ^ s := Nat.mul_le_mul_right _ hq'
      have e : 2 ^ (23 + s + 1) = 2 ^ 24 * 2 ^ s := by ring
      rw [e]; nlinarith
  have hdiv : (q * 2 ^ s + r) / 2 ^ s = q := by
    rw [mul_comm, Nat.mul_add_div (by positivity), Nat.div_eq_of_lt hr, Nat.add_zero]
  have hmod : (q * 2 ^ s + r) % 2 ^ s = r := by
    rw [mul_comm, Nat.mul_add_mod, Nat.mod_eq_of_lt hr]
  have hbig : ¬ q * 2 ^ s + r < 2 ^ 24 := by
    have h2 : 2 ^ 1 ≤ 2 ^ s := Nat.pow_le_pow_right (by norm_num) hs
    have := Nat.mul_le_mul hq h2
    norm_num at this ⊢; omega
  have e : 23 + s - 23 = s := by omega
  simp only [roundF32, hbig, if_false, hlog, e, hdiv, hmod]

theorem roundF32_small {n : Nat} (h : n < 2 ^ 24) : roundF32 n = n := by
  simp only [roundF32, h, if_true]

/-- decomposition of a large number -/
theorem big_decomp {n : Nat} (h : 2 ^ 24 ≤ n) :
    ∃ q r s, n = q * 2 ^ s + r ∧ 2 ^ 23 ≤ q ∧ q < 2 ^ 24 ∧ r < 2 ^ s ∧ 1 ≤ s := by
  have h0 : n ≠ 0 := by intro h0; subst h0; norm_num at h
  have hl : 24 ≤ n.log2 := (Nat.le_log2 h0).2 h
  obtain ⟨s, hs⟩ : ∃ s, n.log2 = 23 + s := ⟨n.log2 - 23, by omega⟩
  have hs1 : 1 ≤ s := by omega
  have hlo : 2 ^ (23 + s) ≤ n := by rw [← hs]; exact Nat.log2_self_le h0
  have hhi : n < 2 ^ (23 + s + 1) := by rw [← hs]; exact Nat.lt_log2_self
  refine ⟨n / 2 ^ s, n % 2 ^ s, s, (Nat.div_add_mod' n _).symm, ?_, ?_,
    Nat.mod_lt _ (by positivity), hs1⟩
  · rw [Nat.le_div_iff_mul_le (by positivity), ← pow_add]; exact hlo
  · rw [Nat.div_lt_iff_lt_mul (by positivity), ← pow_add]
    rw [show 24 + s = 23 + s + 1 by omega]; exact hhi

theorem roundF32_bounds {q r s : Nat} (hq : 2 ^ 23 ≤ q) (hq' : q < 2 ^ 24) (hr : r < 2 ^ s)
    (hs : 1 ≤ s) :
    q * 2 ^ s ≤ roundF32 (q * 2 ^ s + r) ∧ roundF32 (q * 2 ^ s + r) ≤ (q + 1) * 2 ^ s := by
  rw [roundF32_eq hq hq' hr hs]
  have : q * 2 ^ s ≤ (q + 1) * 2 ^ s := Nat.mul_le_mul_right _ (by omega)
  split
  · omega
  split
  · omega
  split <;> omega

theorem roundF32_mono {n n' : Nat} (h : n ≤ n') : roundF32 n ≤ roundF32 n' := by
  by_cases h' : n' < 2 ^ 24
  · rw [roundF32_small h', roundF32_small (by omega)]; exact h
  obtain ⟨q', r', s', e', hq1', hq2', hr', hs'⟩ := big_decomp (by omega : 2 ^ 24 ≤ n')
  have hb' := roundF32_bounds hq1' hq2' hr' hs'
  by_cases hn : n < 2 ^ 24
  · rw [roundF32_small hn]
    have h2 : 2 ^ 1 ≤ 2 ^ s' := Nat.pow_le_pow_right (by norm_num) hs'
    have := Nat.mul_le_mul hq1' h2
    rw [e']; norm_num at *; omega
  obtain ⟨q, r, s, e, hq1, hq2, hr, hs⟩ := big_decomp (by omega : 2 ^ 24 ≤ n)
  have hb := roundF32_bounds hq1 hq2 hr hs
  rw [← e] at hb; rw [← e'] at hb'
  rcases Nat.lt_trichotomy s s' with hlt | heq | hgt
  · have h1 : (q + 1) * 2 ^ s ≤ 2 ^ 24 * 2 ^ s := Nat.mul_le_mul_right _ hq2
    have h2 : 2 ^ 23 * 2 ^ (s + 1) ≤ q' * 2 ^ s' :=
      Nat.mul_le_mul hq1' (Nat.pow_le_pow_right (by norm_num) hlt)
    have h3 : 2 ^ 24 * 2 ^ s = 2 ^ 23 * 2 ^ (s + 1) := by ring
    omega
  · subst heq
    have hqq : q ≤ q' := by
      by_contra hc
      have : (q' + 1) * 2 ^ s ≤ q * 2 ^ s := Nat.mul_le_mul_right _ (by omega)
      have e3 : (q' + 1) * 2 ^ s = q' * 2 ^ s + 2 ^ s := by ring
      omega
    rcases Nat.lt_or_eq_of_le hqq with hl | hl
    · have : (q + 1) * 2 ^ s ≤ q' * 2 ^ s := Nat.mul_le_mul_right _ hl
      omega
    · subst hl
      have hrr : r ≤ r' := by omega
      rw [e, e', roundF32_eq hq1 hq2 hr hs, roundF32_eq hq1 hq2 hr' hs]
      have : q * 2 ^ s ≤ (q + 1) * 2 ^ s := Nat.mul_le_mul_right _ (by omega)
      split_ifs <;> omega
  · exfalso
    have h1 : (q' + 1) * 2 ^ s' ≤ 2 ^ 24 * 2 ^ s' := Nat.mul_le_mul_right _ hq2'
    have h2 : 2 ^ 23 * 2 ^ (s' + 1) ≤ q * 2 ^ s :=
      Nat.mul_le_mul hq1 (Nat.pow_le_pow_right (by norm_num) hgt)
    have h3 : 2 ^ 24 * 2 ^ s' = 2 ^ 23 * 2 ^ (s' + 1) := by ring
    have e3 : (q' + 1) * 2 ^ s' = q' * 2 ^ s' + 2 ^ s' := by ring
    omega

/-- scaling by a power of two commutes with rounding -/
theorem roundF32_scale (n e : Nat) : roundF32 (n * 2 ^ e) = roundF32 n * 2 ^ e := by
  induction e with
  | zero => simp
  | succ e ih =>
    rw [pow_succ, ← mul_assoc, ← mul_assoc, ← ih]
    generalize n * 2 ^ e = m
    by_cases hm : m < 2 ^ 24
    · rw [roundF32_small hm]
      by_cases hm2 : m * 2 < 2 ^ 24
      · rw [roundF32_small hm2]
      · have := roundF32_eq (q := m) (r := 0) (s := 1) (by omega) hm (by norm_num) le_rfl
        simpa using this
    · obtain ⟨q, r, s, e, hq1, hq2, hr, hs⟩ := big_decomp (by omega : 2 ^ 24 ≤ m)
      rw [e, roundF32_eq hq1 hq2 hr hs]
      have e2 : (q * 2 ^ s + r) * 2 = q * 2 ^ (s + 1) + 2 * r := by ring
      have e4 : 2 ^ (s + 1) = 2 * 2 ^ s := by ring
      rw [e2, roundF32_eq hq1 hq2 (by omega) (by omega)]
      have h1 : (2 * (2 * r) < 2 ^ (s + 1)) ↔ (2 * r < 2 ^ s) := by omega
      have h2 : (2 * (2 * r) > 2 ^ (s + 1)) ↔ (2 * r > 2 ^ s) := by omega
      simp only [h1, h2]
      split_ifs <;> ring

theorem roundF32_rep {n : Nat} (h : Rep24 n) : roundF32 n = n := by
  obtain ⟨f, s, hf, rfl⟩ := h
  rw [roundF32_scale, roundF32_small hf]

theorem rep_roundF32 (n : Nat) : Rep24 (roundF32 n) := by
  by_cases h : n < 2 ^ 24
  · rw [roundF32_small h]; exact ⟨n, 0, h, by simp⟩
  obtain ⟨q, r, s, e, hq1, hq2, hr, hs⟩ := big_decomp (by omega : 2 ^ 24 ≤ n)
  have key : Rep24 (q * 2 ^ s) ∧ Rep24 ((q + 1) * 2 ^ s) := by
    refine ⟨⟨q, s, hq2, rfl⟩, ?_⟩
    by_cases hc : q + 1 < 2 ^ 24
    · exact ⟨_, s, hc, rfl⟩
    · refine ⟨2 ^ 23, s + 1, by norm_num, ?_⟩
      have : q + 1 = 2 ^ 24 := by omega
      rw [this]; ring
  rw [e, roundF32_eq hq1 hq2 hr hs]
  split
  · exact key.1
  split
  · exact key.2
  split
  · exact key.1
  · exact key.2

/-- normalised form of a positive representable number -/
theorem Rep24.normal {n : Nat} (h : Rep24 n) (h0 : n ≠ 0) :
    ∃ f e d, 2 ^ 23 ≤ f ∧ f < 2 ^ 24 ∧ n * 2 ^ d = f * 2 ^ e ∧ (n < 2 ^ 24 ∨ d = 0) := by
  obtain ⟨g, s, hg, rfl⟩ := h
  have hg0 : g ≠ 0 := by rintro rfl; simp at h0
  have hl : g.log2 ≤ 23 := by
    have := (Nat.log2_lt hg0).2 hg; omega
  have h1 := Nat.log2_self_le hg0
  have h2 := @Nat.lt_log2_self g
  obtain ⟨c, hc⟩ : ∃ c, g.log2 + c = 23 := ⟨23 - g.log2, by omega⟩
  have hf1 : 2 ^ 23 ≤ g * 2 ^ c := by
    rw [← hc, pow_add]; exact Nat.mul_le_mul_right _ h1
  have hf2 : g * 2 ^ c < 2 ^ 24 := by
    have : 2 ^ 24 = 2 ^ (g.log2 + 1) * 2 ^ c := by rw [← pow_add]; congr 1; omega
    rw [this]; exact Nat.mul_lt_mul_of_pos_right h2 (by positivity)
  by_cases hcs : c ≤ s
  · obtain ⟨k, rfl⟩ := Nat.exists_eq_add_of_le hcs
    exact ⟨g * 2 ^ c, k, 0, hf1, hf2, by ring, Or.inr rfl⟩
  · refine ⟨g * 2 ^ c, s, c, hf1, hf2, by ring, Or.inl ?_⟩
    refine lt_of_le_of_lt (Nat.mul_le_mul_left g (Nat.pow_le_pow_right (by norm_num) (by omega))) hf2

/-- a representable number below `2^t` is at most `(2^24-1)*2^(t-24)` -/
theorem Rep24.le_max {m t : Nat} (h : Rep24 m) (ht : 24 ≤ t) (hm : m < 2 ^ t) :
    m ≤ (2 ^ 24 - 1) * 2 ^ (t - 24) := by
  obtain ⟨c, rfl⟩ := Nat.exists_eq_add_of_le ht
  have e : 24 + c - 24 = c := by omega
  rw [e]
  obtain ⟨f, s, hf, rfl⟩ := h
  by_cases hs : s ≤ c
  · exact Nat.mul_le_mul (by omega) (Nat.pow_le_pow_right (by norm_num) hs)
  · obtain ⟨d, hd⟩ := Nat.exists_eq_add_of_le (by omega : c ≤ s)
    rw [hd, pow_add, ← mul_assoc, mul_right_comm]
    rw [hd, pow_add, ← mul_assoc, mul_right_comm, pow_add] at hm
    refine Nat.mul_le_mul_right _ ?_
    have := Nat.lt_of_mul_lt_mul_right hm
    omega

/-- The largest draw times a normalised significand rounds below the significand. -/
theorem round_max_mul {f : Nat} (h1 : 2 ^ 23 ≤ f) (h2 : f < 2 ^ 24) :
    ∃ B, roundF32 ((2 ^ 24 - 1) * f) ≤ 2 ^ 24 * f - B ∧ 0 < B ∧ B ≤ 2 ^ 24 * f ∧
      (B = 2 ^ 24 ∨ (f = 2 ^ 23 ∧ B = 2 ^ 23)) := by
  rcases Nat.lt_or_eq_of_le h1 with h | h
  · have e : (2 ^ 24 - 1) * f = (f - 1) * 2 ^ 24 + (2 ^ 24 - f) := by
      norm_num; omega
    refine ⟨2 ^ 24, ?_, by norm_num, by norm_num; omega, Or.inl rfl⟩
    rw [e, roundF32_eq (by omega) (by omega) (by omega) (by norm_num)]
    rw [if_pos (by norm_num; omega)]
    norm_num; omega
  · refine ⟨2 ^ 23, ?_, by norm_num, by norm_num; omega, Or.inr ⟨h.symm, rfl⟩⟩
    rw [← h, roundF32_scale, roundF32_small (by norm_num)]; norm_num

/-- a number rounds to within half a unit of the *smaller* neighbour gap -/
theorem round_err {n f s : Nat} (hf1 : 2 ^ 23 ≤ f) (hf2 : f < 2 ^ 24) (hs : 1 ≤ s)
    (h : roundF32 n = f * 2 ^ s) : f * 2 ^ s < n + 2 ^ s ∧ 2 * (f * 2 ^ s) ≤ 2 * n + 2 ^ s ∧
      (f = 2 ^ 23 → 4 * (f * 2 ^ s) ≤ 4 * n + 2 ^ s) := by
  have hbig : 2 ^ 24 ≤ f * 2 ^ s := by
    have h2 : 2 ^ 1 ≤ 2 ^ s := Nat.pow_le_pow_right (by norm_num) hs
    have := Nat.mul_le_mul hf1 h2; norm_num at *; omega
  have hpos : 0 < 2 ^ s := by positivity
  by_cases hn : n < 2 ^ 24
  · rw [roundF32_small hn] at h; omega
  obtain ⟨q, r, s', e, hq1, hq2, hr, hs'⟩ := big_decomp (by omega : 2 ^ 24 ≤ n)
  have hround := roundF32_eq hq1 hq2 hr hs'
  rw [← e, h] at hround
  have hpos' : 0 < 2 ^ s' := by positivity
  -- either the result is q*2^s' ≤ n or (q+1)*2^s' with 2r ≥ 2^s'
  have hcase : f * 2 ^ s ≤ n ∨ (f * 2 ^ s = (q + 1) * 2 ^ s' ∧ 2 ^ s' ≤ 2 * r) := by
    split_ifs at hround <;> first | (left; omega) | (right; omega)
  rcases hcase with hle | ⟨heq, hr2⟩
  · omega
  · have e3 : (q + 1) * 2 ^ s' = q * 2 ^ s' + 2 ^ s' := by ring
    -- s' ≤ s
    have hss : s' ≤ s := by
      by_contra hc
      have h1 : (f + 1) * 2 ^ s ≤ 2 ^ 24 * 2 ^ s := Nat.mul_le_mul_right _ hf2
      have h2 : 2 ^ 23 * 2 ^ (s + 1) ≤ q * 2 ^ s' :=
        Nat.mul_le_mul hq1 (Nat.pow_le_pow_right (by norm_num) (by omega))
      have h3 : 2 ^ 24 * 2 ^ s = 2 ^ 23 * 2 ^ (s + 1) := by ring
      have e4 : (f + 1) * 2 ^ s = f * 2 ^ s + 2 ^ s := by ring
      omega
    have hpow : 2 ^ s' ≤ 2 ^ s := Nat.pow_le_pow_right (by norm_num) hss
    refine ⟨by omega, by omega, ?_⟩
    intro hf
    -- f = 2^23: then s' < s
    have hlt : s' < s := by
      by_contra hc
      have : s = s' := by omega
      subst this
      have := Nat.eq_of_mul_eq_mul_right hpos heq
      omega
    have : 2 ^ (s' + 1) ≤ 2 ^ s := Nat.pow_le_pow_right (by norm_num) hlt
    rw [pow_succ] at this
    omega

/-- `randIdx` never reaches its argument. -/
theorem randIdxF32_lt {t m size : Nat} (ht : 24 ≤ t) (hm : m < 2 ^ t) (hrep : Rep24 m)
    (hs : 1 ≤ size) : randIdxF32 t m size < size := by
  unfold randIdxF32
  rw [Nat.div_lt_iff_lt_mul (by positivity)]
  obtain ⟨c, rfl⟩ := Nat.exists_eq_add_of_le ht
  have hmax := hrep.le_max ht hm
  rw [show 24 + c - 24 = c by omega] at hmax
  have hS0 : roundF32 size ≠ 0 := by
    have := roundF32_mono hs
    rw [roundF32_small (by norm_num : 1 < 2 ^ 24)] at this; omega
  obtain ⟨f, e, d, hf1, hf2, hfe, hd⟩ := (rep_roundF32 size).normal hS0
  have hmul : m * roundF32 size * 2 ^ d ≤ (2 ^ 24 - 1) * f * 2 ^ (c + e) := by
    calc m * roundF32 size * 2 ^ d = m * (f * 2 ^ e) := by rw [mul_assoc, hfe]
      _ ≤ (2 ^ 24 - 1) * 2 ^ c * (f * 2 ^ e) := Nat.mul_le_mul_right _ hmax
      _ = _ := by rw [pow_add]; ring
  obtain ⟨B, hB, hB0, hBle, hBcase⟩ := round_max_mul hf1 hf2
  have hround : roundF32 (m * roundF32 size) * 2 ^ d ≤ (2 ^ 24 * f - B) * 2 ^ (c + e) := by
    rw [← roundF32_scale]
    refine (roundF32_mono hmul).trans ?_
    rw [roundF32_scale]
    exact Nat.mul_le_mul_right _ hB
  have hsub : (2 ^ 24 * f - B) * 2 ^ (c + e) + B * 2 ^ (c + e) = 2 ^ (24 + c) * (f * 2 ^ e) := by
    rw [← add_mul, Nat.sub_add_cancel hBle]
    rw [pow_add, pow_add]; ring
  have hpos : 0 < B * 2 ^ (c + e) := by positivity
  have hexact : size < 2 ^ 24 → roundF32 (m * roundF32 size) < size * 2 ^ (24 + c) := by
    intro hlt
    have hsz := roundF32_small hlt
    have : roundF32 (m * roundF32 size) * 2 ^ d < size * 2 ^ (24 + c) * 2 ^ d := by
      rw [hsz] at hfe
      have e5 : size * 2 ^ (24 + c) * 2 ^ d = 2 ^ (24 + c) * (f * 2 ^ e) := by rw [← hfe]; ring
      omega
    exact Nat.lt_of_mul_lt_mul_right this
  have hbigsize : ¬ size < 2 ^ 24 → 2 ^ 24 ≤ roundF32 size := by
    intro h
    have := roundF32_mono (by omega : 2 ^ 24 ≤ size)
    rwa [show roundF32 (2 ^ 24) = 2 ^ 24 from roundF32_rep ⟨1, 24, by norm_num, by norm_num⟩] at this
  by_cases hlt : size < 2 ^ 24
  · exact hexact hlt
  have hd0 : d = 0 := by
    have := hbigsize hlt; omega
  subst hd0
  simp only [pow_zero, mul_one] at hround hfe
  have he : 1 ≤ e := by
    by_contra hc
    have : e = 0 := by omega
    subst this
    have := hbigsize hlt
    simp only [pow_zero, mul_one] at hfe
    omega
  have herr := round_err hf1 hf2 he hfe
  refine lt_of_le_of_lt hround ?_
  rcases hBcase with hB' | ⟨hf, hB'⟩
  · subst hB'
    have := Nat.mul_le_mul_left (2 ^ (24 + c)) herr.2.1
    rw [mul_add] at this
    have e6 : 2 ^ 24 * 2 ^ (c + e) = 2 ^ (24 + c) * 2 ^ e := by rw [pow_add, pow_add]; ring
    have e7 : 2 ^ (24 + c) * (2 * (f * 2 ^ e)) = 2 * (2 ^ (24 + c) * (f * 2 ^ e)) := by ring
    have e8 : 2 ^ (24 + c) * (2 * size) = 2 * (size * 2 ^ (24 + c)) := by ring
    omega
  · have h4 := herr.2.2 hf
    subst hB'
    have e6 : 2 ^ 23 * 2 ^ (c + e) * 2 = 2 ^ (24 + c) * 2 ^ e := by rw [pow_add, pow_add]; ring
    have := Nat.mul_le_mul_left (2 ^ (24 + c)) h4
    rw [mul_add] at this
    have e7 : 2 ^ (24 + c) * (4 * (f * 2 ^ e)) = 4 * (2 ^ (24 + c) * (f * 2 ^ e)) := by ring
    have e8 : 2 ^ (24 + c) * (4 * size) = 4 * (size * 2 ^ (24 + c)) := by ring
    omega

/-- every index can be drawn when the size is at most `2^23` -/
theorem randIdxF32_reach {size i : Nat} (hs : size ≤ 2 ^ 23) (hi : i < size) :
    ∃ m, m < 2 ^ 24 ∧ randIdxF32 24 m size = i := by
  refine ⟨(i * 2 ^ 24 + (size - 1)) / size, ?_, ?_⟩
  · rw [Nat.div_lt_iff_lt_mul (by omega)]
    have : (i + 1) * 2 ^ 24 ≤ size * 2 ^ 24 := Nat.mul_le_mul_right _ hi
    rw [mul_comm size] at this
    norm_num at *; omega
  · generalize hm : (i * 2 ^ 24 + (size - 1)) / size = m
    have h1 : i * 2 ^ 24 ≤ m * size := by
      have := Nat.div_add_mod (i * 2 ^ 24 + (size - 1)) size
      have h2 := Nat.mod_lt (i * 2 ^ 24 + (size - 1)) (by omega : 0 < size)
      rw [hm, mul_comm] at this; omega
    have h2 : m * size ≤ i * 2 ^ 24 + (size - 1) := by
      rw [← hm]; exact Nat.div_mul_le_self _ _
    unfold randIdxF32
    rw [roundF32_small (n := size) (by norm_num at *; omega)]
    have h3 := roundF32_mono h1
    rw [roundF32_rep ⟨i, 24, by norm_num at *; omega, rfl⟩] at h3
    have h4 := roundF32_mono (show m * size ≤ (2 * i + 1) * 2 ^ 23 by norm_num at *; omega)
    rw [roundF32_rep ⟨2 * i + 1, 23, by norm_num at *; omega, rfl⟩] at h4
    norm_num at *; omega

end Heu
