import Verif.Spec.IEEE
import Mathlib.Tactic.Ring
import Mathlib.Tactic.NormNum
import Mathlib.Tactic.Linarith
import Mathlib.Tactic.FieldSimp
import Mathlib.Data.Nat.Bitwise
import Mathlib.Data.Nat.Log

set_option linter.unusedSimpArgs false
set_option linter.unusedVariables false

namespace Heu

/-! ## Rounding -/

theorem rndHE_exact (q b : Nat) (hb : 0 < b) : rndHE (q * b) b = q := by
  unfold rndHE
  simp [Nat.mul_div_cancel _ hb, hb]

theorem rndUnits_exact (mb m k b : Nat) (hm : m < 2 ^ (mb + 1)) (hb : 0 < b) :
    rndUnits mb (m * 2 ^ k * b) b = m * 2 ^ k := by
  unfold rndUnits
  simp only [Nat.mul_div_cancel _ hb]
  have hs : Nat.log2 (m * 2 ^ k) - mb ≤ k := by
    rcases Nat.eq_zero_or_pos m with h0 | h0
    · subst h0; simp
    · have : Nat.log2 (m * 2 ^ k) < mb + 1 + k := by
        rw [Nat.log2_lt (by positivity), pow_add]
        exact Nat.mul_lt_mul_of_pos_right hm (by positivity)
      omega
  obtain ⟨s, hs'⟩ : ∃ s, s = Nat.log2 (m * 2 ^ k) - mb := ⟨_, rfl⟩
  rw [← hs'] at hs ⊢
  obtain ⟨t, rfl⟩ := Nat.exists_eq_add_of_le hs
  have : m * 2 ^ (s + t) * b = (m * 2 ^ t) * (b * 2 ^ s) := by rw [pow_add]; ring
  rw [this, rndHE_exact _ _ (by positivity), pow_add]; ring

theorem rndUnits_exact1 (mb m k : Nat) (hm : m < 2 ^ (mb + 1)) :
    rndUnits mb (m * 2 ^ k) 1 = m * 2 ^ k := by
  have := rndUnits_exact mb m k 1 hm one_pos
  simpa using this

section
variable {F : Fmt}

theorem mk_ok {s n} (h : n < 2 ^ F.top) : Fl.mk F s n = .fin s n := by
  unfold Fl.mk; rw [if_neg (by omega)]

/-- exact multiplication by a power of two constant -/
theorem mul_pow {s : Bool} {m k c j: Nat} (hm : m < 2 ^ (F.mb + 1)) (hc : c = 2 ^ j)
    (hov : m * 2 ^ (k + j) < 2 ^ F.top) :
    Fl.mul F (.fin s (m * 2 ^ k)) (.ofNat F c) = .fin s (m * 2 ^ (k + j)) := by
  subst hc
  unfold Fl.ofNat
  simp only [Fl.mul, Bool.xor_false]
  have : m * 2 ^ k * (2 ^ j * 2 ^ F.one) = m * 2 ^ (k + j) * 2 ^ F.one := by rw [pow_add]; ring
  rw [this, rndUnits_exact _ _ _ _ hm (by positivity), mk_ok hov]

/-- exact multiplication by a power of two given in units -/
theorem mul_units {s : Bool} {m k a j: Nat} (hm : m < 2 ^ (F.mb + 1)) (ha : k + a = F.one + j)
    (hov : m * 2 ^ j < 2 ^ F.top) :
    Fl.mul F (.fin s (m * 2 ^ k)) (.fin false (2 ^ a)) = .fin s (m * 2 ^ j) := by
  simp only [Fl.mul, Bool.xor_false]
  have : m * 2 ^ k * 2 ^ a = m * 2 ^ j * 2 ^ F.one := by
    rw [mul_assoc, ← pow_add, ha, pow_add]; ring
  rw [this, rndUnits_exact _ _ _ _ hm (by positivity), mk_ok hov]

/-- exact division by a power of two constant -/
theorem div_pow {s : Bool} {m k c j: Nat} (hm : m < 2 ^ (F.mb + 1)) (hc : c = 2 ^ j)
    (hov : m * 2 ^ k < 2 ^ F.top) :
    Fl.div F (.fin s (m * 2 ^ (k + j))) (.ofNat F c) = .fin s (m * 2 ^ k) := by
  subst hc
  unfold Fl.ofNat
  simp only [Fl.div, Bool.xor_false]
  rw [if_neg (by positivity)]
  have : m * 2 ^ (k + j) * 2 ^ F.one = m * 2 ^ k * (2 ^ j * 2 ^ F.one) := by rw [pow_add]; ring
  rw [this, rndUnits_exact _ _ _ _ hm (by positivity), mk_ok hov]

theorem div_units {s : Bool} {m k a j: Nat} (hm : m < 2 ^ (F.mb + 1)) (ha : k + F.one = a + j)
    (hov : m * 2 ^ j < 2 ^ F.top) :
    Fl.div F (.fin s (m * 2 ^ k)) (.fin false (2 ^ a)) = .fin s (m * 2 ^ j) := by
  simp only [Fl.div, Bool.xor_false]
  rw [if_neg (by positivity)]
  have : m * 2 ^ k * 2 ^ F.one = m * 2 ^ j * 2 ^ a := by
    rw [mul_assoc, ← pow_add, ha, pow_add]; ring
  rw [this, rndUnits_exact _ _ _ _ hm (by positivity), mk_ok hov]

/-- exact addition of non-negative data -/
theorem add_pos {n1 n2 m k : Nat} (hm : m < 2 ^ (F.mb + 1)) (h : n1 + n2 = m * 2 ^ k)
    (hov : m * 2 ^ k < 2 ^ F.top) :
    Fl.add F (.fin false n1) (.fin false n2) = .fin false (m * 2 ^ k) := by
  simp only [Fl.add, Fl.units]
  by_cases h0 : n1 + n2 = 0
  · have : n1 = 0 ∧ n2 = 0 := by omega
    rw [← h, h0]; simp [this]
  · have e : ((n1 : Int) + (n2 : Int)).natAbs = m * 2 ^ k := by omega
    simp only [Bool.false_eq_true, if_false]
    rw [if_neg (by omega), e, rndUnits_exact1 _ _ _ hm, mk_ok hov]
    congr 1

/-- exact subtraction of non-negative data, non-negative result -/
theorem sub_pos {n1 n2 m k : Nat} (hm : m < 2 ^ (F.mb + 1)) (h : n1 = m * 2 ^ k + n2)
    (hov : m * 2 ^ k < 2 ^ F.top) :
    Fl.sub F (.fin false n1) (.fin false n2) = .fin false (m * 2 ^ k) := by
  simp only [Fl.sub, Fl.neg, Fl.add, Fl.units]
  by_cases h0 : m * 2 ^ k = 0
  · rw [h0] at h ⊢; simp [h]
  · have e : ((n1 : Int) + -(n2 : Int)).natAbs = m * 2 ^ k := by omega
    simp only [Bool.false_eq_true, if_false, Bool.not_false, if_true]
    rw [if_neg (by omega), e, rndUnits_exact1 _ _ _ hm, mk_ok hov]
    congr 1; simp; omega

/-! ## Formats -/

/-- The conditions on the format used by the proofs; both library formats satisfy them. -/
structure Fmt.Good (F : Fmt) : Prop where
  mb9 : 9 ≤ F.mb
  mb52 : F.mb ≤ 52
  eb : 4 ≤ F.eb
  wide : F.mb + 2 ≤ F.bias

theorem binary64_good : binary64.Good := ⟨by decide, by decide, by decide, by decide⟩
theorem binary32_good : binary32.Good := ⟨by decide, by decide, by decide, by decide⟩

theorem Fmt.Good.pow_eb (h : F.Good) : 2 ^ F.eb = 2 * F.bias + 2 := by
  have : F.eb = (F.eb - 1) + 1 := by have := h.eb; omega
  have h2 : 1 ≤ 2 ^ (F.eb - 1) := Nat.one_le_two_pow
  unfold Fmt.bias
  rw [this, pow_succ]
  simp; omega

theorem Fmt.Good.top_eq (h : F.Good) : F.top = F.mb + 2 * F.bias := by
  unfold Fmt.top
  have := h.pow_eb; have := h.mb9; have := h.wide
  omega

theorem Fmt.Good.one_eq (h : F.Good) : F.one + 1 = F.bias + F.mb := by
  unfold Fmt.one
  have := h.mb9; have := h.wide
  omega

theorem lt_top (h : F.Good) {m k : Nat} (hm : m < 2 ^ (F.mb + 1)) (hk : k + 1 ≤ 2 * F.bias) :
    m * 2 ^ k < 2 ^ F.top := by
  have h1 : m * 2 ^ k < 2 ^ (F.mb + 1) * 2 ^ k := Nat.mul_lt_mul_of_pos_right hm (by positivity)
  rw [← pow_add] at h1
  refine lt_of_lt_of_le h1 (Nat.pow_le_pow_right (by norm_num) ?_)
  rw [h.top_eq]; omega

/-! ## Powers of two -/

theorem loop_up1024 (h : F.Good) (f : Nat) : ∀ (a N : Nat), N ≤ f → a + N < F.top →
    ∃ a' N', loopN (fun (s : Fl × Int) =>
    .ok (if 11 < s.2 then some (s.1.mul F (.ofNat F 1024), s.2 - 10) else none)) f
      (.fin false (2 ^ a), (N : Int)) = .ok (.fin false (2 ^ a'), ((N' : Nat) : Int)) ∧ a' + N' = a + N ∧ N' ≤ N := by
  induction f with
  | zero =>
    intro a N hN ha
    obtain rfl : N = 0 := by omega
    exact ⟨a, 0, by simp [loopN], rfl, le_rfl⟩
  | succ f ih =>
    intro a N hN ha
    by_cases hc : 11 < N
    · have e : Fl.mul F (.fin false (2 ^ a)) (.ofNat F 1024) = .fin false (2 ^ (a + 10)) := by
        have := mul_pow (F := F) (s := false) (m := 1) (k := a) (c := 1024) (j := 10)
          (Nat.one_lt_two_pow (by omega)) (by norm_num)
          (by rw [one_mul]; exact Nat.pow_lt_pow_right (by norm_num) (by omega))
        simpa using this
      obtain ⟨a', N', h1, h2, h3⟩ := ih (a + 10) (N - 10) (by omega) (by omega)
      refine ⟨a', N', ?_, by omega, by omega⟩
      rw [loopN]
      simp only [e]
      rw [if_pos (by omega)]
      have : ((N : Int) - 10) = ((N - 10 : Nat) : Int) := by omega
      simp only [this]
      exact h1
    · refine ⟨a, N, ?_, rfl, le_rfl⟩
      rw [loopN]
      simp only
      rw [if_neg (by omega)]

theorem loop_up2 (h : F.Good) (f : Nat) : ∀ (m k N : Nat), m < 2 ^ (F.mb + 1) → N ≤ f →
    m * 2 ^ (k + N) < 2 ^ F.top → ∀ s,
    loopN (fun (s : Fl × Int) =>
    .ok (if 0 < s.2 then some (s.1.mul F (.ofNat F 2), s.2 - 1) else none)) f
      (.fin s (m * 2 ^ k), (N : Int)) = .ok (.fin s (m * 2 ^ (k + N)), 0) := by
  induction f with
  | zero =>
    intro m k N hm hN ha s
    obtain rfl : N = 0 := by omega
    simp [loopN]
  | succ f ih =>
    intro m k N hm hN ha s
    rcases Nat.eq_zero_or_pos N with h0 | h0
    · subst h0; simp [loopN]
    · obtain ⟨N, rfl⟩ := Nat.exists_eq_add_of_le' h0
      have e : Fl.mul F (.fin s (m * 2 ^ k)) (.ofNat F 2) = .fin s (m * 2 ^ (k + 1)) :=
        mul_pow (j := 1) hm (by norm_num)
          (lt_of_le_of_lt (Nat.mul_le_mul_left _ (Nat.pow_le_pow_right (by norm_num) (by omega))) ha)
      rw [loopN]
      simp only [e]
      rw [if_pos (by omega)]
      have : (((N + 1 : Nat) : Int) - 1) = (N : Int) := by omega
      simp only [this]
      rw [ih m (k + 1) N hm (by omega) (by rw [show k + 1 + N = k + (N + 1) by omega]; exact ha) s]
      rw [show k + 1 + N = k + (N + 1) by omega]

theorem loop_down1024 (h : F.Good) (f : Nat) : ∀ (a N : Nat), N ≤ f → N ≤ a → a < F.top →
    ∃ a' N', loopN (fun (s : Fl × Int) =>
    .ok (if s.2 < -11 then some (s.1.div F (.ofNat F 1024), s.2 + 10) else none)) f
      (.fin false (2 ^ a), -(N : Int)) = .ok (.fin false (2 ^ a'), -((N' : Nat) : Int)) ∧
      a' + N = a + N' ∧ N' ≤ N := by
  induction f with
  | zero =>
    intro a N hN hle ha
    obtain rfl : N = 0 := by omega
    exact ⟨a, 0, by simp [loopN], rfl, le_rfl⟩
  | succ f ih =>
    intro a N hN hle ha
    by_cases hc : 11 < N
    · obtain ⟨b, rfl⟩ : ∃ b, a = b + 10 := ⟨a - 10, by omega⟩
      have e : Fl.div F (.fin false (2 ^ (b + 10))) (.ofNat F 1024) = .fin false (2 ^ b) := by
        have := div_pow (F := F) (s := false) (m := 1) (k := b) (c := 1024) (j := 10)
          (Nat.one_lt_two_pow (by omega)) (by norm_num)
          (by rw [one_mul]; exact Nat.pow_lt_pow_right (by norm_num) (by omega))
        simpa using this
      obtain ⟨a', N', h1, h2, h3⟩ := ih b (N - 10) (by omega) (by omega) (by omega)
      refine ⟨a', N', ?_, by omega, by omega⟩
      rw [loopN]
      simp only [e]
      rw [if_pos (by omega)]
      have : (-(N : Int) + 10) = -((N - 10 : Nat) : Int) := by omega
      simp only [this]
      exact h1
    · refine ⟨a, N, ?_, by omega, le_rfl⟩
      rw [loopN]
      simp only
      rw [if_neg (by omega)]

theorem loop_down2 (h : F.Good) (f : Nat) : ∀ (m k N : Nat), m < 2 ^ (F.mb + 1) → N ≤ f →
    m * 2 ^ (k + N) < 2 ^ F.top → ∀ s,
    loopN (fun (s : Fl × Int) =>
    .ok (if s.2 < 0 then some (s.1.div F (.ofNat F 2), s.2 + 1) else none)) f
      (.fin s (m * 2 ^ (k + N)), -(N : Int)) = .ok (.fin s (m * 2 ^ k), 0) := by
  induction f with
  | zero =>
    intro m k N hm hN ha s
    obtain rfl : N = 0 := by omega
    simp [loopN]
  | succ f ih =>
    intro m k N hm hN ha s
    rcases Nat.eq_zero_or_pos N with h0 | h0
    · subst h0; simp [loopN]
    · obtain ⟨N, rfl⟩ := Nat.exists_eq_add_of_le' h0
      have hlt : m * 2 ^ (k + N) < 2 ^ F.top :=
        (lt_of_le_of_lt (Nat.mul_le_mul_left _ (Nat.pow_le_pow_right (by norm_num) (by omega))) ha)
      have e : Fl.div F (.fin s (m * 2 ^ (k + N + 1))) (.ofNat F 2) = .fin s (m * 2 ^ (k + N)) :=
        div_pow (j := 1) hm (by norm_num) hlt
      rw [loopN]
      simp only [← add_assoc, e]
      rw [if_pos (by omega)]
      have : (-((N + 1 : Nat) : Int) + 1) = -(N : Int) := by omega
      simp only [this]
      rw [ih m k N hm (by omega) hlt s]

/-- `expOf2AtCompileTime` is exact over the whole range of the format. -/
theorem expOf2_nonneg (h : F.Good) (N : Nat) (hN : N ≤ F.bias) :
    expOf2 F (N : Int) = .ok (.fin false (2 ^ (F.one + N))) := by
  have htop := h.top_eq
  have hone := h.one_eq
  have hm1 : 1 < 2 ^ (F.mb + 1) := Nat.one_lt_two_pow (by omega)
  unfold expOf2
  have e1 : Fl.ofNat F 1 = .fin false (2 ^ F.one) := by simp [Fl.ofNat]
  obtain ⟨a', N', h1, h2, h3⟩ := loop_up1024 h N F.one N le_rfl (by omega)
  simp only [Int.natAbs_natCast, e1]
  rw [h1]
  simp only [Out.ok_bind]
  have h4 := loop_up2 h N 1 a' N' hm1 h3
    (by rw [one_mul]; exact Nat.pow_lt_pow_right (by norm_num) (by omega)) false
  rw [one_mul, one_mul, h2] at h4
  rw [h4]
  simp only [Out.ok_bind]
  have h5 := loop_down1024 h N (F.one + N) 0 (by omega) (by omega) (by omega)
  obtain ⟨a'', N'', h6, h7, h8⟩ := h5
  obtain rfl : N'' = 0 := by omega
  obtain rfl : a'' = F.one + N := by omega
  have h9 := loop_down2 h N 1 (F.one + N) 0 hm1 (by omega)
    (by rw [one_mul]; exact Nat.pow_lt_pow_right (by norm_num) (by omega)) false
  simp only [Nat.cast_zero, neg_zero, one_mul, add_zero] at h6 h9
  rw [h6]
  simp only [Out.ok_bind]
  rw [h9]
  rfl

theorem expOf2_neg (h : F.Good) (N a : Nat) (hN : a + N = F.one) :
    expOf2 F (-(N : Int)) = .ok (.fin false (2 ^ a)) := by
  have htop := h.top_eq
  have hone := h.one_eq
  have hm1 : 1 < 2 ^ (F.mb + 1) := Nat.one_lt_two_pow (by omega)
  unfold expOf2
  have e1 : Fl.ofNat F 1 = .fin false (2 ^ F.one) := by simp [Fl.ofNat]
  simp only [Int.natAbs_neg, Int.natAbs_natCast, e1]
  have k1 : loopN (fun (s : Fl × Int) =>
    Out.ok (if 11 < s.2 then some (s.1.mul F (.ofNat F 1024), s.2 - 10) else none)) N
      (Fl.fin false (2 ^ F.one), -(N : Int)) = .ok (Fl.fin false (2 ^ F.one), -(N : Int)) := by
    cases N <;> simp only [loopN] <;> rw [if_neg (by simp; try omega)]
  rw [k1]
  simp only [Out.ok_bind]
  have k2 : loopN (fun (s : Fl × Int) =>
    Out.ok (if 0 < s.2 then some (s.1.mul F (.ofNat F 2), s.2 - 1) else none)) N
      (Fl.fin false (2 ^ F.one), -(N : Int)) = .ok (Fl.fin false (2 ^ F.one), -(N : Int)) := by
    cases N <;> simp only [loopN] <;> rw [if_neg (by simp; try omega)]
  rw [k2]
  simp only [Out.ok_bind]
  obtain ⟨a', N', h1, h2, h3⟩ := loop_down1024 h N F.one N le_rfl (by omega) (by omega)
  rw [h1]
  simp only [Out.ok_bind]
  have h4 := loop_down2 h N 1 a N' hm1 h3
    (by rw [one_mul]; exact Nat.pow_lt_pow_right (by norm_num) (by omega)) false
  rw [one_mul, one_mul] at h4
  rw [show a' = a + N' by omega, h4]
  rfl

end
end Heu
