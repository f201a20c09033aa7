import Verif.Lemmas.IEEERound
import Verif.Spec.NSGA2Fl

/-!
# The arithmetic used by the IEEE models is IEEE-754 arithmetic

Not a property of the repository: it ties `Fl.add`, `Fl.sub`, `Fl.mul`, `Fl.div`, `Fl.lt`, `Fl.le` (used by the
models of the binary codes, the chaos sequence, the swarm and NSGA-II) to the definition of the standard:
the exact result, rounded to nearest, ties to even, as if the exponent were unbounded above; then infinity if
that does not fit.
-/

set_option linter.unusedSimpArgs false

namespace Heu

/-- `N` units are the representable number nearest to `v` units (exponent unbounded above); in a tie it is
the one whose last digit is even, i.e. it is an even multiple of the distance of the two candidates. -/
def NearestEven (mb : Nat) (v : ℚ) (N : Nat) : Prop :=
  Rep mb N ∧ ∀ N', Rep mb N' → |(N : ℚ) - v| ≤ |(N' : ℚ) - v| ∧
    (N' ≠ N → |(N : ℚ) - v| = |(N' : ℚ) - v| → 2 * ((N : ℤ) - N').natAbs ∣ N)

/-- `x` is the result the standard prescribes for an exact result `q` (a number) with sign `neg` (which
matters only for zeros: otherwise it is the sign of `q`). -/
def RoundsTo (F : Fmt) (neg : Bool) (q : ℚ) (x : Fl) : Prop :=
  (q < 0 → neg = true) ∧ (0 < q → neg = false) ∧
  ∃ N, NearestEven F.mb (|q| * 2 ^ F.one) N ∧
    x = if N < 2 ^ F.top then .fin neg N else .inf neg

theorem rndHE_nearest (a b j : Nat) (hb : 0 < b) :
    |((rndHE a b : ℤ) * b - a)| ≤ |((j : ℤ) * b - a)| ∧
    (j ≠ rndHE a b → |((rndHE a b : ℤ) * b - a)| = |((j : ℤ) * b - a)| →
      rndHE a b % 2 = 0 ∧ ((rndHE a b : ℤ) - j).natAbs = 1) := by
  obtain ⟨q, hq⟩ : ∃ q, q = a / b := ⟨_, rfl⟩
  obtain ⟨r, hr⟩ : ∃ r, r = a % b := ⟨_, rfl⟩
  have hrb : r < b := hr ▸ Nat.mod_lt _ hb
  have ha : (a : ℤ) = q * b + r := by
    have := Nat.div_add_mod a b
    rw [← hq, ← hr] at this
    rw [← this]; push_cast; ring
  have hB : (0 : ℤ) < b := by exact_mod_cast hb
  -- the other candidate, relative to the quotient
  obtain ⟨d, hd⟩ : ∃ d : ℤ, d = (j : ℤ) - q := ⟨_, rfl⟩
  have hj : (j : ℤ) * b - a = d * b - r := by rw [ha, hd]; ring
  have hdc : d ≤ -1 ∨ d = 0 ∨ d = 1 ∨ 2 ≤ d := by omega
  have hdb : (d ≤ -1 → d * b ≤ -b) ∧ (2 ≤ d → 2 * b ≤ d * b) :=
    ⟨fun h => by nlinarith, fun h => by nlinarith⟩
  have hval : (rndHE a b = q ∧ 2 * r < b) ∨ (rndHE a b = q + 1 ∧ b < 2 * r) ∨
      (2 * r = b ∧ ((rndHE a b = q ∧ q % 2 = 0) ∨ (rndHE a b = q + 1 ∧ q % 2 = 1))) := by
    unfold rndHE
    rw [← hq, ← hr]
    simp only
    split
    · left; omega
    · split
      · right; left; omega
      · right; right
        refine ⟨by omega, ?_⟩
        split <;> omega
  rw [hj]
  have h0 : ∀ (e : ℤ), (rndHE a b : ℤ) = q + e → (rndHE a b : ℤ) * b - a = e * b - r := by
    intro e he; rw [he, ha]; ring
  rcases hval with ⟨h1, h2⟩ | ⟨h1, h2⟩ | ⟨h2, ⟨h1, h3⟩ | ⟨h1, h3⟩⟩
  · rw [h0 0 (by rw [h1]; simp)]
    rcases hdc with h | h | h | h
    · have := hdb.1 h
      rw [abs_of_nonpos (by omega), abs_of_nonpos (by omega)]
      exact ⟨by omega, fun _ _ => by omega⟩
    · subst h; exact ⟨le_rfl, fun hne => absurd (by omega) hne⟩
    · subst h
      rw [abs_of_nonpos (by omega), abs_of_nonneg (by omega)]
      exact ⟨by omega, fun _ _ => by omega⟩
    · have := hdb.2 h
      rw [abs_of_nonpos (by omega), abs_of_nonneg (by omega)]
      exact ⟨by omega, fun _ _ => by omega⟩
  · rw [h0 1 (by rw [h1]; simp)]
    rcases hdc with h | h | h | h
    · have := hdb.1 h
      rw [abs_of_nonneg (by omega), abs_of_nonpos (by omega)]
      exact ⟨by omega, fun _ _ => by omega⟩
    · subst h
      rw [abs_of_nonneg (by omega), abs_of_nonpos (by omega)]
      exact ⟨by omega, fun _ _ => by omega⟩
    · subst h; exact ⟨le_rfl, fun hne => absurd (by omega) hne⟩
    · have := hdb.2 h
      rw [abs_of_nonneg (by omega), abs_of_nonneg (by omega)]
      exact ⟨by omega, fun _ _ => by omega⟩
  · rw [h0 0 (by rw [h1]; simp)]
    rcases hdc with h | h | h | h
    · have := hdb.1 h
      rw [abs_of_nonpos (by omega), abs_of_nonpos (by omega)]
      exact ⟨by omega, fun _ _ => by omega⟩
    · subst h; exact ⟨le_rfl, fun hne => absurd (by omega) hne⟩
    · subst h
      rw [abs_of_nonpos (by omega), abs_of_nonneg (by omega)]
      exact ⟨by omega, fun _ _ => by omega⟩
    · have := hdb.2 h
      rw [abs_of_nonpos (by omega), abs_of_nonneg (by omega)]
      exact ⟨by omega, fun _ _ => by omega⟩
  · rw [h0 1 (by rw [h1]; simp)]
    rcases hdc with h | h | h | h
    · have := hdb.1 h
      rw [abs_of_nonneg (by omega), abs_of_nonpos (by omega)]
      exact ⟨by omega, fun _ _ => by omega⟩
    · subst h
      rw [abs_of_nonneg (by omega), abs_of_nonpos (by omega)]
      exact ⟨by omega, fun _ _ => by omega⟩
    · subst h; exact ⟨le_rfl, fun hne => absurd (by omega) hne⟩
    · have := hdb.2 h
      rw [abs_of_nonneg (by omega), abs_of_nonneg (by omega)]
      exact ⟨by omega, fun _ _ => by omega⟩

/-- The rounding function rounds to nearest, ties to even. -/
theorem rndUnits_nearest (mb a b : Nat) (hb : 0 < b) : NearestEven mb ((a : ℚ) / b) (rndUnits mb a b) := by
  have hbq : (0 : ℚ) < b := by exact_mod_cast hb
  -- scaled to integers
  have hsc : ∀ n : Nat, |(n : ℚ) - a / b| = ((|(n : ℤ) * b - a| : ℤ) : ℚ) / b := by
    intro n
    rw [show (n : ℚ) - a / b = (n * b - a) / b by field_simp, abs_div, abs_of_pos hbq]
    push_cast; rfl
  refine ⟨rep_rndUnits mb a b hb, ?_⟩
  intro N' hN'
  rw [hsc, hsc, div_le_div_iff_of_pos_right hbq, Int.cast_le, div_left_inj' hbq.ne', Int.cast_inj]
  obtain ⟨s, hs⟩ : ∃ s, s = Nat.log2 (a / b) - mb := ⟨_, rfl⟩
  have hR : rndUnits mb a b = rndHE a (b * 2 ^ s) * 2 ^ s := by rw [hs]; rfl
  have hBpos : 0 < b * 2 ^ s := by positivity
  obtain ⟨m, k, hm, rfl⟩ := hN'
  by_cases hk : s ≤ k
  · -- a multiple of the spacing
    obtain ⟨j, hj⟩ : ∃ j, j = m * 2 ^ (k - s) := ⟨_, rfl⟩
    have hmk : m * 2 ^ k = j * 2 ^ s := by
      rw [hj, mul_assoc, ← pow_add, Nat.sub_add_cancel hk]
    rw [hmk, hR]
    obtain ⟨h1, h2⟩ := rndHE_nearest a (b * 2 ^ s) j hBpos
    obtain ⟨t, ht⟩ : ∃ t, t = rndHE a (b * 2 ^ s) := ⟨_, rfl⟩
    rw [← ht] at h1 h2 ⊢
    have e1 : ∀ n : Nat, ((n * 2 ^ s : Nat) : ℤ) * b - a = (n : ℤ) * ((b * 2 ^ s : Nat) : ℤ) - a := by
      intro n; push_cast; ring
    rw [e1, e1]
    refine ⟨h1, fun hne heq => ?_⟩
    obtain ⟨h3, h4⟩ := h2 (fun h => hne (by rw [h])) heq
    have e2 : (((t * 2 ^ s : Nat) : ℤ) - ((j * 2 ^ s : Nat) : ℤ)).natAbs = 2 ^ s := by
      have : ((t * 2 ^ s : Nat) : ℤ) - ((j * 2 ^ s : Nat) : ℤ) = ((t : ℤ) - j) * ((2 ^ s : Nat) : ℤ) := by
        push_cast; ring
      rw [this, Int.natAbs_mul, h4, Int.natAbs_natCast, one_mul]
    rw [e2]
    exact Nat.mul_dvd_mul (Nat.dvd_of_mod_eq_zero h3) dvd_rfl
  · -- too small to matter
    have hs0 : 0 < s := by omega
    have hlog : Nat.log2 (a / b) = mb + s := by omega
    have hq0 : a / b ≠ 0 := by
      intro h; rw [h] at hlog; simp at hlog; omega
    have hL : 2 ^ (mb + s) ≤ a / b := by
      rw [← hlog]; exact Nat.log2_self_le hq0
    have hLa : 2 ^ (mb + s) * b ≤ a := (Nat.le_div_iff_mul_le hb).1 hL
    have hlt : m * 2 ^ k < 2 ^ (mb + s) := by
      calc m * 2 ^ k < 2 ^ (mb + 1) * 2 ^ k := Nat.mul_lt_mul_of_pos_right hm (by positivity)
        _ = 2 ^ (mb + 1 + k) := (pow_add 2 (mb + 1) k).symm
        _ ≤ 2 ^ (mb + s) := Nat.pow_le_pow_right (by norm_num) (by omega)
    obtain ⟨h1, -⟩ := rndHE_nearest a (b * 2 ^ s) (2 ^ mb) hBpos
    rw [hR]
    have e1 : ∀ n : Nat, ((n * 2 ^ s : Nat) : ℤ) * b - a = (n : ℤ) * ((b * 2 ^ s : Nat) : ℤ) - a := by
      intro n; push_cast; ring
    rw [← e1, ← e1] at h1
    obtain ⟨L, hLd⟩ : ∃ L, L = 2 ^ (mb + s) := ⟨_, rfl⟩
    rw [show 2 ^ mb * 2 ^ s = L by rw [hLd, pow_add]] at h1
    rw [← hLd] at hLa hlt
    have h2 : |((L : ℤ) * b - a)| < |(((m * 2 ^ k : Nat) : ℤ) * b - a)| := by
      have hc : ((m * 2 ^ k : Nat) : ℤ) * b < (L : ℤ) * b := by
        have : ((m * 2 ^ k : Nat) : ℤ) < L := by exact_mod_cast hlt
        have hB : (0 : ℤ) < b := by exact_mod_cast hb
        nlinarith
      have hc2 : (L : ℤ) * b ≤ a := by exact_mod_cast hLa
      rw [abs_of_nonpos (by linarith), abs_of_nonpos (by linarith)]
      linarith
    exact ⟨(h1.trans_lt h2).le, fun _ he => absurd he (h1.trans_lt h2).ne⟩

theorem mk_eq (F : Fmt) (s : Bool) (n : Nat) :
    Fl.mk F s n = if n < 2 ^ F.top then .fin s n else .inf s := by
  unfold Fl.mk
  by_cases h : n < 2 ^ F.top
  · rw [if_pos h, if_neg (by omega)]
  · rw [if_neg h, if_pos (by omega)]

theorem number_fin (F : Fmt) (s : Bool) (n : Nat) :
    Fl.number F (.fin s n) = (Fl.units s n : ℚ) / 2 ^ F.one := by
  unfold Fl.number Fl.units
  rw [zpow_neg, zpow_natCast]
  cases s <;> simp <;> ring

/-- Addition of finite numbers.  (The sum of two zeros is `-0` only if both are, and an exact
cancellation is `+0`.) -/
theorem fl_add_correct (F : Fmt) (s t : Bool) (n m : Nat) :
    ∃ neg, RoundsTo F neg (Fl.number F (.fin s n) + Fl.number F (.fin t m)) (Fl.add F (.fin s n) (.fin t m)) ∧
      (Fl.number F (.fin s n) + Fl.number F (.fin t m) = 0 → neg = (s && t)) := by
  have hp : (0 : ℚ) < 2 ^ F.one := by positivity
  obtain ⟨z, hz⟩ : ∃ z, z = Fl.units s n + Fl.units t m := ⟨_, rfl⟩
  have hq : Fl.number F (.fin s n) + Fl.number F (.fin t m) = (z : ℚ) / 2 ^ F.one := by
    rw [number_fin, number_fin, hz]; push_cast; ring
  rw [hq]
  have habs : |(z : ℚ) / 2 ^ F.one| * 2 ^ F.one = ((z.natAbs : Nat) : ℚ) / (1 : Nat) := by
    rw [abs_div, abs_of_pos hp, div_mul_cancel₀ _ hp.ne', Nat.cast_one, div_one, Nat.cast_natAbs]
    push_cast; rfl
  unfold Fl.add
  simp only [← hz]
  by_cases h0 : z = 0
  · subst h0
    refine ⟨s && t, ⟨by simp, by simp, 0, ?_, by simp⟩, fun _ => rfl⟩
    refine ⟨⟨0, 0, by positivity, by simp⟩, fun N' _ => ?_⟩
    simp only [Int.cast_zero, zero_div, abs_zero, zero_mul, Nat.cast_zero, sub_self, sub_zero]
    exact ⟨abs_nonneg _, fun hne h => by simp⟩
  · rw [if_neg h0]
    refine ⟨decide (z < 0), ⟨?_, ?_, rndUnits F.mb z.natAbs 1, ?_, mk_eq F _ _⟩, ?_⟩
    · intro h
      have : (z : ℚ) < 0 := by
        by_contra hc
        exact absurd (div_nonneg (not_lt.1 hc) hp.le) (not_le.2 h)
      simpa using (by exact_mod_cast this : z < 0)
    · intro h
      have : (0 : ℚ) < z := by
        by_contra hc
        exact absurd (div_nonpos_of_nonpos_of_nonneg (not_lt.1 hc) hp.le) (not_le.2 h)
      have h2 : 0 < z := by exact_mod_cast this
      simp; omega
    · rw [habs]; exact rndUnits_nearest F.mb z.natAbs 1 one_pos
    · intro h
      exfalso
      rw [div_eq_zero_iff] at h
      rcases h with h | h
      · exact h0 (by exact_mod_cast h)
      · exact hp.ne' h

/-- The exact product has the sign `xor`. -/
theorem number_abs (F : Fmt) (s : Bool) (n : Nat) :
    Fl.number F (.fin s n) = (if s then -1 else 1) * ((n : ℚ) / 2 ^ F.one) := by
  unfold Fl.number
  rw [zpow_neg, zpow_natCast]; ring

/-- Multiplication of finite numbers. -/
theorem fl_mul_correct (F : Fmt) (s t : Bool) (n m : Nat) :
    RoundsTo F (xor s t) (Fl.number F (.fin s n) * Fl.number F (.fin t m))
      (Fl.mul F (.fin s n) (.fin t m)) := by
  have hp : (0 : ℚ) < 2 ^ F.one := by positivity
  have hn : (0 : ℚ) ≤ (n : ℚ) / 2 ^ F.one := by positivity
  have hm : (0 : ℚ) ≤ (m : ℚ) / 2 ^ F.one := by positivity
  have hnm := mul_nonneg hn hm
  have hq : Fl.number F (.fin s n) * Fl.number F (.fin t m) =
      (if xor s t then -1 else 1) * (((n : ℚ) / 2 ^ F.one) * ((m : ℚ) / 2 ^ F.one)) := by
    rw [number_abs, number_abs]; cases s <;> cases t <;> simp
  refine ⟨?_, ?_, rndUnits F.mb (n * m) (2 ^ F.one), ?_, mk_eq F _ _⟩
  · intro h
    rw [hq] at h
    by_contra hc
    rw [if_neg hc] at h; linarith
  · intro h
    rw [hq] at h
    by_contra hc
    rw [if_pos (by simpa using hc)] at h; linarith
  · have : |Fl.number F (.fin s n) * Fl.number F (.fin t m)| * 2 ^ F.one =
        ((n * m : Nat) : ℚ) / ((2 ^ F.one : Nat) : ℚ) := by
      rw [hq, abs_mul, abs_of_nonneg hnm]
      have : |(if xor s t then (-1 : ℚ) else 1)| = 1 := by split <;> simp
      rw [this]; push_cast; field_simp
    rw [this]; exact rndUnits_nearest _ _ _ (by positivity)

/-- Division of finite numbers, divisor not zero. -/
theorem fl_div_correct (F : Fmt) (s t : Bool) (n m : Nat) (hm0 : m ≠ 0) :
    RoundsTo F (xor s t) (Fl.number F (.fin s n) / Fl.number F (.fin t m))
      (Fl.div F (.fin s n) (.fin t m)) := by
  have hp : (0 : ℚ) < 2 ^ F.one := by positivity
  have hmp : (0 : ℚ) < m := by exact_mod_cast Nat.pos_of_ne_zero hm0
  have hnm : (0 : ℚ) ≤ (n : ℚ) / m := by positivity
  have hq : Fl.number F (.fin s n) / Fl.number F (.fin t m) =
      (if xor s t then -1 else 1) * ((n : ℚ) / m) := by
    rw [number_abs, number_abs]
    have : (n : ℚ) / 2 ^ F.one / ((m : ℚ) / 2 ^ F.one) = n / m := by field_simp
    cases s <;> cases t <;> simp [neg_div, div_neg, this]
  have hd : Fl.div F (.fin s n) (.fin t m) = Fl.mk F (xor s t) (rndUnits F.mb (n * 2 ^ F.one) m) := by
    simp [Fl.div, hm0]
  rw [hd]
  refine ⟨?_, ?_, rndUnits F.mb (n * 2 ^ F.one) m, ?_, mk_eq F _ _⟩
  · intro h
    rw [hq] at h
    by_contra hc
    rw [if_neg hc] at h; linarith
  · intro h
    rw [hq] at h
    by_contra hc
    rw [if_pos (by simpa using hc)] at h; linarith
  · have : |Fl.number F (.fin s n) / Fl.number F (.fin t m)| * 2 ^ F.one =
        ((n * 2 ^ F.one : Nat) : ℚ) / (m : ℚ) := by
      rw [hq, abs_mul, abs_of_nonneg hnm]
      have : |(if xor s t then (-1 : ℚ) else 1)| = 1 := by split <;> simp
      rw [this]; push_cast; field_simp
    rw [this]; exact rndUnits_nearest _ _ _ (Nat.pos_of_ne_zero hm0)

/-- Special cases, as in the standard: NaN propagates; `inf - inf`, `0 * inf`, `inf / inf`, `0 / 0` are NaN;
otherwise infinities absorb finite numbers, a finite number over infinity is a zero, and a non-zero number
over zero is infinite; signs multiply. -/
theorem fl_special (F : Fmt) (x : Fl) (s t : Bool) (n m : Nat) :
    Fl.add F .nan x = .nan ∧ Fl.add F x .nan = .nan ∧ Fl.mul F .nan x = .nan ∧ Fl.mul F x .nan = .nan ∧
    Fl.div F .nan x = .nan ∧ Fl.div F x .nan = .nan ∧
    Fl.add F (.inf s) (.inf s) = .inf s ∧ Fl.add F (.inf s) (.inf !s) = .nan ∧
    Fl.add F (.inf s) (.fin t m) = .inf s ∧ Fl.add F (.fin t m) (.inf s) = .inf s ∧
    Fl.mul F (.inf s) (.inf t) = .inf (xor s t) ∧
    Fl.mul F (.inf s) (.fin t (m + 1)) = .inf (xor s t) ∧ Fl.mul F (.fin t (m + 1)) (.inf s) = .inf (xor t s) ∧
    Fl.mul F (.inf s) (.fin t 0) = .nan ∧ Fl.mul F (.fin t 0) (.inf s) = .nan ∧
    Fl.div F (.inf s) (.inf t) = .nan ∧ Fl.div F (.inf s) (.fin t m) = .inf (xor s t) ∧
    Fl.div F (.fin s n) (.inf t) = .fin (xor s t) 0 ∧
    Fl.div F (.fin s (n + 1)) (.fin t 0) = .inf (xor s t) ∧ Fl.div F (.fin s 0) (.fin t 0) = .nan ∧
    Fl.sub F x (.fin t m) = Fl.add F x (.fin (!t) m) ∧ Fl.sub F x (.inf t) = Fl.add F x (.inf !t) ∧
    Fl.sub F x .nan = .nan := by
  cases x <;> cases s <;> cases t <;> simp [Fl.add, Fl.mul, Fl.div, Fl.sub, Fl.neg]

/-- Comparison of finite numbers is comparison of the numbers; infinities are beyond all of them; NaN compares
with nothing. -/
theorem fl_compare (F : Fmt) (s t : Bool) (n m : Nat) (x : Fl) :
    (Fl.lt (.fin s n) (.fin t m) = true ↔ Fl.number F (.fin s n) < Fl.number F (.fin t m)) ∧
    (Fl.le (.fin s n) (.fin t m) = true ↔ Fl.number F (.fin s n) ≤ Fl.number F (.fin t m)) ∧
    Fl.lt (.fin s n) (.inf false) = true ∧ Fl.lt (.inf true) (.fin s n) = true ∧
    Fl.lt (.inf false) (.fin s n) = false ∧ Fl.lt (.fin s n) (.inf true) = false ∧
    Fl.lt (.inf true) (.inf false) = true ∧ Fl.lt (.inf false) (.inf t) = false ∧
    Fl.lt (.inf t) (.inf true) = false ∧
    Fl.lt .nan x = false ∧ Fl.lt x .nan = false ∧ Fl.le .nan x = false ∧ Fl.le x .nan = false := by
  have hp : (0 : ℚ) < 2 ^ F.one := by positivity
  refine ⟨?_, ?_, ?_⟩
  · rw [number_fin, number_fin, div_lt_div_iff_of_pos_right hp, Int.cast_lt]; simp [Fl.lt]
  · rw [number_fin, number_fin, div_le_div_iff_of_pos_right hp, Int.cast_le]; simp [Fl.le]
  · cases t <;> cases x <;> simp [Fl.lt, Fl.le]

/-- Non-vacuity: `1.0 / 3.0` in `double` is the well-known `0x3FD5555555555555`. -/
example : Fl.div binary64 (.ofNat binary64 1) (.ofNat binary64 3) =
    .fin false (0x15555555555555 * 2 ^ (1074 - 54)) := by decide +kernel

/-- Overflow: the largest `double` plus itself; a tie: `1 + 2^-53 = 1`. -/
example : Fl.add binary64 (.fin false ((2 ^ 53 - 1) * 2 ^ 2045)) (.fin false ((2 ^ 53 - 1) * 2 ^ 2045)) = .inf false ∧
    Fl.add binary64 (.ofNat binary64 1) (.fin false (2 ^ (1074 - 53))) = .ofNat binary64 1 := by decide +kernel

end Heu
