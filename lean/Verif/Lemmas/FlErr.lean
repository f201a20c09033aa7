import Verif.Lemmas.NSGA2Fl
import Verif.Props.IEEE
import Mathlib.Tactic.Linarith
import Mathlib.Tactic.Ring
import Mathlib.Tactic.FieldSimp
import Mathlib.Tactic.Positivity

/-!
# Rounding errors and monotonicity of the IEEE operations
-/

set_option linter.unusedVariables false

namespace Heu
open Spec

/-- The rounding error is at most half a unit, or a relative `2^-(mb+1)`. -/
theorem rndUnits_error (mb a b : Nat) (hb : 0 < b) :
    |((rndUnits mb a b : ℚ) - (a : ℚ) / b)| ≤ ((a : ℚ) / b) / 2 ^ (mb + 1) + 1 / 2 := by
  have hbq : (0 : ℚ) < b := by exact_mod_cast hb
  rw [rndUnits_def]
  obtain ⟨s, hs⟩ : ∃ s, s = Nat.log2 (a / b) - mb := ⟨_, rfl⟩
  rw [← hs]
  have h2 : (0 : ℚ) < 2 ^ s := by positivity
  obtain ⟨e1, e2⟩ := rndHE_err a (b * 2 ^ s) (by positivity)
  obtain ⟨N, hN⟩ : ∃ N, N = rndHE a (b * 2 ^ s) := ⟨_, rfl⟩
  rw [← hN] at e1 e2 ⊢
  have e1q : 2 * ((N : ℚ) * (b * 2 ^ s)) ≤ 2 * a + b * 2 ^ s := by exact_mod_cast e1
  have e2q : 2 * (a : ℚ) ≤ 2 * ((N : ℚ) * (b * 2 ^ s)) + b * 2 ^ s := by exact_mod_cast e2
  have hhalf : |((N * 2 ^ s : Nat) : ℚ) - (a : ℚ) / b| ≤ 2 ^ s / 2 := by
    have hab : (a : ℚ) = (a : ℚ) / b * b := by field_simp
    rw [hab] at e1q e2q
    push_cast
    rw [abs_le]
    constructor
    · have : (a : ℚ) / b * b * 2 ≤ (2 * (N * 2 ^ s) + 2 ^ s) * b := by linarith
      have := le_of_mul_le_mul_right (by linarith : ((a : ℚ) / b * 2) * b ≤ (2 * (N * 2 ^ s) + 2 ^ s) * b) hbq
      linarith
    · have := le_of_mul_le_mul_right
        (by linarith : (2 * ((N : ℚ) * 2 ^ s)) * b ≤ ((a : ℚ) / b * 2 + 2 ^ s) * b) hbq
      linarith
  refine hhalf.trans ?_
  have hv0 : (0 : ℚ) ≤ (a : ℚ) / b := by positivity
  by_cases h0 : s = 0
  · rw [h0]
    have : 0 ≤ (a : ℚ) / b / 2 ^ (mb + 1) := by positivity
    norm_num
    exact this
  · have hne : a / b ≠ 0 := by
      intro hz; rw [hz] at hs; simp at hs; exact h0 hs
    have hlog := Nat.log2_self_le hne
    have hl : Nat.log2 (a / b) = s + mb := by omega
    rw [hl] at hlog
    have hq : ((2 : ℚ) ^ (s + mb)) ≤ (a : ℚ) / b := by
      have h1 : 2 ^ (s + mb) * b ≤ a := (Nat.le_div_iff_mul_le hb).1 hlog
      rw [le_div_iff₀ hbq]
      exact_mod_cast h1
    have : (2 : ℚ) ^ s / 2 ≤ (a : ℚ) / b / 2 ^ (mb + 1) := by
      rw [div_le_div_iff₀ (by norm_num) (by positivity)]
      calc (2 : ℚ) ^ s * 2 ^ (mb + 1) = 2 ^ (s + mb) * 2 := by rw [pow_succ, pow_add]; ring
        _ ≤ _ := by linarith
    linarith

/-- Relative rounding error. -/
def flEps (F : Fmt) : ℚ := 1 / 2 ^ (F.mb + 1)
/-- Absolute rounding error for tiny results: half the smallest positive number. -/
def flEta (F : Fmt) : ℚ := 1 / 2 ^ (F.one + 1)

theorem units_abs (s : Bool) (n : Nat) : |(Fl.units s n : ℚ)| = n := by
  cases s <;> simp [Fl.units]

theorem number_rnd_error (F : Fmt) (q : ℚ) (neg : Bool) (a b : Nat) (hb : 0 < b)
    (hq : q = (if neg then -1 else 1) * ((a : ℚ) / b / 2 ^ F.one)) :
    |Fl.number F (.fin neg (rndUnits F.mb a b)) - q| ≤ flEps F * |q| + flEta F := by
  have h1 : (0 : ℚ) < 2 ^ F.one := by positivity
  have he := rndUnits_error F.mb a b hb
  have hv : (0 : ℚ) ≤ (a : ℚ) / b := by positivity
  have hn : Fl.number F (.fin neg (rndUnits F.mb a b)) - q =
      (if neg then -1 else 1) * (((rndUnits F.mb a b : ℚ) - (a : ℚ) / b) / 2 ^ F.one) := by
    rw [number_abs, hq]; ring
  have hsg : |(if neg then (-1 : ℚ) else 1)| = 1 := by cases neg <;> simp
  have haq : |q| = (a : ℚ) / b / 2 ^ F.one := by
    rw [hq, abs_mul, hsg, one_mul, abs_of_nonneg (by positivity)]
  rw [hn, abs_mul, hsg, one_mul, abs_div, abs_of_pos h1, haq]
  have : flEps F * ((a : ℚ) / b / 2 ^ F.one) + flEta F =
      (((a : ℚ) / b) / 2 ^ (F.mb + 1) + 1 / 2) / 2 ^ F.one := by
    unfold flEps flEta
    rw [pow_succ 2 F.one]
    field_simp
  rw [this]
  exact div_le_div_of_nonneg_right he h1.le

theorem mk_fin {F : Fmt} {s : Bool} {n : Nat} {t : Bool} {m : Nat} (h : Fl.mk F s n = .fin t m) :
    s = t ∧ n = m ∧ n < 2 ^ F.top := by
  rw [mk_eq] at h
  split at h
  · rename_i hlt; cases h; exact ⟨rfl, rfl, hlt⟩
  · cases h

theorem fl_mul_error (F : Fmt) (s t : Bool) (n m : Nat) (u : Bool) (k : Nat)
    (h : Fl.mul F (.fin s n) (.fin t m) = .fin u k) :
    |Fl.number F (.fin u k) - Fl.number F (.fin s n) * Fl.number F (.fin t m)| ≤
      flEps F * |Fl.number F (.fin s n) * Fl.number F (.fin t m)| + flEta F := by
  simp only [Fl.mul] at h
  obtain ⟨rfl, rfl, -⟩ := mk_fin h
  refine number_rnd_error F _ _ _ _ (by positivity) ?_
  rw [number_abs, number_abs]
  push_cast
  cases s <;> cases t <;> simp <;> field_simp

theorem fl_add_error (F : Fmt) (s t : Bool) (n m : Nat) (u : Bool) (k : Nat)
    (h : Fl.add F (.fin s n) (.fin t m) = .fin u k) :
    |Fl.number F (.fin u k) - (Fl.number F (.fin s n) + Fl.number F (.fin t m))| ≤
      flEps F * |Fl.number F (.fin s n) + Fl.number F (.fin t m)| + flEta F := by
  have h1 : (0 : ℚ) < 2 ^ F.one := by positivity
  have hsum : Fl.number F (.fin s n) + Fl.number F (.fin t m) =
      ((Fl.units s n + Fl.units t m : Int) : ℚ) / 2 ^ F.one := by
    rw [number_fin, number_fin]; push_cast; ring
  simp only [Fl.add] at h
  split at h
  · rename_i hz
    cases h
    rw [hsum, hz]
    have : Fl.number F (.fin (s && t) 0) = 0 := by rw [number_abs]; simp
    rw [this]
    simp
    unfold flEta; positivity
  · rename_i hz
    obtain ⟨hu, rfl, -⟩ := mk_fin h
    refine number_rnd_error F _ _ _ _ one_pos ?_
    rw [hsum, ← hu]
    obtain ⟨z, hzd⟩ : ∃ z, z = Fl.units s n + Fl.units t m := ⟨_, rfl⟩
    rw [← hzd]
    by_cases hneg : z < 0
    · have : ((z.natAbs : Nat) : ℚ) = -(z : ℚ) := by
        rw [← Int.cast_natCast z.natAbs, ← Int.cast_neg]
        congr 1; omega
      simp [hneg, this]; ring
    · have : ((z.natAbs : Nat) : ℚ) = (z : ℚ) := by
        rw [← Int.cast_natCast z.natAbs]
        congr 1; omega
      simp [hneg, this]

/-- Rounded addition is monotone. -/
theorem fl_add_mono (F : Fmt) (x y z : Fl) (hx : ∃ s n, x = .fin s n) (h : y.le z = true) :
    (x.add F y).le (x.add F z) = true := by
  obtain ⟨s, n, rfl⟩ := hx
  have hmkle : ∀ (a b : Int), a ≤ b → a ≠ 0 → b ≠ 0 →
      (Fl.mk F (decide (a < 0)) (rndUnits F.mb a.natAbs 1)).le
        (Fl.mk F (decide (b < 0)) (rndUnits F.mb b.natAbs 1)) = true := by
    intro a b hab ha hb
    rw [mk_eq, mk_eq]
    by_cases hna : a < 0 <;> by_cases hnb : b < 0
    · have hm := rndUnits_mono F.mb b.natAbs a.natAbs 1 one_pos (by omega)
      simp only [hna, hnb, decide_true]
      split <;> split <;> simp [Fl.le, Fl.units] <;> omega
    · simp only [hna, hnb, decide_true, decide_false]
      split <;> split <;> simp [Fl.le, Fl.units]
    · omega
    · have hm := rndUnits_mono F.mb a.natAbs b.natAbs 1 one_pos (by omega)
      simp only [hna, hnb, decide_false]
      split <;> split <;> simp [Fl.le, Fl.units] <;> omega
  cases y with
  | nan => simp [Fl.le] at h
  | inf sy =>
    cases z with
    | nan => simp [Fl.le] at h
    | inf sz => simpa [Fl.add, Fl.le] using h
    | fin t m =>
      simp only [Fl.le] at h
      subst h
      simp only [Fl.add]
      split
      · rfl
      · rw [mk_eq]; split <;> rfl
  | fin t m =>
    cases z with
    | nan => simp [Fl.le] at h
    | inf sz =>
      simp only [Fl.le, Bool.not_eq_true'] at h
      subst h
      simp only [Fl.add]
      split
      · rfl
      · rw [mk_eq]; split <;> simp [Fl.le]
    | fin t' m' =>
      simp only [Fl.le, decide_eq_true_eq] at h
      simp only [Fl.add]
      split
      · rename_i h0
        split
        · rename_i h1
          simp [Fl.le, Fl.units]
        · rename_i h1
          rw [mk_eq]
          have : ¬ (Fl.units s n + Fl.units t' m' < 0) := by omega
          simp only [this, decide_false]
          split <;> simp [Fl.le, Fl.units]
      · rename_i h0
        split
        · rename_i h1
          rw [mk_eq]
          have : (Fl.units s n + Fl.units t m < 0) := by omega
          simp only [this, decide_true]
          split <;> simp [Fl.le, Fl.units]
        · rename_i h1
          exact hmkle _ _ (by omega) h0 h1

end Heu
