import Verif.Props.TestFunsFl
import Verif.Lemmas.SOGAFl3

/-!
# C153: `levy`, `easom` and `bukin` on `double`s, for any library of mathematical functions
-/

set_option linter.unusedVariables false
set_option linter.unusedSectionVars false
set_option linter.unusedSimpArgs false

namespace Heu
open Spec TestFl

/-- A number of absolute value at most 1. -/
def InUnitFl {F : Fmt} (x : Dbl F) : Prop := ∃ s n, x.val = .fin s n ∧ n ≤ 2 ^ F.one

/-- A number between 0 and 1. -/
def InUnitPlusFl {F : Fmt} (x : Dbl F) : Prop := ∃ n, x.val = .fin false n ∧ n ≤ 2 ^ F.one

section
variable {F : Fmt}

theorem rndUnits_zero (mb b : Nat) : rndUnits mb 0 b = 0 := by simp [rndUnits, rndHE]

theorem mk_small (hF : F.one < F.top) (s : Bool) {n : Nat} (h : n ≤ 2 ^ F.one) : Fl.mk F s n = .fin s n := by
  have := Nat.pow_lt_pow_right (a := 2) (by omega) hF
  rw [Fl.mk, if_neg (by omega)]

/-- A product of numbers of absolute value at most 1 has absolute value at most 1, rounded or not. -/
theorem inUnit_mul (hF : F.one < F.top) {s t : Bool} {n m : Nat} (hn : n ≤ 2 ^ F.one) (hm : m ≤ 2 ^ F.one) :
    ∃ k, (Fl.fin s n).mul F (.fin t m) = .fin (xor s t) k ∧ k ≤ 2 ^ F.one := by
  have h : rndUnits F.mb (n * m) (2 ^ F.one) ≤ 2 ^ F.one :=
    rndUnits_le _ _ _ (by positivity) (rep_pow _ _) (Nat.mul_le_mul hn hm)
  exact ⟨_, by rw [Fl.mul, mk_small hF _ h], h⟩

theorem one_plus_square (hF : F.one + 1 < F.top) {x : Dbl F} (hx : InUnitFl x) :
    ∃ k, k ≠ 0 ∧ (Dbl.nat F 1 + squareFl x).val = .fin false k := by
  obtain ⟨s, n, hv, hn⟩ := hx
  obtain ⟨m, hm, hmle⟩ := inUnit_mul (F := F) (by omega) (s := s) (t := s) hn hn
  have e : (Dbl.nat F 1 + squareFl x).val = Fl.add F (.fin false (1 * 2 ^ F.one)) (x.val.mul F x.val) := rfl
  rw [e, hv, hm, Bool.xor_self, Fl.add]
  have hp : 0 < 2 ^ F.one := by positivity
  have hz : Fl.units false (1 * 2 ^ F.one) + Fl.units false m = ((2 ^ F.one + m : Nat) : Int) := by
    simp [Fl.units]
  rw [hz]
  have hlo : 2 ^ F.one ≤ rndUnits F.mb (2 ^ F.one + m) 1 := le_rndUnits _ _ _ one_pos (rep_pow _ _) (by omega)
  have hhi : rndUnits F.mb (2 ^ F.one + m) 1 ≤ 2 ^ (F.one + 1) :=
    rndUnits_le _ _ _ one_pos (rep_pow _ _) (by rw [pow_succ]; omega)
  have hlt := Nat.pow_lt_pow_right (a := 2) (by omega) hF
  refine ⟨rndUnits F.mb (2 ^ F.one + m) 1, by omega, ?_⟩
  have hd : decide (((2 ^ F.one + m : Nat) : Int) < 0) = false := by
    rw [decide_eq_false_iff_not]; omega
  show (if _ then _ else _) = _
  rw [if_neg (by omega), hd, Int.natAbs_natCast, Fl.mk, if_neg (by omega)]

theorem plusSign_mul {x : Fl} (hx : PlusSign x) {k : Nat} (hk : k ≠ 0) : PlusSign (x.mul F (.fin false k)) := by
  rcases hx with ⟨n, rfl⟩ | rfl
  · rw [Fl.mul]; exact plusSign_mk _
  · right; simp [Fl.mul, hk]

/-- **C153** (`levy`).  At finite coordinates at which the arguments of the sine do not overflow the value is at least 0
(in particular not NaN), whatever sine the library has, if it stays within [-1, 1]. -/
theorem levy_ieee_nonneg (hF : F.one + 1 < F.top) (sin : Dbl F → Dbl F) (hsin : ∀ t, IsFin t → InUnitFl (sin t))
    (pi x y : Dbl F) (hx : IsFin x) (hy : IsFin y) (h1 : IsFin (Dbl.nat F 3 * pi * x))
    (h2 : IsFin (Dbl.nat F 3 * pi * y)) (h3 : IsFin (Dbl.nat F 2 * pi * y)) :
    (0 : Dbl F) ≤ levy sin pi x y := by
  have hne : ∀ t, IsFin t → (sin t).val ≠ .nan := fun t ht => by
    obtain ⟨s, n, h, _⟩ := hsin t ht
    rw [h]; simp
  obtain ⟨k, hk, ek⟩ := one_plus_square hF (hsin _ h2)
  obtain ⟨l, hl, el⟩ := one_plus_square hF (hsin _ h3)
  have p1 : PlusSign (squareFl (x - Dbl.nat F 1) * (Dbl.nat F 1 + squareFl (sin (Dbl.nat F 3 * pi * y)))).val := by
    show PlusSign (Fl.mul F _ (Dbl.nat F 1 + _).val)
    rw [ek]
    exact plusSign_mul (square_plus (sub_ne_nan hx (nat_isFin 1))) hk
  have p2 : PlusSign (squareFl (y - Dbl.nat F 1) * (Dbl.nat F 1 + squareFl (sin (Dbl.nat F 2 * pi * y)))).val := by
    show PlusSign (Fl.mul F _ (Dbl.nat F 1 + _).val)
    rw [el]
    exact plusSign_mul (square_plus (sub_ne_nan hy (nat_isFin 1))) hl
  exact (sum_plus (sum_plus (square_plus (hne _ h1)) p1) p2).nonneg

/-- **C153** (`levy`, the documented minimum).  At (1, 1) the value is exactly the square of what the library computes
for the sine of `3 * M_PI`: the documented minimum 0 is reached if and only if that square is 0. -/
theorem levy_ieee_minimum (hF : F.one + 1 < F.top) (sin : Dbl F → Dbl F) (hsin : ∀ t, IsFin t → InUnitFl (sin t))
    (pi : Dbl F) (h1 : IsFin (Dbl.nat F 3 * pi * Dbl.nat F 1)) (h2 : IsFin (Dbl.nat F 2 * pi * Dbl.nat F 1)) :
    levy sin pi (Dbl.nat F 1) (Dbl.nat F 1) =
      sin (Dbl.nat F 3 * pi * Dbl.nat F 1) * sin (Dbl.nat F 3 * pi * Dbl.nat F 1) := by
  obtain ⟨k, hk, ek⟩ := one_plus_square hF (hsin _ h1)
  obtain ⟨l, hl, el⟩ := one_plus_square hF (hsin _ h2)
  have hz : ∀ (w : Dbl F) (k : Nat), w.val = .fin false k → (0 : Dbl F) * w = 0 := by
    intro w k hw
    show (⟨Fl.mul F (.fin false 0) w.val⟩ : Dbl F) = _
    rw [hw, Fl.mul, Nat.zero_mul, mk_small (by omega) _ (by rw [rndUnits_zero]; exact Nat.zero_le _), rndUnits_zero]
    rfl
  have hs0 : squareFl (Dbl.nat F 1 - Dbl.nat F 1) = 0 := by
    rw [sub_self_fin (nat_isFin 1)]; exact zero_square false
  have hc : Clean F (squareFl (sin (Dbl.nat F 3 * pi * Dbl.nat F 1))).val := clean_square (by
    obtain ⟨s, n, h, _⟩ := hsin _ h1
    rw [h]; simp)
  unfold levy
  rw [hs0, hz _ k ek, hz _ l el, (clean_zero_add hc).2, (clean_zero_add hc).2]
  rfl

/-- **C153** (`levy`, the documented minimum is missed).  When the sine the library computes for `3 * M_PI` is so far
from 0 that its square does not underflow (on `double` it is about 3.7e-16: `M_PI` is not π), the value at (1, 1) is
greater than 0. -/
theorem levy_ieee_minimum_missed (hF : F.one + 1 < F.top) (sin : Dbl F → Dbl F) (hsin : ∀ t, IsFin t → InUnitFl (sin t))
    (pi : Dbl F) (h1 : IsFin (Dbl.nat F 3 * pi * Dbl.nat F 1)) (h2 : IsFin (Dbl.nat F 2 * pi * Dbl.nat F 1))
    (s : Bool) (n : Nat) (hv : (sin (Dbl.nat F 3 * pi * Dbl.nat F 1)).val = .fin s n) (hn : 2 ^ F.one ≤ n * n) :
    (0 : Dbl F) < levy sin pi (Dbl.nat F 1) (Dbl.nat F 1) := by
  rw [levy_ieee_minimum hF sin hsin pi h1 h2]
  obtain ⟨s', n', hv', hn'⟩ := hsin _ h1
  rw [hv] at hv'
  cases hv'
  have hlo : 1 ≤ rndUnits F.mb (n * n) (2 ^ F.one) :=
    le_rndUnits _ _ _ (by positivity) (by simpa using rep_pow F.mb 0) (by simpa using hn)
  have hhi : rndUnits F.mb (n * n) (2 ^ F.one) ≤ 2 ^ F.one :=
    rndUnits_le _ _ _ (by positivity) (rep_pow _ _) (Nat.mul_le_mul hn' hn')
  show Fl.lt (.fin false 0) (Fl.mul F (sin _).val (sin _).val) = true
  rw [hv, Fl.mul, mk_small (by omega) _ hhi, Bool.xor_self]
  simp only [Fl.lt, Fl.units, decide_eq_true_eq, Bool.false_eq_true, if_false]
  omega

/-- Non-vacuity of the hypotheses on `double`: a sine that gives 2^-52 everywhere. -/
example : ∃ sin : Dbl binary64 → Dbl binary64, (∀ t, IsFin t → InUnitFl (sin t)) ∧
    (sin (Dbl.nat binary64 3 * Dbl.nat binary64 3 * Dbl.nat binary64 1)).val = .fin false (2 ^ 1022) ∧
    2 ^ binary64.one ≤ 2 ^ 1022 * 2 ^ 1022 ∧ binary64.one + 1 < binary64.top ∧
    IsFin (Dbl.nat binary64 3 * Dbl.nat binary64 3 * Dbl.nat binary64 1) :=
  ⟨fun _ => ⟨.fin false (2 ^ 1022)⟩, fun _ _ => ⟨false, 2 ^ 1022, rfl, by decide +kernel⟩, rfl, by decide +kernel,
    by decide +kernel, ⟨false, 9 * 2 ^ binary64.one, by decide +kernel⟩⟩

/-- **C153** (`easom`).  Wherever the coordinates are finite the value is between -1 and 1 (in particular not NaN, and
never below the documented minimum -1), whatever cosine and exponential function the library has, if the cosine stays
within [-1, 1] and the exponential function of what is not positive within [0, 1]. -/
theorem easom_ieee_range (hF : F.one < F.top) (cos exp : Dbl F → Dbl F) (hcos : ∀ t, IsFin t → InUnitFl (cos t))
    (hexp : ∀ t : Dbl F, t ≤ 0 → InUnitPlusFl (exp t)) (pi x y : Dbl F) (hpi : IsFin pi) (hx : IsFin x) (hy : IsFin y) :
    InUnitFl (easom cos exp pi x y) ∧ -Dbl.nat F 1 ≤ easom cos exp pi x y := by
  have hle : -squareFl (x - pi) - squareFl (y - pi) ≤ (0 : Dbl F) := by
    have h1 := square_plus (sub_ne_nan hx hpi)
    have h2 := square_plus (sub_ne_nan hy hpi)
    have e : (-squareFl (x - pi) - squareFl (y - pi)).val =
        (squareFl (x - pi)).val.neg.add F (squareFl (y - pi)).val.neg := rfl
    show Fl.le _ (.fin false 0) = true
    rw [e]
    rcases h1 with ⟨n, h1⟩ | h1 <;> rcases h2 with ⟨m, h2⟩ | h2 <;> rw [h1, h2]
    · simp only [Fl.neg, Fl.add, Bool.not_false, Bool.and_self]
      split
      · simp [Fl.le, Fl.units]
      · next hz =>
        have : decide (Fl.units true n + Fl.units true m < 0) = true := by
          simp only [Fl.units] at hz ⊢
          simp at hz ⊢
          omega
        rw [this, Fl.mk]
        split <;> simp [Fl.le, Fl.units]
    · simp [Fl.neg, Fl.add, Fl.le]
    · simp [Fl.neg, Fl.add, Fl.le]
    · simp [Fl.neg, Fl.add, Fl.le]
  obtain ⟨s, n, hn, hn1⟩ := hcos x hx
  obtain ⟨t, m, hm, hm1⟩ := hcos y hy
  obtain ⟨l, hl, hl1⟩ := hexp _ hle
  obtain ⟨p, hp, hp1⟩ := inUnit_mul (F := F) hF (s := !s) (t := t) hn1 hm1
  obtain ⟨q, hq, hq1⟩ := inUnit_mul (F := F) hF (s := xor (!s) t) (t := false) hp1 hl1
  have e : (easom cos exp pi x y).val = .fin (xor (xor (!s) t) false) q := by
    show Fl.mul F (Fl.mul F (cos x).val.neg (cos y).val) (exp _).val = _
    rw [hn, hm, hl, Fl.neg, hp, hq]
  refine ⟨⟨_, q, e, hq1⟩, ?_⟩
  show Fl.le (Fl.neg (.fin false (1 * 2 ^ F.one))) (easom cos exp pi x y).val = true
  rw [e]
  have key : ∀ (b : Bool) (P : Nat), q ≤ P → Fl.units true P ≤ Fl.units b q := by
    intro b P h
    cases b <;> simp only [Fl.units, if_true, Bool.false_eq_true, if_false] <;> omega
  rw [Nat.one_mul]
  exact decide_eq_true (key _ _ hq1)

/-- **C153** (`easom`, the documented minimum).  At (`M_PI`, `M_PI`) the value is exactly -1 if the library rounds the
cosine of `M_PI` to -1 and the exponential function of zero is 1. -/
theorem easom_ieee_minimum (hF : F.one < F.top) (cos exp : Dbl F → Dbl F) (pi : Dbl F) (hpi : IsFin pi)
    (hcos : cos pi = -Dbl.nat F 1) (hexp : exp ⟨.fin true 0⟩ = Dbl.nat F 1) :
    easom cos exp pi pi pi = -Dbl.nat F 1 := by
  have hs0 : squareFl (pi - pi) = 0 := by
    rw [sub_self_fin hpi]; exact zero_square false
  have h0 : -(0 : Dbl F) - 0 = ⟨.fin true 0⟩ := rfl
  have hr : rndUnits F.mb (1 * 2 ^ F.one * (1 * 2 ^ F.one)) (2 ^ F.one) = 2 ^ F.one := by
    rw [Nat.one_mul]
    exact rndUnits_rep (by positivity) (rep_pow _ _)
  have hm : ∀ s t, Fl.mul F (.fin s (1 * 2 ^ F.one)) (.fin t (1 * 2 ^ F.one)) = .fin (xor s t) (1 * 2 ^ F.one) := by
    intro s t
    rw [Fl.mul, hr, mk_small hF _ le_rfl, Nat.one_mul]
  unfold easom
  rw [hs0, h0, hexp, hcos]
  show (⟨Fl.mul F (Fl.mul F (.fin _ (1 * 2 ^ F.one)) (.fin _ (1 * 2 ^ F.one))) (.fin _ (1 * 2 ^ F.one))⟩ : Dbl F) = _
  rw [hm, hm]
  rfl

theorem abs_plus {x : Fl} (hx : x ≠ .nan) : PlusSign x.abs := by
  cases x with
  | nan => exact absurd rfl hx
  | inf s => exact .inr rfl
  | fin s n => exact .inl ⟨n, rfl⟩

/-- **C153** (`bukin`).  At finite coordinates the value is at least 0 (in particular not NaN), whatever square root the
library has, if its values are not negative. -/
theorem bukin_ieee_nonneg (sqrt : Dbl F → Dbl F) (hsqrt : ∀ t : Dbl F, PlusSign t.val → PlusSign (sqrt t).val)
    (k : Nat) (hk : k ≠ 0) (x y : Dbl F) (hx : IsFin x) (hy : IsFin y) :
    (0 : Dbl F) ≤ bukin sqrt ⟨.fin false k⟩ x y := by
  have h1 : (y - ⟨.fin false k⟩ * x * x).val ≠ .nan := by
    show Fl.add F y.val (Fl.mul F (Fl.mul F (.fin false k) x.val) x.val).neg ≠ .nan
    refine add_fin_left_ne_nan hy ?_
    have := (mul_mul_ne_nan (F := F) (x := .fin false k) (y := x.val) ⟨_, _, rfl⟩ hx).1
    intro h
    cases hv : Fl.mul F (Fl.mul F (.fin false k) x.val) x.val with
    | nan => exact this hv
    | inf s => rw [hv] at h; simp [Fl.neg] at h
    | fin s n => rw [hv] at h; simp [Fl.neg] at h
  have h2 : (x + Dbl.nat F 10).val ≠ .nan := add_fin_left_ne_nan hx (by
    obtain ⟨s, n, h⟩ := nat_isFin (F := F) 10
    rw [h]; simp)
  have p1 := hundred_plus (hsqrt ⟨_⟩ (abs_plus h1))
  have p2 : PlusSign ((⟨.fin false k⟩ : Dbl F) * ⟨(x + Dbl.nat F 10).val.abs⟩).val := plusSign_scale hk (abs_plus h2)
  exact (sum_plus p1 p2).nonneg

end

/-- The `double` nearest to 0.01, in units. -/
abbrev hundredth : Nat := 5764607523034235 * 2 ^ 1015

/-- **C153** (`bukin`, the documented minimum).  At (-10, 1) the value on `double` is exactly 0 if the square root of 0
is 0. -/
theorem bukin_ieee_minimum (sqrt : Dbl binary64 → Dbl binary64) (h : sqrt 0 = 0) :
    bukin sqrt ⟨.fin false hundredth⟩ (-Dbl.nat binary64 10) (Dbl.nat binary64 1) = 0 := by
  have h1 : (⟨(Dbl.nat binary64 1 - ⟨.fin false hundredth⟩ * -Dbl.nat binary64 10 * -Dbl.nat binary64 10).val.abs⟩ :
      Dbl binary64) = 0 := by decide +kernel
  unfold bukin
  rw [h1, h]
  decide +kernel

/-- Non-vacuity: `hundredth` is the rounding of 1/100, and libraries with the assumed properties exist. -/
example : (Dbl.nat binary64 1).val.div binary64 (Dbl.nat binary64 100).val = .fin false hundredth ∧
    (∀ t : Dbl binary64, IsFin t → InUnitFl ((fun _ => -Dbl.nat binary64 1) t)) ∧
    (∀ t : Dbl binary64, t ≤ 0 → InUnitPlusFl ((fun _ => Dbl.nat binary64 1) t)) ∧
    IsFin (Dbl.nat binary64 3 * Dbl.nat binary64 3 * Dbl.nat binary64 10) ∧
    levy (fun _ => 0) (Dbl.nat binary64 3) (Dbl.nat binary64 3) (Dbl.nat binary64 2) = Dbl.nat binary64 5 :=
  ⟨by decide +kernel, fun _ _ => ⟨true, 2 ^ binary64.one, by show (-Dbl.nat binary64 1).val = _; decide +kernel, le_rfl⟩,
    fun _ _ => ⟨2 ^ binary64.one, by show (Dbl.nat binary64 1).val = _; decide +kernel, le_rfl⟩, ⟨false, 90 * 2 ^ binary64.one, by decide +kernel⟩,
    by decide +kernel⟩

end Heu
