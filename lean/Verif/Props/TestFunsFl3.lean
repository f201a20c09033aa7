import Verif.Props.TestFunsFl2

/-!
# C154: `holderTable` and `schaffer2` on `double`s miss their documented minima, for any library of mathematical functions
-/

set_option linter.unusedVariables false
set_option linter.unusedSectionVars false
set_option linter.unusedSimpArgs false

namespace Heu
open Spec TestFl

section
variable {F : Fmt}

/-- The datum is less than 0 (so it is not NaN). -/
def Below0 (x : Fl) : Prop := x = .inf true ∨ ∃ n, x = .fin true n ∧ n ≠ 0

theorem nan_mul (x : Fl) : Fl.mul F .nan x = .nan ∧ Fl.mul F x .nan = .nan := by
  constructor
  · rfl
  · cases x <;> rfl

/-- **C154** (`holderTable`).  Wherever the computed `x * x - y * y` is negative the result is NaN, in any library in
which the square root of a negative number and the exponential function of NaN are NaN. -/
theorem holderTable_ieee_nan (sin cos exp sqrt : Dbl F → Dbl F) (hsqrt : ∀ t : Dbl F, Below0 t.val → (sqrt t).val = .nan)
    (hexp : (exp ⟨.nan⟩).val = .nan) (pi x y : Dbl F) (h : Below0 (x * x - y * y).val) :
    holderTable sin cos exp sqrt pi x y = ⟨.nan⟩ := by
  have hv : ∀ t : Dbl F, t.val = .nan → t = ⟨.nan⟩ := fun t ht => by
    cases t; simp at ht; rw [ht]
  have h1 : sqrt (x * x - y * y) = ⟨.nan⟩ := hv _ (hsqrt _ h)
  have h2 : (⟨(Dbl.nat F 1 - (⟨.nan⟩ : Dbl F) / pi).val.abs⟩ : Dbl F) = ⟨.nan⟩ := rfl
  have h3 : exp (⟨.nan⟩ : Dbl F) = ⟨.nan⟩ := hv _ hexp
  unfold holderTable
  rw [h1, h2, h3]
  show (⟨(Fl.mul F _ .nan).abs.neg⟩ : Dbl F) = _
  rw [(nan_mul _).2]
  rfl

/-- **C154** (`holderTable`).  The result is never greater than 0. -/
theorem holderTable_ieee_nonpos (sin cos exp sqrt : Dbl F → Dbl F) (pi x y : Dbl F) :
    ¬ (0 : Dbl F) < holderTable sin cos exp sqrt pi x y := by
  show ¬ Fl.lt (.fin false 0) (Fl.neg (Fl.abs _)) = true
  generalize (sin x * cos y * exp ⟨(Dbl.nat F 1 - sqrt (x * x - y * y) / pi).val.abs⟩).val = v
  cases v with
  | nan => simp [Fl.abs, Fl.neg, Fl.lt]
  | inf s => simp [Fl.abs, Fl.neg, Fl.lt]
  | fin s n => simp [Fl.abs, Fl.neg, Fl.lt, Fl.units]

theorem plusSign_div {x y : Fl} (hx : PlusSign x) (hx2 : x ≠ .inf false) (hy : PlusSign y) (hy0 : y ≠ .fin false 0) :
    PlusSign (x.div F y) := by
  rcases hx with ⟨n, rfl⟩ | rfl
  · rcases hy with ⟨m, rfl⟩ | rfl
    · have hm : m ≠ 0 := fun h => hy0 (by rw [h])
      rw [Fl.div, if_neg hm]
      exact plusSign_mk _
    · exact .inl ⟨0, rfl⟩
  · exact absurd rfl hx2

/-- Infinity, or a finite datum of at least `b` units. -/
def AtLeastUnits (b : Nat) (x : Fl) : Prop := x = .inf false ∨ ∃ n, x = .fin false n ∧ b ≤ n

theorem atLeast_mk {b n : Nat} (h : b ≤ n) : AtLeastUnits b (Fl.mk F false n) := by
  unfold Fl.mk
  split
  · exact .inl rfl
  · exact .inr ⟨n, rfl, h⟩

theorem atLeast_add {b : Nat} (hb : 0 < b) (hr : Rep F.mb b) {y : Fl} (hy : PlusSign y) :
    AtLeastUnits b (Fl.add F (.fin false b) y) := by
  rcases hy with ⟨m, rfl⟩ | rfl
  · rw [Fl.add]
    have hz : Fl.units false b + Fl.units false m = ((b + m : Nat) : Int) := by simp [Fl.units]
    rw [hz]
    show AtLeastUnits b (if _ then _ else _)
    have hd : decide (((b + m : Nat) : Int) < 0) = false := by rw [decide_eq_false_iff_not]; omega
    rw [if_neg (by omega), hd, Int.natAbs_natCast]
    exact atLeast_mk (le_rndUnits _ _ _ one_pos hr (by omega))
  · exact .inl rfl

theorem atLeast_square {x : Dbl F} (hx : AtLeastUnits (2 ^ F.one) x.val) : AtLeastUnits (2 ^ F.one) (squareFl x).val := by
  show AtLeastUnits _ (Fl.mul F x.val x.val)
  rcases hx with h | ⟨n, h, hn⟩ <;> rw [h]
  · left; rfl
  · rw [Fl.mul, Bool.xor_self]
    exact atLeast_mk (le_rndUnits _ _ _ (by positivity) (rep_pow _ _) (Nat.mul_le_mul hn hn))

/-- The numerator of `schaffer2` does not overflow. -/
theorem numerator_finite (hF : F.one + 2 < F.top) (h1 : 1 ≤ F.one) {s : Dbl F} (hs : InUnitFl s) :
    PlusSign (squareFl (s - dyadic F 1 1)).val ∧ (squareFl (s - dyadic F 1 1)).val ≠ .inf false := by
  obtain ⟨t, n, hv, hn⟩ := hs
  have hpow : 2 ^ (F.one - 1) ≤ 2 ^ F.one := Nat.pow_le_pow_right (by omega) (by omega)
  have hd : ∃ b m, (s - dyadic F 1 1).val = .fin b m ∧ m ≤ 2 ^ (F.one + 1) := by
    have e : (s - dyadic F 1 1).val = Fl.add F s.val (.fin true (1 * 2 ^ (F.one - 1))) := rfl
    rw [e, hv, Fl.add, Nat.one_mul]
    split
    · exact ⟨_, 0, rfl, Nat.zero_le _⟩
    · have hz : (Fl.units t n + Fl.units true (2 ^ (F.one - 1))).natAbs ≤ 2 ^ (F.one + 1) := by
        have h2 : 2 ^ (F.one + 1) = 2 ^ F.one * 2 := pow_succ _ _
        generalize 2 ^ (F.one + 1) = A at *
        generalize 2 ^ (F.one - 1) = B at *
        generalize 2 ^ F.one = C at *
        cases t <;> simp only [Fl.units, if_true, Bool.false_eq_true, if_false] <;> omega
      have hr : rndUnits F.mb (Fl.units t n + Fl.units true (2 ^ (F.one - 1))).natAbs 1 ≤ 2 ^ (F.one + 1) :=
        rndUnits_le _ _ _ one_pos (rep_pow _ _) (by omega)
      have hlt : 2 ^ (F.one + 1) < 2 ^ F.top := Nat.pow_lt_pow_right (by omega) (by omega)
      exact ⟨_, _, by rw [Fl.mk, if_neg (by omega)], hr⟩
  obtain ⟨b, m, hm, hml⟩ := hd
  have e : (squareFl (s - dyadic F 1 1)).val = Fl.mul F (s - dyadic F 1 1).val (s - dyadic F 1 1).val := rfl
  have hr : rndUnits F.mb (m * m) (2 ^ F.one) ≤ 2 ^ (F.one + 2) := by
    refine rndUnits_le _ _ _ (by positivity) (rep_pow _ _) ?_
    calc m * m ≤ 2 ^ (F.one + 1) * 2 ^ (F.one + 1) := Nat.mul_le_mul hml hml
      _ = 2 ^ (F.one + 2) * 2 ^ F.one := by ring
  have hlt : 2 ^ (F.one + 2) < 2 ^ F.top := Nat.pow_lt_pow_right (by omega) hF
  rw [e, hm, Fl.mul, Bool.xor_self, Fl.mk, if_neg (by omega)]
  exact ⟨.inl ⟨_, rfl⟩, by simp⟩

/-- **C154** (`schaffer2`).  At finite coordinates at which the argument of the sine does not overflow the value is at
least 0.5 (in particular not NaN), whatever sine the library has, if it stays within [-1, 1]: the documented minimum 0 is
never reached. -/
theorem schaffer2_ieee_lower (hF : F.one + 2 < F.top) (h1 : 1 ≤ F.one) (sin : Dbl F → Dbl F)
    (hsin : ∀ t, IsFin t → InUnitFl (sin t)) (k : Nat) (hk : k ≠ 0) (x y : Dbl F) (hx : IsFin x) (hy : IsFin y)
    (ha : IsFin (x * x - y * y)) : dyadic F 1 1 ≤ schaffer2 sin ⟨.fin false k⟩ x y := by
  have hfin : ∀ z : Dbl F, IsFin z → z.val ≠ .nan := by
    rintro z ⟨s, n, h⟩
    rw [h]; simp
  obtain ⟨hn1, hn2⟩ := numerator_finite hF h1 (hsin _ ha)
  have hsum : PlusSign (x * x + y * y).val := sum_plus (square_plus (hfin x hx)) (square_plus (hfin y hy))
  have hc : PlusSign ((⟨.fin false k⟩ : Dbl F) * (x * x + y * y)).val := plusSign_scale (F := F) hk hsum
  have hden : AtLeastUnits (2 ^ F.one) (squareFl (Dbl.nat F 1 + (⟨.fin false k⟩ : Dbl F) * (x * x + y * y))).val := by
    refine atLeast_square ?_
    show AtLeastUnits _ (Fl.add F (.fin false (1 * 2 ^ F.one)) _)
    rw [Nat.one_mul]
    exact atLeast_add (by positivity) (rep_pow _ _) hc
  have hq : PlusSign (squareFl (sin (x * x - y * y) - dyadic F 1 1) /
      squareFl (Dbl.nat F 1 + (⟨.fin false k⟩ : Dbl F) * (x * x + y * y))).val := by
    refine plusSign_div hn1 hn2 ?_ ?_
    · rcases hden with h | ⟨n, h, -⟩
      · exact .inr h
      · exact .inl ⟨n, h⟩
    · rcases hden with h | ⟨n, h, hn⟩ <;> rw [h]
      · simp
      · have : 0 < 2 ^ F.one := by positivity
        intro hh
        cases hh
        omega
  have hfinal := atLeast_add (F := F) (b := 1 * 2 ^ (F.one - 1)) (by positivity) (by simpa using rep_pow F.mb (F.one - 1)) hq
  show Fl.le (.fin false (1 * 2 ^ (F.one - 1))) (Fl.add F (.fin false (1 * 2 ^ (F.one - 1))) _) = true
  rcases hfinal with h | ⟨n, h, hn⟩
  · rw [h]; rfl
  · rw [h]
    exact decide_eq_true (by simp only [Fl.units, Bool.false_eq_true, if_false]; omega)

end

/-- The `double`s nearest to 8.05502 and 9.66459, in units. -/
abbrev holderX : Nat := 4534573133807737 * 2 ^ 1025

/-- See `holderX`. -/
abbrev holderY : Nat := 2720340245168039 * 2 ^ 1026

/-- **C154** (`holderTable`, the documented minima).  At each of the four documented minimisers (±8.05502, ±9.66459) the
result on `double` is NaN. -/
theorem holderTable_ieee_minima (sin cos exp sqrt : Dbl binary64 → Dbl binary64)
    (hsqrt : ∀ t : Dbl binary64, Below0 t.val → (sqrt t).val = .nan) (hexp : (exp ⟨.nan⟩).val = .nan)
    (pi : Dbl binary64) (s t : Bool) :
    holderTable sin cos exp sqrt pi ⟨.fin s holderX⟩ ⟨.fin t holderY⟩ = ⟨.nan⟩ := by
  refine holderTable_ieee_nan sin cos exp sqrt hsqrt hexp pi _ _ ?_
  have h0 : ((⟨.fin false holderX⟩ : Dbl binary64) * ⟨.fin false holderX⟩ -
      ⟨.fin false holderY⟩ * ⟨.fin false holderY⟩).val.lt (.fin false 0) = true := by decide +kernel
  have e : ∀ (s : Bool) (n : Nat), (⟨.fin s n⟩ : Dbl binary64) * ⟨.fin s n⟩ = ⟨.fin false n⟩ * ⟨.fin false n⟩ := by
    intro s n
    show (⟨Fl.mul _ _ _⟩ : Dbl binary64) = ⟨Fl.mul _ _ _⟩
    rw [Fl.mul, Fl.mul, Bool.xor_self, Bool.xor_self]
  rw [e s, e t]
  revert h0
  generalize ((⟨.fin false holderX⟩ : Dbl binary64) * ⟨.fin false holderX⟩ -
      ⟨.fin false holderY⟩ * ⟨.fin false holderY⟩).val = v
  intro h0
  cases v with
  | nan => simp [Fl.lt] at h0
  | inf b => cases b <;> simp [Fl.lt] at h0; exact .inl rfl
  | fin b n =>
    cases b <;> simp [Fl.lt, Fl.units] at h0
    · omega
    · exact .inr ⟨n, rfl, by omega⟩

/-- Non-vacuity: `holderX`, `holderY` are the roundings of the documented numbers, libraries with the assumed properties
exist, and where `|y| ≤ |x|` the result is a number; `schaffer2` at the origin. -/
example : (Dbl.nat binary64 805502).val.div binary64 (Dbl.nat binary64 100000).val = .fin false holderX ∧
    (Dbl.nat binary64 966459).val.div binary64 (Dbl.nat binary64 100000).val = .fin false holderY ∧
    (∀ t : Dbl binary64, Below0 t.val → ((fun _ => (⟨.nan⟩ : Dbl binary64)) t).val = .nan) ∧
    holderTable (fun _ => Dbl.nat binary64 1) (fun _ => Dbl.nat binary64 1) id id (Dbl.nat binary64 3)
      (Dbl.nat binary64 2) (Dbl.nat binary64 1) = -0 ∧
    IsFin (Dbl.nat binary64 0 * Dbl.nat binary64 0 - Dbl.nat binary64 0 * Dbl.nat binary64 0) ∧
    binary64.one + 2 < binary64.top ∧ 1 ≤ binary64.one ∧
    schaffer2 id ⟨.fin false (2 ^ 1064)⟩ (Dbl.nat binary64 0) (Dbl.nat binary64 0) = dyadic binary64 3 2 :=
  ⟨by decide +kernel, by decide +kernel, fun _ _ => rfl, by decide +kernel, ⟨false, 0, by decide +kernel⟩,
    by decide +kernel, by decide +kernel, by decide +kernel⟩

end Heu
