import Verif.Props.TestFunsFl5

/-!
# C158: the penalties of Chankong's and Haimes's problem on `double`s
-/

set_option linter.unusedVariables false
set_option linter.unusedSimpArgs false

namespace Heu
open Spec TestFl

section
variable {F : Fmt}

/-- A positive number added to a constant. -/
theorem const_add_atLeast {c : Nat} (hc : Rep F.mb (c * 2 ^ F.one)) (hp : 0 < c) {g : Dbl F} (hg : (0 : Dbl F) < g) :
    AtLeastUnits (c * 2 ^ F.one) (Dbl.nat F c + g).val := by
  have hgp : PlusSign g.val := by
    have hh : Fl.lt (.fin false 0) g.val = true := hg
    cases hv : g.val with
    | nan => rw [hv] at hh; simp [Fl.lt] at hh
    | inf s => rw [hv] at hh; cases s <;> simp [Fl.lt] at hh; exact .inr rfl
    | fin s n =>
      rw [hv] at hh
      cases s
      · exact .inl ⟨n, rfl⟩
      · simp [Fl.lt, Fl.units] at hh; omega
  exact atLeast_add (F := F) (by positivity) hc hgp

/-- A number of absolute value at most `b` plus one that is at least `a` is at least `a - b`. -/
theorem mag_add_atLeast {a b : Nat} (hab : b < a) (ha : a < 2 ^ (F.mb + 1)) {x y : Dbl F} (hx : Mag b x)
    (hy : AtLeastUnits (a * 2 ^ F.one) y.val) : AtLeastUnits ((a - b) * 2 ^ F.one) (x + y).val := by
  obtain ⟨s, n, ex, hn⟩ := hx
  show AtLeastUnits _ (Fl.add F x.val y.val)
  rw [ex]
  rcases hy with hy | ⟨m, hy, hm⟩ <;> rw [hy]
  · exact .inl rfl
  · obtain ⟨h0, h1⟩ := add_units (F := F) s false n m
    have hu := units_natAbs_eq s n
    have hv : Fl.units false m = (m : Int) := by simp [Fl.units]
    have hsub : (a - b) * 2 ^ F.one = a * 2 ^ F.one - b * 2 ^ F.one := Nat.sub_mul _ _ _
    have hlt := Nat.mul_lt_mul_of_pos_right hab (show 0 < 2 ^ F.one by positivity)
    rw [h1 (by omega), decide_eq_false (by omega)]
    exact atLeast_mk (le_rndUnits _ _ _ one_pos (rep_small (by omega)) (by omega))

/-- **C158**.  On `double`, at points of the box [-20, 20]²: a point at which the code finds the first constraint violated
gets at least 100000 in the first objective, one at which it finds the second violated at least 99379 in the second; a
point at which it finds none violated gets the two documented formulas, and at most 615 and 433 in absolute value. -/
theorem changkongHaimes_ieee_values (hmb : 20 ≤ F.mb) (hone : F.one + F.mb + 1 ≤ F.top) (x y : Dbl F) (hx : Mag 20 x)
    (hy : Mag 20 y) :
    ((0 : Dbl F) < changkongHaimesG1 x y → AtLeastUnits (100000 * 2 ^ F.one) (changkongHaimesFl x y).1.val) ∧
    ((0 : Dbl F) < changkongHaimesG2 x y → AtLeastUnits (99379 * 2 ^ F.one) (changkongHaimesFl x y).2.val) ∧
    (0 : Dbl F) ≤ (changkongHaimesFl x y).1 ∧
    (¬ (0 : Dbl F) < changkongHaimesG1 x y → ¬ (0 : Dbl F) < changkongHaimesG2 x y →
      changkongHaimesFl x y = (Dbl.nat F 2 + (x - Dbl.nat F 2) * (x - Dbl.nat F 2) + (y - Dbl.nat F 1) * (y - Dbl.nat F 1),
        Dbl.nat F 9 * x - (y - Dbl.nat F 1) * (y - Dbl.nat F 1)) ∧
      Mag 615 (changkongHaimesFl x y).1 ∧ Mag 433 (changkongHaimesFl x y).2) := by
  have hpow : 2 ^ 21 ≤ 2 ^ (F.mb + 1) := Nat.pow_le_pow_right (by omega) (by omega)
  have fx : IsFin x := by obtain ⟨s, n, e, -⟩ := hx; exact ⟨s, n, e⟩
  have fy : IsFin y := by obtain ⟨s, n, e, -⟩ := hy; exact ⟨s, n, e⟩
  have hfin : ∀ z : Dbl F, IsFin z → z.val ≠ .nan := by
    rintro z ⟨s, n, h⟩
    rw [h]; simp
  have p0 : PlusSign (Dbl.nat F 2 + squareFl (x - Dbl.nat F 2) + squareFl (y - Dbl.nat F 1)).val :=
    sum_plus (sum_plus (.inl ⟨_, rfl⟩) (square_plus (sub_ne_nan fx (nat_isFin 2))))
      (square_plus (sub_ne_nan fy (nat_isFin 1)))
  have a1 : (0 : Dbl F) < changkongHaimesG1 x y → AtLeastUnits (100000 * 2 ^ F.one) (changkongHaimesFl x y).1.val := by
    intro h
    unfold changkongHaimesFl
    simp only [if_pos h]
    exact penalty_atLeast hmb p0 h
  have a2 : (0 : Dbl F) < changkongHaimesG2 x y → AtLeastUnits (99379 * 2 ^ F.one) (changkongHaimesFl x y).2.val := by
    intro h
    unfold changkongHaimesFl
    simp only [if_pos h]
    have m1 : Mag (9 * 20) (Dbl.nat F 9 * x) := mag_mul hone (by omega) (mag_nat 9) hx
    have m2 : Mag (20 + 1) (y - Dbl.nat F 1) := mag_sub hone (by omega) hy (mag_nat 1)
    have m3 : Mag (21 * 21) (squareFl (y - Dbl.nat F 1)) := mag_mul hone (by omega) m2 m2
    have m4 : Mag (9 * 20 + 21 * 21) (Dbl.nat F 9 * x - squareFl (y - Dbl.nat F 1)) := mag_sub hone (by omega) m1 m3
    have hrep : Rep F.mb (100000 * 2 ^ F.one) := rep_small (by omega)
    have m5 : AtLeastUnits (100000 * 2 ^ F.one) (Dbl.nat F 100000 + changkongHaimesG2 x y).val :=
      const_add_atLeast (c := 100000) hrep (by omega) h
    have m6 := mag_add_atLeast (a := 100000) (b := 9 * 20 + 21 * 21) (by omega) (by omega) m4 m5
    exact m6
  refine ⟨a1, a2, ?_, ?_⟩
  · by_cases h : (0 : Dbl F) < changkongHaimesG1 x y
    · refine PlusSign.nonneg ?_
      rcases a1 h with h | ⟨n, h, -⟩
      · exact .inr h
      · exact .inl ⟨n, h⟩
    · unfold changkongHaimesFl
      simp only [if_neg h]
      exact p0.nonneg
  · intro h1 h2
    have e : changkongHaimesFl x y = (Dbl.nat F 2 + squareFl (x - Dbl.nat F 2) + squareFl (y - Dbl.nat F 1),
        Dbl.nat F 9 * x - squareFl (y - Dbl.nat F 1)) := by
      unfold changkongHaimesFl
      simp only [if_neg h1, if_neg h2]
    have c1 : Clean F (squareFl x).val := clean_square (hfin x fx)
    have c2 : Clean F (squareFl y).val := clean_square (hfin y fy)
    have m225 : Mag 225 (squareFl x + squareFl y) := mag_of_not_pos (clean_add c1 c2) h1
    obtain ⟨q1, q2⟩ := mag_of_sum c1 c2 m225
    have mx : Mag 16 x := mag_of_square (by omega) (by omega) fx q1
    have my : Mag 16 y := mag_of_square (by omega) (by omega) fy q2
    have mx2 : Mag (16 + 2) (x - Dbl.nat F 2) := mag_sub hone (by omega) mx (mag_nat 2)
    have my1 : Mag (16 + 1) (y - Dbl.nat F 1) := mag_sub hone (by omega) my (mag_nat 1)
    have t1 : Mag (18 * 18) (squareFl (x - Dbl.nat F 2)) := mag_mul hone (by omega) mx2 mx2
    have t2 : Mag (17 * 17) (squareFl (y - Dbl.nat F 1)) := mag_mul hone (by omega) my1 my1
    have t3 : Mag (9 * 16) (Dbl.nat F 9 * x) := mag_mul hone (by omega) (mag_nat 9) mx
    rw [e]
    exact ⟨rfl, mag_add hone (by omega) (mag_add hone (by omega) (mag_nat 2) t1) t2, mag_sub hone (by omega) t3 t2⟩

/-- **C158**.  On `double`, no point of the box [-20, 20]² at which the code finds a constraint violated is at least as
good in both objectives as a point of the box at which it finds none violated. -/
theorem changkongHaimes_ieee_penalty (hmb : 20 ≤ F.mb) (hone : F.one + F.mb + 1 ≤ F.top) (x y x' y' : Dbl F)
    (hx : Mag 20 x) (hy : Mag 20 y) (hx' : Mag 20 x') (hy' : Mag 20 y')
    (hf : ¬ (0 : Dbl F) < changkongHaimesG1 x y ∧ ¬ (0 : Dbl F) < changkongHaimesG2 x y)
    (hi : (0 : Dbl F) < changkongHaimesG1 x' y' ∨ (0 : Dbl F) < changkongHaimesG2 x' y') :
    ¬ ((changkongHaimesFl x' y').1 ≤ (changkongHaimesFl x y).1 ∧
      (changkongHaimesFl x' y').2 ≤ (changkongHaimesFl x y).2) := by
  obtain ⟨-, -, -, h⟩ := changkongHaimes_ieee_values hmb hone x y hx hy
  obtain ⟨-, m1, m2⟩ := h hf.1 hf.2
  obtain ⟨b1, b2, -, -⟩ := changkongHaimes_ieee_values hmb hone x' y' hx' hy'
  rintro ⟨l1, l2⟩
  rcases hi with hi | hi
  · exact not_le_of_mag (by omega) (b1 hi) m1 l1
  · exact not_le_of_mag (by omega) (b2 hi) m2 l2

end

/-- Non-vacuity on `double`: (-5, 5) is found feasible, (18, 0) violates both constraints, (0, 20) the first one only. -/
example : 20 ≤ binary64.mb ∧ binary64.one + binary64.mb + 1 ≤ binary64.top ∧
    Mag 20 (-Dbl.nat binary64 5) ∧ Mag 20 (Dbl.nat binary64 18) ∧
    ¬ (0 : Dbl binary64) < changkongHaimesG1 (-Dbl.nat binary64 5) (Dbl.nat binary64 5) ∧
    ¬ (0 : Dbl binary64) < changkongHaimesG2 (-Dbl.nat binary64 5) (Dbl.nat binary64 5) ∧
    (0 : Dbl binary64) < changkongHaimesG2 (Dbl.nat binary64 18) (Dbl.nat binary64 0) ∧
    (0 : Dbl binary64) < changkongHaimesG1 (Dbl.nat binary64 0) (Dbl.nat binary64 20) ∧
    ¬ (0 : Dbl binary64) < changkongHaimesG2 (Dbl.nat binary64 0) (Dbl.nat binary64 20) ∧
    changkongHaimesFl (-Dbl.nat binary64 5) (Dbl.nat binary64 5) = (Dbl.nat binary64 67, -Dbl.nat binary64 61) ∧
    changkongHaimesFl (Dbl.nat binary64 18) (Dbl.nat binary64 0) =
      (Dbl.nat binary64 100358, Dbl.nat binary64 100189) :=
  ⟨by decide, by decide, ⟨true, 5 * 2 ^ binary64.one, rfl, Nat.mul_le_mul_right _ (by decide)⟩,
    ⟨false, 18 * 2 ^ binary64.one, rfl, Nat.mul_le_mul_right _ (by decide)⟩, by decide +kernel, by decide +kernel,
    by decide +kernel, by decide +kernel, by decide +kernel, by decide +kernel, by decide +kernel⟩

end Heu
