import Verif.Props.TestFunsFl4

/-!
# C156: the penalties of Binh's and Korn's problem on `double`s
-/

set_option linter.unusedVariables false
set_option linter.unusedSectionVars false
set_option linter.unusedSimpArgs false

namespace Heu
open Spec TestFl

/-- A number of absolute value at most `K`. -/
def Mag {F : Fmt} (K : Nat) (x : Dbl F) : Prop := ∃ s n, x.val = .fin s n ∧ n ≤ K * 2 ^ F.one

section
variable {F : Fmt}

theorem Mag.mono {K L : Nat} {x : Dbl F} (h : Mag K x) (hl : K ≤ L) : Mag L x := by
  obtain ⟨s, n, e, hn⟩ := h
  exact ⟨s, n, e, hn.trans (Nat.mul_le_mul_right _ hl)⟩

theorem top_of (hone : F.one + F.mb + 1 ≤ F.top) {K : Nat} (hK : K < 2 ^ (F.mb + 1)) : K * 2 ^ F.one < 2 ^ F.top :=
  calc K * 2 ^ F.one < 2 ^ (F.mb + 1) * 2 ^ F.one := Nat.mul_lt_mul_of_pos_right hK (by positivity)
    _ = 2 ^ (F.mb + 1 + F.one) := (pow_add _ _ _).symm
    _ ≤ 2 ^ F.top := Nat.pow_le_pow_right (by omega) (by omega)

theorem mag_nat (k : Nat) : Mag k (Dbl.nat F k) := ⟨false, _, rfl, le_rfl⟩

/-- Rounding a sum of `z` units. -/
theorem add_units (s t : Bool) (n m : Nat) :
    (Fl.units s n + Fl.units t m = 0 → Fl.add F (.fin s n) (.fin t m) = .fin (s && t) 0) ∧
    (Fl.units s n + Fl.units t m ≠ 0 → Fl.add F (.fin s n) (.fin t m) =
      Fl.mk F (decide (Fl.units s n + Fl.units t m < 0)) (rndUnits F.mb (Fl.units s n + Fl.units t m).natAbs 1)) := by
  constructor <;> intro h
  · rw [Fl.add, if_pos h]
  · rw [Fl.add, if_neg h]

theorem units_natAbs_eq (s : Bool) (n : Nat) : (Fl.units s n).natAbs = n := by
  cases s <;> simp [Fl.units]

theorem mag_add (hone : F.one + F.mb + 1 ≤ F.top) {a b : Nat} (hab : a + b < 2 ^ (F.mb + 1)) {x y : Dbl F} (hx : Mag a x)
    (hy : Mag b y) : Mag (a + b) (x + y) := by
  obtain ⟨s, n, ex, hn⟩ := hx
  obtain ⟨t, m, ey, hm⟩ := hy
  have e : (x + y).val = Fl.add F x.val y.val := rfl
  have hu1 := units_natAbs_eq s n
  have hu2 := units_natAbs_eq t m
  obtain ⟨h0, h1⟩ := add_units (F := F) s t n m
  have hsum : n + m ≤ (a + b) * 2 ^ F.one := by rw [Nat.add_mul]; omega
  have htop := top_of hone hab
  unfold Mag
  rw [e, ex, ey]
  by_cases hz : Fl.units s n + Fl.units t m = 0
  · exact ⟨_, 0, h0 hz, Nat.zero_le _⟩
  · have hr : rndUnits F.mb (Fl.units s n + Fl.units t m).natAbs 1 ≤ (a + b) * 2 ^ F.one :=
      rndUnits_le _ _ _ one_pos (rep_small hab) (by omega)
    rw [h1 hz, Fl.mk, if_neg (by omega)]
    exact ⟨_, _, rfl, hr⟩

theorem mag_neg {a : Nat} {x : Dbl F} (hx : Mag a x) : Mag a (-x) := by
  obtain ⟨s, n, ex, hn⟩ := hx
  exact ⟨!s, n, by show Fl.neg x.val = _; rw [ex]; rfl, hn⟩

theorem mag_sub (hone : F.one + F.mb + 1 ≤ F.top) {a b : Nat} (hab : a + b < 2 ^ (F.mb + 1)) {x y : Dbl F} (hx : Mag a x)
    (hy : Mag b y) : Mag (a + b) (x - y) := mag_add hone hab hx (mag_neg hy)

theorem mag_mul (hone : F.one + F.mb + 1 ≤ F.top) {a b : Nat} (hab : a * b < 2 ^ (F.mb + 1)) {x y : Dbl F} (hx : Mag a x)
    (hy : Mag b y) : Mag (a * b) (x * y) := by
  obtain ⟨s, n, ex, hn⟩ := hx
  obtain ⟨t, m, ey, hm⟩ := hy
  have hr : rndUnits F.mb (n * m) (2 ^ F.one) ≤ a * b * 2 ^ F.one := by
    refine rndUnits_le _ _ _ (by positivity) (rep_small hab) ?_
    calc n * m ≤ a * 2 ^ F.one * (b * 2 ^ F.one) := Nat.mul_le_mul hn hm
      _ = a * b * 2 ^ F.one * 2 ^ F.one := by ring
  have htop := top_of hone hab
  refine ⟨xor s t, _, ?_, hr⟩
  show Fl.mul F x.val y.val = _
  rw [ex, ey, Fl.mul, Fl.mk, if_neg (by omega)]

theorem fl_mk_eq_fin {s t : Bool} {n m : Nat} (h : Fl.mk F s n = .fin t m) : n = m := by
  unfold Fl.mk at h
  split at h
  · cases h
  · cases h; rfl

/-- A number whose square is at most `B` is below every `K` with `B < K * K`. -/
theorem mag_of_square {B K : Nat} (hK : K * K < 2 ^ (F.mb + 1)) (hB : B < K * K) {x : Dbl F} (hx : IsFin x)
    (h : Mag B (squareFl x)) : Mag K x := by
  obtain ⟨s, n, ex⟩ := hx
  obtain ⟨t, m, e, hm⟩ := h
  refine ⟨s, n, ex, ?_⟩
  by_contra hcon
  have e2 : (squareFl x).val = Fl.mul F x.val x.val := rfl
  rw [e2, ex, Fl.mul] at e
  have hr : K * K * 2 ^ F.one ≤ rndUnits F.mb (n * n) (2 ^ F.one) := by
    refine le_rndUnits _ _ _ (by positivity) (rep_small hK) ?_
    calc K * K * 2 ^ F.one * 2 ^ F.one = K * 2 ^ F.one * (K * 2 ^ F.one) := by ring
      _ ≤ n * n := Nat.mul_le_mul (by omega) (by omega)
  rw [fl_mk_eq_fin e] at hr
  have := Nat.mul_lt_mul_of_pos_right hB (show 0 < 2 ^ F.one by positivity)
  omega

/-- A number that differs from `c`, rounded, by at most `K` is at most `K + c + 1`. -/
theorem mag_of_sub {K c : Nat} (hK : K + 1 < 2 ^ (F.mb + 1)) {x : Dbl F} (hx : IsFin x) (h : Mag K (x - Dbl.nat F c)) :
    Mag (K + c + 1) x := by
  obtain ⟨s, n, ex⟩ := hx
  obtain ⟨t, m, e, hm⟩ := h
  refine ⟨s, n, ex, ?_⟩
  by_contra hcon
  have e2 : (x - Dbl.nat F c).val = Fl.add F x.val (.fin true (c * 2 ^ F.one)) := rfl
  have hp : 0 < 2 ^ F.one := by positivity
  have e3 : (K + c + 1) * 2 ^ F.one = (K + 1) * 2 ^ F.one + c * 2 ^ F.one := by ring
  have e4 : (K + 1) * 2 ^ F.one = K * 2 ^ F.one + 2 ^ F.one := by ring
  have hu1 := units_natAbs_eq s n
  have hu2 := units_natAbs_eq true (c * 2 ^ F.one)
  have hbig : (K + 1) * 2 ^ F.one ≤ (Fl.units s n + Fl.units true (c * 2 ^ F.one)).natAbs := by omega
  obtain ⟨h0, h1⟩ := add_units (F := F) s true n (c * 2 ^ F.one)
  rw [e2, ex, h1 (by omega)] at e
  have hr : (K + 1) * 2 ^ F.one ≤ rndUnits F.mb (Fl.units s n + Fl.units true (c * 2 ^ F.one)).natAbs 1 :=
    le_rndUnits _ _ _ one_pos (rep_small hK) (by omega)
  rw [fl_mk_eq_fin e] at hr
  omega

/-- Two non-negative numbers of the format are at most their rounded sum. -/
theorem mag_of_sum {B : Nat} {x y : Dbl F} (hx : Clean F x.val) (hy : Clean F y.val) (h : Mag B (x + y)) :
    Mag B x ∧ Mag B y := by
  obtain ⟨t, m, e, hm⟩ := h
  have e2 : (x + y).val = Fl.add F x.val y.val := rfl
  rw [e2] at e
  rcases hx with ⟨n, hx, r1, l1⟩ | hx <;> rcases hy with ⟨k, hy, r2, l2⟩ | hy <;> rw [hx, hy] at e
  · obtain ⟨h0, h1⟩ := add_units (F := F) false false n k
    have hz : Fl.units false n + Fl.units false k = ((n + k : Nat) : Int) := by simp [Fl.units]
    rw [hz] at h0 h1
    by_cases hnk : n + k = 0
    · exact ⟨⟨false, n, hx, by omega⟩, ⟨false, k, hy, by omega⟩⟩
    · rw [h1 (by omega), Int.natAbs_natCast] at e
      have q := fl_mk_eq_fin e
      have a1 : n ≤ rndUnits F.mb (n + k) 1 := le_rndUnits _ _ _ one_pos r1 (by omega)
      have a2 : k ≤ rndUnits F.mb (n + k) 1 := le_rndUnits _ _ _ one_pos r2 (by omega)
      exact ⟨⟨false, n, hx, by omega⟩, ⟨false, k, hy, by omega⟩⟩
  all_goals (simp [Fl.add] at e)

/-- What exceeds `c` by nothing, rounded, is at most `c`. -/
theorem mag_of_not_pos {c : Nat} {x : Dbl F} (hx : Clean F x.val) (h : ¬ (0 : Dbl F) < x - Dbl.nat F c) : Mag c x := by
  have hh : ¬ Fl.lt (.fin false 0) (Fl.add F x.val (.fin true (c * 2 ^ F.one))) = true := h
  rcases hx with ⟨n, hx, r1, l1⟩ | hx <;> rw [hx] at hh
  · refine ⟨false, n, hx, ?_⟩
    by_contra hcon
    obtain ⟨h0, h1⟩ := add_units (F := F) false true n (c * 2 ^ F.one)
    have hpos : 0 < Fl.units false n + Fl.units true (c * 2 ^ F.one) := by
      simp only [Fl.units, if_true, Bool.false_eq_true, if_false]; omega
    rw [h1 (by omega), decide_eq_false (by omega), Fl.mk] at hh
    have : 1 ≤ rndUnits F.mb (Fl.units false n + Fl.units true (c * 2 ^ F.one)).natAbs 1 :=
      le_rndUnits _ _ _ one_pos (by simpa using rep_pow F.mb 0) (by omega)
    split at hh
    · exact hh rfl
    · refine hh (decide_eq_true ?_)
      simp only [Fl.units, Bool.false_eq_true, if_false] at *
      omega
  · simp [Fl.add, Fl.lt] at hh

/-- Penalties: a non-negative value plus (100000 plus a positive one) is at least 100000. -/
theorem penalty_atLeast (hmb : 20 ≤ F.mb) {f g : Dbl F} (hf : PlusSign f.val) (hg : (0 : Dbl F) < g) :
    AtLeastUnits (100000 * 2 ^ F.one) (f + (Dbl.nat F 100000 + g)).val := by
  have hrep : Rep F.mb (100000 * 2 ^ F.one) := rep_small (by
    have : 2 ^ 21 ≤ 2 ^ (F.mb + 1) := Nat.pow_le_pow_right (by omega) (by omega)
    omega)
  have hgp : PlusSign g.val := by
    have hh : Fl.lt (.fin false 0) g.val = true := hg
    cases hv : g.val with
    | nan => rw [hv] at hh; simp [Fl.lt] at hh
    | inf s => rw [hv] at hh; cases s <;> simp [Fl.lt] at hh; exact .inr rfl
    | fin s n =>
      rw [hv] at hh
      cases s
      · exact .inl ⟨n, rfl⟩
      · simp [Fl.lt, Fl.units] at hh; omega
  have h1 : AtLeastUnits (100000 * 2 ^ F.one) (Dbl.nat F 100000 + g).val :=
    atLeast_add (F := F) (by positivity) hrep hgp
  show AtLeastUnits _ (Fl.add F f.val (Dbl.nat F 100000 + g).val)
  rcases hf with ⟨n, hf⟩ | hf <;> rcases h1 with h1 | ⟨m, h1, hm⟩ <;> rw [hf, h1]
  · exact .inl rfl
  · obtain ⟨h0, h2⟩ := add_units (F := F) false false n m
    have hz : Fl.units false n + Fl.units false m = ((n + m : Nat) : Int) := by simp [Fl.units]
    have hp : 0 < 2 ^ F.one := by positivity
    rw [h2 (by omega), hz, decide_eq_false (by omega), Int.natAbs_natCast]
    exact atLeast_mk (le_rndUnits _ _ _ one_pos hrep (by omega))
  · exact .inl rfl
  · exact .inl rfl

theorem not_le_of_mag {K L : Nat} (h : K < L) {x y : Dbl F} (hx : AtLeastUnits (L * 2 ^ F.one) x.val) (hy : Mag K y) :
    ¬ x ≤ y := by
  have hlt := Nat.mul_lt_mul_of_pos_right h (show 0 < 2 ^ F.one by positivity)
  obtain ⟨s, n, ey, hn⟩ := hy
  show ¬ Fl.le x.val y.val = true
  rw [ey]
  have hu := units_natAbs_eq s n
  rcases hx with hx | ⟨m, hx, hm⟩ <;> rw [hx]
  · simp [Fl.le]
  · simp only [Fl.le, decide_eq_true_eq]
    have : Fl.units false m = m := by simp [Fl.units]
    omega

theorem four_plus {x : Dbl F} (hx : IsFin x) : PlusSign (Dbl.nat F 4 * x * x).val := by
  obtain ⟨s, n, ex⟩ := hx
  have e : (Dbl.nat F 4 * x * x).val = Fl.mul F (Fl.mul F (.fin false (4 * 2 ^ F.one)) x.val) x.val := rfl
  have hne := (mul_mul_ne_nan (F := F) (x := .fin false (4 * 2 ^ F.one)) (y := x.val) ⟨_, _, rfl⟩ ⟨s, n, ex⟩).1
  rw [e]
  rw [ex] at hne ⊢
  rw [Fl.mul] at hne ⊢
  unfold Fl.mk at hne ⊢
  split
  · next h =>
    rw [if_pos h] at hne
    rw [Fl.mul] at hne ⊢
    split
    · next h0 => rw [if_pos h0] at hne; exact absurd rfl hne
    · right; simp
  · rw [Fl.mul]
    have : ((false ^^ s) ^^ s) = false := by cases s <;> rfl
    rw [this]
    exact plusSign_mk _

/-- **C156**.  On `double`, at finite coordinates: a point at which the code finds a constraint violated gets at least
100000 in the objective penalised for it, and both objectives are at least 0; a point at which it finds none violated
gets at most 1000 in both, computed by the documented formulas. -/
theorem binhKorn_ieee_values (hmb : 20 ≤ F.mb) (hone : F.one + F.mb + 1 ≤ F.top) (c x y : Dbl F) (hx : IsFin x)
    (hy : IsFin y) :
    ((0 : Dbl F) < binhKornG1 x y → AtLeastUnits (100000 * 2 ^ F.one) (binhKorn c x y).1.val) ∧
    ((0 : Dbl F) < binhKornG2 c x y → AtLeastUnits (100000 * 2 ^ F.one) (binhKorn c x y).2.val) ∧
    (0 : Dbl F) ≤ (binhKorn c x y).1 ∧ (0 : Dbl F) ≤ (binhKorn c x y).2 ∧
    (¬ (0 : Dbl F) < binhKornG1 x y → ¬ (0 : Dbl F) < binhKornG2 c x y →
      binhKorn c x y = (Dbl.nat F 4 * x * x + Dbl.nat F 4 * y * y,
        (x - Dbl.nat F 5) * (x - Dbl.nat F 5) + (y - Dbl.nat F 5) * (y - Dbl.nat F 5)) ∧
      Mag 1000 (binhKorn c x y).1 ∧ Mag 1000 (binhKorn c x y).2) := by
  have hpow : 2 ^ 21 ≤ 2 ^ (F.mb + 1) := Nat.pow_le_pow_right (by omega) (by omega)
  have s5 : ∀ z : Dbl F, IsFin z → PlusSign (squareFl (z - Dbl.nat F 5)).val :=
    fun z hz => square_plus (sub_ne_nan hz (nat_isFin 5))
  have p0 : PlusSign (Dbl.nat F 4 * x * x + Dbl.nat F 4 * y * y).val := sum_plus (four_plus hx) (four_plus hy)
  have p1 : PlusSign (squareFl (x - Dbl.nat F 5) + squareFl (y - Dbl.nat F 5)).val := sum_plus (s5 x hx) (s5 y hy)
  have hnn : ∀ v : Dbl F, AtLeastUnits (100000 * 2 ^ F.one) v.val → (0 : Dbl F) ≤ v := by
    intro v hv
    refine PlusSign.nonneg ?_
    rcases hv with h | ⟨n, h, -⟩
    · exact .inr h
    · exact .inl ⟨n, h⟩
  have a1 : (0 : Dbl F) < binhKornG1 x y → AtLeastUnits (100000 * 2 ^ F.one) (binhKorn c x y).1.val := by
    intro h
    unfold binhKorn
    simp only [if_pos h]
    exact penalty_atLeast hmb p0 h
  have a2 : (0 : Dbl F) < binhKornG2 c x y → AtLeastUnits (100000 * 2 ^ F.one) (binhKorn c x y).2.val := by
    intro h
    unfold binhKorn
    simp only [if_pos h]
    exact penalty_atLeast hmb p1 h
  refine ⟨a1, a2, ?_, ?_, ?_⟩
  · by_cases h : (0 : Dbl F) < binhKornG1 x y
    · exact hnn _ (a1 h)
    · unfold binhKorn
      simp only [if_neg h]
      exact p0.nonneg
  · by_cases h : (0 : Dbl F) < binhKornG2 c x y
    · exact hnn _ (a2 h)
    · unfold binhKorn
      simp only [if_neg h]
      exact p1.nonneg
  · intro h1 h2
    have e : binhKorn c x y = (Dbl.nat F 4 * x * x + Dbl.nat F 4 * y * y,
        squareFl (x - Dbl.nat F 5) + squareFl (y - Dbl.nat F 5)) := by
      unfold binhKorn
      simp only [if_neg h1, if_neg h2]
    have hfin : ∀ z : Dbl F, IsFin z → z.val ≠ .nan := by
      rintro z ⟨s, n, h⟩
      rw [h]; simp
    have c1 : Clean F (squareFl (x - Dbl.nat F 5)).val := clean_square (sub_ne_nan hx (nat_isFin 5))
    have c2 : Clean F (squareFl y).val := clean_square (hfin y hy)
    have m25 : Mag 25 (squareFl (x - Dbl.nat F 5) + squareFl y) := mag_of_not_pos (clean_add c1 c2) h1
    obtain ⟨q1, q2⟩ := mag_of_sum c1 c2 m25
    have hxf : IsFin (x - Dbl.nat F 5) := by
      cases hv : (x - Dbl.nat F 5).val with
      | nan => exact absurd hv (sub_ne_nan hx (nat_isFin 5))
      | inf s =>
        obtain ⟨t, m, e, -⟩ := q1
        have : (squareFl (x - Dbl.nat F 5)).val = Fl.mul F (x - Dbl.nat F 5).val (x - Dbl.nat F 5).val := rfl
        rw [this, hv] at e
        simp [Fl.mul] at e
      | fin s n => exact ⟨s, n, hv⟩
    have mx5 : Mag 6 (x - Dbl.nat F 5) := mag_of_square (by omega) (by omega) hxf q1
    have my : Mag 6 y := mag_of_square (by omega) (by omega) hy q2
    have mx : Mag 12 x := mag_of_sub (by omega) hx mx5
    have my5 : Mag 11 (y - Dbl.nat F 5) := mag_sub hone (by omega) my (mag_nat 5)
    have t1 : Mag (4 * 12 * 12) (Dbl.nat F 4 * x * x) :=
      mag_mul hone (by omega) (mag_mul hone (by omega) (mag_nat 4) mx) mx
    have t2 : Mag (4 * 6 * 6) (Dbl.nat F 4 * y * y) :=
      mag_mul hone (by omega) (mag_mul hone (by omega) (mag_nat 4) my) my
    have t3 : Mag (6 * 6) (squareFl (x - Dbl.nat F 5)) := mag_mul hone (by omega) mx5 mx5
    have t4 : Mag (11 * 11) (squareFl (y - Dbl.nat F 5)) := mag_mul hone (by omega) my5 my5
    rw [e]
    exact ⟨rfl, (mag_add hone (by omega) t1 t2).mono (by omega), (mag_add hone (by omega) t3 t4).mono (by omega)⟩

/-- **C156**.  On `double`, at finite coordinates, no point at which the code finds a constraint violated dominates – is
at least as good in both objectives as – a point at which it finds none violated. -/
theorem binhKorn_ieee_penalty (hmb : 20 ≤ F.mb) (hone : F.one + F.mb + 1 ≤ F.top) (c x y x' y' : Dbl F) (hx : IsFin x)
    (hy : IsFin y) (hx' : IsFin x') (hy' : IsFin y')
    (hf : ¬ (0 : Dbl F) < binhKornG1 x y ∧ ¬ (0 : Dbl F) < binhKornG2 c x y)
    (hi : (0 : Dbl F) < binhKornG1 x' y' ∨ (0 : Dbl F) < binhKornG2 c x' y') :
    ¬ ((binhKorn c x' y').1 ≤ (binhKorn c x y).1 ∧ (binhKorn c x' y').2 ≤ (binhKorn c x y).2) := by
  obtain ⟨-, -, -, -, h⟩ := binhKorn_ieee_values hmb hone c x y hx hy
  obtain ⟨-, m1, m2⟩ := h hf.1 hf.2
  obtain ⟨b1, b2, -⟩ := binhKorn_ieee_values hmb hone c x' y' hx' hy'
  rintro ⟨l1, l2⟩
  rcases hi with hi | hi
  · exact not_le_of_mag (by omega) (b1 hi) m1 l1
  · exact not_le_of_mag (by omega) (b2 hi) m2 l2

end

/-- Non-vacuity on `double` (with the nearest number to 7.7): (1, 1) is found feasible, (-5, 0) and (8, -3) are not. -/
example : 20 ≤ binary64.mb ∧ binary64.one + binary64.mb + 1 ≤ binary64.top ∧
    (Dbl.nat binary64 77).val.div binary64 (Dbl.nat binary64 10).val = .fin false (8669429282688205 * 2 ^ 1024) ∧
    ¬ (0 : Dbl binary64) < binhKornG1 (Dbl.nat binary64 1) (Dbl.nat binary64 1) ∧
    ¬ (0 : Dbl binary64) < binhKornG2 ⟨.fin false (8669429282688205 * 2 ^ 1024)⟩ (Dbl.nat binary64 1) (Dbl.nat binary64 1) ∧
    (0 : Dbl binary64) < binhKornG1 (-Dbl.nat binary64 5) (Dbl.nat binary64 0) ∧
    (0 : Dbl binary64) < binhKornG2 ⟨.fin false (8669429282688205 * 2 ^ 1024)⟩ (Dbl.nat binary64 8) (-Dbl.nat binary64 3) ∧
    binhKorn (⟨.fin false (8669429282688205 * 2 ^ 1024)⟩ : Dbl binary64) (Dbl.nat binary64 1) (Dbl.nat binary64 1) =
      (Dbl.nat binary64 8, Dbl.nat binary64 32) ∧
    binhKorn (⟨.fin false (8669429282688205 * 2 ^ 1024)⟩ : Dbl binary64) (-Dbl.nat binary64 5) (Dbl.nat binary64 0) =
      (Dbl.nat binary64 100175, Dbl.nat binary64 125) :=
  ⟨by decide, by decide, by decide +kernel, by decide +kernel, by decide +kernel, by decide +kernel, by decide +kernel,
    by decide +kernel, by decide +kernel⟩

end Heu
