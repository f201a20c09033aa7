import Verif.Model.TestFunsFl
import Verif.Lemmas.IEEERound
import Verif.Props.PSO

/-!
# C152: sums of squares among the test functions on `double`s
-/

set_option linter.unusedVariables false
set_option linter.unusedSectionVars false
set_option linter.unusedSimpArgs false

namespace Heu
open Spec TestFl

/-- Plus infinity or a finite datum with sign `+`. -/
def PlusSign (x : Fl) : Prop := (∃ n, x = .fin false n) ∨ x = .inf false

/-- A finite datum. -/
def IsFin {F : Fmt} (x : Dbl F) : Prop := ∃ s n, x.val = .fin s n

section
variable {F : Fmt}

theorem PlusSign.ne_nan {x : Fl} (h : PlusSign x) : x ≠ .nan := by
  rcases h with ⟨n, rfl⟩ | rfl <;> simp

theorem PlusSign.nonneg {x : Dbl F} (h : PlusSign x.val) : (0 : Dbl F) ≤ x := by
  show (Fl.fin false 0).le x.val = true
  rcases h with ⟨n, h⟩ | h <;> rw [h] <;> simp [Fl.le, Fl.units]

theorem plusSign_mk (n : Nat) : PlusSign (Fl.mk F false n) := by
  unfold Fl.mk
  split
  · exact .inr rfl
  · exact .inl ⟨n, rfl⟩

theorem plusSign_add {x y : Fl} (hx : PlusSign x) (hy : PlusSign y) : PlusSign (x.add F y) := by
  rcases hx with ⟨n, rfl⟩ | rfl <;> rcases hy with ⟨m, rfl⟩ | rfl
  · rw [Fl.add]
    simp only [Fl.units, Bool.false_eq_true, if_false, Bool.and_false]
    split
    · exact .inl ⟨0, by simp⟩
    · have : decide (((n : Int) + (m : Int)) < 0) = false := by simp; omega
      rw [this]
      exact plusSign_mk _
  · exact .inr rfl
  · exact .inr rfl
  · exact .inr rfl

theorem plusSign_square {x : Fl} (hx : x ≠ .nan) : PlusSign (x.mul F x) := by
  cases x with
  | nan => exact absurd rfl hx
  | inf s => right; simp [Fl.mul]
  | fin s n =>
    rw [Fl.mul]
    rw [Bool.xor_self]
    exact plusSign_mk _

theorem plusSign_scale {k : Nat} (hk : k ≠ 0) {y : Fl} (hy : PlusSign y) : PlusSign ((Fl.fin false k).mul F y) := by
  rcases hy with ⟨n, rfl⟩ | rfl
  · rw [Fl.mul]; exact plusSign_mk _
  · right; simp [Fl.mul, hk]

theorem mk_ne_nan' (s : Bool) (n : Nat) : Fl.mk F s n ≠ .nan := by
  unfold Fl.mk; split <;> simp

/-- A product of two finite data is not NaN. -/
theorem mul_fin_ne_nan {x y : Fl} (hx : ∃ s n, x = .fin s n) (hy : ∃ s n, y = .fin s n) : x.mul F y ≠ .nan := by
  obtain ⟨s, n, rfl⟩ := hx
  obtain ⟨t, m, rfl⟩ := hy
  rw [Fl.mul]; exact mk_ne_nan' _ _

/-- A product of an infinite datum or a product of numbers with a finite one, where the infinite one comes from a
product with the finite one before, is not NaN. -/
theorem mul_mul_ne_nan {x y : Fl} (hx : ∃ s n, x = .fin s n) (hy : ∃ s n, y = .fin s n) :
    (x.mul F y).mul F y ≠ .nan ∧ ((x.mul F y).mul F y).mul F y ≠ .nan := by
  obtain ⟨s, n, rfl⟩ := hx
  obtain ⟨t, m, rfl⟩ := hy
  by_cases hm : m = 0
  · subst hm
    have h0 : rndUnits F.mb 0 (2 ^ F.one) = 0 := by
      simp [rndUnits, rndHE]
    have h1 : ∀ b, Fl.mk F b 0 = .fin b 0 := by
      intro b
      unfold Fl.mk
      rw [if_neg]
      have : 0 < 2 ^ F.top := by positivity
      omega
    simp [Fl.mul, h0, h1]
  · have key : ∀ z : Fl, z ≠ .nan → z.mul F (.fin t m) ≠ .nan := by
      intro z hz
      cases z with
      | nan => exact absurd rfl hz
      | inf b => simp [Fl.mul, hm]
      | fin b k => rw [Fl.mul]; exact mk_ne_nan' _ _
    have h1 := key _ (mul_fin_ne_nan (F := F) ⟨s, n, rfl⟩ ⟨t, m, rfl⟩)
    exact ⟨h1, key _ h1⟩

theorem add_fin_left_ne_nan {x y : Fl} (hx : ∃ s n, x = .fin s n) (hy : y ≠ .nan) : x.add F y ≠ .nan := by
  obtain ⟨s, n, rfl⟩ := hx
  cases y with
  | nan => exact absurd rfl hy
  | inf t => simp [Fl.add]
  | fin t m =>
    rw [Fl.add]
    split
    · simp
    · exact mk_ne_nan' _ _

theorem fl_sub_fin_ne_nan {x y : Fl} (hx : x ≠ .nan) (hy : ∃ s n, y = .fin s n) : x.sub F y ≠ .nan := by
  obtain ⟨t, m, rfl⟩ := hy
  exact Fl.add_fin_ne_nan F x _ hx ⟨!t, m, rfl⟩

theorem nat_isFin (k : Nat) : ∃ s n, (Dbl.nat F k).val = .fin s n := ⟨false, k * 2 ^ F.one, rfl⟩

theorem square_plus {x : Dbl F} (hx : x.val ≠ .nan) : PlusSign (squareFl x).val := plusSign_square hx

theorem sum_plus {x y : Dbl F} (hx : PlusSign x.val) (hy : PlusSign y.val) : PlusSign (x + y).val := plusSign_add hx hy

/-! ## Two variables -/

/-- **C152** (`booth`).  At finite coordinates the value is at least 0 (in particular not NaN). -/
theorem booth_ieee_nonneg (x y : Dbl F) (hx : IsFin x) (hy : IsFin y) : (0 : Dbl F) ≤ booth x y := by
  refine (sum_plus (square_plus ?_) (square_plus ?_)).nonneg
  · exact fl_sub_fin_ne_nan (add_fin_left_ne_nan hx (mul_fin_ne_nan (nat_isFin 2) hy)) (nat_isFin 7)
  · exact fl_sub_fin_ne_nan (Fl.add_fin_ne_nan F _ _ (mul_fin_ne_nan (nat_isFin 2) hx) hy) (nat_isFin 5)

/-- **C152** (`himmelblau`). -/
theorem himmelblau_ieee_nonneg (x y : Dbl F) (hx : IsFin x) (hy : IsFin y) : (0 : Dbl F) ≤ himmelblau x y := by
  refine (sum_plus (square_plus ?_) (square_plus ?_)).nonneg
  · exact fl_sub_fin_ne_nan (Fl.add_fin_ne_nan F _ _ (mul_fin_ne_nan hx hx) hy) (nat_isFin 11)
  · exact fl_sub_fin_ne_nan (add_fin_left_ne_nan hx (mul_fin_ne_nan hy hy)) (nat_isFin 7)

/-- A finite datum of at most a quarter of the range. -/
def Quarter (x : Dbl F) : Prop := ∃ s n, x.val = .fin s n ∧ n ≤ 2 ^ (F.top - 2)

theorem sub_quarter {c : Nat} {x : Dbl F} (ht : 2 ≤ F.top) (hc : c ≤ 2 ^ (F.top - 2)) (hx : Quarter x) :
    ∃ s n, (Fl.fin false c).sub F x.val = .fin s n := by
  obtain ⟨s, n, he, hn⟩ := hx
  rw [he]
  unfold Fl.sub Fl.neg
  simp only
  rw [Fl.add]
  split
  · exact ⟨_, _, rfl⟩
  · have hz : (Fl.units false c + Fl.units (!s) n).natAbs ≤ 2 ^ (F.top - 1) := by
      have h2 : 2 ^ (F.top - 1) = 2 ^ (F.top - 2) + 2 ^ (F.top - 2) := by
        rw [show F.top - 1 = (F.top - 2) + 1 by omega, pow_succ]; ring
      rw [h2]
      generalize 2 ^ (F.top - 2) = Q at hn hc
      cases s <;> simp [Fl.units] <;> omega
    have hr : rndUnits F.mb (Fl.units false c + Fl.units (!s) n).natAbs 1 ≤ 2 ^ (F.top - 1) :=
      rndUnits_le F.mb _ 1 one_pos ⟨1, F.top - 1, Nat.one_lt_pow (by omega) (by omega), by ring⟩ (by simpa using hz)
    have hlt : (2 : Nat) ^ (F.top - 1) < 2 ^ F.top := Nat.pow_lt_pow_right (by omega) (by omega)
    unfold Fl.mk
    rw [if_neg (by omega)]
    exact ⟨_, _, rfl⟩

/-- **C152** (`beale`).  At coordinates of which the first is at most a quarter of the largest number. -/
theorem beale_ieee_nonneg (x y : Dbl F) (hF : F.one + 2 ≤ F.top - 2) (hone : 3 ≤ F.one) (hx : Quarter x) (hy : IsFin y) :
    (0 : Dbl F) ≤ beale x y := by
  have hxf : ∃ s n, x.val = .fin s n := by obtain ⟨s, n, h, -⟩ := hx; exact ⟨s, n, h⟩
  have hc : ∀ k j, k ≤ 4 * 2 ^ j → 2 ≤ F.top → j ≤ F.one → k * 2 ^ (F.one - j) ≤ 2 ^ (F.top - 2) := by
    intro k j hk _ hj
    calc k * 2 ^ (F.one - j) ≤ 4 * 2 ^ j * 2 ^ (F.one - j) := Nat.mul_le_mul_right _ hk
      _ = 2 ^ (F.one + 2) := by
        rw [mul_assoc, ← pow_add, Nat.add_sub_cancel' hj, pow_add]; ring
      _ ≤ 2 ^ (F.top - 2) := Nat.pow_le_pow_right (by omega) hF
  have hm := mul_mul_ne_nan (F := F) hxf hy
  refine (sum_plus (sum_plus (square_plus ?_) (square_plus ?_)) (square_plus ?_)).nonneg
  · exact add_fin_left_ne_nan (sub_quarter (by omega) (hc 3 1 (by omega) (by omega) (by omega)) hx)
      (mul_fin_ne_nan hxf hy)
  · exact add_fin_left_ne_nan (sub_quarter (by omega) (hc 9 2 (by omega) (by omega) (by omega)) hx) hm.1
  · exact add_fin_left_ne_nan (sub_quarter (by omega) (hc 21 3 (by omega) (by omega) (by omega)) hx) hm.2

/-! ## Any number of variables -/

theorem reduction_plus {l : List (Dbl F)} {y : Dbl F} (h : Reduction l y) (hl : ∀ x ∈ l, PlusSign x.val) :
    PlusSign y.val := by
  induction h with
  | none => exact .inl ⟨0, rfl⟩
  | one x => exact hl x (by simp)
  | both _ _ ih ih' =>
    exact sum_plus (ih fun x hx => hl x (List.mem_append_left _ hx)) (ih' fun x hx => hl x (List.mem_append_right _ hx))
  | perm hp _ ih => exact ih fun x hx => hl x (hp.mem_iff.1 hx)

theorem reduction_zero {l : List (Dbl F)} {y : Dbl F} (h : Reduction l y) (hl : ∀ x ∈ l, x = 0) : y = 0 := by
  induction h with
  | none => rfl
  | one x => exact hl x (by simp)
  | both _ _ ih ih' =>
    rw [ih fun x hx => hl x (List.mem_append_left _ hx), ih' fun x hx => hl x (List.mem_append_right _ hx)]
    rfl
  | perm hp _ ih => exact ih fun x hx => hl x (hp.mem_iff.1 hx)

/-- Every list has a sum. -/
theorem reduction_exists (l : List (Dbl F)) : ∃ y, Reduction l y := by
  induction l with
  | nil => exact ⟨0, .none⟩
  | cons x l ih =>
    obtain ⟨y, hy⟩ := ih
    exact ⟨x + y, .both (.one x) hy⟩

/-- **C152** (`sphere`).  When no coordinate is NaN the value is at least 0, for both kinds of vector. -/
theorem sphere_ieee_nonneg (x : List (Dbl F)) (hx : ∀ i ∈ x, i.val ≠ .nan) :
    (0 : Dbl F) ≤ sphereStd x ∧ ∀ y, SphereEigen x y → (0 : Dbl F) ≤ y := by
  constructor
  · have key : ∀ (l : List (Dbl F)) (a : Dbl F), (∀ i ∈ l, i.val ≠ .nan) → PlusSign a.val →
        PlusSign (l.foldl (fun res i => res + i * i) a).val := by
      intro l
      induction l with
      | nil => intro a _ ha; exact ha
      | cons i l ih =>
        intro a hl ha
        exact ih _ (fun j hj => hl j (List.mem_cons_of_mem _ hj)) (sum_plus ha (plusSign_square (hl i (by simp))))
    exact (key x 0 hx (.inl ⟨0, rfl⟩)).nonneg
  · intro y hy
    refine (reduction_plus hy fun z hz => ?_).nonneg
    obtain ⟨i, hi, rfl⟩ := List.mem_map.1 hz
    exact square_plus (hx i hi)

theorem zero_square (s : Bool) : squareFl (⟨.fin s 0⟩ : Dbl F) = 0 := by
  unfold squareFl
  show (⟨Fl.mul F (.fin s 0) (.fin s 0)⟩ : Dbl F) = ⟨.fin false 0⟩
  have h0 : rndUnits F.mb 0 (2 ^ F.one) = 0 := by simp [rndUnits, rndHE]
  have : 0 < 2 ^ F.top := by positivity
  simp only [Fl.mul, Nat.zero_mul, h0, Bool.xor_self, Fl.mk]
  rw [if_neg (by omega)]

/-- **C152** (`sphere`, the documented minimum).  At the origin, with zeros of either sign, the value is exactly 0. -/
theorem sphere_ieee_minimum (x : List (Dbl F)) (hx : ∀ i ∈ x, ∃ s, i = ⟨.fin s 0⟩) :
    sphereStd x = 0 ∧ (∃ y, SphereEigen x y) ∧ ∀ y, SphereEigen x y → y = 0 := by
  refine ⟨?_, reduction_exists _, ?_⟩
  · have key : ∀ (l : List (Dbl F)), (∀ i ∈ l, ∃ s, i = ⟨.fin s 0⟩) →
        l.foldl (fun res i => res + i * i) (0 : Dbl F) = 0 := by
      intro l
      induction l with
      | nil => intro _; rfl
      | cons i l ih =>
        intro hl
        obtain ⟨s, rfl⟩ := hl i (by simp)
        rw [List.foldl_cons]
        have h1 : (0 : Dbl F) + (⟨.fin s 0⟩ : Dbl F) * ⟨.fin s 0⟩ = 0 := by
          have : (⟨.fin s 0⟩ : Dbl F) * ⟨.fin s 0⟩ = 0 := zero_square s
          rw [this]; rfl
        rw [h1]
        exact ih fun j hj => hl j (List.mem_cons_of_mem _ hj)
    exact key x hx
  · intro y hy
    refine reduction_zero hy fun z hz => ?_
    obtain ⟨i, hi, rfl⟩ := List.mem_map.1 hz
    obtain ⟨s, rfl⟩ := hx i hi
    exact zero_square s

theorem sub_ne_nan {x y : Dbl F} (hx : IsFin x) (hy : IsFin y) : (x - y).val ≠ .nan := by
  obtain ⟨s, n, h⟩ := hx
  exact fl_sub_fin_ne_nan (by rw [h]; simp) hy

theorem hundred_plus {y : Dbl F} (hy : PlusSign y.val) : PlusSign (Dbl.nat F 100 * y).val :=
  plusSign_scale (by positivity) hy

theorem rosenbrockLoop_plus : ∀ (x : List (Dbl F)) (val : Dbl F), (∀ i ∈ x, IsFin i) → PlusSign val.val →
    PlusSign (rosenbrockLoop x val).val
  | [], val, _, hv => by rw [rosenbrockLoop]; exact hv; simp
  | [a], val, _, hv => by rw [rosenbrockLoop]; exact hv; simp
  | a :: b :: rest, val, hx, hv => by
    rw [rosenbrockLoop]
    refine rosenbrockLoop_plus (b :: rest) _ (fun i hi => hx i (List.mem_cons_of_mem _ hi)) ?_
    exact sum_plus hv (sum_plus (hundred_plus (square_plus (sub_ne_nan (hx b (by simp)) (hx a (by simp)))))
      (square_plus (sub_ne_nan (nat_isFin 1) (hx a (by simp)))))

/-- **C152** (`rosenbrock`).  With at least one coordinate and all of them finite the value is at least 0, for both
kinds of vector; without any coordinate the behaviour is undefined. -/
theorem rosenbrock_ieee_nonneg (x : List (Dbl F)) (hx : ∀ i ∈ x, IsFin i) :
    (x ≠ [] → ∃ y, rosenbrockStd x = .ok y ∧ 0 ≤ y) ∧ (∀ y, RosenbrockEigen x y → (0 : Dbl F) ≤ y) ∧
    rosenbrockStd ([] : List (Dbl F)) = .ub := by
  refine ⟨fun hne => ⟨_, by rw [rosenbrockStd, if_neg hne], (rosenbrockLoop_plus x 0 hx (.inl ⟨0, rfl⟩)).nonneg⟩, ?_, rfl⟩
  rintro y ⟨a, b, ha, hb, rfl⟩
  refine (sum_plus (hundred_plus (reduction_plus hb fun z hz => ?_)) (reduction_plus ha fun z hz => ?_)).nonneg
  · obtain ⟨k, hk, rfl⟩ := List.getElem_of_mem hz
    rw [List.getElem_zipWith]
    exact square_plus (sub_ne_nan (hx _ (List.mem_of_mem_dropLast (List.getElem_mem _)))
      (hx _ (List.mem_of_mem_tail (List.getElem_mem _))))
  · obtain ⟨t, ht, rfl⟩ := List.mem_map.1 hz
    exact square_plus (sub_ne_nan (nat_isFin 1) (hx _ (List.mem_of_mem_dropLast ht)))

theorem sub_self_fin {x : Dbl F} (hx : IsFin x) : x - x = 0 := by
  obtain ⟨s, n, h⟩ := hx
  show (⟨Fl.add F x.val x.val.neg⟩ : Dbl F) = ⟨.fin false 0⟩
  rw [h]
  cases s <;> simp [Fl.neg, Fl.add, Fl.units]

theorem hundred_zero : Dbl.nat F 100 * (0 : Dbl F) = 0 := by
  show (⟨Fl.mul F (.fin false (100 * 2 ^ F.one)) (.fin false 0)⟩ : Dbl F) = ⟨.fin false 0⟩
  have h0 : rndUnits F.mb 0 (2 ^ F.one) = 0 := by simp [rndUnits, rndHE]
  have : 0 < 2 ^ F.top := by positivity
  simp only [Fl.mul, Nat.mul_zero, h0, Bool.xor_self, Fl.mk]
  rw [if_neg (by omega)]

theorem zero_add_zero : (0 : Dbl F) + 0 = 0 := rfl

/-- **C152** (`rosenbrock`, the documented minimum).  Where all coordinates are 1 the value is exactly 0. -/
theorem rosenbrock_ieee_minimum (n : Nat) :
    rosenbrockStd (List.replicate (n + 1) (Dbl.nat F 1)) = .ok 0 ∧
    (∃ y, RosenbrockEigen (List.replicate (n + 1) (Dbl.nat F 1)) y) ∧
    ∀ y, RosenbrockEigen (List.replicate (n + 1) (Dbl.nat F 1)) y → y = 0 := by
  have h1 : Dbl.nat F 1 - Dbl.nat F 1 = 0 := sub_self_fin (nat_isFin 1)
  have hsq : squareFl (0 : Dbl F) = 0 := zero_square false
  refine ⟨?_, ?_, ?_⟩
  · rw [rosenbrockStd, if_neg (by simp)]
    congr 1
    induction n with
    | zero => rw [List.replicate_succ, List.replicate_zero, rosenbrockLoop]; simp
    | succ n ih =>
      rw [List.replicate_succ, List.replicate_succ, rosenbrockLoop, h1, hsq, hundred_zero, zero_add_zero, zero_add_zero]
      rw [List.replicate_succ] at ih
      exact ih
  · obtain ⟨a, ha⟩ := reduction_exists ((List.replicate (n + 1) (Dbl.nat F 1)).dropLast.map
      fun t => squareFl (Dbl.nat F 1 - t))
    obtain ⟨b, hb⟩ := reduction_exists (List.zipWith (fun t b => squareFl (t - b))
      (List.replicate (n + 1) (Dbl.nat F 1)).dropLast (List.replicate (n + 1) (Dbl.nat F 1)).tail)
    exact ⟨_, a, b, ha, hb, rfl⟩
  · rintro y ⟨a, b, ha, hb, rfl⟩
    have e1 : a = 0 := reduction_zero ha fun z hz => by
      obtain ⟨t, ht, rfl⟩ := List.mem_map.1 hz
      rw [List.eq_of_mem_replicate (List.mem_of_mem_dropLast ht), h1, hsq]
    have e2 : b = 0 := reduction_zero hb fun z hz => by
      obtain ⟨k, hk, rfl⟩ := List.getElem_of_mem hz
      rw [List.getElem_zipWith, List.eq_of_mem_replicate (List.mem_of_mem_dropLast (List.getElem_mem _)),
        List.eq_of_mem_replicate (List.mem_of_mem_tail (List.getElem_mem _)), h1, hsq]
    rw [e1, e2, hundred_zero, zero_add_zero]

/-- Plus infinity or a number of the format with sign `+`. -/
def Clean (F : Fmt) (x : Fl) : Prop := (∃ n, x = .fin false n ∧ Rep F.mb n ∧ n < 2 ^ F.top) ∨ x = .inf false

theorem clean_mk {n : Nat} (h : Rep F.mb n) : Clean F (Fl.mk F false n) := by
  unfold Fl.mk
  split
  · exact .inr rfl
  · exact .inl ⟨n, rfl, h, by omega⟩

theorem clean_square {x : Dbl F} (hx : x.val ≠ .nan) : Clean F (squareFl x).val := by
  show Clean F (x.val.mul F x.val)
  cases hv : x.val with
  | nan => exact absurd hv hx
  | inf s => right; simp [Fl.mul]
  | fin s n =>
    rw [Fl.mul, Bool.xor_self]
    exact clean_mk (rep_rndUnits _ _ _ (by positivity))

theorem clean_scale {y : Dbl F} (hy : Clean F y.val) : Clean F (Dbl.nat F 100 * y).val := by
  show Clean F ((Fl.fin false (100 * 2 ^ F.one)).mul F y.val)
  rcases hy with ⟨n, h, -, -⟩ | h <;> rw [h]
  · rw [Fl.mul]; exact clean_mk (rep_rndUnits _ _ _ (by positivity))
  · have : (2 : Nat) ^ F.one ≠ 0 := by positivity
    right; simp [Fl.mul]

theorem clean_add {x y : Dbl F} (hx : Clean F x.val) (hy : Clean F y.val) : Clean F (x + y).val := by
  show Clean F (x.val.add F y.val)
  rcases hx with ⟨n, h, h1, h2⟩ | h <;> rcases hy with ⟨m, h', -, -⟩ | h' <;> rw [h, h']
  · rw [Fl.add]
    simp only [Fl.units, Bool.false_eq_true, if_false, Bool.and_false]
    split
    · exact .inl ⟨0, by simp, ⟨0, 0, by positivity, by simp⟩, by positivity⟩
    · have : decide (((n : Int) + (m : Int)) < 0) = false := by simp; omega
      rw [this]
      exact clean_mk (rep_rndUnits _ _ _ one_pos)
  · exact .inr rfl
  · exact .inr rfl
  · exact .inr rfl

theorem clean_zero_add {x : Dbl F} (hx : Clean F x.val) : (0 : Dbl F) + x = x ∧ x + 0 = x := by
  have key : (Fl.fin false 0).add F x.val = x.val ∧ x.val.add F (.fin false 0) = x.val := by
    rcases hx with ⟨n, h, h1, h2⟩ | h <;> rw [h]
    · rcases Nat.eq_zero_or_pos n with rfl | hn
      · exact ⟨rfl, rfl⟩
      · have e : ¬ (n : Int) < 0 := by omega
        have e1 : n ≠ 0 := by omega
        have e2 : Fl.mk F false n = .fin false n := by unfold Fl.mk; rw [if_neg (by omega)]
        constructor <;> simp [Fl.add, Fl.units, e1, rndUnits_rep1 h1, e, e2]
    · exact ⟨rfl, rfl⟩
  refine ⟨?_, ?_⟩
  · show (⟨(Fl.fin false 0).add F x.val⟩ : Dbl F) = x
    rw [key.1]
  · show (⟨x.val.add F (.fin false 0)⟩ : Dbl F) = x
    rw [key.2]

/-- All ways to add up one value give it. -/
theorem reduction_single {l : List (Dbl F)} {y : Dbl F} (h : Reduction l y) :
    (l = [] → y = 0) ∧ ∀ x, Clean F x.val → l = [x] → y = x := by
  induction h with
  | none => exact ⟨fun _ => rfl, fun x _ h => by cases h⟩
  | one w => exact ⟨fun h => absurd h (by simp), fun z _ h => List.singleton_inj.1 h⟩
  | @both l l' a b _ _ ih ih' =>
    refine ⟨fun h => ?_, fun x hx h => ?_⟩
    · obtain ⟨rfl, rfl⟩ := List.append_eq_nil_iff.1 h
      rw [ih.1 rfl, ih'.1 rfl]; rfl
    · rcases List.append_eq_singleton_iff.1 h with ⟨h1, h2⟩ | ⟨h1, h2⟩
      · rw [ih.1 h1, ih'.2 x hx h2]; exact (clean_zero_add hx).1
      · rw [ih.2 x hx h1, ih'.1 h2]; exact (clean_zero_add hx).2
  | perm hp _ ih =>
    refine ⟨fun h => ih.1 (by subst h; exact hp.eq_nil), fun x hx h => ih.2 x hx (by subst h; exact hp.eq_singleton)⟩

/-- The square of a difference does not depend on the order. -/
theorem square_sub_comm {x y : Dbl F} (hx : IsFin x) (hy : IsFin y) : squareFl (x - y) = squareFl (y - x) := by
  obtain ⟨s, n, h⟩ := hx
  obtain ⟨t, m, h'⟩ := hy
  have hz : Fl.units t m + Fl.units (!s) n = -(Fl.units s n + Fl.units (!t) m) := by
    cases s <;> cases t <;> simp [Fl.units, add_comm]
  have hsq : ∀ (a b : Bool) (k : Nat), (Fl.mk F a k).mul F (Fl.mk F a k) = (Fl.mk F b k).mul F (Fl.mk F b k) := by
    intro a b k
    unfold Fl.mk
    split <;> simp [Fl.mul]
  show (⟨(x.val.add F y.val.neg).mul F (x.val.add F y.val.neg)⟩ : Dbl F) =
    ⟨(y.val.add F x.val.neg).mul F (y.val.add F x.val.neg)⟩
  congr 1
  rw [h, h']
  simp only [Fl.neg, Fl.add]
  rw [hz]
  by_cases h0 : Fl.units s n + Fl.units (!t) m = 0
  · rw [h0]
    simp [Fl.mul]
  · rw [if_neg h0, if_neg (by omega), Int.natAbs_neg]
    exact hsq _ _ _

/-- **C152** (`rosenbrock`).  For two finite coordinates both kinds of vector get exactly the same value, which is
`100 * (y - x)^2 + (1 - x)^2` with each operation rounded. -/
theorem rosenbrock_ieee_two (x y : Dbl F) (hx : IsFin x) (hy : IsFin y) (v : Dbl F) :
    (RosenbrockEigen [x, y] v ↔ rosenbrockStd [x, y] = .ok v) ∧
    rosenbrockStd [x, y] = .ok (Dbl.nat F 100 * ((y - x) * (y - x)) + (Dbl.nat F 1 - x) * (Dbl.nat F 1 - x)) := by
  have c1 : Clean F (squareFl (Dbl.nat F 1 - x)).val := clean_square (sub_ne_nan (nat_isFin 1) hx)
  have c2 : Clean F (squareFl (x - y)).val := clean_square (sub_ne_nan hx hy)
  have c3 : Clean F (squareFl (y - x)).val := clean_square (sub_ne_nan hy hx)
  have hstd : rosenbrockStd [x, y] =
      .ok (Dbl.nat F 100 * squareFl (y - x) + squareFl (Dbl.nat F 1 - x)) := by
    rw [rosenbrockStd, if_neg (by simp), rosenbrockLoop, rosenbrockLoop, (clean_zero_add (clean_add (clean_scale c3) c1)).1]
    simp
  refine ⟨⟨?_, ?_⟩, hstd⟩
  · rintro ⟨a, b, ha, hb, rfl⟩
    rw [hstd, (reduction_single ha).2 _ c1 rfl, (reduction_single hb).2 _ c2 rfl, square_sub_comm hx hy]
  · intro h
    rw [hstd] at h
    have := Out.ok.inj h
    refine ⟨_, _, .one _, .one _, ?_⟩
    rw [← this]
    show _ = Dbl.nat F 100 * squareFl (x - y) + squareFl (Dbl.nat F 1 - x)
    rw [square_sub_comm hx hy]

/-- **C152** (`Schaffer1`).  Both objectives are at least 0 at every finite point; the first is 0 at 0, the second at
2. -/
theorem schaffer1_ieee (x : Dbl F) (hx : IsFin x) :
    (0 : Dbl F) ≤ (schaffer1 x).1 ∧ (0 : Dbl F) ≤ (schaffer1 x).2 ∧ (schaffer1 (0 : Dbl F)).1 = 0 ∧
    (schaffer1 (Dbl.nat F 2)).2 = 0 := by
  refine ⟨?_, (square_plus (sub_ne_nan hx (nat_isFin 2))).nonneg, zero_square false, ?_⟩
  · obtain ⟨s, n, h⟩ := hx
    exact (square_plus (by rw [h]; simp)).nonneg
  · show squareFl (Dbl.nat F 2 - Dbl.nat F 2) = 0
    rw [sub_self_fin (nat_isFin 2)]
    exact zero_square false

end

/-! ## On `double` -/

/-- **C152** (documented minima).  On `double` the values at the documented minimisers are exactly 0: `booth` at (1, 3),
`himmelblau` at (3, 2), `beale` at (3, 0.5). -/
theorem twoVariable_ieee_minima :
    booth (Dbl.nat binary64 1) (Dbl.nat binary64 3) = 0 ∧ himmelblau (Dbl.nat binary64 3) (Dbl.nat binary64 2) = 0 ∧
    beale (Dbl.nat binary64 3) (dyadic binary64 1 1) = 0 := by
  decide +kernel

/-- **C152** (several minimisers).  On `double` other points than the documented ones also get 0 (the squares
underflow). -/
theorem sphere_ieee_other_minimum :
    sphereStd [(⟨.fin false (2 ^ 400)⟩ : Dbl binary64)] = 0 ∧ (⟨.fin false (2 ^ 400)⟩ : Dbl binary64) ≠ 0 := by
  decide +kernel

/-- **C152** (overflow).  Finite points can get the value infinity, and `matyas`, which subtracts, NaN. -/
theorem testFuns_ieee_overflow :
    sphereStd [(⟨.fin false (2 ^ 1800)⟩ : Dbl binary64)] = ⟨.inf false⟩ ∧
    matyas (⟨.fin false (26 * 2 ^ 1067)⟩ : Dbl binary64) ⟨.fin false (48 * 2 ^ 1067)⟩ ⟨.fin false (2 ^ 1800)⟩
      ⟨.fin false (2 ^ 1800)⟩ = ⟨.nan⟩ ∧
    booth (⟨.inf false⟩ : Dbl binary64) ⟨.inf true⟩ = ⟨.nan⟩ := by
  decide +kernel

/-- Non-vacuity: the corners of the documented box of `beale` (±4.5) are far below a quarter of the range. -/
example : binary64.one + 2 ≤ binary64.top - 2 ∧ 3 ≤ binary64.one ∧ Quarter (dyadic binary64 9 1) := by
  refine ⟨by decide, by decide, false, 9 * 2 ^ (binary64.one - 1), rfl, ?_⟩
  have h : (9 : Nat) * 2 ^ (binary64.one - 1) ≤ 2 ^ 4 * 2 ^ (binary64.one - 1) := Nat.mul_le_mul_right _ (by decide)
  rw [← pow_add] at h
  exact h.trans (Nat.pow_le_pow_right (by decide) (by decide))

/-- Non-vacuity: finite coordinates, and the values there. -/
example : IsFin (-Dbl.nat binary64 4) ∧ booth (-Dbl.nat binary64 4) (Dbl.nat binary64 2) = Dbl.nat binary64 170 ∧
    himmelblau (-Dbl.nat binary64 4) (Dbl.nat binary64 2) = Dbl.nat binary64 98 ∧
    rosenbrockStd [Dbl.nat binary64 1, Dbl.nat binary64 2, Dbl.nat binary64 4] = .ok (Dbl.nat binary64 501) ∧
    sphereStd [-Dbl.nat binary64 4, Dbl.nat binary64 3] = Dbl.nat binary64 25 :=
  ⟨⟨true, _, rfl⟩, by decide +kernel⟩

end Heu
