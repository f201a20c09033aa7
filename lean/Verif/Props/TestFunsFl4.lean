import Verif.Props.TestFunsFl3

/-!
# C155: Rastrigin's function on `double`s is never below its documented minimum, for any cosine
-/

set_option linter.unusedVariables false
set_option linter.unusedSectionVars false
set_option linter.unusedSimpArgs false

namespace Heu
open Spec TestFl

section
variable {F : Fmt}

/-- Infinity, or a finite datum of at least `-b` units. -/
def AtLeastNeg (b : Nat) (x : Fl) : Prop := x = .inf false ∨ ∃ s n, x = .fin s n ∧ -(b : Int) ≤ Fl.units s n

theorem rep_small {m k : Nat} (h : m < 2 ^ (F.mb + 1)) : Rep F.mb (m * 2 ^ k) := ⟨m, k, h, rfl⟩

/-- A finite or infinite non-negative datum minus a number of at most `b` units is at least `-b` units. -/
theorem sub_atLeastNeg {b : Nat} (hb : Rep F.mb b) (hlt : b < 2 ^ F.top) {x : Fl} (hx : PlusSign x) {s : Bool} {n : Nat}
    (hn : n ≤ b) : AtLeastNeg b (Fl.sub F x (.fin s n)) := by
  rcases hx with ⟨m, rfl⟩ | rfl
  · rw [Fl.sub, Fl.neg, Fl.add]
    have hz : -(b : Int) ≤ Fl.units false m + Fl.units (!s) n := by
      cases s <;> simp only [Fl.units, Bool.not_false, Bool.not_true, if_true, Bool.false_eq_true, if_false] <;> omega
    generalize Fl.units false m + Fl.units (!s) n = z at hz
    split
    · refine .inr ⟨_, 0, rfl, ?_⟩
      cases (false && !s) <;> simp [Fl.units]
    · by_cases hneg : z < 0
      · rw [decide_eq_true hneg]
        have hr : rndUnits F.mb z.natAbs 1 ≤ b := rndUnits_le _ _ _ one_pos hb (by omega)
        rw [Fl.mk, if_neg (by omega)]
        exact .inr ⟨true, _, rfl, by simp only [Fl.units, if_true]; omega⟩
      · rw [decide_eq_false hneg, Fl.mk]
        split
        · exact .inl rfl
        · exact .inr ⟨false, _, rfl, by simp only [Fl.units, Bool.false_eq_true, if_false]; omega⟩
  · exact .inl rfl

/-- Adding a datum of at least `-b` units to one of at least `c` gives at least `c - b`, if that is a number of the
format. -/
theorem add_atLeast {b c : Nat} (hbc : b ≤ c) (hr : Rep F.mb (c - b)) {x y : Fl} (hx : AtLeastUnits c x)
    (hy : AtLeastNeg b y) : AtLeastUnits (c - b) (Fl.add F x y) := by
  rcases hx with rfl | ⟨n, rfl, hn⟩
  · rcases hy with rfl | ⟨s, m, rfl, -⟩ <;> exact .inl rfl
  · rcases hy with rfl | ⟨s, m, rfl, hm⟩
    · exact .inl rfl
    · rw [Fl.add]
      have hz : ((c - b : Nat) : Int) ≤ Fl.units false n + Fl.units s m := by
        have : Fl.units false n = n := by simp [Fl.units]
        omega
      generalize Fl.units false n + Fl.units s m = z at hz
      split
      · exact .inr ⟨0, by simp, by omega⟩
      · rw [decide_eq_false (by omega)]
        exact atLeast_mk (le_rndUnits _ _ _ one_pos hr (by omega))

/-- `10 * cos`, with the cosine in [-1, 1], is a number of at most 10. -/
theorem ten_cos (hmb : 3 ≤ F.mb) (htop : 10 * 2 ^ F.one < 2 ^ F.top) {c : Dbl F} (hc : InUnitFl c) :
    ∃ s n, (Dbl.nat F 10 * c).val = .fin s n ∧ n ≤ 10 * 2 ^ F.one := by
  obtain ⟨s, n, h, hn⟩ := hc
  have hrep : Rep F.mb (10 * 2 ^ F.one) := rep_small (by
    have : 2 ^ 4 ≤ 2 ^ (F.mb + 1) := Nat.pow_le_pow_right (by omega) (by omega)
    omega)
  have hr : rndUnits F.mb (10 * 2 ^ F.one * n) (2 ^ F.one) ≤ 10 * 2 ^ F.one :=
    rndUnits_le _ _ _ (by positivity) hrep (Nat.mul_le_mul_left _ hn)
  refine ⟨xor false s, _, ?_, hr⟩
  show Fl.mul F (.fin false (10 * 2 ^ F.one)) c.val = _
  rw [h, Fl.mul, Fl.mk, if_neg (by omega)]

theorem rastrigin_loop (hmb : 3 ≤ F.mb) (htop : 10 * 2 ^ F.one < 2 ^ F.top) (cos : Dbl F → Dbl F)
    (hcos : ∀ t, IsFin t → InUnitFl (cos t)) (pi : Dbl F) : ∀ (x : List (Dbl F)) (f : Dbl F),
    (∀ i ∈ x, i.val ≠ .nan ∧ IsFin (pi * Dbl.nat F 2 * i)) → 10 * x.length < 2 ^ (F.mb + 1) →
    AtLeastUnits (10 * x.length * 2 ^ F.one) f.val →
    AtLeastUnits 0 (x.foldl (fun f xi => f + (squareFl xi - Dbl.nat F 10 * cos (pi * Dbl.nat F 2 * xi))) f).val
  | [], f, _, _, hf => by simpa using hf
  | a :: l, f, hx, hlen, hf => by
    rw [List.foldl_cons]
    refine rastrigin_loop hmb htop cos hcos pi l _ (fun i hi => hx i (List.mem_cons_of_mem _ hi))
      (by simp at hlen; omega) ?_
    obtain ⟨ha, hfin⟩ := hx a (List.mem_cons_self)
    obtain ⟨s, n, hv, hn⟩ := ten_cos hmb htop (hcos _ hfin)
    have hrep : ∀ k, 10 * k < 2 ^ (F.mb + 1) → Rep F.mb (10 * k * 2 ^ F.one) := fun k hk => rep_small hk
    have ht : AtLeastNeg (10 * 2 ^ F.one) (squareFl a - Dbl.nat F 10 * cos (pi * Dbl.nat F 2 * a)).val := by
      show AtLeastNeg _ (Fl.sub F _ (Dbl.nat F 10 * _).val)
      rw [hv]
      have h16 : 2 ^ 4 ≤ 2 ^ (F.mb + 1) := Nat.pow_le_pow_right (by omega) (by omega)
      exact sub_atLeastNeg (rep_small (by omega)) htop (square_plus ha) hn
    have e : 10 * (a :: l).length * 2 ^ F.one - 10 * 2 ^ F.one = 10 * l.length * 2 ^ F.one := by
      rw [List.length_cons, ← Nat.sub_mul]
      congr 1
    have hle : 10 * 2 ^ F.one ≤ 10 * (a :: l).length * 2 ^ F.one := by
      rw [List.length_cons]
      exact Nat.mul_le_mul_right _ (by omega)
    have := add_atLeast (F := F) hle (by rw [e]; exact hrep _ (by simp at hlen; omega)) hf ht
    rw [e] at this
    exact this

/-- `10.0 * size()` is exact. -/
theorem ten_size {n : Nat} (hn : 10 * n < 2 ^ (F.mb + 1)) :
    (Dbl.nat F 10 * Dbl.nat F n).val = Fl.mk F false (10 * n * 2 ^ F.one) := by
  show Fl.mul F (.fin false (10 * 2 ^ F.one)) (.fin false (n * 2 ^ F.one)) = _
  rw [Fl.mul]
  have : 10 * 2 ^ F.one * (n * 2 ^ F.one) = 10 * n * 2 ^ F.one * 2 ^ F.one := by ring
  rw [this, rndUnits_rep (by positivity) (rep_small hn)]
  rfl

/-- **C155** (`rastrigin`).  For vectors of any length up to 2^53 / 10 (for `double`) without NaN, at which the arguments of
the cosine do not overflow, the value is at least 0 (in particular not NaN), whatever cosine the library has, if it
stays within [-1, 1]. -/
theorem rastrigin_ieee_nonneg (hmb : 3 ≤ F.mb) (htop : 10 * 2 ^ F.one < 2 ^ F.top) (cos : Dbl F → Dbl F)
    (hcos : ∀ t, IsFin t → InUnitFl (cos t)) (pi : Dbl F) (x : List (Dbl F)) (hlen : 10 * x.length < 2 ^ (F.mb + 1))
    (hx : ∀ i ∈ x, i.val ≠ .nan ∧ IsFin (pi * Dbl.nat F 2 * i)) :
    (0 : Dbl F) ≤ rastrigin cos pi x := by
  have h := rastrigin_loop hmb htop cos hcos pi x (Dbl.nat F 10 * Dbl.nat F x.length) hx hlen (by
    rw [ten_size hlen]; exact atLeast_mk le_rfl)
  show Fl.le (.fin false 0) (rastrigin cos pi x).val = true
  unfold rastrigin
  rcases h with h | ⟨n, h, -⟩ <;> rw [h]
  · rfl
  · simp [Fl.le, Fl.units]

theorem rastrigin_zero_loop (hmb : 3 ≤ F.mb) (cos : Dbl F → Dbl F) (hcos : ∀ s, cos ⟨.fin s 0⟩ = Dbl.nat F 1)
    (pi : Dbl F) (h2 : IsFin (pi * Dbl.nat F 2)) : ∀ (x : List (Dbl F)),
    (∀ i ∈ x, ∃ s, i = ⟨.fin s 0⟩) → 10 * x.length < 2 ^ (F.mb + 1) → 10 * (x.length + 1) * 2 ^ F.one < 2 ^ F.top →
    x.foldl (fun f xi => f + (squareFl xi - Dbl.nat F 10 * cos (pi * Dbl.nat F 2 * xi)))
      ⟨.fin false (10 * x.length * 2 ^ F.one)⟩ = 0
  | [], _, _, _ => by simp; rfl
  | a :: l, hx, hlen, htop => by
    rw [List.foldl_cons]
    rw [List.length_cons] at htop hlen
    have hp : 0 < 2 ^ F.one := by positivity
    have h16 : 2 ^ 4 ≤ 2 ^ (F.mb + 1) := Nat.pow_le_pow_right (by omega) (by omega)
    have htop' : 10 * (l.length + 1) * 2 ^ F.one < 2 ^ F.top :=
      lt_of_le_of_lt (Nat.mul_le_mul_right _ (by omega)) htop
    have hten : 10 * 2 ^ F.one < 2 ^ F.top := lt_of_le_of_lt (Nat.mul_le_mul_right _ (by omega)) htop'
    obtain ⟨s, rfl⟩ := hx a List.mem_cons_self
    obtain ⟨t, m, hm⟩ := h2
    have harg : pi * Dbl.nat F 2 * ⟨.fin s 0⟩ = ⟨.fin (xor t s) 0⟩ := by
      show (⟨Fl.mul F (pi * Dbl.nat F 2).val (.fin s 0)⟩ : Dbl F) = _
      rw [hm, Fl.mul, Nat.mul_zero, rndUnits_zero, Fl.mk, if_neg (not_le.2 (pow_pos (by omega) _))]
    have hone : Dbl.nat F 10 * Dbl.nat F 1 = ⟨.fin false (10 * 2 ^ F.one)⟩ := by
      show (⟨(Dbl.nat F 10 * Dbl.nat F 1).val⟩ : Dbl F) = _
      rw [ten_size (by omega), Nat.mul_one, Fl.mk, if_neg (by omega)]
    have hterm : squareFl (⟨.fin s 0⟩ : Dbl F) - Dbl.nat F 10 * cos (pi * Dbl.nat F 2 * ⟨.fin s 0⟩) =
        ⟨.fin true (10 * 2 ^ F.one)⟩ := by
      rw [zero_square, harg, hcos, hone]
      show (⟨Fl.add F (.fin false 0) (.fin true (10 * 2 ^ F.one))⟩ : Dbl F) = _
      have hz : Fl.units false 0 + Fl.units true (10 * 2 ^ F.one) = -((10 * 2 ^ F.one : Nat) : Int) := by
        simp [Fl.units]
      rw [Fl.add, hz, if_neg (by omega), decide_eq_true (by omega), Int.natAbs_neg, Int.natAbs_natCast,
        rndUnits_rep1 (rep_small (by omega)), Fl.mk, if_neg (by omega)]
    rw [hterm]
    have hstep : (⟨.fin false (10 * (⟨.fin s 0⟩ :: l : List (Dbl F)).length * 2 ^ F.one)⟩ : Dbl F) +
        ⟨.fin true (10 * 2 ^ F.one)⟩ = ⟨.fin false (10 * l.length * 2 ^ F.one)⟩ := by
      have hz : Fl.units false (10 * (l.length + 1) * 2 ^ F.one) + Fl.units true (10 * 2 ^ F.one) =
          ((10 * l.length * 2 ^ F.one : Nat) : Int) := by
        have : 10 * (l.length + 1) * 2 ^ F.one = 10 * l.length * 2 ^ F.one + 10 * 2 ^ F.one := by ring
        rw [this]
        simp only [Fl.units, if_true, Bool.false_eq_true, if_false]
        omega
      show (⟨Fl.add F (.fin false (10 * (l.length + 1) * 2 ^ F.one)) (.fin true (10 * 2 ^ F.one))⟩ : Dbl F) = _
      rw [Fl.add, hz]
      split
      · next h0 =>
        have : 10 * l.length * 2 ^ F.one = 0 := by exact_mod_cast h0
        rw [this]; rfl
      · rw [decide_eq_false (by omega), Int.natAbs_natCast, rndUnits_rep1 (rep_small (by omega)), Fl.mk,
          if_neg (by
            have : 10 * l.length * 2 ^ F.one ≤ 10 * (l.length + 1) * 2 ^ F.one := Nat.mul_le_mul_right _ (by omega)
            omega)]
    rw [hstep]
    exact rastrigin_zero_loop hmb cos hcos pi ⟨t, m, hm⟩ l (fun i hi => hx i (List.mem_cons_of_mem _ hi))
      (by omega) htop'

/-- **C155** (`rastrigin`, the documented minimum).  At the origin, with zeros of either sign and in any dimension up to
2^53 / 10 (for `double`), the value is exactly 0 if the cosine of zero is 1. -/
theorem rastrigin_ieee_minimum (hmb : 3 ≤ F.mb) (hone : F.one + F.mb + 2 ≤ F.top) (cos : Dbl F → Dbl F)
    (hcos : ∀ s, cos ⟨.fin s 0⟩ = Dbl.nat F 1) (pi : Dbl F) (h2 : IsFin (pi * Dbl.nat F 2))
    (x : List (Dbl F)) (hx : ∀ i ∈ x, ∃ s, i = ⟨.fin s 0⟩) (hlen : 10 * x.length < 2 ^ (F.mb + 1)) :
    rastrigin cos pi x = 0 := by
  have h16 : 2 ^ 4 ≤ 2 ^ (F.mb + 1) := Nat.pow_le_pow_right (by omega) (by omega)
  have htop : 10 * (x.length + 1) * 2 ^ F.one < 2 ^ F.top := by
    have h1 : 10 * (x.length + 1) < 2 ^ (F.mb + 2) := by rw [pow_succ]; omega
    calc 10 * (x.length + 1) * 2 ^ F.one < 2 ^ (F.mb + 2) * 2 ^ F.one := Nat.mul_lt_mul_of_pos_right h1 (by positivity)
      _ = 2 ^ (F.mb + 2 + F.one) := (pow_add _ _ _).symm
      _ ≤ 2 ^ F.top := Nat.pow_le_pow_right (by omega) (by omega)
  have h10 : Dbl.nat F 10 * Dbl.nat F x.length = ⟨.fin false (10 * x.length * 2 ^ F.one)⟩ := by
    show (⟨(Dbl.nat F 10 * Dbl.nat F x.length).val⟩ : Dbl F) = _
    have : 10 * x.length * 2 ^ F.one ≤ 10 * (x.length + 1) * 2 ^ F.one := Nat.mul_le_mul_right _ (by omega)
    rw [ten_size hlen, Fl.mk, if_neg (by omega)]
  unfold rastrigin
  rw [h10]
  exact rastrigin_zero_loop hmb cos hcos pi h2 x hx hlen htop

end

/-- Non-vacuity: `double` has the assumed range, a cosine with the assumed properties exists, and the value of a vector
away from the origin. -/
example : 3 ≤ binary64.mb ∧ 10 * 2 ^ binary64.one < 2 ^ binary64.top ∧ binary64.one + binary64.mb + 2 ≤ binary64.top ∧
    IsFin (Dbl.nat binary64 3 * Dbl.nat binary64 2 * -Dbl.nat binary64 4) ∧
    rastrigin (fun _ => Dbl.nat binary64 1) (Dbl.nat binary64 3) [-Dbl.nat binary64 4, Dbl.nat binary64 0] =
      Dbl.nat binary64 16 ∧
    rastrigin (fun _ => -Dbl.nat binary64 1) (Dbl.nat binary64 3) [-Dbl.nat binary64 4, Dbl.nat binary64 0] =
      Dbl.nat binary64 56 :=
  ⟨by decide, by decide +kernel, by decide, ⟨true, 24 * 2 ^ binary64.one, by decide +kernel⟩, by decide +kernel,
    by decide +kernel⟩

end Heu
