import Verif.Lemmas.SOGAFl2

/-! Single-objective selection on IEEE data: bounds on the weights, so the wheel stops. -/

set_option linter.unusedSectionVars false
set_option linter.unusedSimpArgs false
set_option linter.unusedVariables false

namespace Heu
open Spec

variable {γ : Type} {F : Fmt}

/-! ### minimum -/

theorem fl_trichotomy {x y : Dbl F} (hx : x.val ≠ .nan) (hy : y.val ≠ .nan) (h : ¬ x < y) : y ≤ x := by
  rw [Dbl.lt_def, fl_lt_iff F] at h
  rw [Dbl.le_def, fl_le_iff F]
  exact ⟨hy, hx, not_lt.1 fun hc => h ⟨hx, hy, hc⟩⟩

theorem fl_le_of_lt {x y : Dbl F} (h : x < y) : x ≤ y := by
  rw [Dbl.lt_def, fl_lt_iff F] at h
  rw [Dbl.le_def, fl_le_iff F]
  exact ⟨h.1, h.2.1, h.2.2.le⟩

theorem fl_le_refl {x : Dbl F} (h : x.val ≠ .nan) : x ≤ x := by
  rw [Dbl.le_def, fl_le_iff F]; exact ⟨h, h, le_refl _⟩

theorem fl_le_trans {x y z : Dbl F} (h1 : x ≤ y) (h2 : y ≤ z) : x ≤ z := by
  rw [Dbl.le_def, fl_le_iff F] at *
  exact ⟨h1.1, h2.2.1, h1.2.2.trans h2.2.2⟩

/-- What both loops that look for the minimum find. -/
structure IsMin (l : List (Dbl F)) (m : Dbl F) : Prop where
  mem : l ≠ [] → m ∈ l
  le : ∀ x ∈ l, m ≤ x

theorem foldMin {step : Dbl F → Dbl F → Dbl F}
    (hs : ∀ m x : Dbl F, m.val ≠ .nan → x.val ≠ .nan → (step m x = m ∨ step m x = x) ∧ step m x ≤ m ∧ step m x ≤ x)
    (l : List (Dbl F)) (hn : ∀ x ∈ l, x.val ≠ .nan) (a : Dbl F) (ha : a.val ≠ .nan) :
    (l.foldl step a = a ∨ l.foldl step a ∈ l) ∧ l.foldl step a ≤ a ∧ ∀ x ∈ l, l.foldl step a ≤ x := by
  induction l generalizing a with
  | nil => exact ⟨Or.inl rfl, fl_le_refl ha, by simp⟩
  | cons x l ih =>
    have hx := hn x (by simp)
    obtain ⟨h1, h2, h3⟩ := hs a x ha hx
    have hne : (step a x).val ≠ .nan := by rcases h1 with h | h <;> rw [h] <;> assumption
    obtain ⟨i1, i2, i3⟩ := ih (fun y hy => hn y (by simp [hy])) (step a x) hne
    simp only [List.foldl_cons]
    refine ⟨?_, fl_le_trans i2 h2, ?_⟩
    · rcases i1 with i1 | i1
      · rw [i1]; rcases h1 with h | h
        · left; exact h
        · right; rw [h]; simp
      · right; simp [i1]
    · intro y hy
      rcases List.mem_cons.1 hy with rfl | hy
      · exact fl_le_trans i2 h3
      · exact i3 y hy

theorem foldMin_inf {step : Dbl F → Dbl F → Dbl F}
    (hs : ∀ m x : Dbl F, m.val ≠ .nan → x.val ≠ .nan → (step m x = m ∨ step m x = x) ∧ step m x ≤ m ∧ step m x ≤ x)
    (hi : ∀ x : Dbl F, x.val ≠ .nan → step ⟨.inf false⟩ x = x)
    (l : List (Dbl F)) (hn : ∀ x ∈ l, x.val ≠ .nan) : IsMin l (l.foldl step ⟨.inf false⟩) := by
  cases l with
  | nil => exact ⟨fun h => absurd rfl h, by simp⟩
  | cons x l =>
    simp only [List.foldl_cons]
    have hx := hn x (by simp)
    rw [hi x hx]
    obtain ⟨i1, i2, i3⟩ := foldMin hs l (fun y hy => hn y (by simp [hy])) x hx
    refine ⟨fun _ => ?_, ?_⟩
    · rcases i1 with h | h
      · rw [h]; simp
      · simp [h]
    · intro y hy
      rcases List.mem_cons.1 hy with rfl | hy
      · exact i2
      · exact i3 y hy

theorem lt_inf {x : Dbl F} (h : x.val ≠ .nan) (h' : x.val ≠ .inf false) : x < ⟨.inf false⟩ := by
  rw [Dbl.lt_def]
  cases hx : x.val with
  | nan => exact absurd hx h
  | inf s => cases s <;> simp_all [Fl.lt]
  | fin s n => simp [Fl.lt]

theorem not_inf_lt (x : Dbl F) : ¬ (⟨.inf false⟩ : Dbl F) < x := by
  rw [Dbl.lt_def]
  cases hx : x.val with
  | nan => simp [Fl.lt]
  | inf s => cases s <;> simp [Fl.lt]
  | fin s n => simp [Fl.lt]

theorem minFl_isMin (l : List (Dbl F)) (hn : ∀ x ∈ l, x.val ≠ .nan) : IsMin l (minFl l) := by
  refine foldMin_inf (step := fun m x => if x < m then x else m) ?_ ?_ l hn
  · intro m x hm hx
    by_cases h : x < m
    · simp only [h, if_true]; exact ⟨Or.inr trivial, fl_le_of_lt h, fl_le_refl hx⟩
    · simp only [h, if_false]; exact ⟨Or.inl trivial, fl_le_refl hm, fl_trichotomy hx hm h⟩
  · intro x hx
    split
    · rfl
    · next h =>
      by_contra hc
      exact h (lt_inf hx (fun he => hc (by cases x; simp_all)))

theorem minFlSwapped_isMin (l : List (Dbl F)) (hn : ∀ x ∈ l, x.val ≠ .nan) : IsMin l (minFlSwapped l) := by
  refine foldMin_inf (step := fun m x => if m < x then m else x) ?_ ?_ l hn
  · intro m x hm hx
    by_cases h : m < x
    · simp only [h, if_true]; exact ⟨Or.inl trivial, fl_le_refl hm, fl_le_of_lt h⟩
    · simp only [h, if_false]; exact ⟨Or.inr trivial, fl_trichotomy hm hx h, fl_le_refl hx⟩
  · intro x hx
    rw [if_neg (not_inf_lt x)]

/-! ### nonnegative data -/

/-- `n` units, not negative (`-0` counts as zero). -/
def Nn (F : Fmt) (n : Nat) (x : Fl) : Prop := ∃ s, x = .fin s n ∧ (s = true → n = 0) ∧ Rep F.mb n

theorem units_of_nn {s : Bool} {n : Nat} (h : s = true → n = 0) : Fl.units s n = n := by
  cases s
  · rfl
  · simp [h rfl, Fl.units]

theorem rep_zero (mb : Nat) : Rep mb 0 := ⟨0, 0, by positivity, by simp⟩

theorem fl_le_fin {s t : Bool} {n m : Nat} : Fl.le (.fin s n) (.fin t m) = true ↔ Fl.units s n ≤ Fl.units t m := by
  simp [Fl.le]

/-- A difference of ordered numbers is not negative. -/
theorem nn_sub {x y : Fl} {k e : Nat} (hx : Small F 1 e x) (hy : Small F 1 e y) (h : Fl.le y x = true)
    (hk : 2 < 2 ^ (F.mb + 1)) (ht : 2 * 2 ^ e < 2 ^ F.top) : ∃ n, Nn F n (x.sub F y) ∧ n ≤ 2 * 2 ^ e := by
  obtain ⟨s, n, rfl, h1⟩ := hx
  obtain ⟨t, m, rfl, h2⟩ := hy
  rw [fl_le_fin] at h
  have hneg : Fl.units (!t) m = - Fl.units t m := by cases t <;> simp [Fl.units]
  simp only [Fl.sub, Fl.neg, Fl.add, hneg]
  have hge : 0 ≤ Fl.units s n + -Fl.units t m := by omega
  have hz : (Fl.units s n + -Fl.units t m).natAbs ≤ 2 * 2 ^ e := by
    have h3 := natAbs_units s n
    have h4 := natAbs_units t m
    omega
  split
  · exact ⟨0, ⟨_, rfl, fun _ => rfl, rep_zero _⟩, Nat.zero_le _⟩
  · have hr : rndUnits F.mb (Fl.units s n + -Fl.units t m).natAbs 1 ≤ 2 * 2 ^ e :=
      rndUnits_le _ _ _ one_pos ⟨2, e, hk, rfl⟩ (by simpa using hz)
    refine ⟨_, ⟨false, ?_, by simp, rep_rndUnits _ _ _ one_pos⟩, hr⟩
    unfold Fl.mk
    rw [if_neg (by omega), decide_eq_false (by omega)]

/-- Adding a nonnegative number does not make the sum smaller than either. -/
theorem nn_add {x y : Fl} {n m : Nat} (hx : Nn F n x) (hy : Nn F m y)
    (ht : rndUnits F.mb (n + m) 1 < 2 ^ F.top) :
    ∃ r, Nn F r (x.add F y) ∧ n ≤ r ∧ m ≤ r := by
  obtain ⟨s, rfl, h1, h2⟩ := hx
  obtain ⟨t, rfl, h3, h4⟩ := hy
  simp only [Fl.add, units_of_nn h1, units_of_nn h3]
  split
  · next h => exact ⟨0, ⟨_, rfl, fun _ => rfl, rep_zero _⟩, by omega, by omega⟩
  · have e : ((n : ℤ) + (m : ℤ)).natAbs = n + m := by omega
    refine ⟨rndUnits F.mb (n + m) 1, ⟨false, ?_, by simp, rep_rndUnits _ _ _ one_pos⟩,
      le_rndUnits _ _ _ one_pos h2 (by omega), le_rndUnits _ _ _ one_pos h4 (by omega)⟩
    unfold Fl.mk
    rw [e, if_neg (by omega), decide_eq_false (by omega)]

theorem sum_small {β : Type} {e : Nat} (l : List (β × Dbl F)) (hw : ∀ x ∈ l, Small F 1 e x.2.val) :
    ∀ (k : Nat) (a : Dbl F), Small F k e a.val → k + l.length < 2 ^ (F.mb + 1) →
      (k + l.length) * 2 ^ e < 2 ^ F.top →
      Small F (k + l.length) e (l.foldl (fun s p => s + p.2) a).val := by
  induction l with
  | nil => intro k a ha _ _; simpa using ha
  | cons x l ih =>
    intro k a ha hk ht
    simp only [List.foldl_cons, List.length_cons] at *
    have h1 : Small F (k + 1) e (a + x.2).val :=
      ha.add (hw x (by simp)) (by omega) (lt_of_le_of_lt (Nat.mul_le_mul_right _ (by omega)) ht)
    have := ih (fun y hy => hw y (by simp [hy])) (k + 1) _ h1 (by omega)
      (by rwa [show k + 1 + l.length = k + (l.length + 1) by omega])
    rwa [show k + 1 + l.length = k + (l.length + 1) by omega] at this

/-- The rounded sum of nonnegative numbers is at least each of them. -/
theorem sum_ge {β : Type} {e : Nat} (l : List (β × Dbl F))
    (hw : ∀ x ∈ l, ∃ n, Nn F n x.2.val ∧ n ≤ 1 * 2 ^ e) :
    ∀ (k n : Nat) (a : Dbl F), Nn F n a.val → n ≤ k * 2 ^ e → k + l.length < 2 ^ (F.mb + 1) →
      (k + l.length) * 2 ^ e < 2 ^ F.top →
      ∃ r, Nn F r (l.foldl (fun s p => s + p.2) a).val ∧ n ≤ r ∧
        ∀ x ∈ l, ∀ m, Nn F m x.2.val → m ≤ r := by
  induction l with
  | nil => intro k n a ha _ _ _; exact ⟨n, ha, le_refl _, by simp⟩
  | cons x l ih =>
    intro k n a ha hn hk ht
    simp only [List.foldl_cons, List.length_cons] at *
    obtain ⟨m, hm, hm'⟩ := hw x (by simp)
    have hb : rndUnits F.mb (n + m) 1 ≤ (k + 1) * 2 ^ e := by
      refine rndUnits_le _ _ _ one_pos ⟨k + 1, e, by omega, rfl⟩ ?_
      rw [Nat.add_mul]; omega
    have hb' : (k + 1) * 2 ^ e < 2 ^ F.top :=
      lt_of_le_of_lt (Nat.mul_le_mul_right _ (by omega)) ht
    obtain ⟨r, hr, hr1, hr2⟩ := nn_add ha hm (by omega)
    have hrle : r ≤ (k + 1) * 2 ^ e := by
      have hs : Small F (k + 1) e (a + x.2).val := by
        obtain ⟨s, h1, -⟩ := ha
        obtain ⟨t, h2, -⟩ := hm
        exact Small.add ⟨s, n, h1, hn⟩ ⟨t, m, h2, hm'⟩ (by omega) hb'
      obtain ⟨s, q, h1, h2⟩ := hs
      obtain ⟨t, h3, -⟩ := hr
      have h4 : (a + x.2).val = Fl.fin t r := h3
      rw [h1] at h4; simp only [Fl.fin.injEq] at h4; omega
    obtain ⟨R, hR, i1, i2⟩ := ih (fun y hy => hw y (by simp [hy])) (k + 1) r _ hr hrle (by omega)
      (by rwa [show k + 1 + l.length = k + (l.length + 1) by omega])
    refine ⟨R, hR, by omega, ?_⟩
    intro y hy q hq
    rcases List.mem_cons.1 hy with rfl | hy
    · obtain ⟨s, h1, -⟩ := hq
      obtain ⟨t, h2, -⟩ := hm
      rw [h1] at h2; simp only [Fl.fin.injEq] at h2; omega
    · exact i2 y hy q hq

/-- `[0, 1]`. -/
def Unit01 (x : Dbl F) : Prop := 0 ≤ x ∧ x ≤ Dbl.nat F 1

theorem nat_val (k : Nat) : (Dbl.nat F k).val = .fin false (k * 2 ^ F.one) := rfl

theorem nn_unit01 {n : Nat} {x : Dbl F} (h : Nn F n x.val) (hn : n ≤ 2 ^ F.one) : Unit01 x := by
  obtain ⟨s, h1, h2, -⟩ := h
  refine ⟨?_, ?_⟩
  · rw [Dbl.le_def, h1, Dbl.zero_val, fl_le_fin, units_of_nn h2]; simp [Fl.units]
  · rw [Dbl.le_def, h1, nat_val, fl_le_fin, units_of_nn h2]
    simp only [Fl.units]; simp; exact_mod_cast hn

theorem unit01_small {x : Dbl F} (h : Unit01 x) : Small F 1 F.one x.val := by
  obtain ⟨h1, h2⟩ := h
  rw [Dbl.le_def] at h1 h2
  rw [nat_val] at h2
  rw [Dbl.zero_val] at h1
  cases hx : x.val with
  | nan => rw [hx] at h1; simp [Fl.le] at h1
  | inf s => rw [hx] at h1 h2; cases s <;> simp [Fl.le] at h1 h2
  | fin s n =>
    rw [hx] at h1 h2
    rw [fl_le_fin] at h1 h2
    refine ⟨s, n, rfl, ?_⟩
    cases s <;> simp only [Fl.units, if_true, if_false] at h1 h2
    · simp at h2 ⊢; exact_mod_cast h2
    · simp at h1 h2 ⊢; have : n = 0 := by omega
      subst this; positivity

theorem rep_pow (mb e : Nat) : Rep mb (2 ^ e) := ⟨1, e, Nat.one_lt_two_pow (by omega), by simp⟩

/-- `1 - p` for a probability `p`. -/
theorem one_sub_unit01 {n : Nat} {x : Dbl F} (h : Nn F n x.val) (hn : n ≤ 2 ^ F.one) (ht : F.one < F.top) :
    ∃ m, Nn F m (Dbl.nat F 1 - x).val ∧ m ≤ 2 ^ F.one := by
  obtain ⟨s, h1, h2, h3⟩ := h
  rw [Dbl.sub_val, h1, nat_val]
  have hneg : Fl.units (!s) n = - (n : ℤ) := by
    cases s
    · simp [Fl.units]
    · simp [h2 rfl, Fl.units]
  have ho : Fl.units false (1 * 2 ^ F.one) = ((2 ^ F.one : Nat) : ℤ) := by simp [Fl.units]
  simp only [Fl.sub, Fl.neg, Fl.add, hneg, ho]
  obtain ⟨B, hB⟩ : ∃ B, B = 2 ^ F.one := ⟨_, rfl⟩
  rw [← hB] at hn ⊢
  split
  · exact ⟨0, ⟨_, rfl, fun _ => rfl, rep_zero _⟩, Nat.zero_le _⟩
  · have e : ((B : ℤ) + -(n : ℤ)).natAbs = B - n := by omega
    have hr : rndUnits F.mb (B - n) 1 ≤ B := rndUnits_le _ _ _ one_pos (hB ▸ rep_pow _ _) (by omega)
    have ht' : B < 2 ^ F.top := hB ▸ Nat.pow_lt_pow_right (by norm_num) ht
    refine ⟨rndUnits F.mb (B - n) 1, ⟨false, ?_, by simp, rep_rndUnits _ _ _ one_pos⟩, hr⟩
    unfold Fl.mk
    rw [e, if_neg (by omega), decide_eq_false (by omega)]

/-- A quotient of a nonnegative number by a number that is not smaller. -/
theorem nn_div {n m : Nat} {x y : Fl} (hx : Nn F n x) (hy : Nn F m y) (hm : 0 < m) (h : n ≤ m)
    (ht : F.one < F.top) : ∃ r, Nn F r (x.div F y) ∧ r ≤ 2 ^ F.one := by
  obtain ⟨s, rfl, h1, h2⟩ := hx
  obtain ⟨t, rfl, h3, h4⟩ := hy
  have hr : rndUnits F.mb (n * 2 ^ F.one) m ≤ 2 ^ F.one := by
    refine rndUnits_le _ _ _ hm (rep_pow _ _) ?_
    rw [Nat.mul_comm]; exact Nat.mul_le_mul_left _ h
  have ht' : 2 ^ F.one < 2 ^ F.top := Nat.pow_lt_pow_right (by norm_num) ht
  have htf : t = false := by cases t; rfl; exact absurd (h3 rfl) hm.ne'
  subst htf
  refine ⟨rndUnits F.mb (n * 2 ^ F.one) m, ⟨s, ?_, ?_, rep_rndUnits _ _ _ hm⟩, hr⟩
  · simp only [Fl.div]
    rw [if_neg hm.ne']
    unfold Fl.mk
    rw [if_neg (by omega)]; simp
  · intro hs
    rw [h1 hs]
    simp only [Nat.zero_mul]
    have := rndUnits_le F.mb 0 m hm (rep_zero F.mb) (by simp)
    omega

/-! ### the shifted weights -/

section shifted
variable (o : FitnessOption) (fit : γ → Dbl F)

theorem signedFit_small {g : γ} {k e : Nat} (h : Small F k e (fit g).val) :
    Small F k e (signedFit o fit g).val := by
  cases o
  · exact h.neg
  · exact h

theorem shifted_nn {mn : List (Dbl F) → Dbl F} (hmn : ∀ l, (∀ x ∈ l, x.val ≠ .nan) → IsMin l (mn l))
    {e : Nat} {pop : List (Cell γ)} (hs : ∀ c ∈ pop, Small F 1 e (fit c.2).val) (hk : 2 < 2 ^ (F.mb + 1))
    (ht : 2 * 2 ^ e < 2 ^ F.top) :
    ∀ x ∈ (shiftedSpaceFl mn o fit pop).2, ∃ n, Nn F n x.2.val ∧ n ≤ 1 * 2 ^ (e + 1) := by
  intro x hx
  simp only [shiftedSpaceFl, List.mem_map] at hx
  obtain ⟨p, ⟨c, hc, rfl⟩, rfl⟩ := hx
  obtain ⟨l, hl⟩ : ∃ l, l = (pop.map fun c => (c, signedFit o fit c.2)).map (·.2) := ⟨_, rfl⟩
  have hsm : ∀ y ∈ l, Small F 1 e y.val := by
    intro y hy
    rw [hl, List.map_map] at hy
    obtain ⟨c', hc', rfl⟩ := List.mem_map.1 hy
    exact signedFit_small o fit (hs c' hc')
  have hmin := hmn l (fun y hy => (Small.isFin (hsm y hy)).ne_nan)
  have hcl : signedFit o fit c.2 ∈ l := by
    rw [hl, List.map_map]; exact List.mem_map.2 ⟨c, hc, rfl⟩
  have hne : l ≠ [] := List.ne_nil_of_mem hcl
  simp only
  rw [← hl]
  obtain ⟨n, hn, hn'⟩ := nn_sub (k := 0) (hsm _ hcl) (hsm _ (hmin.mem hne)) (hmin.le _ hcl) hk ht
  exact ⟨n, hn, by rw [pow_succ]; omega⟩

theorem nn_small {n k e : Nat} {x : Fl} (h : Nn F n x) (hn : n ≤ k * 2 ^ e) : Small F k e x := by
  obtain ⟨s, h1, -⟩ := h; exact ⟨s, n, h1, hn⟩

end shifted

end Heu
