import Verif.Lemmas.SOGAFl4

/-! Single-objective selection on IEEE data: the wheel that never stops. -/

set_option linter.unusedSectionVars false
set_option linter.unusedSimpArgs false
set_option linter.unusedVariables false

namespace Heu
open Spec

variable {γ β : Type} {F : Fmt}

/-- Not NaN and not negative. -/
def NonNeg (x : Dbl F) : Prop := 0 ≤ x

theorem nonNeg_cases {x : Dbl F} (h : 0 ≤ x) :
    x.val = .inf false ∨ ∃ s n, x.val = .fin s n ∧ (s = true → n = 0) := by
  rw [Dbl.le_def, Dbl.zero_val] at h
  cases hx : x.val with
  | nan => rw [hx] at h; simp [Fl.le] at h
  | inf s => rw [hx] at h; cases s <;> simp [Fl.le] at h ⊢
  | fin s n =>
    right
    rw [hx, fl_le_fin] at h
    refine ⟨s, n, rfl, ?_⟩
    rintro rfl
    simp [Fl.units] at h; exact h

theorem nonNeg_inf : (0 : Dbl F) ≤ ⟨.inf false⟩ := by rw [Dbl.le_def, Dbl.zero_val]; rfl

theorem nonNeg_fin {x : Dbl F} {s : Bool} {n : Nat} (hx : x.val = .fin s n) (h : s = true → n = 0) : 0 ≤ x := by
  rw [Dbl.le_def, Dbl.zero_val, hx, fl_le_fin, units_of_nn h]; simp [Fl.units]

theorem nonNeg_of_inf {x : Dbl F} (h : x.val = .inf false) : 0 ≤ x := by
  rw [Dbl.le_def, Dbl.zero_val, h]; rfl

theorem add_nonNeg {x y : Dbl F} (hx : 0 ≤ x) (hy : 0 ≤ y) : 0 ≤ x + y ∧
    (x.val = .inf false ∨ y.val = .inf false → (x + y).val = .inf false) := by
  rcases nonNeg_cases hx with h1 | ⟨s, n, h1, h1'⟩
  · have : (x + y).val = .inf false := by
      rw [Dbl.add_val, h1]
      rcases nonNeg_cases hy with h2 | ⟨t, m, h2, -⟩ <;> rw [h2] <;> rfl
    exact ⟨nonNeg_of_inf this, fun _ => this⟩
  · rcases nonNeg_cases hy with h2 | ⟨t, m, h2, h2'⟩
    · have : (x + y).val = .inf false := by rw [Dbl.add_val, h1, h2]; rfl
      exact ⟨nonNeg_of_inf this, fun _ => this⟩
    · refine ⟨?_, by rw [h1, h2]; simp⟩
      have hv : (x + y).val = Fl.add F (.fin s n) (.fin t m) := by rw [Dbl.add_val, h1, h2]
      simp only [Fl.add, units_of_nn h1', units_of_nn h2'] at hv
      split at hv
      · exact nonNeg_fin hv (fun _ => rfl)
      · unfold Fl.mk at hv
        rw [decide_eq_false (by omega)] at hv
        split at hv
        · exact nonNeg_of_inf hv
        · exact nonNeg_fin hv (by simp)

/-- A sum of nonnegative numbers one of which is infinite. -/
theorem sum_inf (l : List (β × Dbl F)) (hw : ∀ x ∈ l, (0 : Dbl F) ≤ x.2) :
    ∀ a : Dbl F, 0 ≤ a → (a.val = .inf false ∨ ∃ x ∈ l, x.2.val = .inf false) →
      (l.foldl (fun (s : Dbl F) p => s + p.2) a).val = .inf false := by
  induction l with
  | nil => intro a _ h; simpa using h
  | cons x l ih =>
    intro a ha h
    simp only [List.foldl_cons]
    obtain ⟨h1, h2⟩ := add_nonNeg ha (hw x (by simp))
    apply ih (fun y hy => hw y (by simp [hy])) _ h1
    rcases h with h | ⟨y, hy, hy'⟩
    · exact Or.inl (h2 (Or.inl h))
    · rcases List.mem_cons.1 hy with rfl | hy
      · exact Or.inl (h2 (Or.inr hy'))
      · exact Or.inr ⟨y, hy, hy'⟩

theorem nan_add (x y : Dbl F) (h : x.val = .nan ∨ y.val = .nan) : (x + y).val = .nan := by
  rw [Dbl.add_val]
  rcases h with h | h
  · rw [h]; rfl
  · rw [h]; cases x.val <;> rfl

/-- A sum with a NaN. -/
theorem sum_nan (l : List (β × Dbl F)) : ∀ a : Dbl F, (a.val = .nan ∨ ∃ x ∈ l, x.2.val = .nan) →
    (l.foldl (fun (s : Dbl F) p => s + p.2) a).val = .nan := by
  induction l with
  | nil => intro a h; simpa using h
  | cons x l ih =>
    intro a h
    simp only [List.foldl_cons]
    apply ih
    rcases h with h | ⟨y, hy, hy'⟩
    · exact Or.inl (nan_add _ _ (Or.inl h))
    · rcases List.mem_cons.1 hy with rfl | hy
      · exact Or.inl (nan_add _ _ (Or.inr hy'))
      · exact Or.inr ⟨y, hy, hy'⟩

theorem sub_nonNeg {x y : Dbl F} (hx : x.IsFin) (hy : y.IsFin) (h : y ≤ x) : 0 ≤ x - y := by
  obtain ⟨s, n, hx⟩ := hx
  obtain ⟨t, m, hy⟩ := hy
  rw [Dbl.le_def, hx, hy, fl_le_fin] at h
  have hneg : Fl.units (!t) m = - Fl.units t m := by cases t <;> simp [Fl.units]
  have hv : (x - y).val = Fl.sub F (.fin s n) (.fin t m) := by rw [Dbl.sub_val, hx, hy]
  simp only [Fl.sub, Fl.neg, Fl.add, hneg] at hv
  split at hv
  · exact nonNeg_fin hv (fun _ => rfl)
  · unfold Fl.mk at hv
    rw [decide_eq_false (by omega)] at hv
    split at hv
    · exact nonNeg_of_inf hv
    · exact nonNeg_fin hv (by simp)

/-- What each shifted weight is when no fitness is NaN and none is infinitely bad. -/
theorem shifted_nonNeg {mn : List (Dbl F) → Dbl F} (hmn : ∀ l, (∀ x ∈ l, x.val ≠ .nan) → IsMin l (mn l))
    (o : FitnessOption) (fit : γ → Dbl F) {pop : List (Cell γ)}
    (hn : ∀ c ∈ pop, (signedFit o fit c.2).IsFin ∨ (signedFit o fit c.2).val = .inf false)
    (hf : ∃ c ∈ pop, (signedFit o fit c.2).IsFin) :
    ∀ c ∈ pop, ∃ x ∈ (shiftedSpaceFl mn o fit pop).2, x.1 = c ∧ 0 ≤ x.2 ∧
      ((signedFit o fit c.2).val = .inf false → x.2.val = .inf false) := by
  intro c hc
  obtain ⟨l, hl⟩ : ∃ l, l = (pop.map fun c => (c, signedFit o fit c.2)).map (·.2) := ⟨_, rfl⟩
  have hmem : ∀ c ∈ pop, signedFit o fit c.2 ∈ l := fun c hc => by
    rw [hl, List.map_map]; exact List.mem_map.2 ⟨c, hc, rfl⟩
  have hall : ∀ y ∈ l, y.IsFin ∨ y.val = .inf false := by
    intro y hy
    rw [hl, List.map_map] at hy
    obtain ⟨c', hc', rfl⟩ := List.mem_map.1 hy
    exact hn c' hc'
  have hmin := hmn l (fun y hy => by
    rcases hall y hy with h | h
    · exact h.ne_nan
    · rw [h]; simp)
  have hne : l ≠ [] := List.ne_nil_of_mem (hmem c hc)
  have hmf : (mn l).IsFin := by
    obtain ⟨c', hc', s, n, hc''⟩ := hf
    have hle := hmin.le _ (hmem c' hc')
    rcases hall _ (hmin.mem hne) with h | h
    · exact h
    · rw [Dbl.le_def, h, hc''] at hle; simp [Fl.le] at hle
  refine ⟨(c, signedFit o fit c.2 - mn l), ?_, rfl, ?_, ?_⟩
  · simp only [shiftedSpaceFl, ← hl]
    rw [List.map_map]
    exact List.mem_map.2 ⟨c, hc, rfl⟩
  · rcases hn c hc with h | h
    · exact sub_nonNeg h hmf (hmin.le _ (hmem c hc))
    · obtain ⟨s, n, hs⟩ := hmf
      apply nonNeg_of_inf
      simp only
      rw [Dbl.sub_val, h, hs]; rfl
  · intro h
    obtain ⟨s, n, hs⟩ := hmf
    simp only
    rw [Dbl.sub_val, h, hs]; rfl

/-- An infinitely bad or NaN fitness makes a weight, and so the sum, NaN. -/
theorem shifted_nan {mn : List (Dbl F) → Dbl F} (hmn : ∀ l, (∀ x ∈ l, x.val ≠ .nan) → IsMin l (mn l))
    (o : FitnessOption) (fit : γ → Dbl F) {pop : List (Cell γ)}
    (h : ∃ c ∈ pop, (signedFit o fit c.2).val = .nan ∨
      ((∀ c' ∈ pop, (signedFit o fit c'.2).val ≠ .nan) ∧ (signedFit o fit c.2).val = .inf true)) :
    (shiftedSpaceFl mn o fit pop).1.val = .nan := by
  obtain ⟨c, hc, h⟩ := h
  obtain ⟨l, hl⟩ : ∃ l, l = (pop.map fun c => (c, signedFit o fit c.2)).map (·.2) := ⟨_, rfl⟩
  have hmem : signedFit o fit c.2 ∈ l := by
    rw [hl, List.map_map]; exact List.mem_map.2 ⟨c, hc, rfl⟩
  have hx : (c, signedFit o fit c.2 - mn l) ∈ (shiftedSpaceFl mn o fit pop).2 := by
    simp only [shiftedSpaceFl, ← hl]
    rw [List.map_map]
    exact List.mem_map.2 ⟨c, hc, rfl⟩
  have hv : (signedFit o fit c.2 - mn l).val = .nan := by
    rcases h with h | ⟨hn, h⟩
    · rw [Dbl.sub_val, h]; rfl
    · have hmin := hmn l (fun y hy => by
        rw [hl, List.map_map] at hy
        obtain ⟨c', hc', rfl⟩ := List.mem_map.1 hy
        exact hn c' hc')
      have hle := hmin.le _ hmem
      rw [Dbl.le_def, h] at hle
      have : (mn l).val = .inf true := by
        cases hm : (mn l).val with
        | nan => rw [hm] at hle; simp [Fl.le] at hle
        | inf s => rw [hm] at hle; cases s <;> simp [Fl.le] at hle ⊢
        | fin s n => rw [hm] at hle; simp [Fl.le] at hle
      rw [Dbl.sub_val, h, this]; rfl
  exact sum_nan _ _ (Or.inr ⟨_, hx, hv⟩)

/-- The wheel over weights with a NaN sum, or an infinite sum because of an infinite weight, never stops. -/
theorem byWeightsFl_stuck (o : FitnessOption) (fit : γ → Dbl F) {ds : Nat → RouletteDraw (Dbl F)}
    (hds : ∀ i, Draw01 (ds i).u) {fuel K : Nat} {s : SOState γ} {old : γ} {es : List (Cell γ × Dbl F)}
    (hlen : es.length = s.pop.length) (hK0 : 0 < K) (hK : K < s.pop.length)
    (h : (∃ x ∈ es, x.2.val = .nan) ∨
      ((∀ x ∈ es, (0 : Dbl F) ≤ x.2) ∧ ∃ x ∈ es, x.2.val = .inf false)) :
    selectByWeightsFl o fit ds fuel K s old (es.foldl (fun (a : Dbl F) p => a + p.2) 0) es = .timeout := by
  unfold selectByWeightsFl
  have hstuck : elimLoop (s.pop.length - K) (fun it st => rouletteStep (ds it).u st) fuel 0
      (es.foldl (fun (a : Dbl F) p => a + p.2) 0, es) = .timeout := by
    apply elimLoop_stuck
    · intro it
      rcases h with h | ⟨hn, h⟩
      · exact rouletteStep_nan (sum_nan es _ (Or.inr h))
      · refine rouletteStep_inf (sum_inf es hn 0 (nonNeg_fin rfl (by simp)) (Or.inr h)) ?_ ?_ h
        · obtain ⟨n, hn, -⟩ := hds it; exact ⟨n, hn⟩
        · intro x hx
          rcases nonNeg_cases (hn x hx) with h | ⟨s, n, h, -⟩
          · exact Or.inr h
          · exact Or.inl ⟨s, n, h⟩
    · simp only; omega
  rw [hstuck]; rfl

end Heu
