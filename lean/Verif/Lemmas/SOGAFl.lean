import Verif.Model.SOGAFl
import Verif.Lemmas.SOSelect2
import Verif.Lemmas.NSGA2Fl

/-! Single-objective selection on IEEE data: the roulette loop. -/

set_option linter.unusedSectionVars false
set_option linter.unusedSimpArgs false
set_option linter.unusedVariables false

namespace Heu
open Spec

variable {γ β : Type} {F : Fmt}

/-! ### data -/

/-- Neither NaN nor infinite. -/
def Dbl.IsFin (x : Dbl F) : Prop := ∃ s n, x.val = .fin s n

theorem Dbl.IsFin.ne_nan {x : Dbl F} (h : x.IsFin) : x.val ≠ .nan := by
  obtain ⟨s, n, h⟩ := h; rw [h]; simp

theorem Dbl.sub_val (x y : Dbl F) : (x - y).val = x.val.sub F y.val := rfl
theorem Dbl.add_val (x y : Dbl F) : (x + y).val = x.val.add F y.val := rfl
theorem Dbl.mul_val (x y : Dbl F) : (x * y).val = x.val.mul F y.val := rfl
theorem Dbl.div_val (x y : Dbl F) : (x / y).val = x.val.div F y.val := rfl
theorem Dbl.neg_val (x : Dbl F) : (-x).val = x.val.neg := rfl
theorem Dbl.zero_val : (0 : Dbl F).val = .fin false 0 := rfl
theorem Dbl.lt_def (x y : Dbl F) : x < y ↔ x.val.lt y.val = true := Iff.rfl
theorem Dbl.le_def (x y : Dbl F) : x ≤ y ↔ x.val.le y.val = true := Iff.rfl

theorem mk_ne_nan (s : Bool) (n : Nat) : Fl.mk F s n ≠ .nan := by
  unfold Fl.mk; split <;> simp

theorem add_fin_ne_nan {x : Fl} (s : Bool) (n : Nat) (h : x ≠ .nan) : x.add F (.fin s n) ≠ .nan := by
  cases x with
  | nan => exact absurd rfl h
  | inf t => simp [Fl.add]
  | fin t k =>
    simp only [Fl.add]
    split
    · simp
    · exact mk_ne_nan _ _

theorem sub_fin_ne_nan {x y : Dbl F} (h : x.val ≠ .nan) (hy : y.IsFin) : (x - y).val ≠ .nan := by
  obtain ⟨s, n, hy⟩ := hy
  rw [Dbl.sub_val, hy]
  exact add_fin_ne_nan _ _ h

theorem lt_zero_of_not_le {x : Dbl F} (h : x.val ≠ .nan) (hx : ¬ x ≤ 0) : 0 < x := by
  rw [Dbl.lt_def, fl_lt_iff F]
  rw [Dbl.le_def, fl_le_iff F] at hx
  have h0 : (0 : Dbl F).val ≠ .nan := by simp [Dbl.zero_val]
  exact ⟨h0, h, not_le.1 (fun hc => hx ⟨h, h0, hc⟩)⟩

/-- The draw scaled to the remaining sum is a number. -/
theorem scaled_ne_nan {x u : Dbl F} (hx : x.IsFin) (hu : u.IsFin)
    (h0 : (x - 0).IsFin) : ((x - 0) * u + 0).val ≠ .nan := by
  obtain ⟨s, n, h⟩ := h0
  obtain ⟨t, k, hu⟩ := hu
  rw [Dbl.add_val, Dbl.mul_val, h, hu]
  exact add_fin_ne_nan _ _ (mk_ne_nan _ _)

/-! ### bounds -/

/-- A finite number of at most `k * 2^e` units. -/
def Small (F : Fmt) (k e : Nat) (x : Fl) : Prop := ∃ s n, x = .fin s n ∧ n ≤ k * 2 ^ e

theorem Small.mono {k k' e : Nat} {x : Fl} (h : Small F k e x) (hk : k ≤ k') : Small F k' e x := by
  obtain ⟨s, n, h1, h2⟩ := h
  exact ⟨s, n, h1, h2.trans (Nat.mul_le_mul_right _ hk)⟩

theorem Small.isFin {k e : Nat} {x : Dbl F} (h : Small F k e x.val) : x.IsFin := by
  obtain ⟨s, n, h1, -⟩ := h; exact ⟨s, n, h1⟩

theorem Small.neg {k e : Nat} {x : Fl} (h : Small F k e x) : Small F k e x.neg := by
  obtain ⟨s, n, rfl, h2⟩ := h; exact ⟨!s, n, rfl, h2⟩

theorem natAbs_units (s : Bool) (n : Nat) : (Fl.units s n).natAbs = n := by
  cases s <;> simp [Fl.units]

theorem Small.add {k k' e : Nat} {x y : Fl} (hx : Small F k e x) (hy : Small F k' e y)
    (hk : k + k' < 2 ^ (F.mb + 1)) (ht : (k + k') * 2 ^ e < 2 ^ F.top) : Small F (k + k') e (x.add F y) := by
  obtain ⟨s, n, rfl, h2⟩ := hx
  obtain ⟨t, m, rfl, h4⟩ := hy
  simp only [Fl.add]
  split
  · exact ⟨_, 0, rfl, Nat.zero_le _⟩
  · have hz : (Fl.units s n + Fl.units t m).natAbs ≤ (k + k') * 2 ^ e := by
      refine (Int.natAbs_add_le _ _).trans ?_
      rw [natAbs_units, natAbs_units, Nat.add_mul]; omega
    have hr : rndUnits F.mb (Fl.units s n + Fl.units t m).natAbs 1 ≤ (k + k') * 2 ^ e :=
      rndUnits_le _ _ _ one_pos ⟨k + k', e, hk, rfl⟩ (by simpa using hz)
    refine ⟨decide (Fl.units s n + Fl.units t m < 0), _, ?_, hr⟩
    unfold Fl.mk
    rw [if_neg (by omega)]

theorem Small.sub {k k' e : Nat} {x y : Fl} (hx : Small F k e x) (hy : Small F k' e y)
    (hk : k + k' < 2 ^ (F.mb + 1)) (ht : (k + k') * 2 ^ e < 2 ^ F.top) : Small F (k + k') e (x.sub F y) :=
  hx.add hy.neg hk ht

theorem Small.mul {e e' : Nat} {x y : Fl} (hx : Small F 1 e x) (hy : Small F 1 e' y)
    (h1 : F.one ≤ e + e') (ht : e + e' - F.one < F.top) : Small F 1 (e + e' - F.one) (x.mul F y) := by
  obtain ⟨s, n, rfl, h2⟩ := hx
  obtain ⟨t, m, rfl, h4⟩ := hy
  have hr : rndUnits F.mb (n * m) (2 ^ F.one) ≤ 2 ^ (e + e' - F.one) := by
    refine rndUnits_le _ _ _ (by positivity) ⟨1, e + e' - F.one, ?_, by simp⟩ ?_
    · exact Nat.one_lt_two_pow (by omega)
    · rw [← pow_add, Nat.sub_add_cancel h1, pow_add]
      exact Nat.mul_le_mul (by simpa using h2) (by simpa using h4)
  refine ⟨xor s t, _, ?_, by simpa using hr⟩
  simp only [Fl.mul, Fl.mk]
  rw [if_neg]
  have : 2 ^ (e + e' - F.one) < 2 ^ F.top := Nat.pow_lt_pow_right (by norm_num) ht
  omega

theorem Small.div {e c : Nat} {x : Fl} {t : Bool} {m : Nat} (hx : Small F 1 e x) (hm : 2 ^ c ≤ m)
    (h1 : c ≤ e + F.one) (ht : e + F.one - c < F.top) : Small F 1 (e + F.one - c) (x.div F (.fin t m)) := by
  obtain ⟨s, n, rfl, h2⟩ := hx
  have hm0 : 0 < m := lt_of_lt_of_le (by positivity) hm
  have hr : rndUnits F.mb (n * 2 ^ F.one) m ≤ 2 ^ (e + F.one - c) := by
    refine rndUnits_le _ _ _ hm0 ⟨1, e + F.one - c, Nat.one_lt_two_pow (by omega), by simp⟩ ?_
    calc n * 2 ^ F.one ≤ 2 ^ e * 2 ^ F.one := Nat.mul_le_mul_right _ (by simpa using h2)
      _ = 2 ^ (e + F.one - c) * 2 ^ c := by rw [← pow_add, ← pow_add, Nat.sub_add_cancel h1]
      _ ≤ _ := Nat.mul_le_mul_left _ hm
  refine ⟨xor s t, _, ?_, by simpa using hr⟩
  simp only [Fl.div]
  rw [if_neg hm0.ne']
  unfold Fl.mk
  rw [if_neg]
  have : 2 ^ (e + F.one - c) < 2 ^ F.top := Nat.pow_lt_pow_right (by norm_num) ht
  omega

theorem Small.pow_mono {e e' : Nat} {x : Fl} (h : Small F 1 e x) (he : e ≤ e') : Small F 1 e' x := by
  obtain ⟨s, n, h1, h2⟩ := h
  refine ⟨s, n, h1, h2.trans ?_⟩
  simpa using Nat.pow_le_pow_right (by norm_num : 0 < 2) he

/-! ### one turn of the wheel -/

theorem rouletteErase_none_fl {r : Dbl F} {es : List (β × Dbl F)} (h : rouletteErase r es = none)
    (hne : es ≠ []) (hr : r.val ≠ .nan) (hw : ∀ x ∈ es, x.2.IsFin) :
    0 < es.foldl (fun r x => r - x.2) r := by
  induction es generalizing r with
  | nil => exact absurd rfl hne
  | cons x xs ih =>
    have hx := sub_fin_ne_nan hr (hw x (by simp))
    simp only [rouletteErase] at h
    split at h
    · simp at h
    · next hlt =>
      have hn : rouletteErase (r - x.2) xs = none := by
        cases hr : rouletteErase (r - x.2) xs with
        | none => rfl
        | some p => simp [hr] at h
      simp only [List.foldl_cons]
      cases xs with
      | nil => exact lt_zero_of_not_le hx hlt
      | cons y ys => exact ih hn (by simp) hx (fun z hz => hw z (by simp [hz]))

/-- One iteration with finite weights removes exactly one element. -/
theorem rouletteStep_fl {u : Dbl F} {st : Dbl F × List (β × Dbl F)} (hne : st.2 ≠ []) (hu : u.IsFin)
    (h1 : st.1.IsFin) (h0 : (st.1 - 0).IsFin) (hw : ∀ x ∈ st.2, x.2.IsFin) :
    ∃ st', rouletteStep u st = .ok st' ∧ st'.2.Sublist st.2 ∧ st'.2.length + 1 = st.2.length ∧
      ∃ x ∈ st.2, st'.1 = st.1 - x.2 := by
  unfold rouletteStep
  simp only
  cases hr : rouletteErase ((st.1 - 0) * u + 0) st.2 with
  | some p =>
    obtain ⟨x, hx1, hx2, hx3⟩ := rouletteErase_some hr
    refine ⟨_, rfl, hx2, ?_, x, (hx3.mem_iff).2 (by simp), by rw [hx1]⟩
    have := hx3.length_eq; simp at this; simp; omega
  | none =>
    have := rouletteErase_none_fl hr hne (scaled_ne_nan h1 hu h0) hw
    simp only [this, if_true]
    have hl : st.2.getLast? = some (st.2.getLast hne) := List.getLast?_eq_some_getLast hne
    rw [hl]
    refine ⟨_, rfl, List.dropLast_sublist _, ?_, st.2.getLast hne, List.getLast_mem hne, rfl⟩
    have : st.2.length ≠ 0 := by simpa using hne
    simp; omega

/-- The loop with an invariant that may depend on the number of iterations. -/
theorem elimLoop_inv {α : Type} {m : Nat} {step : Nat → α × List (β × α) → Out (α × List (β × α))}
    (Inv : Nat → α × List (β × α) → Prop)
    (hstep : ∀ it st, m < st.2.length → Inv it st → ∃ st', step it st = .ok st' ∧
      st'.2.Sublist st.2 ∧ st'.2.length + 1 = st.2.length ∧ Inv (it + 1) st')
    (fuel it : Nat) (st : α × List (β × α)) (hi : Inv it st) (hf : st.2.length ≤ m + fuel) :
    ∃ es, elimLoop m step fuel it st = .ok es ∧ es.Sublist st.2 ∧
      (m ≤ st.2.length → es.length = m) ∧ (st.2.length ≤ m → es = st.2) := by
  induction fuel generalizing it st with
  | zero => exact ⟨st.2, by simp [elimLoop]; omega, List.Sublist.refl _, fun h => by omega, fun _ => rfl⟩
  | succ fuel ih =>
    simp only [elimLoop]
    split
    · next hgt =>
      obtain ⟨st', h1, h2, h3, h4⟩ := hstep it st hgt hi
      rw [h1]
      obtain ⟨es, e1, e2, e3, -⟩ := ih (it + 1) st' h4 (by omega)
      exact ⟨es, e1, e2.trans h2, fun _ => e3 (by omega), fun h => by omega⟩
    · exact ⟨_, rfl, List.Sublist.refl _, fun h => by omega, fun _ => rfl⟩

/-- The wheel on finite weights: it stops after exactly as many turns as are needed. -/
theorem wheel_fl {m N k0 e : Nat} {ds : Nat → RouletteDraw (Dbl F)} (hu : ∀ i, (ds i).u.IsFin)
    (hk : k0 + N < 2 ^ (F.mb + 1)) (ht : (k0 + N) * 2 ^ e < 2 ^ F.top)
    {rMax : Dbl F} (h1 : Small F k0 e rMax.val) {es : List (β × Dbl F)} (hN : es.length ≤ N)
    (hw : ∀ x ∈ es, Small F 1 e x.2.val) {fuel : Nat} (hf : es.length ≤ m + fuel) :
    ∃ es', elimLoop m (fun it st => rouletteStep (ds it).u st) fuel 0 (rMax, es) = .ok es' ∧
      es'.Sublist es ∧ (m ≤ es.length → es'.length = m) := by
  have hstep : ∀ (it : Nat) (st : Dbl F × List (β × Dbl F)), m < st.2.length →
      (Small F (k0 + it) e st.1.val ∧ (∀ x ∈ st.2, Small F 1 e x.2.val) ∧ it + st.2.length ≤ N) →
      ∃ st', rouletteStep (ds it).u st = .ok st' ∧ st'.2.Sublist st.2 ∧ st'.2.length + 1 = st.2.length ∧
        (Small F (k0 + (it + 1)) e st'.1.val ∧ (∀ x ∈ st'.2, Small F 1 e x.2.val) ∧
          it + 1 + st'.2.length ≤ N) := by
    rintro it st hlt ⟨i1, i2, i3⟩
    have hne : st.2 ≠ [] := by rintro h; simp [h] at hlt
    have hlen : 0 < st.2.length := List.length_pos_iff.2 hne
    have hmul : ∀ j, j ≤ k0 + N → j * 2 ^ e < 2 ^ F.top := fun j hj =>
      lt_of_le_of_lt (Nat.mul_le_mul_right _ hj) ht
    have h0 : Small F (k0 + it + 0) e (st.1 - 0 : Dbl F).val :=
      i1.sub ⟨false, 0, rfl, Nat.zero_le _⟩ (by omega) (hmul _ (by omega))
    obtain ⟨st', s1, s2, s3, x, hx, s4⟩ := rouletteStep_fl hne (hu it) i1.isFin h0.isFin
      (fun x hx => (i2 x hx).isFin)
    refine ⟨st', s1, s2, s3, ?_, fun y hy => i2 y (s2.subset hy), by omega⟩
    rw [s4]
    exact i1.sub (i2 x hx) (by omega) (hmul _ (by omega))
  obtain ⟨es', a, b, c, -⟩ := elimLoop_inv (m := m) (step := fun it st => rouletteStep (ds it).u st)
    (fun it st => Small F (k0 + it) e st.1.val ∧ (∀ x ∈ st.2, Small F 1 e x.2.val) ∧
      it + st.2.length ≤ N) hstep fuel 0 (rMax, es) ⟨by simpa using h1, hw, by simpa using hN⟩ hf
  exact ⟨es', a, b, c⟩

/-! ### getting stuck -/

theorem rouletteErase_nan {es : List (β × Dbl F)} {r : Dbl F} (hr : r.val = .nan) :
    rouletteErase r es = none ∧ (es.foldl (fun r x => r - x.2) r).val = .nan := by
  induction es generalizing r with
  | nil => exact ⟨rfl, hr⟩
  | cons x xs ih =>
    have h : (r - x.2).val = .nan := by rw [Dbl.sub_val, hr]; rfl
    obtain ⟨h1, h2⟩ := ih h
    refine ⟨?_, h2⟩
    simp only [rouletteErase]
    rw [if_neg, h1]; rfl
    rw [Dbl.le_def, h]; simp [Fl.le]

/-- With a NaN sum an iteration changes nothing. -/
theorem rouletteStep_nan {u : Dbl F} {st : Dbl F × List (β × Dbl F)} (h : st.1.val = .nan) :
    rouletteStep u st = .ok st := by
  have hr : ((st.1 - 0) * u + 0 : Dbl F).val = .nan := by
    rw [Dbl.add_val, Dbl.mul_val, Dbl.sub_val, h]; rfl
  obtain ⟨h1, h2⟩ := rouletteErase_nan (es := st.2) hr
  unfold rouletteStep
  simp only [h1]
  rw [if_neg]
  rw [Dbl.lt_def, h2]; simp [Dbl.zero_val, Fl.lt]

theorem rouletteErase_inf {es : List (β × Dbl F)} {r : Dbl F} (hr : r.val = .inf false ∨ r.val = .nan)
    (hw : ∀ x ∈ es, x.2.IsFin ∨ x.2.val = .inf false) :
    rouletteErase r es = none ∧ ((∃ x ∈ es, x.2.val = .inf false) →
      (es.foldl (fun r x => r - x.2) r).val = .nan) := by
  induction es generalizing r with
  | nil => exact ⟨rfl, by simp⟩
  | cons x xs ih =>
    rcases hr with hr | hr
    · have h : ((r - x.2).val = .inf false ∧ x.2.IsFin) ∨ (r - x.2).val = .nan := by
        rcases hw x (by simp) with ⟨s, n, hx⟩ | hx
        · left; exact ⟨by rw [Dbl.sub_val, hr, hx]; rfl, ⟨s, n, hx⟩⟩
        · right; rw [Dbl.sub_val, hr, hx]; rfl
      obtain ⟨h1, h2⟩ := ih (h.imp And.left id) (fun y hy => hw y (by simp [hy]))
      refine ⟨?_, ?_⟩
      · simp only [rouletteErase]
        rw [if_neg, h1]; rfl
        rw [Dbl.le_def]
        rcases h with ⟨h, -⟩ | h <;> rw [h] <;> simp [Fl.le, Dbl.zero_val]
      · rintro ⟨y, hy, hyi⟩
        simp only [List.foldl_cons]
        rcases h with ⟨h, hxf⟩ | h
        · apply h2
          rcases List.mem_cons.1 hy with rfl | hy
          · obtain ⟨s, n, hs⟩ := hxf; rw [hs] at hyi; simp at hyi
          · exact ⟨y, hy, hyi⟩
        · exact (rouletteErase_nan h).2
    · obtain ⟨h1, h2⟩ := rouletteErase_nan (es := x :: xs) hr
      exact ⟨h1, fun _ => h2⟩

/-- With an infinite sum because of an infinite weight an iteration changes nothing. -/
theorem rouletteStep_inf {u : Dbl F} {st : Dbl F × List (β × Dbl F)} (h : st.1.val = .inf false)
    (hu : ∃ n, u.val = .fin false n)
    (hw : ∀ x ∈ st.2, x.2.IsFin ∨ x.2.val = .inf false) (hi : ∃ x ∈ st.2, x.2.val = .inf false) :
    rouletteStep u st = .ok st := by
  obtain ⟨n, hu⟩ := hu
  have hr : ((st.1 - 0) * u + 0 : Dbl F).val = .inf false ∨ ((st.1 - 0) * u + 0 : Dbl F).val = .nan := by
    rw [Dbl.add_val, Dbl.mul_val, Dbl.sub_val, h, hu, Dbl.zero_val]
    simp only [Fl.sub, Fl.neg, Fl.add, Fl.mul]
    by_cases hn : n = 0
    · right; simp [hn, Fl.add]
    · left; simp [hn, Fl.add]
  obtain ⟨h1, h2⟩ := rouletteErase_inf hr hw
  unfold rouletteStep
  simp only [h1]
  rw [if_neg]
  rw [Dbl.lt_def, h2 hi]; simp [Dbl.zero_val, Fl.lt]

/-- A loop whose iterations change nothing never ends. -/
theorem elimLoop_stuck {α : Type} {m : Nat} {step : Nat → α × List (β × α) → Out (α × List (β × α))}
    {st : α × List (β × α)} (hs : ∀ it, step it st = .ok st) (hl : m < st.2.length) (fuel it : Nat) :
    elimLoop m step fuel it st = .timeout := by
  induction fuel generalizing it with
  | zero => simp [elimLoop, hl]
  | succ fuel ih => simp only [elimLoop, hl, if_true, hs it]; exact ih _

/-! ### the new best -/

section best
variable {γ : Type} (o : FitnessOption) (fit : γ → Dbl F)

/-- The fitness as an extended number. -/
def fitExt (g : γ) : WithBot (WithTop ℚ) := extended F (fit g).val

theorem isBetter_fl {a b : Dbl F} (ha : a.val ≠ .nan) (hb : b.val ≠ .nan) :
    isBetter o a b = isBetter o (extended F a.val) (extended F b.val) := by
  have h : ∀ x y : Dbl F, x.val ≠ .nan → y.val ≠ .nan → (x < y ↔ extended F x.val < extended F y.val) := by
    intro x y hx hy
    rw [Dbl.lt_def, fl_lt_iff F]; simp [hx, hy]
  cases o <;> simp [isBetter, h _ _ ha hb, h _ _ hb ha]

theorem findBest_fl {pop : Pop γ} (hn : ∀ c ∈ pop, (fit c.2).val ≠ .nan) :
    findCurrentBestGene o fit pop = findCurrentBestGene o (fitExt fit) pop := by
  cases pop with
  | nil => rfl
  | cons c cs =>
    unfold findCurrentBestGene
    have key : ∀ (l : List (Cell γ)) (g : Cell γ), (∀ x ∈ l, (fit x.2).val ≠ .nan) → (fit g.2).val ≠ .nan →
        l.foldl (fun g it => if geneItCompare o fit it g then it else g) g =
        l.foldl (fun g it => if geneItCompare o (fitExt fit) it g then it else g) g := by
      intro l
      induction l with
      | nil => intros; rfl
      | cons x xs ih =>
        intro g h1 h2
        have hx := h1 x (by simp)
        have e : geneItCompare o fit x g = geneItCompare o (fitExt fit) x g := by
          unfold geneItCompare; exact isBetter_fl o hx h2
        simp only [List.foldl_cons, e]
        apply ih _ (fun y hy => h1 y (by simp [hy]))
        split <;> assumption
    simp only [key _ _ hn (hn c (by simp))]

theorem updateFail_fl {s : SOState γ} {b : Cell γ} {prev : Dbl F} (hb : (fit b.2).val ≠ .nan)
    (hp : prev.val ≠ .nan) :
    updateFail o fit s b prev = updateFail o (fitExt fit) s b (extended F prev.val) := by
  unfold updateFail
  have h : isBetter o (fit b.2) prev = isBetter o (fitExt fit b.2) (extended F prev.val) := isBetter_fl o hb hp
  rw [h]

/-- The common end of the methods on IEEE data without NaN. -/
theorem finish_fl {s : SOState γ} {old : γ} {E : List (Cell γ × Dbl F)} (hd : DistinctNodes s.pop)
    (hn : ∀ c ∈ s.pop, (fit c.2).val ≠ .nan) (hold : deref s.pop s.best = .ok old)
    (hE : (E.map (·.1)).Subperm s.pop) (hlt : E.length < s.pop.length) :
    ∃ s', finish o fit s E (fit old) = .ok s' ∧ SelectSpec o (fitExt fit) s s' ∧
      s'.pop = applyErasement s.pop E ∧ s'.pop.length + E.length = s.pop.length := by
  have hlen := applyErasement_length hd hE
  have hne : applyErasement s.pop E ≠ [] := by
    intro h; rw [h] at hlen; simp at hlen; omega
  have hn' : ∀ c ∈ applyErasement s.pop E, (fit c.2).val ≠ .nan := fun c hc =>
    hn c (List.mem_filter.1 hc).1
  obtain ⟨b, hb⟩ := findBest_exists o (fitExt fit) hne
  have hb' := findBest_fl o fit hn'
  rw [hb] at hb'
  have hold' : (fit old).val ≠ .nan := hn _ (deref_ok hold)
  have hbm := (findBest_ok hb).1
  refine ⟨updateFail o fit { s with pop := applyErasement s.pop E } b (fit old), ?_, ?_, rfl, hlen⟩
  · unfold finish; simp only [hb']; rfl
  · rw [updateFail_fl o fit (hn' b hbm) hold']
    refine selectSpec_of (fit := fitExt fit) (old := old) (distinct_filter hd _) ?_ (findBest_ok hb) hold
    intro c hc
    exact ⟨c, (List.mem_filter.1 hc).1, rfl⟩

theorem keepAll_fl {s : SOState γ} {old : γ} (hd : DistinctNodes s.pop)
    (hn : ∀ c ∈ s.pop, (fit c.2).val ≠ .nan) (hold : deref s.pop s.best = .ok old) :
    ∃ s', keepAll o fit s (fit old) = .ok s' ∧ SelectSpec o (fitExt fit) s s' ∧ s'.pop = s.pop := by
  have hne : s.pop ≠ [] := by
    intro h; have := deref_ok hold; rw [h] at this; simp at this
  obtain ⟨b, hb⟩ := findBest_exists o (fitExt fit) hne
  have hb' := findBest_fl o fit hn
  rw [hb] at hb'
  refine ⟨updateFail o fit s b (fit old), ?_, ?_, rfl⟩
  · unfold keepAll; simp only [hb']; rfl
  · rw [updateFail_fl o fit (hn b (findBest_ok hb).1) (hn _ (deref_ok hold))]
    exact selectSpec_of (fit := fitExt fit) (pop' := s.pop) hd (fun c hc => ⟨c, hc, rfl⟩) (findBest_ok hb) hold

end best

end Heu
