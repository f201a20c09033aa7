import Verif.Model.BoxFl
import Verif.Lemmas.FlErr
import Verif.Props.Box

/-!
# C116: box operations in floating-point arithmetic

The box operations over IEEE data of a format `F` (`binary64` for `double`, `binary32` for `float`): NaN,
infinities, rounding and overflow included.
-/

set_option linter.unusedVariables false
set_option linter.unusedSimpArgs false

namespace Heu
open Spec

variable {F : Fmt}

theorem dbl_le_def (x y : Dbl F) : x ≤ y ↔ x.val.le y.val = true := Iff.rfl
theorem dbl_lt_def (x y : Dbl F) : x < y ↔ x.val.lt y.val = true := Iff.rfl

theorem dbl_le_iff (x y : Dbl F) : x ≤ y ↔
    x.val ≠ .nan ∧ y.val ≠ .nan ∧ extended F x.val ≤ extended F y.val := fl_le_iff F _ _
theorem dbl_lt_iff (x y : Dbl F) : x < y ↔
    x.val ≠ .nan ∧ y.val ≠ .nan ∧ extended F x.val < extended F y.val := fl_lt_iff F _ _

theorem dbl_not_lt {x y : Dbl F} (hx : x.val ≠ .nan) (hy : y.val ≠ .nan) : ¬ x < y ↔ y ≤ x := by
  rw [dbl_lt_iff, dbl_le_iff]
  constructor
  · intro h
    exact ⟨hy, hx, not_lt.1 fun h' => h ⟨hx, hy, h'⟩⟩
  · rintro ⟨-, -, h⟩ ⟨-, -, h'⟩
    exact absurd h' (not_lt.2 h)

theorem dbl_le_trans {x y z : Dbl F} (h : x ≤ y) (h' : y ≤ z) : x ≤ z := by
  rw [dbl_le_iff] at *
  exact ⟨h.1, h'.2.1, h.2.2.trans h'.2.2⟩

theorem dbl_lt_le {x y : Dbl F} (h : x < y) : x ≤ y := by
  rw [dbl_lt_iff] at h
  rw [dbl_le_iff]
  exact ⟨h.1, h.2.1, h.2.2.le⟩

/-- Confining NaN gives NaN. -/
theorem clamp_nan (mn mx x : Dbl F) (h : x.val = .nan) : clampTo mn mx x = x := by
  have h1 : ¬ mx < x := by rw [dbl_lt_iff]; exact fun hh => hh.2.1 h
  have h2 : ¬ x < mn := by rw [dbl_lt_iff]; exact fun hh => hh.1 h
  unfold clampTo stdMax stdMin
  simp [h1, h2]

/-- Confining anything else: `x` itself if it is in the range, otherwise the bound it exceeds. -/
theorem clamp_cases (mn mx x : Dbl F) (hb : mn ≤ mx) (h : x.val ≠ .nan) :
    (mn ≤ x ∧ x ≤ mx ∧ clampTo mn mx x = x) ∨ (mx < x ∧ clampTo mn mx x = mx) ∨
      (x < mn ∧ clampTo mn mx x = mn) := by
  have hb' := (dbl_le_iff _ _).1 hb
  by_cases h1 : mx < x
  · refine .inr (.inl ⟨h1, ?_⟩)
    have h2 : ¬ mx < mn := (dbl_not_lt hb'.2.1 hb'.1).2 hb
    unfold clampTo stdMax stdMin
    simp [h1, h2]
  · by_cases h2 : x < mn
    · refine .inr (.inr ⟨h2, ?_⟩)
      unfold clampTo stdMax stdMin
      simp [h1, h2]
    · refine .inl ⟨(dbl_not_lt h hb'.1).1 h2, (dbl_not_lt hb'.2.1 h).1 h1, ?_⟩
      unfold clampTo stdMax stdMin
      simp [h1, h2]

theorem clamp_mem (mn mx x : Dbl F) (hb : mn ≤ mx) (h : x.val ≠ .nan) :
    mn ≤ clampTo mn mx x ∧ clampTo mn mx x ≤ mx := by
  have hb' := (dbl_le_iff _ _).1 hb
  have r1 : mn ≤ mn := (dbl_le_iff _ _).2 ⟨hb'.1, hb'.1, le_rfl⟩
  have r2 : mx ≤ mx := (dbl_le_iff _ _).2 ⟨hb'.2.1, hb'.2.1, le_rfl⟩
  rcases clamp_cases mn mx x hb h with ⟨h1, h2, h3⟩ | ⟨h1, h3⟩ | ⟨h1, h3⟩ <;> rw [h3]
  exacts [⟨h1, h2⟩, ⟨hb, r2⟩, ⟨r1, hb⟩]

/-! ## applyConstraint -/

/-- **C116** (`applyConstraint`).  For a box whose bounds are numbers (possibly infinite) with `min ≤ max`,
`applyConstraint` succeeds on every point of the right dimension.  Entry by entry: NaN stays NaN, a value in
its range stays, a value above becomes the upper bound, a value below the lower bound. -/
theorem applyConstraint_ieee (b : Box (Dbl F)) (hb : NonEmptyBox b) (v : List (Dbl F))
    (hv : v.length = b.dim) :
    ∃ w, applyConstraint b v = .ok w ∧ w.length = v.length ∧
      ∀ i, ∀ h : i < v.length, ∀ h' : i < w.length,
        (v[i].val = .nan → w[i] = v[i]) ∧
        (b.min i ≤ v[i] → v[i] ≤ b.max i → w[i] = v[i]) ∧
        (b.max i < v[i] → w[i] = b.max i) ∧ (v[i] < b.min i → w[i] = b.min i) := by
  refine ⟨_, if_pos hv, by simp, ?_⟩
  intro i h h'
  have hbi := hb i (by omega)
  simp only [List.getElem_mapIdx]
  refine ⟨clamp_nan _ _ _, ?_, ?_, ?_⟩
  · intro h1 h2
    have hn : v[i].val ≠ .nan := ((dbl_le_iff _ _).1 h1).2.1
    rcases clamp_cases _ _ _ hbi hn with ⟨-, -, h3⟩ | ⟨h3, -⟩ | ⟨h3, -⟩
    · exact h3
    · exact absurd h3 ((dbl_not_lt ((dbl_le_iff _ _).1 h2).2.1 hn).2 h2)
    · exact absurd h3 ((dbl_not_lt hn ((dbl_le_iff _ _).1 h1).1).2 h1)
  · intro h1
    have hn : v[i].val ≠ .nan := ((dbl_lt_iff _ _).1 h1).2.1
    rcases clamp_cases _ _ _ hbi hn with ⟨-, h2, -⟩ | ⟨-, h3⟩ | ⟨h2, -⟩
    · exact absurd h1 ((dbl_not_lt ((dbl_lt_iff _ _).1 h1).1 hn).2 h2)
    · exact h3
    · have := dbl_le_trans (dbl_lt_le h2) hbi
      exact absurd h1 ((dbl_not_lt ((dbl_lt_iff _ _).1 h1).1 hn).2 this)
  · intro h1
    have hn : v[i].val ≠ .nan := ((dbl_lt_iff _ _).1 h1).1
    rcases clamp_cases _ _ _ hbi hn with ⟨h2, -, -⟩ | ⟨h2, -⟩ | ⟨-, h3⟩
    · exact absurd h1 ((dbl_not_lt hn ((dbl_le_iff _ _).1 h2).1).2 h2)
    · have := dbl_le_trans hbi (dbl_lt_le h2)
      exact absurd h1 ((dbl_not_lt hn ((dbl_le_iff _ _).1 this).1).2 this)
    · exact h3

/-- **C116**: the result is in the box exactly if no entry is NaN. -/
theorem applyConstraint_ieee_in_box (b : Box (Dbl F)) (hb : NonEmptyBox b) (v w : List (Dbl F))
    (h : applyConstraint b v = .ok w) : InBox b w ↔ ∀ x ∈ v, x.val ≠ .nan := by
  unfold applyConstraint at h
  split at h
  · rename_i hl
    cases h
    constructor
    · rintro ⟨-, h⟩ x hx hn
      obtain ⟨i, hi, rfl⟩ := List.mem_iff_getElem.1 hx
      have := (h i (by simpa using hi)).1
      simp only [List.getElem_mapIdx, clamp_nan _ _ _ hn] at this
      exact ((dbl_le_iff _ _).1 this).2.1 hn
    · intro h
      refine ⟨by simpa using hl, ?_⟩
      intro i hi
      simp only [List.length_mapIdx] at hi
      simp only [List.getElem_mapIdx]
      exact clamp_mem _ _ _ (hb i (by omega)) (h _ (List.getElem_mem _))
  · cases h

/-- **C116**: confining twice changes nothing more. -/
theorem applyConstraint_ieee_idempotent (b : Box (Dbl F)) (hb : NonEmptyBox b) (v w : List (Dbl F))
    (h : applyConstraint b v = .ok w) : applyConstraint b w = .ok w := by
  unfold applyConstraint at h ⊢
  split at h
  · rename_i hl
    cases h
    rw [if_pos (by simpa using hl)]
    congr 1
    apply List.ext_getElem
    · simp
    · intro i h1 h2
      simp only [List.getElem_mapIdx]
      simp only [List.length_mapIdx] at h1
      have hbi := hb i (by omega)
      by_cases hn : v[i].val = .nan
      · rw [clamp_nan _ _ _ hn, clamp_nan _ _ _ hn]
      · obtain ⟨m1, m2⟩ := clamp_mem _ _ _ hbi hn
        have hn' := ((dbl_le_iff _ _).1 m1).2.1
        rcases clamp_cases _ _ _ hbi hn' with ⟨-, -, h3⟩ | ⟨h3, -⟩ | ⟨h3, -⟩
        · exact h3
        · exact absurd h3 ((dbl_not_lt ((dbl_le_iff _ _).1 m2).2.1 hn').2 m2)
        · exact absurd h3 ((dbl_not_lt hn' ((dbl_le_iff _ _).1 m1).1).2 m1)
  · cases h

/-- `k / 2` as a `double`, for examples. -/
def half (k : Nat) : Dbl binary64 := Dbl.nat binary64 k / Dbl.nat binary64 2

/-- An example box: `[0, 3/2] × [-∞, 2]`. -/
def confineBoxFl : Box (Dbl binary64) :=
  ⟨2, fun i => if i = 0 then 0 else ⟨.inf true⟩, fun i => if i = 0 then half 3 else half 4⟩

theorem confineBoxFl_nonEmpty : NonEmptyBox confineBoxFl := by
  have : ∀ i, i < 2 → confineBoxFl.min i ≤ confineBoxFl.max i := by decide +kernel
  exact this

example : applyConstraint confineBoxFl [half 7, ⟨.inf true⟩] = .ok [half 3, ⟨.inf true⟩] := by decide +kernel
example : applyConstraint confineBoxFl [⟨.nan⟩, ⟨.inf false⟩] = .ok [⟨.nan⟩, half 4] := by decide +kernel

/-! ## applyDelta -/

theorem finite_not_nan {x : Fl} (h : x.Finite F) : x ≠ .nan := by
  obtain ⟨s, n, rfl, -⟩ := h
  simp

theorem fl_mul_not_nan (x y : Fl) (hx : x.Finite F) (hy : y.Finite F) : x.mul F y ≠ .nan := by
  obtain ⟨s, n, rfl, -⟩ := hx
  obtain ⟨t, m, rfl, -⟩ := hy
  simp only [Fl.mul, mk_eq]
  split <;> simp

theorem fl_add_not_nan (x y : Fl) (hx : x.Finite F) (hy : y ≠ .nan) : x.add F y ≠ .nan := by
  obtain ⟨s, n, rfl, -⟩ := hx
  cases y with
  | nan => simp at hy
  | inf t => simp [Fl.add]
  | fin t m =>
    simp only [Fl.add]
    split
    · simp
    · rw [mk_eq]; split <;> simp

/-- Changing one coordinate of a point of the box to a value in its range stays in the box. -/
theorem set_in_box_fl (b : Box (Dbl F)) (v : List (Dbl F)) (hv : InBox b v) (idx : Nat) (y : Dbl F)
    (hy : b.min idx ≤ y ∧ y ≤ b.max idx) : InBox b (v.set idx y) := by
  refine ⟨by simpa using hv.1, ?_⟩
  intro i hi
  simp only [List.length_set] at hi
  rw [List.getElem_set]
  split
  · rename_i h; subst h; exact hy
  · exact hv.2 i hi

theorem sameExcept_set_fl (v : List (Dbl F)) (idx : Nat) (y : Dbl F) : SameExcept v (v.set idx y) idx := by
  refine ⟨by simp, ?_⟩
  intro i hi
  rw [List.getElem?_set_ne (by omega)]

/-- `0 ≤ y ≤ δ` for a finite product `|r| · δ` with `|r| ≤ 1`, whichever the signs. -/
theorem fl_mul_between (hF : F.Good) (r d : Fl) (hr : r.Finite F) (hd : d.Finite F)
    (hr1 : |Fl.number F r| ≤ 1) (hd0 : 0 ≤ Fl.number F d) :
    (d.neg).le (r.mul F d) = true ∧ (r.mul F d).le d = true := by
  obtain ⟨s, n, rfl, hn, hnt⟩ := hr
  obtain ⟨t, m, rfl, hm, hmt⟩ := hd
  have h2 : (0 : ℚ) < 2 ^ F.one := by positivity
  have hn1 : n ≤ 2 ^ F.one := by
    rw [number_abs, abs_mul] at hr1
    have : |(if s then (-1 : ℚ) else 1)| = 1 := by cases s <;> simp
    rw [this, one_mul, abs_of_nonneg (by positivity), div_le_one h2] at hr1
    exact_mod_cast hr1
  have htm : t = false ∨ m = 0 := by
    cases t with
    | false => simp
    | true =>
      right
      rw [number_abs] at hd0
      have h3 : (m : ℚ) / 2 ^ F.one ≤ 0 := by simpa using hd0
      by_contra hm0
      have : (0 : ℚ) < (m : ℚ) / 2 ^ F.one := by
        apply div_pos _ h2
        exact_mod_cast Nat.pos_of_ne_zero hm0
      linarith
  have hle : rndUnits F.mb (n * m) (2 ^ F.one) ≤ m := by
    refine rndUnits_le F.mb _ _ (by positivity) hm ?_
    rw [Nat.mul_comm m]
    exact Nat.mul_le_mul_right m hn1
  simp only [Fl.mul, mk_eq, if_pos (lt_of_le_of_lt hle hmt), Fl.neg, Fl.le, decide_eq_true_eq]
  generalize rndUnits F.mb (n * m) (2 ^ F.one) = k at hle
  rcases htm with rfl | rfl
  · cases s <;> simp [Fl.units] <;> omega
  · have : k = 0 := by omega
    subst this
    cases s <;> cases t <;> simp [Fl.units]

/-- `x ≤ x + δ` and `x - δ ≤ x`, rounded, for `δ ≥ 0`. -/
theorem fl_le_add (hF : F.Good) (x d : Fl) (hx : x.Finite F) (hd : d.Finite F) (hd0 : 0 ≤ Fl.number F d) :
    x.le (x.add F d) = true ∧ (x.sub F d).le x = true := by
  obtain ⟨t, m, rfl, hm, hmt⟩ := hd
  have h0 : (Fl.fin false 0).le (.fin t m) = true := by
    simp only [Fl.le, decide_eq_true_eq, Fl.units]
    rw [number_fin] at hd0
    have h2 : (0 : ℚ) < 2 ^ F.one := by positivity
    have : (0 : ℚ) ≤ (Fl.units t m : ℚ) := by
      by_contra hc
      rw [not_le] at hc
      have := div_neg_of_neg_of_pos hc h2
      linarith
    have : (0 : Int) ≤ Fl.units t m := by exact_mod_cast this
    unfold Fl.units at this
    simpa using this
  have h0' : ((Fl.fin t m).neg).le (.fin false 0) = true := by
    cases t <;> simp_all [Fl.le, Fl.units, Fl.neg]
  have hxz : (x.le (x.add F (.fin false 0)) = true) ∧ ((x.add F (.fin false 0)).le x = true) := by
    obtain ⟨s, n, rfl, hn, hnt⟩ := hx
    simp only [Fl.add, Fl.units]
    by_cases hn0 : n = 0
    · subst hn0
      cases s <;> simp [Fl.le, Fl.units]
    · have hr : rndUnits F.mb n 1 = n := rndUnits_rep1 hn
      cases s with
      | false =>
        have h1 : ((n : Int) + 0).natAbs = n := by omega
        have h2 : ¬ ((n : Int) < 0) := by omega
        simp [h2, hn0, hr, mk_eq, hnt, Fl.le, Fl.units]
      | true =>
        have h1 : (-(n : Int) + 0).natAbs = n := by omega
        have h2 : (-(n : Int) + 0 < 0) := by omega
        have h3 : 0 < n := by omega
        simp [hn0, hr, mk_eq, hnt, Fl.le, Fl.units, h3]
  have hex : ∃ s n, x = .fin s n := by obtain ⟨s, n, rfl, -⟩ := hx; exact ⟨s, n, rfl⟩
  have tr : ∀ a b c : Fl, a.le b = true → b.le c = true → a.le c = true := by
    intro a b c hab hbc
    rw [fl_le_iff F] at *
    exact ⟨hab.1, hbc.2.1, hab.2.2.trans hbc.2.2⟩
  exact ⟨tr _ _ _ hxz.1 (fl_add_mono F x _ _ hex h0), tr _ _ _ (fl_add_mono F x _ _ hex h0') hxz.2⟩

/-- **C116** (`ContinousBox::applyDelta`).  From a point of the box, with finite entry, draw and step width:
the result is in the box (a sum that overflows is confined too), and only the drawn coordinate changes.  If
the draw is in `[-1,1]` and the step width is not negative, the new coordinate is between the rounded
`x - delta` and the rounded `x + delta`. -/
theorem applyDeltaCont_ieee (hF : F.Good) (b : Box (Dbl F)) (delta : Nat → Dbl F) (v : List (Dbl F))
    (hv : InBox b v) (idx : Nat) (hi : idx < v.length) (r : Dbl F) (hx : v[idx].val.Finite F)
    (hr : r.val.Finite F) (hd : (delta idx).val.Finite F) :
    ∃ w, applyDeltaContFl F b delta v idx r = .ok w ∧ InBox b w ∧ SameExcept v w idx ∧
      (∀ h : idx < w.length, |Fl.number F r.val| ≤ 1 → 0 ≤ Fl.number F (delta idx).val →
        v[idx] - delta idx ≤ w[idx] ∧ w[idx] ≤ v[idx] + delta idx) ∧
      (∀ h : idx < w.length, b.min idx ≤ v[idx] + r * delta idx → v[idx] + r * delta idx ≤ b.max idx →
        w[idx] = v[idx] + r * delta idx) := by
  obtain ⟨hmn, hmx⟩ := hv.2 idx hi
  have hbi := dbl_le_trans hmn hmx
  have hnan : (v[idx] + r * delta idx).val ≠ .nan :=
    fl_add_not_nan _ _ hx (fl_mul_not_nan _ _ hr hd)
  refine ⟨v.set idx (clampTo (b.min idx) (b.max idx) (v[idx] + r * delta idx)), ?_,
    set_in_box_fl b v hv idx _ (clamp_mem _ _ _ hbi hnan), sameExcept_set_fl _ _ _, ?_, ?_⟩
  · unfold applyDeltaContFl
    rw [if_pos hv.1, List.getElem?_eq_getElem hi]
  · intro h hr1 hd0
    rw [List.getElem_set_self]
    obtain ⟨m1, m2⟩ := fl_mul_between hF r.val (delta idx).val hr hd hr1 hd0
    obtain ⟨a1, a2⟩ := fl_le_add hF v[idx].val (delta idx).val hx hd hd0
    have hex : ∃ s n, v[idx].val = .fin s n := by obtain ⟨s, n, h, -⟩ := hx; exact ⟨s, n, h⟩
    have lo : v[idx] - delta idx ≤ v[idx] + r * delta idx := fl_add_mono F _ _ _ hex m1
    have hi' : v[idx] + r * delta idx ≤ v[idx] + delta idx := fl_add_mono F _ _ _ hex m2
    have a1' : v[idx] ≤ v[idx] + delta idx := a1
    have a2' : v[idx] - delta idx ≤ v[idx] := a2
    rcases clamp_cases _ _ _ hbi hnan with ⟨-, -, h3⟩ | ⟨h1, h3⟩ | ⟨h1, h3⟩ <;> rw [h3]
    · exact ⟨lo, hi'⟩
    · exact ⟨dbl_le_trans a2' hmx, dbl_le_trans (dbl_lt_le h1) hi'⟩
    · exact ⟨dbl_le_trans lo (dbl_lt_le h1), dbl_le_trans hmn a1'⟩
  · intro h h1 h2
    rw [List.getElem_set_self]
    rcases clamp_cases _ _ _ hbi hnan with ⟨-, -, h3⟩ | ⟨h3, -⟩ | ⟨h3, -⟩
    · exact h3
    · exact absurd h3 ((dbl_not_lt ((dbl_le_iff _ _).1 h2).2.1 hnan).2 h2)
    · exact absurd h3 ((dbl_not_lt hnan ((dbl_le_iff _ _).1 h1).1).2 h1)

/-- `3·2^-54`, and the successor of 1, as `double`s. -/
def tinyStep : Dbl binary64 := ⟨.fin false (3 * 2 ^ 1020)⟩
/-- see `tinyStep` -/
def oneUp : Dbl binary64 := ⟨.fin false (2 ^ 1074 + 2 ^ 1022)⟩

theorem number_tiny (k : Nat) (x : Dbl binary64) (n : Nat) (hx : x.val = .fin false n)
    (h : n = k * 2 ^ 1020) : Fl.number binary64 x.val = (k : ℚ) / 2 ^ 54 := by
  rw [hx, number_abs, show binary64.one = 1020 + 54 from rfl, h, pow_add]
  have h0 : (0 : ℚ) < 2 ^ 1020 := by positivity
  rw [Nat.cast_mul, Nat.cast_pow, Nat.cast_ofNat]
  generalize (2 : ℚ) ^ 1020 = z at h0 ⊢
  have : z ≠ 0 := h0.ne'
  simp only [Bool.false_eq_true, if_false, one_mul]
  rw [mul_comm z, mul_div_mul_right _ _ this]

/-- **C116**: in double arithmetic a single step can be longer than `delta`: the distance from 1 to the
new coordinate is `2^-52`, the step width is `3·2^-54`. -/
theorem applyDeltaCont_longer_than_delta :
    applyDeltaContFl binary64 ⟨1, fun _ => 0, fun _ => Dbl.nat binary64 5⟩ (fun _ => tinyStep)
        [Dbl.nat binary64 1] 0 (Dbl.nat binary64 1) = .ok [oneUp] ∧
      Fl.number binary64 tinyStep.val <
        Fl.number binary64 oneUp.val - Fl.number binary64 (Dbl.nat binary64 1).val := by
  refine ⟨by decide +kernel, ?_⟩
  rw [number_tiny 3 tinyStep _ rfl rfl, number_tiny (2 ^ 54 + 4) oneUp _ rfl (by decide +kernel),
    number_tiny (2 ^ 54) (Dbl.nat binary64 1) _ rfl (by decide +kernel)]
  norm_num

/-- **C116** (`DiscretBox` over a floating-point scalar): the unit step stays in the box. -/
theorem applyDeltaUnit_ieee (hF : F.Good) (b : Box (Dbl F)) (v : List (Dbl F))
    (hv : InBox b v) (idx : Nat) (hi : idx < v.length) (up : Bool) (hx : v[idx].val.Finite F) :
    ∃ w, applyDeltaUnitFl F b v idx up = .ok w ∧ InBox b w ∧ SameExcept v w idx ∧
      ∀ h : idx < w.length, v[idx] - Dbl.nat F 1 ≤ w[idx] ∧ w[idx] ≤ v[idx] + Dbl.nat F 1 ∧
        (up = true → v[idx] ≤ w[idx]) ∧ (up = false → w[idx] ≤ v[idx]) := by
  obtain ⟨hmn, hmx⟩ := hv.2 idx hi
  have hbi := dbl_le_trans hmn hmx
  have h1f : (Dbl.nat F 1).val.Finite F := by
    refine ⟨false, 1 * 2 ^ F.one, rfl, ⟨1, F.one, ?_, by simp⟩, ?_⟩
    · exact Nat.one_lt_two_pow (by omega)
    · rw [one_mul]
      apply Nat.pow_lt_pow_right (by norm_num)
      have := hF.top_eq; have := hF.one_eq; have := hF.wide
      omega
  have h10 : 0 ≤ Fl.number F (Dbl.nat F 1).val := by
    show 0 ≤ Fl.number F (.fin false (1 * 2 ^ F.one))
    rw [number_abs]; simp
  have hs : ((if up then Dbl.nat F 1 else -Dbl.nat F 1) : Dbl F).val ≠ .nan := by
    cases up
    · exact finite_not_nan (F := F) ⟨true, 1 * 2 ^ F.one, rfl, by
        obtain ⟨s, n, h, h', h''⟩ := h1f
        cases h; exact ⟨h', h''⟩⟩
    · exact finite_not_nan h1f
  obtain ⟨y, hy⟩ : ∃ y, y = v[idx] + (if up then Dbl.nat F 1 else -Dbl.nat F 1) := ⟨_, rfl⟩
  have hnan : y.val ≠ .nan := by rw [hy]; exact fl_add_not_nan _ _ hx hs
  refine ⟨v.set idx (clampTo (b.min idx) (b.max idx) y), ?_,
    set_in_box_fl b v hv idx _ (clamp_mem _ _ _ hbi hnan), sameExcept_set_fl _ _ _, ?_⟩
  · unfold applyDeltaUnitFl
    rw [if_pos hv.1, List.getElem?_eq_getElem hi, hy]
  · intro h
    rw [List.getElem_set_self]
    obtain ⟨a1, a2⟩ := fl_le_add hF v[idx].val (Dbl.nat F 1).val hx h1f h10
    have a1' : v[idx] ≤ v[idx] + Dbl.nat F 1 := a1
    have a2' : v[idx] - Dbl.nat F 1 ≤ v[idx] := a2
    have hxx : v[idx] ≤ v[idx] := (dbl_le_iff _ _).2 ⟨finite_not_nan hx, finite_not_nan hx, le_rfl⟩
    have hyy : ∀ z : Dbl F, z.val ≠ .nan → z ≤ z := fun z hz => (dbl_le_iff _ _).2 ⟨hz, hz, le_rfl⟩
    have lo : v[idx] - Dbl.nat F 1 ≤ y ∧ y ≤ v[idx] + Dbl.nat F 1 ∧ (up = true → v[idx] ≤ y) ∧
        (up = false → y ≤ v[idx]) := by
      cases up with
      | true =>
        have : y = v[idx] + Dbl.nat F 1 := hy
        rw [this] at hnan ⊢
        exact ⟨dbl_le_trans a2' a1', hyy _ hnan, fun _ => a1', by simp⟩
      | false =>
        have : y = v[idx] - Dbl.nat F 1 := hy
        rw [this] at hnan ⊢
        exact ⟨hyy _ hnan, dbl_le_trans a2' a1', by simp, fun _ => a2'⟩
    obtain ⟨l1, l2, l3, l4⟩ := lo
    rcases clamp_cases _ _ _ hbi hnan with ⟨-, -, h3⟩ | ⟨h1, h3⟩ | ⟨h1, h3⟩ <;> rw [h3]
    · exact ⟨l1, l2, l3, l4⟩
    · exact ⟨dbl_le_trans a2' hmx, dbl_le_trans (dbl_lt_le h1) l2, fun _ => hmx,
        fun hu => dbl_le_trans (dbl_lt_le h1) (l4 hu)⟩
    · exact ⟨dbl_le_trans l1 (dbl_lt_le h1), dbl_le_trans hmn a1',
        fun hu => dbl_le_trans (l3 hu) (dbl_lt_le h1), fun _ => hmn⟩

example : applyDeltaUnitFl binary64 ⟨2, fun _ => 0, fun _ => half 3⟩ [half 1, half 2] 1 true =
    .ok [half 1, half 3] := by decide +kernel
example : applyDeltaContFl binary64 confineBoxFl (fun _ => half 1) [half 2, half 3] 1 (half 1) =
    .ok [half 2, Dbl.nat binary64 7 / Dbl.nat binary64 4] := by decide +kernel

/-! ## The default crossover -/

theorem flEps_small (hF : F.Good) : 0 < flEps F ∧ flEps F ≤ 1 / 8 := by
  unfold flEps
  refine ⟨by positivity, ?_⟩
  have h : (2 : ℚ) ^ 3 ≤ 2 ^ (F.mb + 1) := pow_le_pow_right₀ (by norm_num) (by have := hF.mb9; omega)
  exact one_div_le_one_div_of_le (by norm_num) (by linarith)

theorem flEta_small (hF : F.Good) : 0 < flEta F ∧ flEta F ≤ flEps F / 8 := by
  unfold flEta flEps
  refine ⟨by positivity, ?_⟩
  have h : (2 : ℚ) ^ (F.mb + 1 + 3) ≤ 2 ^ (F.one + 1) :=
    pow_le_pow_right₀ (by norm_num) (by have := hF.one_eq; have := hF.mb9; have := hF.wide; omega)
  rw [div_div]
  refine one_div_le_one_div_of_le (by positivity) ?_
  rw [pow_add _ (F.mb + 1) 3] at h
  linarith

/-- The numbers of a finite datum and of the same units. -/
theorem number_abs_le (s : Bool) (n m : Nat) (h : n ≤ m) :
    |Fl.number F (.fin s n)| ≤ (m : ℚ) / 2 ^ F.one := by
  rw [number_abs, abs_mul]
  have : |(if s then (-1 : ℚ) else 1)| = 1 := by cases s <;> simp
  rw [this, one_mul, abs_of_nonneg (by positivity)]
  exact div_le_div_of_nonneg_right (by exact_mod_cast h) (by positivity)

theorem number_abs_eq (s : Bool) (n : Nat) : |Fl.number F (.fin s n)| = (n : ℚ) / 2 ^ F.one := by
  rw [number_abs, abs_mul]
  have : |(if s then (-1 : ℚ) else 1)| = 1 := by cases s <;> simp
  rw [this, one_mul, abs_of_nonneg (by positivity)]

/-- A product with a factor of absolute value at most 1 does not grow (nor overflow). -/
theorem fl_mul_shrink (n m : Nat) (s t : Bool) (hm : Rep F.mb m) (hmt : m < 2 ^ F.top)
    (hn : n ≤ 2 ^ F.one) :
    ∃ k, Fl.mul F (.fin s n) (.fin t m) = .fin (xor s t) k ∧ k ≤ m := by
  have hle : rndUnits F.mb (n * m) (2 ^ F.one) ≤ m := by
    refine rndUnits_le F.mb _ _ (by positivity) hm ?_
    rw [Nat.mul_comm m]
    exact Nat.mul_le_mul_right m hn
  exact ⟨_, by simp only [Fl.mul, mk_eq, if_pos (lt_of_le_of_lt hle hmt)], hle⟩

/-- `1 - r` rounded, for `0 < r < 1`: between 0 and 1, with a small error. -/
theorem one_minus (hF : F.Good) (n : Nat) (hn : n < 2 ^ F.one) :
    ∃ k, Fl.sub F (Fl.ofNat F 1) (.fin false n) = .fin false k ∧ k ≤ 2 ^ F.one ∧
      |Fl.number F (.fin false k) - (1 - Fl.number F (.fin false n))| ≤
        flEps F * (1 - Fl.number F (.fin false n)) + flEta F := by
  have h2 : (0 : ℚ) < 2 ^ F.one := by positivity
  have hle : rndUnits F.mb (2 ^ F.one - n) 1 ≤ 2 ^ F.one := by
    refine rndUnits_le F.mb _ _ one_pos ⟨1, F.one, Nat.one_lt_two_pow (by omega), by simp⟩ (by omega)
  have htop : 2 ^ F.one < 2 ^ F.top := by
    apply Nat.pow_lt_pow_right (by norm_num)
    have := hF.top_eq; have := hF.one_eq; have := hF.wide
    omega
  have hz : Fl.units false (1 * 2 ^ F.one) + Fl.units true n = ((2 ^ F.one - n : Nat) : Int) := by
    simp only [Fl.units]; push_cast [Nat.cast_sub hn.le]; simp; ring
  have heq : Fl.sub F (Fl.ofNat F 1) (.fin false n) = .fin false (rndUnits F.mb (2 ^ F.one - n) 1) := by
    simp only [Fl.sub, Fl.ofNat, Fl.neg, Fl.add, Bool.not_false]
    rw [hz, if_neg (by omega)]
    have h1 : ¬ (((2 ^ F.one - n : Nat) : Int) < 0) := by omega
    rw [Int.natAbs_natCast, mk_eq, if_pos (by omega)]
    simp [h1]
  refine ⟨_, heq, hle, ?_⟩
  have hone : Fl.number F (.fin false (1 * 2 ^ F.one)) = 1 := by
    rw [number_abs]; push_cast; simp
  have hneg : Fl.number F (.fin true n) = - Fl.number F (.fin false n) := by
    rw [number_abs, number_abs]; simp
  have herr := fl_add_error F false true (1 * 2 ^ F.one) n _ _ heq
  rw [hone, hneg, ← sub_eq_add_neg] at herr
  have hpos : 0 ≤ 1 - Fl.number F (.fin false n) := by
    rw [number_abs]
    have : (n : ℚ) / 2 ^ F.one ≤ 1 := by
      rw [div_le_one h2]; exact_mod_cast hn.le
    simp; linarith
  rwa [abs_of_nonneg hpos] at herr

/-- One entry of the child: finite if the parents are below half the largest number, and close to the
combination of the parents. -/
theorem child_error (hF : F.Good) (r a b : Fl) (hr : r.Finite F) (ha : a.Finite F) (hb : b.Finite F)
    (hr0 : 0 < Fl.number F r) (hr1 : Fl.number F r < 1) (M : ℚ) (hMa : |Fl.number F a| ≤ M)
    (hMb : |Fl.number F b| ≤ M) (hM : M * 2 ^ F.one < 2 ^ (F.top - 1)) :
    (∃ s n, cFunNdEntryFl F r a b = .fin s n) ∧
    |Fl.number F (cFunNdEntryFl F r a b) -
        (Fl.number F r * Fl.number F a + (1 - Fl.number F r) * Fl.number F b)| ≤
      4 * flEps F * M + 4 * flEta F := by
  obtain ⟨sr, nr, rfl, hnr, hnrt⟩ := hr
  obtain ⟨sa, na, rfl, hna, hnat⟩ := ha
  obtain ⟨sb, nb, rfl, hnb, hnbt⟩ := hb
  have h2 : (0 : ℚ) < 2 ^ F.one := by positivity
  have hsr : sr = false := by
    cases sr with
    | false => rfl
    | true =>
      rw [number_abs] at hr0
      have : (0 : ℚ) ≤ (nr : ℚ) / 2 ^ F.one := by positivity
      simp at hr0; linarith
  subst hsr
  have hnr1 : nr < 2 ^ F.one := by
    rw [number_abs] at hr1
    simp only [Bool.false_eq_true, if_false, one_mul, div_lt_one h2] at hr1
    exact_mod_cast hr1
  obtain ⟨ks, hks, hks1, hserr⟩ := one_minus hF nr hnr1
  obtain ⟨kp, hkp, hkp1⟩ := fl_mul_shrink nr na false sa hna hnat hnr1.le
  obtain ⟨kq, hkq, hkq1⟩ := fl_mul_shrink ks nb false sb hnb hnbt hks1
  have hP := fl_mul_error F false sa nr na _ _ hkp
  have hQ := fl_mul_error F false sb ks nb _ _ hkq
  rw [number_abs_eq] at hMa hMb
  have hunit : ∀ k : Nat, (k : ℚ) / 2 ^ F.one ≤ M → k < 2 ^ (F.top - 1) := by
    intro k hk
    rw [div_le_iff₀ h2] at hk
    exact_mod_cast lt_of_le_of_lt hk hM
  have hna2 := hunit na hMa
  have hnb2 := hunit nb hMb
  have htop : 2 ^ F.top = 2 * 2 ^ (F.top - 1) := by
    rw [← pow_succ']
    congr 1
    have := hF.top_eq; have := hF.mb9; omega
  -- the sum is finite
  obtain ⟨mx, hmx⟩ : ∃ mx, mx = max na nb := ⟨_, rfl⟩
  have hRep : Rep F.mb (2 * mx) := by
    have : Rep F.mb mx := by
      rw [hmx]; rcases max_choice na nb with h | h <;> rw [h] <;> assumption
    obtain ⟨m, k, hm, rfl⟩ := this
    exact ⟨m, k + 1, hm, by rw [pow_succ]; ring⟩
  have hmx1 : mx < 2 ^ (F.top - 1) := by rw [hmx]; exact max_lt hna2 hnb2
  have hkpm : kp ≤ mx := hkp1.trans (hmx ▸ le_max_left _ _)
  have hkqm : kq ≤ mx := hkq1.trans (hmx ▸ le_max_right _ _)
  have hus : ∀ (s : Bool) (k : Nat), k ≤ mx → -(mx : Int) ≤ Fl.units s k ∧ Fl.units s k ≤ mx := by
    intro s k hk; cases s <;> simp [Fl.units] <;> omega
  obtain ⟨u, k, hsum, -, -, -, -⟩ := add_between (F := F) (s1 := xor false sa) (s2 := xor false sb)
    (n1 := kp) (n2 := kq) (sl := true) (su := false) (nl := 2 * mx) (nu := 2 * mx) hRep hRep
    (by omega) (by omega)
    (by have := hus (xor false sa) kp hkpm; have := hus (xor false sb) kq hkqm; simp only [Fl.units] at *
        push_cast; split_ifs at * <;> omega)
    (by have := hus (xor false sa) kp hkpm; have := hus (xor false sb) kq hkqm; simp only [Fl.units] at *
        push_cast; split_ifs at * <;> omega)
  have hent : cFunNdEntryFl F (.fin false nr) (.fin sa na) (.fin sb nb) = .fin u k := by
    unfold cFunNdEntryFl
    rw [hkp, hks, hkq, hsum]
  refine ⟨⟨u, k, hent⟩, ?_⟩
  rw [hent]
  have hS := fl_add_error F _ _ _ _ _ _ hsum
  -- now plain arithmetic
  rw [← number_abs_eq (F := F) sa] at hMa
  rw [← number_abs_eq (F := F) sb] at hMb
  have hs0 : 0 ≤ Fl.number F (.fin false ks) := by rw [number_abs]; simp; positivity
  have hs1 : Fl.number F (.fin false ks) ≤ 1 := by
    rw [number_abs]; simp only [Bool.false_eq_true, if_false, one_mul]
    rw [div_le_one h2]; exact_mod_cast hks1
  obtain ⟨e0, e8⟩ := flEps_small hF
  obtain ⟨n0, n8⟩ := flEta_small hF
  generalize Fl.number F (.fin false nr) = R at *
  generalize Fl.number F (.fin sa na) = A at *
  generalize Fl.number F (.fin sb nb) = B at *
  generalize Fl.number F (.fin false ks) = S at *
  generalize Fl.number F (.fin (xor false sa) kp) = P at *
  generalize Fl.number F (.fin (xor false sb) kq) = Q at *
  generalize Fl.number F (.fin u k) = C at *
  generalize flEps F = ε at *
  generalize flEta F = η at *
  have hM0 : 0 ≤ M := (abs_nonneg _).trans hMa
  have hP' : |P - R * A| ≤ ε * (R * M) + η := by
    refine hP.trans ?_
    have : |R * A| ≤ R * M := by
      rw [abs_mul, abs_of_pos hr0]
      exact mul_le_mul_of_nonneg_left hMa hr0.le
    have := mul_le_mul_of_nonneg_left this e0.le
    linarith
  have hSB : |S * B| ≤ M := by
    rw [abs_mul, abs_of_nonneg hs0]
    calc S * |B| ≤ 1 * M := mul_le_mul hs1 hMb (abs_nonneg _) (by norm_num)
      _ = M := one_mul _
  have hQ' : |Q - S * B| ≤ ε * M + η := by
    refine hQ.trans ?_
    have := mul_le_mul_of_nonneg_left hSB e0.le
    linarith
  have hSB' : |S * B - (1 - R) * B| ≤ (ε * (1 - R) + η) * M := by
    rw [← sub_mul, abs_mul]
    exact mul_le_mul hserr hMb (abs_nonneg _) (by nlinarith)
  have hPQ : |P + Q - (R * A + (1 - R) * B)| ≤ 2 * (ε * M) + 2 * η + η * M := by
    calc |P + Q - (R * A + (1 - R) * B)|
        = |(P - R * A) + (Q - S * B) + (S * B - (1 - R) * B)| := by congr 1; ring
      _ ≤ |P - R * A| + |Q - S * B| + |S * B - (1 - R) * B| := abs_add_three _ _ _
      _ ≤ (ε * (R * M) + η) + (ε * M + η) + (ε * (1 - R) + η) * M := by linarith
      _ = 2 * (ε * M) + 2 * η + η * M := by ring
  have hT : |R * A + (1 - R) * B| ≤ M := by
    calc |R * A + (1 - R) * B| ≤ |R * A| + |(1 - R) * B| := abs_add_le _ _
      _ = R * |A| + (1 - R) * |B| := by
        rw [abs_mul, abs_mul, abs_of_pos hr0, abs_of_pos (by linarith : (0 : ℚ) < 1 - R)]
      _ ≤ R * M + (1 - R) * M :=
        add_le_add (mul_le_mul_of_nonneg_left hMa hr0.le)
          (mul_le_mul_of_nonneg_left hMb (by linarith))
      _ = M := by ring
  have hPQM : |P + Q| ≤ M + (2 * (ε * M) + 2 * η + η * M) := by
    calc |P + Q| = |(R * A + (1 - R) * B) + (P + Q - (R * A + (1 - R) * B))| := by congr 1; ring
      _ ≤ _ := (abs_add_le _ _).trans (add_le_add hT hPQ)
  have hfin : |C - (R * A + (1 - R) * B)| ≤
      (ε * (M + (2 * (ε * M) + 2 * η + η * M)) + η) + (2 * (ε * M) + 2 * η + η * M) := by
    calc |C - (R * A + (1 - R) * B)| = |(C - (P + Q)) + (P + Q - (R * A + (1 - R) * B))| := by
          congr 1; ring
      _ ≤ |C - (P + Q)| + |P + Q - (R * A + (1 - R) * B)| := abs_add_le _ _
      _ ≤ _ := by
        refine add_le_add (hS.trans ?_) hPQ
        have := mul_le_mul_of_nonneg_left hPQM e0.le
        linarith
  refine hfin.trans ?_
  have x1 : 0 ≤ ε * M := mul_nonneg e0.le hM0
  have x2 : ε * (ε * M) ≤ 1 / 8 * (ε * M) := mul_le_mul_of_nonneg_right e8 x1
  have x3 : η * M ≤ ε / 8 * M := mul_le_mul_of_nonneg_right n8 hM0
  have x4 : ε * (η * M) ≤ 1 / 8 * (η * M) := mul_le_mul_of_nonneg_right e8 (mul_nonneg n0.le hM0)
  have x5 : ε * η ≤ 1 / 8 * η := mul_le_mul_of_nonneg_right e8 n0.le
  nlinarith

/-- The two parents' entry bound used below: `M` bounds both in absolute value and is below half the largest
finite number. -/
def EntryBound (F : Fmt) (a b : Dbl F) (M : ℚ) : Prop :=
  a.val.Finite F ∧ b.val.Finite F ∧ |Fl.number F a.val| ≤ M ∧ |Fl.number F b.val| ≤ M ∧
    M * 2 ^ F.one < 2 ^ (F.top - 1)

theorem cFunNdFl_entries (r : Dbl F) (p1 p2 : List (Dbl F)) (hlen : p1.length = p2.length) :
    ∃ c1 c2, cFunNdFl F r p1 p2 = .ok (c1, c2) ∧ c1.length = p1.length ∧ c2.length = p1.length ∧
      ∀ i, ∀ h1 : i < p1.length, ∀ h2 : i < p2.length, ∀ h3 : i < c1.length, ∀ h4 : i < c2.length,
        c1[i].val = cFunNdEntryFl F r.val p1[i].val p2[i].val ∧
        c2[i].val = cFunNdEntryFl F r.val p2[i].val p1[i].val := by
  refine ⟨_, _, if_pos hlen.le, by simp [hlen], by simp [hlen], ?_⟩
  intro i h1 h2 h3 h4
  simp only [List.getElem_zipWith]
  exact ⟨rfl, rfl⟩

/-- **C116** (the default crossover).  With a ratio strictly between 0 and 1 and parents of equal length with
finite entries, not larger than half the largest finite number: the children exist, have finite entries, and
each entry differs from the exact combination `r·a + (1-r)·b` of the parents' entries (with the parents
exchanged for the second child) by at most `4ε·max(|a|,|b|) + 4η`, `ε` being the relative rounding error
(`2^-53` for `double`) and `η` half the smallest positive number. -/
theorem cFunNd_ieee_error (hF : F.Good) (r : Dbl F) (hr : r.val.Finite F) (hr0 : 0 < Fl.number F r.val)
    (hr1 : Fl.number F r.val < 1) (p1 p2 : List (Dbl F)) (hlen : p1.length = p2.length)
    (M : Nat → ℚ) (hM : ∀ i, ∀ h1 : i < p1.length, ∀ h2 : i < p2.length, EntryBound F p1[i] p2[i] (M i)) :
    ∃ c1 c2, cFunNdFl F r p1 p2 = .ok (c1, c2) ∧ c1.length = p1.length ∧ c2.length = p1.length ∧
      ∀ i, ∀ h1 : i < p1.length, ∀ h2 : i < p2.length, ∀ h3 : i < c1.length, ∀ h4 : i < c2.length,
        (∃ s n, c1[i].val = .fin s n) ∧ (∃ s n, c2[i].val = .fin s n) ∧
        |Fl.number F c1[i].val - (Fl.number F r.val * Fl.number F p1[i].val +
            (1 - Fl.number F r.val) * Fl.number F p2[i].val)| ≤ 4 * flEps F * M i + 4 * flEta F ∧
        |Fl.number F c2[i].val - (Fl.number F r.val * Fl.number F p2[i].val +
            (1 - Fl.number F r.val) * Fl.number F p1[i].val)| ≤ 4 * flEps F * M i + 4 * flEta F := by
  obtain ⟨c1, c2, h, hl1, hl2, hent⟩ := cFunNdFl_entries r p1 p2 hlen
  refine ⟨c1, c2, h, hl1, hl2, ?_⟩
  intro i h1 h2 h3 h4
  obtain ⟨e1, e2⟩ := hent i h1 h2 h3 h4
  obtain ⟨ha, hb, hMa, hMb, hMt⟩ := hM i h1 h2
  have g1 := child_error hF _ _ _ hr ha hb hr0 hr1 (M i) hMa hMb hMt
  have g2 := child_error hF _ _ _ hr hb ha hr0 hr1 (M i) hMb hMa hMt
  rw [e1, e2]
  exact ⟨g1.1, g2.1, g1.2, g2.2⟩

/-- **C116**: so children of parents in a box with finite bounds leave the box by at most that margin. -/
theorem cFunNd_ieee_near_box (hF : F.Good) (r : Dbl F) (hr : r.val.Finite F) (hr0 : 0 < Fl.number F r.val)
    (hr1 : Fl.number F r.val < 1) (b : Box (Dbl F)) (p1 p2 : List (Dbl F)) (hp1 : InBox b p1)
    (hp2 : InBox b p2) (hfin : ∀ i, i < b.dim → (b.min i).val.Finite F ∧ (b.max i).val.Finite F)
    (M : Nat → ℚ) (hM : ∀ i, ∀ h1 : i < p1.length, ∀ h2 : i < p2.length, EntryBound F p1[i] p2[i] (M i)) :
    ∃ c1 c2, cFunNdFl F r p1 p2 = .ok (c1, c2) ∧ c1.length = b.dim ∧ c2.length = b.dim ∧
      ∀ i, ∀ h3 : i < c1.length, ∀ h4 : i < c2.length,
        (Fl.number F (b.min i).val - (4 * flEps F * M i + 4 * flEta F) ≤ Fl.number F c1[i].val ∧
          Fl.number F c1[i].val ≤ Fl.number F (b.max i).val + (4 * flEps F * M i + 4 * flEta F)) ∧
        (Fl.number F (b.min i).val - (4 * flEps F * M i + 4 * flEta F) ≤ Fl.number F c2[i].val ∧
          Fl.number F c2[i].val ≤ Fl.number F (b.max i).val + (4 * flEps F * M i + 4 * flEta F)) := by
  obtain ⟨c1, c2, h, hl1, hl2, hent⟩ :=
    cFunNd_ieee_error hF r hr hr0 hr1 p1 p2 (hp1.1.trans hp2.1.symm) M hM
  refine ⟨c1, c2, h, hl1.trans hp1.1, hl2.trans hp1.1, ?_⟩
  intro i h3 h4
  have h1 : i < p1.length := by omega
  have h2 : i < p2.length := by have := hp1.1; have := hp2.1; omega
  obtain ⟨-, -, g1, g2⟩ := hent i h1 h2 h3 h4
  have num : ∀ x y : Dbl F, x.val.Finite F → y.val.Finite F → x ≤ y →
      Fl.number F x.val ≤ Fl.number F y.val := by
    intro x y hx hy hle
    obtain ⟨s, n, hx, -⟩ := hx
    obtain ⟨t, m, hy, -⟩ := hy
    rw [dbl_le_def, hx, hy] at hle
    rw [hx, hy, number_fin, number_fin]
    simp only [Fl.le, decide_eq_true_eq] at hle
    exact div_le_div_of_nonneg_right (by exact_mod_cast hle) (by positivity)
  obtain ⟨ha, hb, -⟩ := hM i h1 h2
  obtain ⟨fmn, fmx⟩ := hfin i (by have := hp1.1; omega)
  have a1 := num _ _ fmn ha (hp1.2 i h1).1
  have a2 := num _ _ ha fmx (hp1.2 i h1).2
  have b1 := num _ _ fmn hb (hp2.2 i h2).1
  have b2 := num _ _ hb fmx (hp2.2 i h2).2
  rw [abs_le] at g1 g2
  generalize Fl.number F r.val = R at *
  generalize Fl.number F p1[i].val = A at *
  generalize Fl.number F p2[i].val = B at *
  generalize Fl.number F (b.min i).val = mn at *
  generalize Fl.number F (b.max i).val = mx at *
  have lo : ∀ x y : ℚ, mn ≤ x → mn ≤ y → mn ≤ R * x + (1 - R) * y := fun x y hx hy => by nlinarith
  have hi : ∀ x y : ℚ, x ≤ mx → y ≤ mx → R * x + (1 - R) * y ≤ mx := fun x y hx hy => by nlinarith
  have := lo A B a1 b1; have := lo B A b1 a1
  have := hi A B a2 b2; have := hi B A b2 a2
  exact ⟨⟨by linarith, by linarith⟩, by linarith, by linarith⟩

/-- The margin is needed: the children of `[3]` and `[3]` under the default ratio `1/5` are above 3. -/
theorem cFunNd_ieee_outside :
    ∃ c, cFunNdFl binary64 (Dbl.nat binary64 1 / Dbl.nat binary64 5) [Dbl.nat binary64 3]
      [Dbl.nat binary64 3] = .ok ([c], [c]) ∧ Dbl.nat binary64 3 < c :=
  ⟨⟨.fin false (3 * 2 ^ 1074 + 2 ^ 1023)⟩, by decide +kernel, by decide +kernel⟩

example : cFunNdFl binary64 (half 1) [half 4, half 8] [half 0, half 2] =
    .ok ([half 2, half 5], [half 2, half 5]) := by decide +kernel

theorem nat_finite64 (k : Nat) (hk : k < 2 ^ 53) : (Dbl.nat binary64 k).val.Finite binary64 := by
  refine ⟨false, k * 2 ^ binary64.one, rfl, ⟨k, binary64.one, hk, rfl⟩, ?_⟩
  calc k * 2 ^ binary64.one < 2 ^ 53 * 2 ^ binary64.one := Nat.mul_lt_mul_of_pos_right hk (by positivity)
    _ = 2 ^ (53 + binary64.one) := (pow_add _ _ _).symm
    _ ≤ 2 ^ binary64.top := Nat.pow_le_pow_right (by norm_num) (by decide)

theorem nat_number (k : Nat) : Fl.number F (Dbl.nat F k).val = k := by
  show Fl.number F (.fin false (k * 2 ^ F.one)) = k
  rw [number_abs]
  push_cast
  simp

/-- Integers below `2^53` are admissible entries. -/
theorem nat_entryBound (a b M : Nat) (ha : a ≤ M) (hb : b ≤ M) (hM : M < 2 ^ 53) :
    EntryBound binary64 (Dbl.nat binary64 a) (Dbl.nat binary64 b) M := by
  refine ⟨nat_finite64 a (by omega), nat_finite64 b (by omega), ?_, ?_, ?_⟩
  · rw [nat_number, abs_of_nonneg (by positivity)]; exact_mod_cast ha
  · rw [nat_number, abs_of_nonneg (by positivity)]; exact_mod_cast hb
  · have h : M * 2 ^ binary64.one < 2 ^ (53 + binary64.one) := by
      rw [pow_add]; exact Nat.mul_lt_mul_of_pos_right hM (by positivity)
    have h' := h.trans_le (Nat.pow_le_pow_right (n := 2) (by norm_num)
      (show 53 + binary64.one ≤ binary64.top - 1 by decide))
    exact_mod_cast h'

theorem half_number (e : Nat) (hF : F.Good) (he : F.one = e + 1) (x : Fl) (hx : x = .fin false (2 ^ e)) :
    x.Finite F ∧ Fl.number F x = 1 / 2 := by
  subst hx
  refine ⟨⟨false, 2 ^ e, rfl, ⟨1, e, Nat.one_lt_two_pow (by omega), by simp⟩, ?_⟩, ?_⟩
  · apply Nat.pow_lt_pow_right (by norm_num)
    have := hF.top_eq; have := hF.one_eq; have := hF.wide
    omega
  · rw [number_abs, he, pow_succ]
    have h0 : (2 : ℚ) ^ e ≠ 0 := by positivity
    push_cast
    simp only [Bool.false_eq_true, if_false, one_mul]
    field_simp

example : ∃ c1 c2, cFunNdFl binary64 (half 1) [Dbl.nat binary64 3, Dbl.nat binary64 7]
    [Dbl.nat binary64 4, Dbl.nat binary64 1] = .ok (c1, c2) ∧ c1.length = 2 := by
  obtain ⟨hf, hn⟩ := half_number 1073 binary64_good rfl (half 1).val (by decide +kernel)
  obtain ⟨c1, c2, h, hl, -⟩ := cFunNd_ieee_error binary64_good (half 1) hf
    (by rw [hn]; norm_num) (by rw [hn]; norm_num) [Dbl.nat binary64 3, Dbl.nat binary64 7]
    [Dbl.nat binary64 4, Dbl.nat binary64 1] (by simp) (fun _ => (7 : Nat)) (by
      intro i h1 h2
      match i, h1, h2 with
      | 0, _, _ => exact nat_entryBound 3 4 7 (by norm_num) (by norm_num) (by norm_num)
      | 1, _, _ => exact nat_entryBound 7 1 7 (by norm_num) (by norm_num) (by norm_num))
  exact ⟨c1, c2, h, hl⟩

example : ∃ w, applyDeltaContFl binary64 ⟨1, fun _ => 0, fun _ => Dbl.nat binary64 5⟩
    (fun _ => Dbl.nat binary64 2) [Dbl.nat binary64 4] 0 (Dbl.nat binary64 1) = .ok w := by
  obtain ⟨w, h, -⟩ := applyDeltaCont_ieee binary64_good ⟨1, fun _ => 0, fun _ => Dbl.nat binary64 5⟩
    (fun _ => Dbl.nat binary64 2) [Dbl.nat binary64 4]
    ⟨rfl, by
      intro i hi
      match i, hi with
      | 0, _ =>
        have h1 : (0 : Dbl binary64) ≤ Dbl.nat binary64 4 := by decide +kernel
        have h2 : Dbl.nat binary64 4 ≤ Dbl.nat binary64 5 := by decide +kernel
        exact ⟨h1, h2⟩⟩
    0 (by simp) (Dbl.nat binary64 1) (nat_finite64 4 (by norm_num)) (nat_finite64 1 (by norm_num))
    (nat_finite64 2 (by norm_num))
  exact ⟨w, h⟩

end Heu
