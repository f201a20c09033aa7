import Verif.Props.FeasibleInt
import Mathlib.Tactic.Linarith
import Mathlib.Tactic.NormNum

set_option linter.unusedSimpArgs false
set_option linter.unusedVariables false

/-!
# C38, C40, C43 on integer types: exactly which boxes are safe

`initialize`, `applyDelta` and the symbol mutation compute in the scalar type and in `int`; for each of
them the set of boxes on which the property holds for every draw is determined exactly.
-/

namespace Heu

open Spec

theorem IntT.lo_hi (T : IntT) (hb : 1 ≤ T.bits) : T.hi - T.lo + 1 = 2 ^ T.bits := by
  obtain ⟨bits, signed⟩ := T
  obtain ⟨n, rfl⟩ : ∃ n, bits = n + 1 := ⟨bits - 1, by simp at hb; omega⟩
  have e : (2 : Int) ^ (n + 1) = 2 * 2 ^ n := by rw [pow_succ]; ring
  unfold IntT.lo IntT.hi
  cases signed <;> simp only [Nat.add_sub_cancel, Bool.false_eq_true, if_false, if_true, e] <;> omega

theorem IntT.conv_above (T : IntT) (hb : 1 ≤ T.bits) : T.conv (T.hi + 1) = T.lo := by
  have h := T.lo_hi hb
  unfold IntT.conv
  rw [show T.hi + 1 - T.lo = 2 ^ T.bits by omega, Int.emod_self]; omega

theorem IntT.conv_below (T : IntT) (hb : 1 ≤ T.bits) : T.conv (T.lo - 1) = T.hi := by
  have h := T.lo_hi hb
  have hp : (0 : Int) < 2 ^ T.bits := by positivity
  have h1 : (1 : Int) ≤ 2 ^ T.bits := by omega
  unfold IntT.conv
  rw [show T.lo - 1 - T.lo = -1 by omega, Int.emod_def, show (-1 : Int) / 2 ^ T.bits = -1 from ?_]
  · omega
  · exact Int.ediv_eq_neg_one_of_neg_of_le (by omega) (by omega)

theorem IntT.hi_pos (T : IntT) (hT : MachineInt T) : 127 ≤ T.hi := by
  obtain ⟨bits, signed⟩ := T
  rcases hT with h | h | h | h <;> simp only at h <;> subst h <;> cases signed <;>
    simp [IntT.hi]

theorem Spec.MachineInt.one_le {T : IntT} (hT : MachineInt T) : 1 ≤ T.bits := by
  rcases hT with h | h | h | h <;> omega

/-- the outcome of `T.arith` just outside the range -/
theorem IntT.arith_wrap (T : IntT) (hb : 1 ≤ T.bits) (x : Int) (hx : x < T.lo ∨ T.hi < x) :
    (T.signed = true ∧ 32 ≤ T.bits ∧ T.arith x = .ub) ∨
    (T.bits < 32 ∧ T.arith x = .ok x) ∨ (T.signed = false ∧ 32 ≤ T.bits ∧ T.arith x = .ok (T.conv x)) := by
  unfold IntT.arith
  by_cases h : T.bits < 32
  · exact .inr (.inl ⟨h, if_pos h⟩)
  · rw [if_neg h]
    cases hs : T.signed
    · refine .inr (.inr ⟨rfl, by omega, by simp⟩)
    · refine .inl ⟨rfl, by omega, ?_⟩
      rw [if_pos rfl, if_neg (by omega)]

/-! ## applyDelta -/

/-- One step of `applyDelta` on one entry. -/
private theorem stepInt (T : IntT) (hb : 1 ≤ T.bits) (b : Box Int) (v : List Int) (hv : InBox b v)
    (idx : Nat) (hi : idx < v.length) (up : Bool) :
    applyDeltaInt T b v idx up = (do
      let s ← T.arith (v[idx] + (if up then 1 else -1))
      .ok (v.set idx (clampTo (b.min idx) (b.max idx) (T.conv s)))) := by
  unfold applyDeltaInt
  rw [if_pos hv.1, List.getElem?_eq_getElem hi]

theorem clampTo_le_self (mn mx x : Int) (h : mn ≤ mx) (hx : x ≤ mn) : clampTo mn mx x = mn := by
  unfold clampTo stdMax stdMin; split <;> split <;> omega

theorem clampTo_ge_self (mn mx x : Int) (h : mn ≤ mx) (hx : mx ≤ x) : clampTo mn mx x = mx := by
  unfold clampTo stdMax stdMin; split <;> split <;> omega

theorem applyDelta_value (T : IntT) (hb : 1 ≤ T.bits) (b : Box Int) (hB : TypedBox T b) (v : List Int)
    (hv : InBox b v) (idx : Nat) (hi : idx < v.length) (up : Bool) :
    ((up = true ∧ v[idx] = T.hi ∨ up = false ∧ v[idx] = T.lo) ∧ T.signed = true ∧ 32 ≤ T.bits ∧
      applyDeltaInt T b v idx up = .ub) ∨
    ((up = true ∧ v[idx] = T.hi) ∧ (T.bits < 32 ∨ T.signed = false) ∧
      applyDeltaInt T b v idx up = .ok (v.set idx (b.min idx))) ∨
    ((up = false ∧ v[idx] = T.lo) ∧ (T.bits < 32 ∨ T.signed = false) ∧
      applyDeltaInt T b v idx up = .ok (v.set idx (b.max idx))) ∨
    (¬ (up = true ∧ v[idx] = T.hi ∨ up = false ∧ v[idx] = T.lo) ∧
      applyDeltaInt T b v idx up =
        .ok (v.set idx (clampTo (b.min idx) (b.max idx) (v[idx] + (if up then 1 else -1))))) := by
  have hd : idx < b.dim := hv.1 ▸ hi
  obtain ⟨hB1, hB2, hB3⟩ := hB idx hd
  obtain ⟨hx1, hx2⟩ := hv.2 idx hi
  rw [stepInt T hb b v hv idx hi up]
  generalize v[idx] = x at *
  have hca := T.conv_above hb
  have hcb := T.conv_below hb
  have hlh : T.lo ≤ T.hi := by omega
  have hlo_id := T.conv_id hb T.lo le_rfl hlh
  have hhi_id := T.conv_id hb T.hi hlh le_rfl
  cases up
  · simp only [Bool.false_eq_true, false_and, true_and, false_or, if_false]
    by_cases hlo : x = T.lo
    · subst hlo
      rcases T.arith_wrap hb (T.lo + -1) (.inl (by omega)) with ⟨h1, h2, h3⟩ | ⟨h1, h3⟩ | ⟨h1, h2, h3⟩
      · left; rw [h3]; exact ⟨rfl, h1, h2, rfl⟩
      · right; left; rw [h3]
        refine ⟨rfl, .inl h1, ?_⟩
        rw [Out.ok_bind, show T.lo + -1 = T.lo - 1 by omega, hcb, clampTo_ge_self _ _ _ hB2 hB3]
      · right; left; rw [h3]
        refine ⟨rfl, .inr h1, ?_⟩
        rw [Out.ok_bind, show T.lo + -1 = T.lo - 1 by omega, hcb, hhi_id, clampTo_ge_self _ _ _ hB2 hB3]
    · right; right
      refine ⟨hlo, ?_⟩
      rw [T.arith_id hb _ (by omega) (by omega), Out.ok_bind, T.conv_id hb _ (by omega) (by omega)]
  · simp only [Bool.true_eq_false, false_and, true_and, or_false, false_or, if_true]
    by_cases hhi : x = T.hi
    · subst hhi
      rcases T.arith_wrap hb (T.hi + 1) (.inr (by omega)) with ⟨h1, h2, h3⟩ | ⟨h1, h3⟩ | ⟨h1, h2, h3⟩
      · left; rw [h3]; exact ⟨rfl, h1, h2, rfl⟩
      · right; left; rw [h3]
        refine ⟨rfl, .inl h1, ?_⟩
        rw [Out.ok_bind, hca, clampTo_le_self _ _ _ hB2 hB1]
      · right; left; rw [h3]
        refine ⟨rfl, .inr h1, ?_⟩
        rw [Out.ok_bind, hca, hlo_id, clampTo_le_self _ _ _ hB2 hB1]
    · right; right
      refine ⟨hhi, ?_⟩
      rw [T.arith_id hb _ (by omega) (by omega), Out.ok_bind, T.conv_id hb _ (by omega) (by omega)]

/-- **C40** (integers, exactly).  For every integer type and every box with bounds of that type: the
property "every step from every point of the box, in every coordinate and both directions, is defined,
stays in the box and moves that one coordinate by at most one" holds if and only if no coordinate's
range touches an end of the type — except that a range of at most two values may do so when the type is
unsigned or narrower than `int`. -/
theorem applyDelta_int_iff (T : IntT) (hT : MachineInt T) (b : Box Int) (hB : TypedBox T b) :
    (∀ v, InBox b v → ∀ idx, idx < b.dim → ∀ up,
      ∃ w x y, applyDeltaInt T b v idx up = .ok w ∧ InBox b w ∧ SameExcept v w idx ∧
        v[idx]? = some x ∧ w[idx]? = some y ∧ |y - x| ≤ 1) ↔
    ∀ i, i < b.dim → (T.lo < b.min i ∧ b.max i < T.hi) ∨
      (b.max i ≤ b.min i + 1 ∧ (T.bits < 32 ∨ T.signed = false)) := by
  have hb := hT.one_le
  constructor
  · intro H i hi
    by_contra hcon
    rw [not_or] at hcon
    obtain ⟨hc1, hc2⟩ := hcon
    obtain ⟨hB1, hB2, hB3⟩ := hB i hi
    -- all coordinates at an end
    have hmem : ∀ f : Nat → Int, (∀ j, j < b.dim → b.min j ≤ f j ∧ f j ≤ b.max j) →
        InBox b ((List.range b.dim).map f) := by
      intro f hf
      refine ⟨by simp, fun j hj => ?_⟩
      simp only [List.length_map, List.length_range] at hj
      simpa using hf j hj
    by_cases hlo : T.lo = b.min i
    · have hv := hmem b.min fun j hj => ⟨le_rfl, (hB j hj).2.1⟩
      obtain ⟨w, x, y, h1, h2, h3, h4, h5, h6⟩ := H _ hv i hi false
      have hlen : i < ((List.range b.dim).map b.min).length := by simpa using hi
      have hg : ((List.range b.dim).map b.min)[i] = b.min i := by simp
      rw [List.getElem?_eq_getElem hlen, hg] at h4
      have h4 := Option.some.inj h4
      rcases applyDelta_value T hb b hB _ hv i hlen false with
        ⟨-, -, -, e⟩ | ⟨⟨e, -⟩, -⟩ | ⟨-, e', e⟩ | ⟨e, -⟩
      · rw [e] at h1; cases h1
      · cases e
      · rw [e] at h1
        have h1 := Out.ok.inj h1
        rw [← h1, List.getElem?_set_self hlen] at h5
        have h5 := Option.some.inj h5
        rw [abs_le] at h6
        exact hc2 ⟨by omega, e'⟩
      · exact e (.inr ⟨rfl, by rw [hg]; exact hlo.symm⟩)
    · have hhi : b.max i = T.hi := by omega
      have hv := hmem b.max fun j hj => ⟨(hB j hj).2.1, le_rfl⟩
      obtain ⟨w, x, y, h1, h2, h3, h4, h5, h6⟩ := H _ hv i hi true
      have hlen : i < ((List.range b.dim).map b.max).length := by simpa using hi
      have hg : ((List.range b.dim).map b.max)[i] = b.max i := by simp
      rw [List.getElem?_eq_getElem hlen, hg] at h4
      have h4 := Option.some.inj h4
      rcases applyDelta_value T hb b hB _ hv i hlen true with
        ⟨-, -, -, e⟩ | ⟨-, e', e⟩ | ⟨⟨e, -⟩, -⟩ | ⟨e, -⟩
      · rw [e] at h1; cases h1
      · rw [e] at h1
        have h1 := Out.ok.inj h1
        rw [← h1, List.getElem?_set_self hlen] at h5
        have h5 := Option.some.inj h5
        rw [abs_le] at h6
        exact hc2 ⟨by omega, e'⟩
      · cases e
      · exact e (.inl ⟨rfl, by rw [hg]; exact hhi⟩)
  · intro H v hv idx hi up
    have hlen : idx < v.length := by rw [hv.1]; exact hi
    obtain ⟨hB1, hB2, hB3⟩ := hB idx hi
    obtain ⟨hx1, hx2⟩ := hv.2 idx hlen
    have fin : ∀ z, b.min idx ≤ z → z ≤ b.max idx → |z - v[idx]| ≤ 1 →
        ∃ w x y, (Out.ok (v.set idx z) : Out (List Int)) = .ok w ∧ InBox b w ∧ SameExcept v w idx ∧
        v[idx]? = some x ∧ w[idx]? = some y ∧ |y - x| ≤ 1 := fun z hz1 hz2 hz3 =>
      ⟨_, v[idx], z, rfl, set_in_box b v hv idx z ⟨hz1, hz2⟩, set_same v idx z,
        List.getElem?_eq_getElem hlen, List.getElem?_set_self hlen, hz3⟩
    rcases applyDelta_value T hb b hB v hv idx hlen up with
      ⟨e1, e2, e3, e4⟩ | ⟨e1, e2, e3⟩ | ⟨e1, e2, e3⟩ | ⟨e1, e2⟩
    · exfalso
      rcases H idx hi with h | ⟨-, h | h⟩
      · rcases e1 with ⟨-, e1⟩ | ⟨-, e1⟩ <;> omega
      · omega
      · rw [e2] at h; cases h
    · rw [e3]
      refine fin _ le_rfl hB2 ?_
      rw [abs_le]
      rcases H idx hi with h | ⟨h, -⟩ <;> omega
    · rw [e3]
      refine fin _ hB2 le_rfl ?_
      rw [abs_le]
      rcases H idx hi with h | ⟨h, -⟩ <;> omega
    · rw [e2]
      obtain ⟨h1, h2⟩ := clampTo_mem (b.min idx) (b.max idx) (v[idx] + (if up then 1 else -1)) hB2
      refine fin _ h1 h2 ?_
      unfold clampTo stdMax stdMin
      rw [abs_le]
      cases up <;> simp only [Bool.false_eq_true, if_false, if_true] <;> split <;> split <;> omega

/-- Both sides hold for `int` in `[-1000, 1000]` and for `uint8_t` in `[0, 1]`; both fail for `uint8_t`
in `[0, 9]`. -/
example : MachineInt ⟨32, true⟩ ∧ TypedBox ⟨32, true⟩ (squareBox 2 (-1000) 1000) ∧
    (∀ i, i < 2 → ((⟨32, true⟩ : IntT).lo < (squareBox 2 (-1000 : Int) 1000).min i ∧
      (squareBox 2 (-1000 : Int) 1000).max i < (⟨32, true⟩ : IntT).hi)) ∧
    TypedBox ⟨8, false⟩ (squareBox 2 0 9) ∧ ¬ ((⟨8, false⟩ : IntT).lo < (squareBox 2 (0 : Int) 9).min 0) := by
  refine ⟨.inr (.inr (.inl rfl)), ?_, ?_, ?_, ?_⟩
  · intro i hi; simp [squareBox, IntT.lo, IntT.hi]
  · intro i hi; simp [squareBox, IntT.lo, IntT.hi]
  · intro i hi; simp [squareBox, IntT.lo, IntT.hi]
  · simp [squareBox, IntT.lo]

/-! ## initialize -/

theorem randIdxF32_zero (t m : Nat) : randIdxF32 t m 0 = 0 := by
  have h : roundF32 0 = 0 := by decide +kernel
  unfold randIdxF32
  rw [h, Nat.mul_zero, h, Nat.zero_div]

theorem randIdxF32_draw {t m size : Nat} (hf : FloatDraw (t, m)) (hs : 1 ≤ size) :
    randIdxF32 t m size < size := by
  obtain ⟨h1, h2, h3⟩ := hf
  simp only at h1 h2 h3
  exact randIdxF32_lt h1 h2 (h3 ▸ rep_roundF32 m) hs

/-- every index of a range of at most `2^16` values is drawn -/
theorem randIdxF32_some {size i : Nat} (hs : size ≤ 2 ^ 16) (hi : i < size) :
    ∃ t m, FloatDraw (t, m) ∧ randIdxF32 t m size = i := by
  obtain ⟨m, hm, he⟩ := randIdxF32_reach (le_trans hs (by norm_num)) hi
  exact ⟨24, m, ⟨le_rfl, hm, roundF32_small hm⟩, he⟩

/-- `randIdx(min, max_plus_1)` when the computed difference `D` is not negative and the values
`min .. min + D - 1` and `0 .. D - 1` are values of the type. -/
theorem randIdxT_up (T : IntT) (hb : 1 ≤ T.bits) (t m : Nat) (hf : FloatDraw (t, m)) (mn mx1 D : Int)
    (hD : T.arith (mx1 - mn) = .ok D) (h0 : 0 ≤ D) (h1 : D - 1 ≤ T.hi) (hlo : T.lo ≤ mn)
    (hmn : mn ≤ T.hi) (h2 : mn + D - 1 ≤ T.hi) :
    ∃ y, randIdxT T t m mn mx1 = .ok y ∧ mn ≤ y ∧ (y = mn ∨ y ≤ mn + D - 1) := by
  have hl := T.lo_nonpos
  have hhi0 : 0 ≤ T.hi := by
    unfold IntT.hi; split
    · have : (1 : Int) ≤ 2 ^ (T.bits - 1) := one_le_pow₀ (by norm_num)
      omega
    · have : (1 : Int) ≤ 2 ^ T.bits := one_le_pow₀ (by norm_num)
      omega
  have hp : (randIdxF32 t m D.natAbs : Int) = 0 ∨ (randIdxF32 t m D.natAbs : Int) ≤ D - 1 := by
    rcases Nat.eq_zero_or_pos D.natAbs with h | h
    · left; rw [h, randIdxF32_zero]; rfl
    · right; have := randIdxF32_draw hf h; omega
  unfold randIdxT
  rw [hD, Out.ok_bind]
  simp only [if_pos h0]
  generalize (randIdxF32 t m D.natAbs) = p at *
  rw [if_pos (by omega), T.arith_id hb _ (by omega) (by omega), Out.ok_bind,
    T.conv_id hb _ (by omega) (by omega)]
  exact ⟨_, rfl, by omega, by omega⟩

/-- On a type narrower than `int` with a difference that exceeds the type by more than one, some draw is
undefined. -/
theorem randIdxT_wide_ub (T : IntT) (hn : T.bits ≤ 16) (mn mx1 : Int)
    (h1 : T.hi < mx1 - mn - 1) (h0 : 0 ≤ T.hi) (hs : mx1 - mn ≤ 2 ^ 16) :
    ∃ t m, FloatDraw (t, m) ∧ randIdxT T t m mn mx1 = .ub := by
  obtain ⟨t, m, hf, he⟩ := randIdxF32_some (size := (mx1 - mn).natAbs) (i := (mx1 - mn).natAbs - 1)
    (by omega) (by omega)
  refine ⟨t, m, hf, ?_⟩
  unfold randIdxT
  rw [show T.arith (mx1 - mn) = .ok (mx1 - mn) from if_pos (by omega), Out.ok_bind]
  simp only [if_pos (show 0 ≤ mx1 - mn by omega), he]
  rw [if_neg (by omega)]

/-- On a type narrower than `int` with `max_plus_1 < min`: the value for the largest draw. -/
theorem randIdxT_down (T : IntT) (hb : 1 ≤ T.bits) (hn : T.bits ≤ 16) (mn mx1 : Int) (h1 : mx1 < mn)
    (hs : mn - mx1 ≤ 2 ^ 16) (hlo : T.lo ≤ mx1) (hmn : mn ≤ T.hi) :
    ∃ t m, FloatDraw (t, m) ∧ ((mx1 - mn + 1 < T.lo ∧ randIdxT T t m mn mx1 = .ub) ∨
      (T.lo ≤ mx1 - mn + 1 ∧ randIdxT T t m mn mx1 = .ok (mx1 + 1))) := by
  obtain ⟨t, m, hf, he⟩ := randIdxF32_some (size := (mx1 - mn).natAbs) (i := (mx1 - mn).natAbs - 1)
    (by omega) (by omega)
  refine ⟨t, m, hf, ?_⟩
  have hnr : ∀ x, T.arith x = .ok x := fun x => if_pos (by omega)
  have hhi : 0 ≤ T.hi := by
    unfold IntT.hi; split
    · have : (1 : Int) ≤ 2 ^ (T.bits - 1) := one_le_pow₀ (by norm_num)
      omega
    · have : (1 : Int) ≤ 2 ^ T.bits := one_le_pow₀ (by norm_num)
      omega
  unfold randIdxT
  rw [hnr, Out.ok_bind]
  simp only [if_neg (show ¬ 0 ≤ mx1 - mn by omega), he]
  by_cases h : T.lo ≤ mx1 - mn + 1
  · right
    refine ⟨h, ?_⟩
    rw [if_pos (by omega), hnr, Out.ok_bind]
    rw [show -(((mx1 - mn).natAbs - 1 : Nat) : Int) + mn = mx1 + 1 by omega,
      T.conv_id hb _ (by omega) (by omega)]
  · left
    refine ⟨by omega, if_neg (by omega)⟩

/-- On a type narrower than `int` with `max_plus_1 = min` or `min - 1`: always `min`. -/
theorem randIdxT_stuck (T : IntT) (hb : 1 ≤ T.bits) (hn : T.bits < 32) (t m : Nat)
    (hf : FloatDraw (t, m)) (mn mx1 : Int) (h1 : mx1 ≤ mn) (h2 : mn ≤ mx1 + 1) (hlo : T.lo ≤ mn)
    (hmn : mn ≤ T.hi) : randIdxT T t m mn mx1 = .ok mn := by
  have hl := T.lo_nonpos
  have hhi : 0 ≤ T.hi := by
    unfold IntT.hi; split
    · have : (1 : Int) ≤ 2 ^ (T.bits - 1) := one_le_pow₀ (by norm_num)
      omega
    · have : (1 : Int) ≤ 2 ^ T.bits := one_le_pow₀ (by norm_num)
      omega
  have hp : randIdxF32 t m (mx1 - mn).natAbs = 0 := by
    rcases Nat.eq_zero_or_pos (mx1 - mn).natAbs with h | h
    · rw [h, randIdxF32_zero]
    · have := randIdxF32_draw hf h; omega
  unfold randIdxT
  rw [show T.arith (mx1 - mn) = .ok (mx1 - mn) from if_pos hn, Out.ok_bind]
  simp only [hp]
  have : (if 0 ≤ mx1 - mn then ((0 : Nat) : Int) else -((0 : Nat) : Int)) = 0 := by split <;> rfl
  rw [this, if_pos ⟨hl, hhi⟩, zero_add, T.arith_id hb _ hlo hmn, Out.ok_bind, T.conv_id hb _ hlo hmn]

theorem initIntEntry_iff (T : IntT) (hT : MachineInt T) (mn mx : Int) (h1 : T.lo ≤ mn) (h2 : mn ≤ mx)
    (h3 : mx ≤ T.hi) :
    (∀ t m, FloatDraw (t, m) → ∃ y, initIntEntry T t m mn mx = .ok y ∧ mn ≤ y ∧ y ≤ mx) ↔
      InitSafe T mn mx := by
  have hb := hT.one_le
  have hl := T.lo_nonpos
  have hlh := T.lo_hi hb
  have hhi := T.hi_pos hT
  have hd0 : FloatDraw (24, 0) := ⟨le_rfl, by norm_num, by decide +kernel⟩
  unfold InitSafe
  by_cases hn : T.bits < 32
  · rw [if_pos hn]
    have hn16 : T.bits ≤ 16 := by rcases hT with h | h | h | h <;> omega
    have hw : (2 : Int) ^ T.bits ≤ 2 ^ 16 := pow_le_pow_right₀ (by norm_num) hn16
    have hnr : ∀ x, T.arith x = .ok x := fun x => if_pos hn
    by_cases hmx : mx = T.hi
    · have he : ∀ t m, initIntEntry T t m mn mx = randIdxT T t m mn T.lo := by
        intro t m
        unfold initIntEntry
        rw [hnr, Out.ok_bind, hmx, show 1 + T.hi = T.hi + 1 by omega, T.conv_above hb]
      constructor
      · intro H
        right
        refine ⟨hmx, ?_⟩
        by_contra hcon
        obtain ⟨t, m, hf, h | h⟩ := randIdxT_down T hb hn16 mn T.lo (by omega) (by omega) le_rfl (by omega)
        · obtain ⟨y, hy, -⟩ := H t m hf
          rw [he, h.2] at hy; cases hy
        · obtain ⟨y, hy, hy1, -⟩ := H t m hf
          rw [he, h.2] at hy
          have := Out.ok.inj hy
          omega
      · rintro (h | ⟨-, h⟩) t m hf
        · omega
        · rw [he]
          exact ⟨mn, randIdxT_stuck T hb hn t m hf mn T.lo (by omega) (by omega) h1 (by omega), le_rfl, h2⟩
    · have he : ∀ t m, initIntEntry T t m mn mx = randIdxT T t m mn (mx + 1) := by
        intro t m
        unfold initIntEntry
        rw [hnr, Out.ok_bind, show 1 + mx = mx + 1 by omega, T.conv_id hb _ (by omega) (by omega)]
      constructor
      · intro H
        left
        refine ⟨by omega, ?_⟩
        by_contra hcon
        obtain ⟨t, m, hf, h⟩ := randIdxT_wide_ub T hn16 mn (mx + 1) (by omega) (by omega) (by omega)
        obtain ⟨y, hy, -⟩ := H t m hf
        rw [he, h] at hy; cases hy
      · rintro (h | ⟨h, -⟩) t m hf
        · rw [he]
          obtain ⟨y, hy, hy1, hy2⟩ := randIdxT_up T hb t m hf mn (mx + 1) (mx + 1 - mn) (hnr _) (by omega)
            (by omega) h1 (by omega) (by omega)
          exact ⟨y, hy, hy1, by omega⟩
        · omega
  · rw [if_neg hn]
    cases hs : T.signed
    · simp only [Bool.false_eq_true, false_imp_iff, iff_true]
      intro t m hf
      have har : ∀ x, T.arith x = .ok (T.conv x) := fun x => by
        unfold IntT.arith; rw [if_neg hn, hs]; simp
      have hlo0 : T.lo = 0 := by unfold IntT.lo; rw [hs]; simp
      by_cases hmx : mx = T.hi
      · have he : initIntEntry T t m mn mx = randIdxT T t m mn 0 := by
          unfold initIntEntry
          rw [har, Out.ok_bind, hmx, show 1 + T.hi = T.hi + 1 by omega, T.conv_above hb,
            T.conv_id hb _ le_rfl (by omega), hlo0]
        rw [he]
        by_cases hmn : mn = 0
        · obtain ⟨y, hy, hy1, hy2⟩ := randIdxT_up T hb t m hf mn 0 0
            (by rw [hmn, sub_zero]; exact T.arith_id hb _ (by omega) (by omega)) le_rfl (by omega) h1 (by omega) (by omega)
          exact ⟨y, hy, hy1, by omega⟩
        · obtain ⟨y, hy, hy1, hy2⟩ := randIdxT_up T hb t m hf mn 0 (T.hi + 1 - mn)
            (by
              rw [har]
              congr 1
              unfold IntT.conv
              rw [hlo0, ← Int.add_emod_right, ← hlh, Int.emod_eq_of_lt (by omega) (by omega)]
              omega)
            (by omega) (by omega) h1 (by omega) (by omega)
          exact ⟨y, hy, hy1, by omega⟩
      · have he : initIntEntry T t m mn mx = randIdxT T t m mn (mx + 1) := by
          unfold initIntEntry
          rw [T.arith_id hb _ (by omega) (by omega), Out.ok_bind, show 1 + mx = mx + 1 by omega,
            T.conv_id hb _ (by omega) (by omega)]
        rw [he]
        obtain ⟨y, hy, hy1, hy2⟩ := randIdxT_up T hb t m hf mn (mx + 1) (mx + 1 - mn)
          (T.arith_id hb _ (by omega) (by omega)) (by omega) (by omega) h1 (by omega) (by omega)
        exact ⟨y, hy, hy1, by omega⟩
    · simp only [true_imp_iff]
      have har : ∀ x, ¬ (T.lo ≤ x ∧ x ≤ T.hi) → T.arith x = .ub := fun x hx => by
        unfold IntT.arith; rw [if_neg hn, hs, if_pos rfl, if_neg hx]
      constructor
      · intro H
        obtain ⟨y, hy, -⟩ := H 24 0 hd0
        by_contra hcon
        unfold initIntEntry at hy
        by_cases hmx : mx = T.hi
        · rw [har _ (by omega)] at hy; cases hy
        · rw [T.arith_id hb _ (by omega) (by omega), Out.ok_bind, T.conv_id hb _ (by omega) (by omega)] at hy
          unfold randIdxT at hy
          rw [har _ (by omega)] at hy; cases hy
      · rintro ⟨hm, hdd⟩ t m hf
        have he : initIntEntry T t m mn mx = randIdxT T t m mn (mx + 1) := by
          unfold initIntEntry
          rw [T.arith_id hb _ (by omega) (by omega), Out.ok_bind, show 1 + mx = mx + 1 by omega,
            T.conv_id hb _ (by omega) (by omega)]
        rw [he]
        obtain ⟨y, hy, hy1, hy2⟩ := randIdxT_up T hb t m hf mn (mx + 1) (mx + 1 - mn)
          (T.arith_id hb _ (by omega) (by omega)) (by omega) (by omega) h1 (by omega) (by omega)
        exact ⟨y, hy, hy1, by omega⟩

theorem mapM_ok_inv {α β : Type} (f : α → Out β) (l : List α) (r : List β) (h : l.mapM f = .ok r) :
    r.length = l.length ∧ ∀ (i : Nat) (a : α), l[i]? = some a → ∃ y, f a = .ok y ∧ r[i]? = some y := by
  induction l generalizing r with
  | nil =>
    have := Out.ok.inj (show (Out.ok [] : Out (List β)) = .ok r from h)
    subst this
    exact ⟨rfl, fun i a hi => by simp at hi⟩
  | cons a l ih =>
    rw [List.mapM_cons] at h
    obtain ⟨y, hy, h⟩ := Out.bind_eq_ok.1 h
    obtain ⟨ys, hys, h⟩ := Out.bind_eq_ok.1 h
    have := Out.ok.inj (show (Out.ok (y :: ys) : Out (List β)) = .ok r from h)
    subst this
    obtain ⟨hl, hi⟩ := ih ys hys
    refine ⟨by simp [hl], ?_⟩
    rintro (_ | i) x hx
    · simp only [List.getElem?_cons_zero, Option.some.injEq] at hx ⊢
      subst hx; exact ⟨y, hy, rfl⟩
    · simp only [List.getElem?_cons_succ] at hx ⊢
      exact hi i x hx

/-- **C38** (integers, exactly).  For every integer type and every box with bounds of that type: the
property "every sequence of draws gives a point of the box" holds if and only if every coordinate's
range is safe (`InitSafe`). -/
theorem initialize_int_iff (T : IntT) (hT : MachineInt T) (b : Box Int) (hB : TypedBox T b) :
    (∀ draw : Nat → Nat × Nat, (∀ i, FloatDraw (draw i)) →
      ∃ v, initializeInt T b draw = .ok v ∧ InBox b v) ↔
    ∀ i, i < b.dim → InitSafe T (b.min i) (b.max i) := by
  constructor
  · intro H i hi
    obtain ⟨hB1, hB2, hB3⟩ := hB i hi
    rw [← initIntEntry_iff T hT _ _ hB1 hB2 hB3]
    intro t m hf
    obtain ⟨v, hv, hin⟩ := H (fun _ => (t, m)) fun _ => hf
    unfold initializeInt at hv
    obtain ⟨hl, hg⟩ := mapM_ok_inv _ _ _ hv
    obtain ⟨y, hy, hy'⟩ := hg i i (by simp [hi])
    have hlen : i < v.length := by rw [hin.1]; exact hi
    rw [List.getElem?_eq_getElem hlen] at hy'
    have := hin.2 i hlen
    rw [Option.some.inj hy'] at this
    exact ⟨y, hy, this⟩
  · intro H draw hdraw
    have key : ∀ i, ∃ y, i < b.dim → initIntEntry T (draw i).1 (draw i).2 (b.min i) (b.max i) = .ok y ∧
        b.min i ≤ y ∧ y ≤ b.max i := by
      intro i
      by_cases hi : i < b.dim
      · obtain ⟨hB1, hB2, hB3⟩ := hB i hi
        obtain ⟨y, hy⟩ := (initIntEntry_iff T hT _ _ hB1 hB2 hB3).2 (H i hi) _ _ (hdraw i)
        exact ⟨y, fun _ => hy⟩
      · exact ⟨0, fun h => absurd h hi⟩
    choose f hf using key
    refine ⟨(List.range b.dim).map f, ?_, by simp, ?_⟩
    · unfold initializeInt
      exact mapM_ok _ f _ fun i hi => (hf i (List.mem_range.1 hi)).1
    · intro i hi
      simp only [List.length_map, List.length_range] at hi
      simpa using (hf i hi).2

/-- `int8_t` in `[-100, 27]` is safe although `max + 1 - min` is not an `int8_t`; `[-100, 28]` is not;
`uint32_t` is safe on its whole range; `int` in `[-2^30, 2^30]` is not. -/
example : InitSafe ⟨8, true⟩ (-100) 27 ∧ ¬ InitSafe ⟨8, true⟩ (-100) 28 ∧
    InitSafe ⟨32, false⟩ 0 (2 ^ 32 - 1) ∧ ¬ InitSafe ⟨32, true⟩ (-2 ^ 30) (2 ^ 30) ∧
    TypedBox ⟨8, true⟩ (squareBox 3 (-100) 27) := by
  refine ⟨?_, ?_, ?_, ?_, ?_⟩
  · simp [InitSafe, IntT.hi, IntT.lo]
  · simp [InitSafe, IntT.hi, IntT.lo]
  · simp [InitSafe, IntT.hi, IntT.lo]
  · simp [InitSafe, IntT.hi, IntT.lo]
  · intro i hi; simp [squareBox, IntT.hi, IntT.lo]

/-- The full range of a type narrower than `int` is "safe" only because nothing is drawn: the value is
the lower bound for every draw. -/
theorem initialize_full_narrow_stuck (T : IntT) (hT : MachineInt T) (hn : T.bits < 32) (t m : Nat)
    (hf : FloatDraw (t, m)) (mn : Int) (h1 : T.lo ≤ mn) (h2 : mn ≤ T.lo + 1) :
    initIntEntry T t m mn T.hi = .ok mn := by
  have hb := hT.one_le
  have hhi := T.hi_pos hT
  have hl := T.lo_nonpos
  unfold initIntEntry
  rw [show T.arith (1 + T.hi) = .ok (1 + T.hi) from if_pos hn, Out.ok_bind,
    show 1 + T.hi = T.hi + 1 by omega, T.conv_above hb]
  exact randIdxT_stuck T hb hn t m hf mn T.lo h1 h2 h1 (by omega)

example : MachineInt ⟨16, true⟩ ∧ initIntEntry ⟨16, true⟩ 24 (2 ^ 23) (-2 ^ 15) (2 ^ 15 - 1) = .ok (-2 ^ 15) :=
  ⟨.inr (.inl rfl), by decide +kernel⟩

/-! ## The symbol mutation -/

private theorem up_branch {κ : Type} [Field κ] [LinearOrder κ] [IsStrictOrderedRing κ] (L G : Nat) (u : κ)
    (h0 : 0 ≤ u) (h1 : u < 1) (h : ¬ u * ((L : κ) + (G : κ)) ≤ (L : κ)) : 1 ≤ G := by
  by_contra hG
  have : G = 0 := by omega
  subst this
  apply h
  rw [Nat.cast_zero, add_zero]
  calc u * (L : κ) ≤ 1 * L := mul_le_mul_of_nonneg_right h1.le (Nat.cast_nonneg L)
    _ = L := one_mul _

private theorem up_exists {κ : Type} [Field κ] [LinearOrder κ] [IsStrictOrderedRing κ] (L G : Nat)
    (hG : 1 ≤ G) : ∃ u : κ, 0 ≤ u ∧ u < 1 ∧ ¬ u * ((L : κ) + (G : κ)) ≤ (L : κ) := by
  have hL : (0 : κ) ≤ L := Nat.cast_nonneg L
  have hG' : (1 : κ) ≤ G := by exact_mod_cast hG
  have hs : (0 : κ) < 2 * (L + G) := by linarith
  refine ⟨(2 * L + G) / (2 * (L + G)), div_nonneg (by linarith) hs.le, ?_, ?_⟩
  · rw [div_lt_one hs]; linarith
  · rw [not_le, div_mul_eq_mul_div, lt_div_iff₀ hs]
    nlinarith

private theorem symStep {κ : Type} [Field κ] [LinearOrder κ] [IsStrictOrderedRing κ] (T : IntT)
    (hT : MachineInt T) (b : Box Int) (v : List Int) (hv : InBox b v) (idx : Nat) (hi : idx < v.length)
    (hlo : T.lo ≤ b.min idx) (hhi : b.max idx ≤ T.hi) (u : κ) (t m : Nat)
    (hs : ¬ (T.signed = true ∧ 32 ≤ T.bits) ∨ b.max idx - b.min idx ≤ T.hi) :
    symbolMutateT T b v idx u t m =
      if u * (((v[idx] - b.min idx).toNat : κ) + ((b.max idx - v[idx]).toNat : κ)) ≤
          ((v[idx] - b.min idx).toNat : κ) then (do
        let y ← randIdxT T t m (b.min idx) v[idx]
        .ok (v.set idx y))
      else (do
        let lo ← T.arith (v[idx] + 1)
        let hi ← T.arith (b.max idx + 1)
        let y ← randIdxT T t m (T.conv lo) (T.conv hi)
        .ok (v.set idx y)) := by
  have hb := hT.one_le
  obtain ⟨h1, h2⟩ := hv.2 idx hi
  have h64 : T.bits ≤ 64 := by rcases hT with h | h | h | h <;> omega
  have hl := T.hi_lt h64
  have hlh := T.lo_hi hb
  have hl0 := T.lo_nonpos
  have hw : (2 : Int) ^ T.bits ≤ 2 ^ 64 := pow_le_pow_right₀ (by norm_num) h64
  have har : ∀ d, 0 ≤ d → d ≤ b.max idx - b.min idx → T.arith d = .ok d := by
    intro d hd0 hd1
    by_cases hn : T.bits < 32
    · exact if_pos hn
    · rcases hs with hs | hs
      · cases hsg : T.signed
        · have hlo0 : T.lo = 0 := by unfold IntT.lo; rw [hsg]; simp
          exact T.arith_id hb _ (by omega) (by omega)
        · exact absurd ⟨hsg, by omega⟩ hs
      · exact T.arith_id hb _ (by omega) (by omega)
  unfold symbolMutateT
  rw [List.getElem?_eq_getElem hi]
  simp only
  generalize v[idx] = x at *
  rw [har _ (by omega) (by omega), Out.ok_bind, har _ (by omega) (by omega), Out.ok_bind,
    Int.emod_eq_of_lt (by omega) (by omega), Int.emod_eq_of_lt (by omega) (by omega)]

/-- **C43** (bounded integer types, exactly).  For every integer type and every box with bounds of that
type: "the symbol mutation of every point of the box, in every coordinate and for every draw, is defined
and gives a point of the box" holds if and only if every coordinate's range is safe. -/
theorem symbolMutate_int_iff {κ : Type} [Field κ] [LinearOrder κ] [IsStrictOrderedRing κ] (T : IntT)
    (hT : MachineInt T) (b : Box Int) (hB : TypedBox T b) :
    (∀ v, InBox b v → ∀ idx, idx < b.dim → ∀ u : κ, 0 ≤ u → u < 1 → ∀ t m, FloatDraw (t, m) →
      ∃ w, symbolMutateT T b v idx u t m = .ok w ∧ InBox b w) ↔
    ∀ i, i < b.dim → SymbolSafe T (b.min i) (b.max i) := by
  have hb := hT.one_le
  have hl0 := T.lo_nonpos
  have hlh := T.lo_hi hb
  have hhi := T.hi_pos hT
  have hd0 : FloatDraw (24, 0) := ⟨le_rfl, by norm_num, by decide +kernel⟩
  have hmem : ∀ f : Nat → Int, (∀ j, j < b.dim → b.min j ≤ f j ∧ f j ≤ b.max j) →
      InBox b ((List.range b.dim).map f) := by
    intro f hf
    refine ⟨by simp, fun j hj => ?_⟩
    simp only [List.length_map, List.length_range] at hj
    simpa using hf j hj
  constructor
  · intro H i hi
    by_contra hcon
    unfold SymbolSafe at hcon
    rw [not_or] at hcon
    obtain ⟨hne, hcon⟩ := hcon
    obtain ⟨hB1, hB2, hB3⟩ := hB i hi
    -- points of the box
    have hvm := hmem b.max fun j hj => ⟨(hB j hj).2.1, le_rfl⟩
    have hlm : i < ((List.range b.dim).map b.max).length := by simpa using hi
    have hgm : ((List.range b.dim).map b.max)[i] = b.max i := by simp
    have hvn := hmem (fun j => if j = i then b.max i - 1 else b.min j) fun j hj => by
      split
      · rename_i h; subst h; constructor <;> omega
      · exact ⟨le_rfl, (hB j hj).2.1⟩
    have hln : i < ((List.range b.dim).map fun j => if j = i then b.max i - 1 else b.min j).length := by
      simpa using hi
    have hgn : ((List.range b.dim).map fun j => if j = i then b.max i - 1 else b.min j)[i] = b.max i - 1 := by
      simp
    by_cases hn : T.bits < 32
    · rw [if_pos hn] at hcon
      have hn16 : T.bits ≤ 16 := by rcases hT with h | h | h | h <;> omega
      have hw : (2 : Int) ^ T.bits ≤ 2 ^ 16 := pow_le_pow_right₀ (by norm_num) hn16
      have hnr : ∀ x, T.arith x = .ok x := fun x => if_pos hn
      by_cases hmx : b.max i = T.hi
      · -- going up from max - 1
        obtain ⟨u, hu0, hu1, hu⟩ := up_exists (κ := κ) (b.max i - 1 - b.min i).toNat
          (b.max i - (b.max i - 1)).toNat (by omega)
        obtain ⟨t, m, hf, h | h⟩ := randIdxT_down T hb hn16 T.hi T.lo (by omega) (by omega) le_rfl le_rfl
        · obtain ⟨w, hw, -⟩ := H _ hvn i hi u hu0 hu1 t m hf
          rw [symStep T hT b _ hvn i hln hB1 hB3 u t m (.inl (by omega)), hgn, if_neg hu, hnr, Out.ok_bind,
            hnr, Out.ok_bind, hmx, T.conv_above hb, show T.hi - 1 + 1 = T.hi by omega,
            T.conv_id hb _ (by omega) le_rfl, h.2] at hw
          cases hw
        · omega
      · -- going down from max
        have hd : ¬ b.max i - b.min i - 1 ≤ T.hi := fun h => hcon ⟨by omega, h⟩
        obtain ⟨t, m, hf, h⟩ := randIdxT_wide_ub T hn16 (b.min i) (b.max i) (by omega) (by omega) (by omega)
        obtain ⟨w, hw, -⟩ := H _ hvm i hi 0 le_rfl zero_lt_one t m hf
        rw [symStep T hT b _ hvm i hlm hB1 hB3 0 t m (.inl (by omega)), hgm,
          if_pos (by rw [zero_mul]; exact Nat.cast_nonneg _), h] at hw
        cases hw
    · rw [if_neg hn] at hcon
      rw [Classical.not_imp] at hcon
      obtain ⟨hs, hcon⟩ := hcon
      have har : ∀ x, ¬ (T.lo ≤ x ∧ x ≤ T.hi) → T.arith x = .ub := fun x hx => by
        unfold IntT.arith; rw [if_neg hn, hs, if_pos rfl, if_neg hx]
      by_cases hd : b.max i - b.min i ≤ T.hi
      · have hmx : b.max i = T.hi := by by_contra h; exact hcon ⟨by omega, hd⟩
        obtain ⟨u, hu0, hu1, hu⟩ := up_exists (κ := κ) (b.max i - 1 - b.min i).toNat
          (b.max i - (b.max i - 1)).toNat (by omega)
        obtain ⟨w, hw, -⟩ := H _ hvn i hi u hu0 hu1 24 0 hd0
        rw [symStep T hT b _ hvn i hln hB1 hB3 u 24 0 (.inr hd), hgn, if_neg hu,
          T.arith_id hb _ (by omega) (by omega), Out.ok_bind, har _ (by omega)] at hw
        cases hw
      · obtain ⟨w, hw, -⟩ := H _ hvm i hi 0 le_rfl zero_lt_one 24 0 hd0
        unfold symbolMutateT at hw
        rw [List.getElem?_eq_getElem hlm, hgm] at hw
        simp only at hw
        rw [har _ (by omega)] at hw
        cases hw
  · intro H v hv idx hi u hu0 hu1 t m hf
    have hlen : idx < v.length := by rw [hv.1]; exact hi
    obtain ⟨hB1, hB2, hB3⟩ := hB idx hi
    obtain ⟨hx1, hx2⟩ := hv.2 idx hlen
    have hS := H idx hi
    unfold SymbolSafe at hS
    have hside : ¬ (T.signed = true ∧ 32 ≤ T.bits) ∨ b.max idx - b.min idx ≤ T.hi := by
      by_cases h : T.signed = true ∧ 32 ≤ T.bits
      · right
        rcases hS with hS | hS
        · omega
        · rw [if_neg (by omega)] at hS
          exact (hS h.1).2
      · exact .inl h
    have harx : ∀ d, 0 ≤ d → d ≤ b.max idx - b.min idx → T.arith d = .ok d := by
      intro d hd0 hd1
      by_cases hn : T.bits < 32
      · exact if_pos hn
      · rcases hside with hs | hs
        · cases hsg : T.signed
          · have hlo0 : T.lo = 0 := by unfold IntT.lo; rw [hsg]; simp
            exact T.arith_id hb _ (by omega) (by omega)
          · exact absurd ⟨hsg, by omega⟩ hs
        · exact T.arith_id hb _ (by omega) (by omega)
    have hwid : b.max idx - b.min idx - 1 ≤ T.hi := by
      rcases hS with hS | hS
      · omega
      · by_cases hn : T.bits < 32
        · rw [if_pos hn] at hS; exact hS.2
        · rw [if_neg hn] at hS
          cases hsg : T.signed
          · have hlo0 : T.lo = 0 := by unfold IntT.lo; rw [hsg]; simp
            omega
          · have := (hS hsg).2; omega
    rw [symStep T hT b v hv idx hlen hB1 hB3 u t m hside]
    have fin : ∀ o : Out Int, (∃ y, o = .ok y ∧ b.min idx ≤ y ∧ y ≤ b.max idx) →
        ∃ w, (do let y ← o; .ok (v.set idx y) : Out (List Int)) = .ok w ∧ InBox b w := by
      rintro o ⟨y, rfl, h1, h2⟩
      exact ⟨_, rfl, set_in_box b v hv idx y ⟨h1, h2⟩⟩
    split
    · apply fin
      obtain ⟨y, hy, hy1, hy2⟩ := randIdxT_up T hb t m hf (b.min idx) v[idx] (v[idx] - b.min idx)
        (harx _ (by omega) (by omega)) (by omega) (by omega) hB1 (by omega) (by omega)
      exact ⟨y, hy, hy1, by omega⟩
    · rename_i hup
      have hG := up_branch _ _ u hu0 hu1 hup
      have hlt : v[idx] < b.max idx := by omega
      rw [T.arith_id hb _ (by omega) (by omega), Out.ok_bind, T.conv_id hb _ (by omega) (by omega)]
      have hS := hS.resolve_left (by omega)
      by_cases hmx : b.max idx = T.hi
      · -- only wide unsigned types get here
        by_cases hn : T.bits < 32
        · rw [if_pos hn] at hS; omega
        rw [if_neg hn] at hS
        have hsg : T.signed = false := by
          cases hsg : T.signed
          · rfl
          · have := (hS hsg).1; omega
        have hlo0 : T.lo = 0 := by unfold IntT.lo; rw [hsg]; simp
        have har : ∀ x, T.arith x = .ok (T.conv x) := fun x => by
          unfold IntT.arith; rw [if_neg hn, hsg]; simp
        rw [har, Out.ok_bind, hmx, T.conv_above hb, T.conv_id hb _ le_rfl (by omega), hlo0]
        apply fin
        obtain ⟨y, hy, hy1, hy2⟩ := randIdxT_up T hb t m hf (v[idx] + 1) 0 (T.hi - v[idx])
          (by
            rw [har]
            congr 1
            unfold IntT.conv
            rw [hlo0, ← Int.add_emod_right, ← hlh, Int.emod_eq_of_lt (by omega) (by omega)]
            omega)
          (by omega) (by omega) (by omega) (by omega) (by omega)
        exact ⟨y, hy, by omega, by omega⟩
      · rw [T.arith_id hb _ (by omega) (by omega), Out.ok_bind, T.conv_id hb _ (by omega) (by omega)]
        apply fin
        obtain ⟨y, hy, hy1, hy2⟩ := randIdxT_up T hb t m hf (v[idx] + 1) (b.max idx + 1)
          (b.max idx + 1 - (v[idx] + 1))
          (by rw [show b.max idx + 1 - (v[idx] + 1) = b.max idx - v[idx] by omega]
              exact harx _ (by omega) (by omega))
          (by omega) (by omega) (by omega) (by omega) (by omega)
        exact ⟨y, hy, by omega, by omega⟩

example : SymbolSafe ⟨8, true⟩ (-100) 28 ∧ ¬ SymbolSafe ⟨8, true⟩ (-100) 29 ∧
    SymbolSafe ⟨32, false⟩ 0 (2 ^ 32 - 1) ∧ ¬ SymbolSafe ⟨8, false⟩ 0 255 ∧ SymbolSafe ⟨8, false⟩ 255 255 := by
  refine ⟨?_, ?_, ?_, ?_, ?_⟩ <;> simp [SymbolSafe, IntT.hi, IntT.lo]

end Heu
