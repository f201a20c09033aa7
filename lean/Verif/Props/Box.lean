import Verif.Spec.Box
import Verif.Props.Maths
import Verif.Lemmas.IEEERound
import Mathlib.Algebra.Order.Ring.Rat
import Mathlib.Algebra.Order.Field.Rat
import Mathlib.Algebra.Order.Group.Abs
import Mathlib.Tactic.Linarith
import Mathlib.Tactic.Ring
import Mathlib.Tactic.FieldSimp
import Mathlib.Tactic.NormNum

set_option linter.unusedSimpArgs false
set_option linter.unusedVariables false
set_option linter.unnecessarySimpa false

/-!
# Properties C38 - C43: boxes and the default GA operators
-/

namespace Heu

open Spec

/-! ## Integer types -/

theorem IntT.conv_id (T : IntT) (hb : 1 ≤ T.bits) (x : Int) (h1 : T.lo ≤ x) (h2 : x ≤ T.hi) :
    T.conv x = x := by
  obtain ⟨bits, signed⟩ := T
  obtain ⟨n, rfl⟩ : ∃ n, bits = n + 1 := ⟨bits - 1, by simp at hb; omega⟩
  have e : (2 : Int) ^ (n + 1) = 2 * 2 ^ n := by rw [pow_succ]; ring
  unfold IntT.conv
  unfold IntT.lo at h1 ⊢
  unfold IntT.hi at h2
  cases signed
  · simp only [Nat.add_sub_cancel] at h1 h2 ⊢
    simp only [e, Bool.false_eq_true, if_false] at h1 h2 ⊢
    rw [Int.emod_eq_of_lt (by omega) (by omega)]; omega
  · simp only [Nat.add_sub_cancel] at h1 h2 ⊢
    simp only [e, if_true] at h1 h2 ⊢
    rw [Int.emod_eq_of_lt (by omega) (by omega)]; omega

theorem IntT.arith_id (T : IntT) (hb : 1 ≤ T.bits) (x : Int) (h1 : T.lo ≤ x) (h2 : x ≤ T.hi) :
    T.arith x = .ok x := by
  unfold IntT.arith
  rw [T.conv_id hb x h1 h2]
  split
  · rfl
  · split
    · rw [if_pos ⟨h1, h2⟩]
    · rfl

theorem IntT.lo_nonpos (T : IntT) : T.lo ≤ 0 := by
  unfold IntT.lo; split
  · have : (0 : Int) ≤ 2 ^ (T.bits - 1) := by positivity
    omega
  · exact le_rfl

/-! ## C38 -/

/-- One integer entry, every draw: when `max + 1` and `max + 1 - min` are representable, the drawn
value is defined and equals the mathematical `randIdx(min, max + 1)`. -/
theorem initIntEntry_eq (T : IntT) (hb : 1 ≤ T.bits) (t m : Nat) (mn mx : Int) (ht : 24 ≤ t)
    (hm : m < 2 ^ t) (hrep : roundF32 m = m) (hlo : T.lo ≤ mn) (hle : mn ≤ mx) (hhi : mx + 1 ≤ T.hi)
    (hd : mx + 1 - mn ≤ T.hi) :
    initIntEntry T t m mn mx = .ok (randIdxRangeF32 t m mn (mx + 1)) := by
  have hr := randIdx_range_in_range t m mn (mx + 1) ht hm hrep (by omega)
  have h0 := T.lo_nonpos
  unfold initIntEntry randIdxT
  rw [T.arith_id hb _ (by omega) (by omega)]
  simp only [Out.ok_bind]
  rw [T.conv_id hb _ (by omega) (by omega), T.arith_id hb _ (by omega) (by omega)]
  simp only [Out.ok_bind]
  have e : (1 + mx - mn).natAbs = (mx + 1 - mn).toNat := by omega
  rw [if_pos (show 0 ≤ 1 + mx - mn by omega), e]
  unfold randIdxRangeF32 at hr ⊢
  rw [if_pos (by omega), T.arith_id hb _ (by omega) (by omega)]
  simp only [Out.ok_bind]
  rw [T.conv_id hb _ (by omega) (by omega)]

instance : LawfulMonad Out := LawfulMonad.mk'
  (id_map := by intro α x; cases x <;> rfl)
  (pure_bind := by intro α β x f; rfl)
  (bind_assoc := by intro α β γ x f g; cases x <;> rfl)

theorem mapM_ok {α β : Type} (f : α → Out β) (g : α → β) (l : List α) (h : ∀ a ∈ l, f a = .ok (g a)) :
    l.mapM f = .ok (l.map g) := by
  induction l with
  | nil => rfl
  | cons a l ih =>
    rw [List.mapM_cons, h a (by simp)]
    simp only [Out.ok_bind]
    rw [ih fun x hx => h x (by simp [hx])]
    rfl

/-- **C38** (integers, in the box).  For every integer scalar type, every box whose bounds satisfy
`min ≤ max` with `max + 1` and `max + 1 - min` representable in the type, and every sequence of float
draws, `initialize` is defined and yields a point of the box. -/
theorem initialize_int_in_box_partial (T : IntT) (hb : 1 ≤ T.bits) (b : Box Int) (draw : Nat → Nat × Nat)
    (hdraw : ∀ i, FloatDraw (draw i)) (hne : NonEmptyBox b) (hlo : ∀ i, i < b.dim → T.lo ≤ b.min i)
    (hhi : ∀ i, i < b.dim → b.max i + 1 ≤ T.hi)
    (hd : ∀ i, i < b.dim → b.max i + 1 - b.min i ≤ T.hi) :
    ∃ v, initializeInt T b draw = .ok v ∧ InBox b v := by
  refine ⟨(List.range b.dim).map fun i =>
    randIdxRangeF32 (draw i).1 (draw i).2 (b.min i) (b.max i + 1), ?_, ?_⟩
  · unfold initializeInt
    apply mapM_ok
    intro i hi
    have hi := List.mem_range.1 hi
    obtain ⟨h1, h2, h3⟩ := hdraw i
    exact initIntEntry_eq T hb _ _ _ _ h1 h2 h3 (hlo i hi) (hne i hi) (hhi i hi) (hd i hi)
  · refine ⟨by simp, ?_⟩
    intro i hi
    simp only [List.length_map, List.length_range] at hi
    obtain ⟨h1, h2, h3⟩ := hdraw i
    have hn := hne i hi
    have := randIdx_range_in_range (draw i).1 (draw i).2 (b.min i) (b.max i + 1) h1 h2 h3 (by omega)
    simp only [List.getElem_map, List.getElem_range]
    omega

/-- `uint8_t` pixels `[0, 254]`, and `int` values `[-1000, 1000]`. -/
example : (initializeInt ⟨8, false⟩ (squareBox 2 0 254) fun i => (24, i * 2 ^ 23)) = .ok [0, 127] ∧
    (initializeInt ⟨32, true⟩ (squareBox 2 (-1000) 1000) fun i => (24, i * 2 ^ 23)) = .ok [-1000, 0] := by
  decide +kernel

/-- **C38** (integers, every value).  If moreover no range has more than `2^23` values, every integer
point of the box is the result of some draws. -/
theorem initialize_int_reaches_partial (T : IntT) (hb : 1 ≤ T.bits) (b : Box Int)
    (hlo : ∀ i, i < b.dim → T.lo ≤ b.min i)
    (hhi : ∀ i, i < b.dim → b.max i + 1 ≤ T.hi)
    (hd : ∀ i, i < b.dim → b.max i + 1 - b.min i ≤ T.hi)
    (hsmall : ∀ i, i < b.dim → b.max i + 1 - b.min i ≤ 2 ^ 23) (v : List Int) (hv : InBox b v) :
    ∃ draw : Nat → Nat × Nat, (∀ i, FloatDraw (draw i)) ∧ initializeInt T b draw = .ok v := by
  have key : ∀ i, ∃ d : Nat × Nat, FloatDraw d ∧
      ∀ h : i < v.length, initIntEntry T d.1 d.2 (b.min i) (b.max i) = .ok v[i] := by
    intro i
    by_cases h : i < v.length
    · have hi : i < b.dim := hv.1 ▸ h
      obtain ⟨hv1, hv2⟩ := hv.2 i h
      obtain ⟨m, hm, hrep, he⟩ := randIdx_reaches (b.min i) (b.max i + 1) (hsmall i hi) v[i] hv1 (by omega)
      refine ⟨(24, m), ⟨le_rfl, hm, hrep⟩, fun _ => ?_⟩
      rw [initIntEntry_eq T hb 24 m _ _ le_rfl hm hrep (hlo i hi) (by omega) (hhi i hi) (hd i hi), he]
    · exact ⟨(24, 0), ⟨le_rfl, by norm_num, by decide +kernel⟩, fun h' => absurd h' h⟩
  choose draw h1 h2 using key
  refine ⟨draw, h1, ?_⟩
  unfold initializeInt
  rw [mapM_ok _ (fun i => v.getD i 0)]
  · congr 1
    apply List.ext_getElem
    · simp [hv.1]
    · intro i h h'
      simp only [List.getElem_map, List.getElem_range]
      simp [List.getD, h']
  · intro i hi
    have hi : i < v.length := by rw [hv.1]; exact List.mem_range.1 hi
    rw [h2 i hi]
    simp [List.getD, hi]

example : InBox (squareBox 2 (-3 : Int) 5) [-3, 5] := by
  refine ⟨rfl, ?_⟩
  intro i hi
  match i with
  | 0 => show (-3 : Int) ≤ -3 ∧ (-3 : Int) ≤ 5; decide
  | 1 => show (-3 : Int) ≤ 5 ∧ (5 : Int) ≤ 5; decide
  | i + 2 => simp at hi

/-- The side condition on the bounds is needed.  Full-range `uint8_t` pixels `[0, 255]`: `1 + max`
converts to `0`, the range is empty and every draw gives 0. -/
theorem initialize_uint8_full_range_stuck (t m : Nat) : initIntEntry ⟨8, false⟩ t m 0 255 = .ok 0 := by
  have h : roundF32 0 = 0 := by decide +kernel
  have h0 : randIdxF32 t m 0 = 0 := by
    unfold randIdxF32
    rw [h, Nat.mul_zero, h, Nat.zero_div]
  have e1 : IntT.arith ⟨8, false⟩ (1 + 255) = .ok 256 := by decide
  have e2 : IntT.conv ⟨8, false⟩ 256 = 0 := by decide
  have e3 : IntT.arith ⟨8, false⟩ (0 - 0) = .ok 0 := by decide
  have e4 : IntT.lo ⟨8, false⟩ ≤ 0 ∧ 0 ≤ IntT.hi ⟨8, false⟩ := by decide
  have e5 : IntT.arith ⟨8, false⟩ 0 = .ok 0 := by decide
  have e6 : IntT.conv ⟨8, false⟩ 0 = 0 := by decide
  unfold initIntEntry randIdxT
  rw [e1]; simp only [Out.ok_bind]
  rw [e2, e3]; simp only [Out.ok_bind]
  simp only [le_refl, if_true, Int.natAbs_zero, h0, Nat.cast_zero, e4, and_self, add_zero, e5,
    Out.ok_bind, e6]

/-- For `int` with `max = INT_MAX` the sum `1 + max` overflows: undefined behaviour. -/
theorem initialize_int_max_ub (t m : Nat) (mn : Int) : initIntEntry ⟨32, true⟩ t m mn (2 ^ 31 - 1) = .ub := by
  have e1 : IntT.arith ⟨32, true⟩ (1 + (2 ^ 31 - 1)) = .ub := by decide
  unfold initIntEntry
  rw [e1]; rfl

/-- For `int8_t` in `[-128, 100]` the conversion of the product to `int8_t` can be undefined. -/
theorem initialize_int8_wide_ub : initIntEntry ⟨8, true⟩ 24 (2 ^ 24 - 1) (-128) 100 = .ub := by
  decide +kernel

/-- **C38** (`bool`).  Both values occur, in every combination. -/
theorem initialize_bool_reaches (v : List Bool) :
    ∃ draw : Nat → Nat × Nat, (∀ i, FloatDraw (draw i)) ∧ initializeBool v.length draw = v := by
  refine ⟨fun i => if v.getD i false then (24, 0) else (24, 2 ^ 23), ?_, ?_⟩
  · intro i
    dsimp only
    split
    · exact ⟨le_rfl, by norm_num, by decide +kernel⟩
    · exact ⟨le_rfl, by norm_num, by decide +kernel⟩
  · have e1 : (randIdxF32 24 0 2 == 0) = true := by decide +kernel
    have e2 : (randIdxF32 24 (2 ^ 23) 2 == 0) = false := by decide +kernel
    unfold initializeBool
    apply List.ext_getElem
    · simp
    · intro i h h'
      simp only [List.getElem_map, List.getElem_range]
      have hg : v.getD i false = v[i] := by simp [List.getD, h']
      rw [hg]
      cases hvi : v[i]
      · simpa using e2
      · simpa using e1

example : initializeBool 2 (fun i => (24, i * 2 ^ 23)) = [true, false] := by decide +kernel

section real
variable {α : Type} [Field α] [LinearOrder α] [IsStrictOrderedRing α]

/-- **C38** (reals, exact arithmetic).  Every draw in `[0,1)` gives a point of the box. -/
theorem initialize_real_in_box (b : Box α) (u : Nat → α) (hu : ∀ i, 0 ≤ u i ∧ u i < 1)
    (hne : NonEmptyBox b) : InBox b (initializeReal b u) := by
  unfold initializeReal
  refine ⟨by simp, ?_⟩
  intro i hi
  simp only [List.length_map, List.length_range] at hi
  simp only [List.getElem_map, List.getElem_range, randDRange]
  have h := hne i hi
  have h1 : 0 ≤ (b.max i - b.min i) * u i := mul_nonneg (by linarith) (hu i).1
  have h2 : (b.max i - b.min i) * u i ≤ (b.max i - b.min i) * 1 :=
    mul_le_mul_of_nonneg_left (hu i).2.le (by linarith)
  constructor <;> linarith

example : initializeReal (squareBox 2 (-1 : ℚ) 3) (fun i => i / 2) = [-1, 1] := by decide +kernel

end real

/-- `randD(min,max)` in IEEE arithmetic (`double` and `float`): for all finite `min ≤ max` whose
difference does not overflow and every floating-point draw in `[0,1)`, the rounded result is finite and
in the *closed* range. -/
theorem randD_ieee_in_range (F : Fmt) (hF : F.Good) (u mn mx : Fl) (hu : u.Finite F) (hmn : mn.Finite F)
    (hmx : mx.Finite F) (hu0 : (Fl.ofNat F 0).le u = true) (hu1 : u.lt (Fl.ofNat F 1) = true)
    (hle : mn.le mx = true) (hov : (mx.sub F mn).Finite F) :
    (randDRangeFl F u mn mx).Finite F ∧ mn.le (randDRangeFl F u mn mx) = true ∧
      (randDRangeFl F u mn mx).le mx = true := by
  obtain ⟨su, w, rfl, hwrep, hwt⟩ := hu
  obtain ⟨s1, n1, rfl, h1rep, h1t⟩ := hmn
  obtain ⟨s2, n2, rfl, h2rep, h2t⟩ := hmx
  simp only [Fl.ofNat, Fl.le, Fl.lt, decide_eq_true_eq, Nat.zero_mul, Nat.one_mul] at hu0 hu1 hle
  -- the draw is non-negative (a zero may carry a sign)
  have hwlt : w < 2 ^ F.one := by
    cases su
    · simp only [Fl.units, Bool.false_eq_true, if_false] at hu1
      exact_mod_cast hu1
    · simp only [Fl.units, Bool.false_eq_true, if_false, if_true] at hu0
      have : w = 0 := by omega
      subst this; positivity
  have hsu : su = false ∨ w = 0 := by
    cases su
    · exact .inl rfl
    · right
      simp only [Fl.units, Bool.false_eq_true, if_false, if_true] at hu0
      omega
  have hone : F.mb + 1 ≤ F.one := by
    have := hF.one_eq; have := hF.wide; have := hF.mb9; omega
  -- the difference
  obtain ⟨D, hD⟩ : ∃ D : Nat, (D : Int) = Fl.units s2 n2 - Fl.units s1 n1 :=
    ⟨(Fl.units s2 n2 - Fl.units s1 n1).toNat, by omega⟩
  have hunits : Fl.units (!s1) n1 = - Fl.units s1 n1 := by cases s1 <;> simp [Fl.units]
  have hsub : ∃ sd, Fl.sub F (.fin s2 n2) (.fin s1 n1) = .fin sd (rndUnits F.mb D 1) ∧
      (sd = true → D = 0) ∧ rndUnits F.mb D 1 < 2 ^ F.top := by
    unfold Fl.sub at hov ⊢
    simp only [Fl.neg, Fl.add, hunits] at hov ⊢
    have hz : Fl.units s2 n2 + -Fl.units s1 n1 = (D : Int) := by omega
    rw [hz] at hov ⊢
    by_cases h0 : D = 0
    · subst h0
      refine ⟨s2 && !s1, ?_, fun _ => rfl, ?_⟩
      · have : rndUnits F.mb 0 1 = 0 := rndUnits_rep1 ⟨0, 0, by positivity, by simp⟩
        rw [this]; simp
      · have : rndUnits F.mb 0 1 = 0 := rndUnits_rep1 ⟨0, 0, by positivity, by simp⟩
        rw [this]; positivity
    · rw [if_neg (by omega)] at hov ⊢
      have hneg : decide ((D : Int) < 0) = false := by simp
      rw [hneg, Int.natAbs_natCast] at hov ⊢
      have hfin : rndUnits F.mb D 1 < 2 ^ F.top := by
        by_contra hcon
        obtain ⟨s, n, he, -, -⟩ := hov
        unfold Fl.mk at he
        rw [if_pos (by omega)] at he
        cases he
      exact ⟨false, mk_ok hfin, by simp, hfin⟩
  obtain ⟨sd, hse, hsd, hdt⟩ := hsub
  -- the product
  obtain ⟨x, hx⟩ : ∃ x, x = rndUnits F.mb (rndUnits F.mb D 1 * w) (2 ^ F.one) := ⟨_, rfl⟩
  have hxD : x ≤ D := hx ▸ rnd_scaled_le F.mb D w F.one hone hwrep hwlt
  have hxd : x ≤ rndUnits F.mb D 1 := by
    rw [hx]
    exact rndUnits_le _ _ _ (by positivity) (rep_rndUnits _ _ _ one_pos)
      (Nat.mul_le_mul_left _ hwlt.le)
  have hmul : Fl.mul F (.fin sd (rndUnits F.mb D 1)) (.fin su w) = .fin (xor sd su) x := by
    simp only [Fl.mul]
    rw [← hx, mk_ok (by omega)]
  have hx0 : (xor sd su) = true → x = 0 := by
    intro hxs
    have : sd = true ∨ su = true := by
      cases sd <;> cases su <;> simp at hxs ⊢
    rcases this with h | h
    · have := hsd h; omega
    · rcases hsu with h' | h'
      · rw [h] at h'; cases h'
      · rw [hx, h', Nat.mul_zero]
        have : rndUnits F.mb (0 * 2 ^ F.one) (2 ^ F.one) = 0 :=
          rndUnits_rep (by positivity) ⟨0, 0, by positivity, by simp⟩
        simpa using this
  have hux : Fl.units (xor sd su) x = (x : Int) := by
    cases hxs : xor sd su
    · simp [Fl.units]
    · have := hx0 hxs; subst this; simp [Fl.units]
  unfold randDRangeFl
  rw [hse, hmul]
  obtain ⟨s, n, he, hr, ht, hlo, hhi⟩ := add_between (F := F) (s1 := xor sd su) (n1 := x) (s2 := s1)
    (n2 := n1) (sl := s1) (nl := n1) (su := s2) (nu := n2) h1rep h2rep h1t h2t (by rw [hux]; omega)
    (by rw [hux]; omega)
  rw [he]
  exact ⟨⟨s, n, rfl, hr, ht⟩, by simpa [Fl.le] using hlo, by simpa [Fl.le] using hhi⟩

/-- **C38** (`double` and `float`, IEEE arithmetic).  For every box of finite bounds `min ≤ max` whose
differences do not overflow, and all floating-point draws in `[0,1)`, every coordinate of the
initialised point is a finite number between its bounds. -/
theorem initialize_ieee_in_box_partial (F : Fmt) (hF : F.Good) (b : Box Fl) (u : Nat → Fl)
    (hu : ∀ i, (u i).Finite F ∧ (Fl.ofNat F 0).le (u i) = true ∧ (u i).lt (Fl.ofNat F 1) = true)
    (hb : ∀ i, i < b.dim → (b.min i).Finite F ∧ (b.max i).Finite F ∧ (b.min i).le (b.max i) = true ∧
      ((b.max i).sub F (b.min i)).Finite F) :
    (initializeFl F b u).length = b.dim ∧
    ∀ i x, (initializeFl F b u)[i]? = some x →
      x.Finite F ∧ (b.min i).le x = true ∧ x.le (b.max i) = true := by
  refine ⟨by simp [initializeFl], ?_⟩
  intro i x hx
  unfold initializeFl at hx
  rw [List.getElem?_map] at hx
  by_cases hi : i < b.dim
  · rw [List.getElem?_range hi] at hx
    simp only [Option.map_some, Option.some.injEq] at hx
    subst hx
    obtain ⟨h1, h2, h3⟩ := hu i
    obtain ⟨q1, q2, q3, q4⟩ := hb i hi
    exact randD_ieee_in_range F hF (u i) (b.min i) (b.max i) h1 q1 q2 h2 h3 q3 q4
  · rw [List.getElem?_eq_none (by simpa using hi)] at hx
    simp at hx

/-- The hypotheses are met by the box `[1, 2]` of doubles with the largest draw below 1, and the upper
bound itself is then returned: the range is closed, not half open. -/
theorem randD_returns_max :
    randDRangeFl binary64 (.fin false (2 ^ binary64.one - 2 ^ (binary64.one - 53)))
      (Fl.ofNat binary64 1) (Fl.ofNat binary64 2) = Fl.ofNat binary64 2 := by decide +kernel

example : (Fl.fin false (2 ^ binary64.one - 2 ^ (binary64.one - 53))).Finite binary64 ∧
    (Fl.ofNat binary64 0).le (.fin false (2 ^ binary64.one - 2 ^ (binary64.one - 53))) = true ∧
    (Fl.fin false (2 ^ binary64.one - 2 ^ (binary64.one - 53))).lt (Fl.ofNat binary64 1) = true ∧
    (Fl.ofNat binary64 1).Finite binary64 ∧ (Fl.ofNat binary64 2).Finite binary64 ∧
    (Fl.ofNat binary64 1).le (Fl.ofNat binary64 2) = true ∧
    ((Fl.ofNat binary64 2).sub binary64 (Fl.ofNat binary64 1)).Finite binary64 := by
  refine ⟨⟨false, _, rfl, ⟨2 ^ 53 - 1, binary64.one - 53, by decide +kernel, by decide +kernel⟩,
    by decide +kernel⟩, by decide +kernel, by decide +kernel, ⟨false, _, rfl, ⟨1, binary64.one,
    by decide +kernel, by decide +kernel⟩, by decide +kernel⟩, ⟨false, _, rfl, ⟨2, binary64.one,
    by decide +kernel, by decide +kernel⟩, by decide +kernel⟩, by decide +kernel, ?_⟩
  rw [show (Fl.ofNat binary64 2).sub binary64 (Fl.ofNat binary64 1) = Fl.ofNat binary64 1 by
    decide +kernel]
  exact ⟨false, _, rfl, ⟨1, binary64.one, by decide +kernel, by decide +kernel⟩, by decide +kernel⟩

/-- The overflow condition is needed: on the box `[-DBL_MAX, DBL_MAX]` the draw 0 gives NaN and the draw
1/2 gives infinity. -/
theorem randD_overflow :
    let dblMax := Fl.fin false ((2 ^ 53 - 1) * 2 ^ (binary64.top - 53))
    randDRangeFl binary64 (.fin false 0) dblMax.neg dblMax = .nan ∧
    randDRangeFl binary64 (.fin false (2 ^ (binary64.one - 1))) dblMax.neg dblMax = .inf false := by
  decide +kernel

/-! ## C39 -/

section clamp
variable {α : Type} [LinearOrder α]

theorem clampTo_mem (mn mx x : α) (h : mn ≤ mx) : mn ≤ clampTo mn mx x ∧ clampTo mn mx x ≤ mx := by
  unfold clampTo stdMax stdMin
  split <;> split <;> rename_i h1 h2 <;> simp_all [not_lt]

theorem clampTo_id (mn mx x : α) (h1 : mn ≤ x) (h2 : x ≤ mx) : clampTo mn mx x = x := by
  unfold clampTo stdMax stdMin
  rw [if_neg (not_lt.2 h2), if_neg (not_lt.2 h1)]

/-- **C39** (in the box).  On a non-empty box the result is in the box, whatever the point. -/
theorem applyConstraint_in_box (b : Box α) (hne : NonEmptyBox b) (v : List α)
    (hv : v.length = b.dim) : ∃ w, applyConstraint b v = .ok w ∧ InBox b w := by
  refine ⟨_, if_pos hv, ?_, ?_⟩
  · simpa using hv
  · intro i hi
    simp only [List.length_mapIdx] at hi
    simp only [List.getElem_mapIdx]
    exact clampTo_mem _ _ _ (hne i (by omega))

/-- **C39** (points of the box are not moved). -/
theorem applyConstraint_id (b : Box α) (v : List α) (hv : InBox b v) : applyConstraint b v = .ok v := by
  unfold applyConstraint
  rw [if_pos hv.1]
  congr 1
  apply List.ext_getElem
  · simp
  · intro i h1 h2
    simp only [List.getElem_mapIdx]
    exact clampTo_id _ _ _ (hv.2 i h2).1 (hv.2 i h2).2

/-- **C39** (idempotent). -/
theorem applyConstraint_idem (b : Box α) (hne : NonEmptyBox b) (v w : List α)
    (h : applyConstraint b v = .ok w) : applyConstraint b w = .ok w := by
  have hv : v.length = b.dim := by
    by_contra hv
    unfold applyConstraint at h
    rw [if_neg hv] at h
    cases h
  obtain ⟨w', h', hin⟩ := applyConstraint_in_box b hne v hv
  rw [h'] at h
  cases h
  exact applyConstraint_id b w hin

/-- **C39** (one coordinate).  `applyConstraint(v, idx)` puts coordinate `idx` between its bounds and
leaves all others alone. -/
theorem applyConstraintAt_spec (b : Box α) (hne : NonEmptyBox b) (v : List α)
    (hv : v.length = b.dim) (idx : Nat) (hi : idx < b.dim) :
    ∃ w, applyConstraintAt b v idx = .ok w ∧ SameExcept v w idx ∧
      ∀ x, w[idx]? = some x → b.min idx ≤ x ∧ x ≤ b.max idx := by
  refine ⟨_, if_pos ⟨hv, hi⟩, ⟨by simp, ?_⟩, ?_⟩
  · intro i hne'
    simp only [List.getElem?_mapIdx]
    cases h : v[i]? with
    | none => rfl
    | some x => simp [hne']
  · intro x hx
    simp only [List.getElem?_mapIdx, if_true] at hx
    rw [List.getElem?_eq_getElem (by omega)] at hx
    simp only [Option.map_some, Option.some.injEq] at hx
    rw [← hx]
    exact clampTo_mem _ _ _ (hne idx hi)

end clamp

section
variable {α : Type} [Field α] [LinearOrder α] [IsStrictOrderedRing α]

/-- **C39** (nearest point).  In every coordinate no point of the box is nearer to the given point
than the result. -/
theorem applyConstraint_nearest (b : Box α) (hne : NonEmptyBox b) (v w z : List α)
    (h : applyConstraint b v = .ok w) (hz : InBox b z) (i : Nat) (x y c : α) (hx : v[i]? = some x)
    (hy : w[i]? = some y) (hc : z[i]? = some c) : |y - x| ≤ |c - x| := by
  have hv : v.length = b.dim := by
    by_contra hv
    unfold applyConstraint at h
    rw [if_neg hv] at h
    cases h
  unfold applyConstraint at h
  rw [if_pos hv] at h
  cases h
  simp only [List.getElem?_mapIdx, hx, Option.map_some, Option.some.injEq] at hy
  subst hy
  obtain ⟨hi, hc⟩ := List.getElem?_eq_some_iff.1 hc
  obtain ⟨h1, h2⟩ := hz.2 i hi
  rw [hc] at h1 h2
  unfold clampTo stdMax stdMin
  have hmm : b.min i ≤ b.max i := h1.trans h2
  split
  · rename_i hlt
    rw [if_neg (not_lt.2 hmm)]
    rw [abs_of_nonpos (by linarith), abs_of_nonpos (by linarith)]
    linarith
  · rename_i hlt
    split
    · rename_i hlt2
      rw [abs_of_nonneg (by linarith), abs_of_nonneg (by linarith)]
      linarith
    · simp

example : applyConstraint (squareBox 3 (-1 : ℚ) 2) [5, 1 / 2, -7] = .ok [2, 1 / 2, -1] ∧
    NonEmptyBox (squareBox 3 (-1 : ℚ) 2) := by
  refine ⟨by decide +kernel, ?_⟩
  intro i _
  show (-1 : ℚ) ≤ 2
  norm_num

end

/-- The non-emptiness is checked by the square boxes' `setRange` only.  A rectangular box may be set up
with bounds in the wrong order, and `applyConstraint` then leaves the box's upper bound. -/
theorem setRangeRect_unchecked :
    ∃ b : Box ℚ, setRangeRect [2, 0] [1, 5] 0 = .ok b ∧ b.min 0 = 2 ∧ b.max 0 = 1 ∧
      applyConstraint b [0, 0] = .ok [2, 0] := by
  refine ⟨_, rfl, ?_⟩
  decide +kernel

/-- A square box that was set up by `setRange` is not empty. -/
theorem setRangeSquare_nonEmpty {α : Type} [LinearOrder α] (b b' : Box α) (mn mx : α)
    (h : setRangeSquare b mn mx = .ok b') :
    NonEmptyBox b' ∧ b'.dim = b.dim ∧ ∀ i, b'.min i = mn ∧ b'.max i = mx := by
  unfold setRangeSquare at h
  split at h
  · rename_i hlt
    cases h
    exact ⟨fun _ _ => hlt.le, rfl, fun _ => ⟨rfl, rfl⟩⟩
  · cases h

example : setRangeSquare (squareBox 4 (0 : ℚ) 0) (-1) 1 = .ok (squareBox 4 (-1) 1) := by
  unfold setRangeSquare
  rw [if_pos (by norm_num)]
  rfl

/-! ## C40 -/

section delta
variable {α : Type} [LinearOrder α]

theorem set_in_box (b : Box α) (v : List α) (hv : InBox b v) (idx : Nat) (y : α)
    (h : b.min idx ≤ y ∧ y ≤ b.max idx) : InBox b (v.set idx y) := by
  refine ⟨by simpa using hv.1, ?_⟩
  intro i hi
  simp only [List.length_set] at hi
  rw [List.getElem_set]
  split
  · rename_i h'; subst h'; exact h
  · exact hv.2 i hi

omit [LinearOrder α] in
theorem set_same (v : List α) (idx : Nat) (y : α) : SameExcept v (v.set idx y) idx := by
  refine ⟨by simp, ?_⟩
  intro i hi
  rw [List.getElem?_set_ne (Ne.symm hi)]

end delta

/-- **C40** (integers).  A step of an integer box, when `min - 1` and `max + 1` are representable in the
scalar type: defined for every drawn index, the result is in the box, only the drawn coordinate can
differ and it moves by at most one. -/
theorem applyDelta_int_partial (T : IntT) (hb : 1 ≤ T.bits) (b : Box Int) (v : List Int) (hv : InBox b v)
    (idx : Nat) (hi : idx < b.dim) (up : Bool) (hlo : T.lo ≤ b.min idx - 1)
    (hhi : b.max idx + 1 ≤ T.hi) :
    ∃ w x y, applyDeltaInt T b v idx up = .ok w ∧ InBox b w ∧ SameExcept v w idx ∧
      v[idx]? = some x ∧ w[idx]? = some y ∧ |y - x| ≤ 1 ∧
      (y = x ↔ (up = true ∧ x = b.max idx) ∨ (up = false ∧ x = b.min idx)) := by
  have hi' : idx < v.length := by rw [hv.1]; exact hi
  obtain ⟨h1, h2⟩ := hv.2 idx hi'
  have hs1 : T.lo ≤ v[idx] + (if up then 1 else -1) := by split <;> omega
  have hs2 : v[idx] + (if up then 1 else -1) ≤ T.hi := by split <;> omega
  have hcl := clampTo_mem (b.min idx) (b.max idx) (v[idx] + (if up then 1 else -1)) (h1.trans h2)
  have hcd : |clampTo (b.min idx) (b.max idx) (v[idx] + (if up then 1 else -1)) - v[idx]| ≤ 1 ∧
      (clampTo (b.min idx) (b.max idx) (v[idx] + (if up then 1 else -1)) = v[idx] ↔
        (up = true ∧ v[idx] = b.max idx) ∨ (up = false ∧ v[idx] = b.min idx)) := by
    unfold clampTo stdMax stdMin
    cases up <;> simp only [if_true, if_false, Bool.false_eq_true, abs_le, false_and, true_and,
      or_false, false_or, Bool.true_eq_false] <;> split <;> split <;> omega
  refine ⟨_, v[idx], _, ?_, set_in_box b v hv idx _ hcl, set_same v idx _,
    List.getElem?_eq_getElem hi', ?_, hcd.1, hcd.2⟩
  · unfold applyDeltaInt
    rw [if_pos hv.1, List.getElem?_eq_getElem hi']
    simp only
    rw [T.arith_id hb _ hs1 hs2]
    simp only [Out.ok_bind]
    rw [T.conv_id hb _ hs1 hs2]
  · rw [List.getElem?_set_self hi']

example : applyDeltaInt ⟨32, true⟩ (squareBox 3 0 9) [0, 4, 9] 1 false = .ok [0, 3, 9] ∧
    applyDeltaInt ⟨32, true⟩ (squareBox 3 0 9) [0, 4, 9] 0 false = .ok [0, 4, 9] := by decide +kernel

/-- The condition on the bounds is needed: an unsigned box starting at 0 wraps, so a step *down* from
the lower bound lands on the *upper* bound. -/
theorem applyDelta_unsigned_wraps :
    applyDeltaInt ⟨8, false⟩ (squareBox 2 0 9) [0, 5] 0 false = .ok [9, 5] := by decide +kernel

/-- For `int` at `INT_MAX` a step up is undefined. -/
theorem applyDelta_int_overflow :
    applyDeltaInt ⟨32, true⟩ (squareBox 1 0 (2 ^ 31 - 1)) [2 ^ 31 - 1] 0 true = .ub := by decide +kernel

/-- **C40** (`bool`).  Exactly the drawn coordinate is flipped. -/
theorem applyDelta_bool (v : List Bool) (idx : Nat) (hi : idx < v.length) :
    ∃ w x, applyDeltaBool v.length v idx = .ok w ∧ SameExcept v w idx ∧
      v[idx]? = some x ∧ w[idx]? = some (!x) := by
  refine ⟨v.set idx (!v[idx]), v[idx], ?_, ⟨by simp, ?_⟩, List.getElem?_eq_getElem hi, ?_⟩
  · unfold applyDeltaBool
    rw [if_pos rfl, List.getElem?_eq_getElem hi]
  · intro i hne
    rw [List.getElem?_set_ne (Ne.symm hne)]
  · rw [List.getElem?_set_self hi]

example : applyDeltaBool 2 [true, false] 1 = .ok [true, true] := by decide +kernel

section
variable {α : Type} [Field α] [LinearOrder α] [IsStrictOrderedRing α]

theorem randDRange_pm (u : α) (h0 : 0 ≤ u) (h1 : u < 1) : |randDRange u (-1) 1| ≤ 1 := by
  unfold randDRange
  rw [abs_le]; constructor <;> linarith

theorem clamp_moves_less (mn mx x y : α) (h1 : mn ≤ x) (h2 : x ≤ mx) :
    |clampTo mn mx y - x| ≤ |y - x| := by
  unfold clampTo stdMax stdMin
  split
  · rename_i hlt
    rw [if_neg (not_lt.2 (h1.trans h2))]
    rw [abs_of_nonneg (by linarith), abs_of_nonneg (by linarith)]
    linarith
  · split
    · rename_i hlt
      rw [abs_of_nonpos (by linarith), abs_of_nonpos (by linarith)]
      linarith
    · exact le_rfl

/-- **C40** (continuous boxes with run-time delta).  Every draw gives a point of the box that differs in
the drawn coordinate only, by at most `|delta|`. -/
theorem applyDelta_cont (b : Box α) (delta : Nat → α) (v : List α) (hv : InBox b v) (idx : Nat)
    (hi : idx < b.dim) (u : α) (h0 : 0 ≤ u) (h1 : u < 1) :
    ∃ w x y, applyDeltaCont b delta v idx u = .ok w ∧ InBox b w ∧ SameExcept v w idx ∧
      v[idx]? = some x ∧ w[idx]? = some y ∧ |y - x| ≤ |delta idx| := by
  have hi' : idx < v.length := by rw [hv.1]; exact hi
  obtain ⟨hb1, hb2⟩ := hv.2 idx hi'
  refine ⟨_, v[idx], _, ?_, set_in_box b v hv idx _ (clampTo_mem (b.min idx) (b.max idx)
    (v[idx] + randDRange u (-1) 1 * delta idx) (hb1.trans hb2)), set_same v idx _,
    List.getElem?_eq_getElem hi', List.getElem?_set_self hi', ?_⟩
  · unfold applyDeltaCont
    rw [if_pos hv.1, List.getElem?_eq_getElem hi']
  · refine (clamp_moves_less _ _ _ _ hb1 hb2).trans ?_
    rw [add_sub_cancel_left, abs_mul]
    calc _ ≤ 1 * |delta idx| := mul_le_mul_of_nonneg_right (randDRange_pm u h0 h1) (abs_nonneg _)
      _ = _ := one_mul _

/-- **C40** (reals with the discrete step, used by the compile-time continuous boxes): in the box, one
coordinate, at most 1. -/
theorem applyDelta_unit (b : Box α) (v : List α) (hv : InBox b v) (idx : Nat) (hi : idx < b.dim)
    (up : Bool) :
    ∃ w x y, applyDeltaUnit b v idx up = .ok w ∧ InBox b w ∧ SameExcept v w idx ∧
      v[idx]? = some x ∧ w[idx]? = some y ∧ |y - x| ≤ 1 := by
  have hi' : idx < v.length := by rw [hv.1]; exact hi
  obtain ⟨hb1, hb2⟩ := hv.2 idx hi'
  refine ⟨_, v[idx], _, ?_, set_in_box b v hv idx _ (clampTo_mem (b.min idx) (b.max idx)
    (v[idx] + (if up then 1 else -1)) (hb1.trans hb2)), set_same v idx _,
    List.getElem?_eq_getElem hi', List.getElem?_set_self hi', ?_⟩
  · unfold applyDeltaUnit
    rw [if_pos hv.1, List.getElem?_eq_getElem hi']
  · refine (clamp_moves_less _ _ _ _ hb1 hb2).trans ?_
    rw [add_sub_cancel_left]
    cases up <;> simp

/-- **C40** (Gaussian boxes, no bounds): one coordinate, at most `|delta|`. -/
theorem applyDelta_gauss (delta : α) (v : List α) (idx : Nat) (hi : idx < v.length) (u : α)
    (h0 : 0 ≤ u) (h1 : u < 1) :
    ∃ w x y, applyDeltaGauss v.length delta v idx u = .ok w ∧ SameExcept v w idx ∧
      v[idx]? = some x ∧ w[idx]? = some y ∧ |y - x| ≤ |delta| := by
  refine ⟨_, v[idx], _, ?_, set_same v idx (v[idx] + randDRange u (-1) 1 * delta),
    List.getElem?_eq_getElem hi, List.getElem?_set_self hi, ?_⟩
  · unfold applyDeltaGauss
    rw [if_pos rfl, List.getElem?_eq_getElem hi]
  · rw [add_sub_cancel_left, abs_mul]
    calc _ ≤ 1 * |delta| := mul_le_mul_of_nonneg_right (randDRange_pm u h0 h1) (abs_nonneg _)
      _ = _ := one_mul _

end

example : applyDeltaCont (squareBox 2 (-1 : ℚ) 1) (fun _ => 1 / 2) [0, 1] 0 (3 / 4) = .ok [1 / 4, 1] ∧
    applyDeltaCont (squareBox 2 (-1 : ℚ) 1) (fun _ => 1 / 2) [0, 1] 1 (3 / 4) = .ok [0, 1] := by
  decide +kernel

/-- The delta clause fails for the compile-time continuous boxes: with any configured delta below 1
(here the box `[0,1]`) the coordinate jumps by 1 from bound to bound. -/
theorem applyDelta_fixed_ignores_delta :
    applyDeltaUnit (squareBox 2 (0 : ℚ) 1) [0, 1 / 2] 0 true = .ok [1, 1 / 2] := by decide +kernel

/-! ## C41 -/

section
variable {α : Type} [Field α] [LinearOrder α] [IsStrictOrderedRing α]

/-- **C41** (exact arithmetic).  For parents of equal dimension and `0 ≤ r ≤ 1`, both children have that
dimension, their sum is the parents' sum, each child lies between the parents in each coordinate and
`c1` divides the segment from `p2` to `p1` in the ratio `r`. -/
theorem cFunNd_convex (r : α) (h0 : 0 ≤ r) (h1 : r ≤ 1) (p1 p2 : List α) (h : p1.length = p2.length) :
    ∃ c1 c2, cFunNd r p1 p2 = .ok (c1, c2) ∧ c1.length = p1.length ∧ c2.length = p1.length ∧
      ∀ (i : Nat) (a b x y : α), p1[i]? = some a → p2[i]? = some b → c1[i]? = some x → c2[i]? = some y →
        x + y = a + b ∧ x - b = r * (a - b) ∧
        min a b ≤ x ∧ x ≤ max a b ∧ min a b ≤ y ∧ y ≤ max a b := by
  refine ⟨_, _, if_pos h.le, by simp [h], by simp [h], ?_⟩
  intro i a b x y ha hb hx hy
  simp only [List.getElem?_zipWith, ha, hb, Option.some.injEq] at hx hy
  subst hx; subst hy
  refine ⟨by ring, by ring, ?_, ?_, ?_, ?_⟩ <;> rcases le_total a b with hab | hab <;>
    simp only [min_eq_left hab, min_eq_right hab, max_eq_left hab, max_eq_right hab] <;>
    nlinarith [mul_nonneg h0 (sub_nonneg.2 hab), mul_nonneg (sub_nonneg.2 h1) (sub_nonneg.2 hab)]

/-- **C41** (box membership, exact arithmetic). -/
theorem cFunNd_in_box (b : Box α) (r : α) (h0 : 0 ≤ r) (h1 : r ≤ 1) (p1 p2 : List α)
    (hp1 : InBox b p1) (hp2 : InBox b p2) :
    ∃ c1 c2, cFunNd r p1 p2 = .ok (c1, c2) ∧ InBox b c1 ∧ InBox b c2 := by
  obtain ⟨c1, c2, he, hl1, hl2, hc⟩ := cFunNd_convex r h0 h1 p1 p2 (hp1.1.trans hp2.1.symm)
  refine ⟨c1, c2, he, ⟨hl1.trans hp1.1, ?_⟩, ⟨hl2.trans hp1.1, ?_⟩⟩ <;> intro i hi <;>
  · have i1 : i < p1.length := by omega
    have i2 : i < p2.length := by rw [hp2.1, ← hp1.1]; exact i1
    obtain ⟨-, -, q1, q2, q3, q4⟩ := hc i p1[i] p2[i] c1[i] c2[i] (List.getElem?_eq_getElem _)
      (List.getElem?_eq_getElem _) (List.getElem?_eq_getElem _) (List.getElem?_eq_getElem _)
    obtain ⟨a1, a2⟩ := hp1.2 i i1
    obtain ⟨b1, b2⟩ := hp2.2 i i2
    constructor
    · exact (le_min a1 b1).trans (by assumption)
    · exact le_trans (by assumption) (max_le a2 b2)

end

example : cFunNd (1 / 5 : ℚ) [0, 10] [5, 0] = .ok ([4, 2], [1, 8]) := by decide +kernel

/-- In double arithmetic the convex-combination claim fails.  The default ratio is the double nearest to
1/5; with both parents equal to 3 the child is the next double above 3, so a box with upper bound 3 is
left. -/
theorem cFunNd_double_leaves_box :
    let r := (Fl.ofNat binary64 1).div binary64 (Fl.ofNat binary64 5)
    let three := Fl.ofNat binary64 3
    three.lt (cFunNdEntryFl binary64 r three three) = true := by decide +kernel

/-! ## C42 -/

/-- **C42** (swap).  The children are the parents with the tails from the drawn position on exchanged. -/
theorem cFunSwapNs_exchange {α : Type} (p1 p2 : List α) (h : p1.length = p2.length) (idx : Nat) :
    ∃ c1 c2, cFunSwapNs p1 p2 idx = .ok (c1, c2) ∧ c1.length = p1.length ∧ c2.length = p1.length ∧
      c1 = p1.take idx ++ p2.drop idx ∧ c2 = p2.take idx ++ p1.drop idx := by
  refine ⟨_, _, if_pos h.le, by simp [h], by simp [h], ?_, ?_⟩ <;>
  · apply List.ext_getElem?
    intro i
    simp only [List.getElem?_mapIdx, List.getElem?_zip_eq_some, List.getElem?_append,
      List.length_take, List.getElem?_take, List.getElem?_drop]
    by_cases hi : i < p1.length
    · have hi2 : i < p2.length := h ▸ hi
      have hz : (List.zip p1 p2)[i]? = some (p1[i], p2[i]) := by
        rw [List.getElem?_zip_eq_some]
        exact ⟨List.getElem?_eq_getElem hi, List.getElem?_eq_getElem hi2⟩
      rw [hz]
      simp only [Option.map_some]
      by_cases hx : i < idx
      · rw [if_pos hx, if_pos (by omega), if_pos hx]
        simp [hi, hi2]
      · rw [if_neg hx, if_neg (by omega)]
        rcases Nat.le_total idx p1.length with hl | hl
        · have : idx + (i - min idx p1.length) = i := by omega
          have : idx + (i - min idx p2.length) = i := by omega
          simp [*]
        · omega
    · have hz : (List.zip p1 p2)[i]? = none := by
        rw [List.getElem?_eq_none]; simp; omega
      rw [hz]
      simp only [Option.map_none]
      symm
      split
      · split
        · rw [List.getElem?_eq_none]; omega
        · rfl
      · rw [List.getElem?_eq_none]; omega

/-- **C42** (random).  Each coordinate of each child is a coordinate of one of the parents, at the same
position; which one is decided by that coordinate's own draw. -/
theorem cFunRandNs_coordinates {α κ : Type} [LinearOrder κ] (r : κ) (u w : Nat → κ) (p1 p2 : List α)
    (h : p1.length = p2.length) :
    ∃ c1 c2, cFunRandNs r u w p1 p2 = .ok (c1, c2) ∧ c1.length = p1.length ∧ c2.length = p1.length ∧
      ∀ i, i < p1.length → c1[i]? = (if u i < r then p1[i]? else p2[i]?) ∧
        c2[i]? = (if w i < r then p2[i]? else p1[i]?) := by
  refine ⟨_, _, if_pos h.le, by simp [h], by simp [h], ?_⟩
  intro i hi
  have hi2 : i < p2.length := h ▸ hi
  have hz : (List.zip p1 p2)[i]? = some (p1[i], p2[i]) := by
    rw [List.getElem?_zip_eq_some]
    exact ⟨List.getElem?_eq_getElem hi, List.getElem?_eq_getElem hi2⟩
  simp only [List.getElem?_mapIdx, hz, Option.map_some]
  constructor <;> split <;> simp [hi, hi2]

/-- **C42** (box membership): children of parents in a box are in the box, for both operators and every
draw. -/
theorem exchange_in_box {α κ : Type} [LinearOrder α] [LinearOrder κ] (b : Box α) (p1 p2 : List α)
    (hp1 : InBox b p1) (hp2 : InBox b p2) :
    (∀ idx, ∃ c1 c2, cFunSwapNs p1 p2 idx = .ok (c1, c2) ∧ InBox b c1 ∧ InBox b c2) ∧
    (∀ (r : κ) (u w : Nat → κ), ∃ c1 c2, cFunRandNs r u w p1 p2 = .ok (c1, c2) ∧
      InBox b c1 ∧ InBox b c2) := by
  have hl : p1.length = p2.length := hp1.1.trans hp2.1.symm
  have key : ∀ c : List α, c.length = p1.length →
      (∀ i, i < p1.length → c[i]? = p1[i]? ∨ c[i]? = p2[i]?) → InBox b c := by
    intro c hc hi
    refine ⟨hc.trans hp1.1, ?_⟩
    intro i h
    have h1 : i < p1.length := by omega
    have h2 : i < p2.length := by omega
    rcases hi i h1 with he | he
    · rw [List.getElem?_eq_getElem h, List.getElem?_eq_getElem h1] at he
      rw [Option.some.inj he]; exact hp1.2 i h1
    · rw [List.getElem?_eq_getElem h, List.getElem?_eq_getElem h2] at he
      rw [Option.some.inj he]; exact hp2.2 i h2
  constructor
  · intro idx
    obtain ⟨c1, c2, he, hl1, hl2, e1, e2⟩ := cFunSwapNs_exchange p1 p2 hl idx
    refine ⟨c1, c2, he, key c1 hl1 ?_, key c2 hl2 ?_⟩ <;> intro i hi
    · subst e1
      rw [List.getElem?_append]
      split
      · rename_i h'
        simp only [List.length_take] at h'
        rw [List.getElem?_take, if_pos (by omega)]; exact .inl rfl
      · rename_i h'
        simp only [List.length_take] at h'
        rw [List.getElem?_drop]
        have : idx + (i - (List.take idx p1).length) = i := by simp only [List.length_take]; omega
        rw [this]; exact .inr rfl
    · subst e2
      rw [List.getElem?_append]
      split
      · rename_i h'
        simp only [List.length_take] at h'
        rw [List.getElem?_take, if_pos (by omega)]; exact .inr rfl
      · rename_i h'
        simp only [List.length_take] at h'
        rw [List.getElem?_drop]
        have : idx + (i - (List.take idx p2).length) = i := by simp only [List.length_take]; omega
        rw [this]; exact .inl rfl
  · intro r u w
    obtain ⟨c1, c2, he, hl1, hl2, hc⟩ := cFunRandNs_coordinates r u w p1 p2 hl
    refine ⟨c1, c2, he, key c1 hl1 ?_, key c2 hl2 ?_⟩ <;> intro i hi
    · rw [(hc i hi).1]; split <;> simp
    · rw [(hc i hi).2]; split <;> simp

example : cFunSwapNs [1, 2, 3] [4, 5, 6] 1 = .ok ([1, 5, 6], [4, 2, 3]) ∧
    cFunRandNs (1 / 2 : ℚ) (fun i => i / 3) (fun i => i / 6) [1, 2, 3] [4, 5, 6] =
      .ok ([1, 2, 6], [4, 5, 6]) := by decide +kernel

/-- For `cFunRandNs` the two children need not be complementary: the second child's draw is another
one, so a parent's coordinate can get lost in both (here both children take `4`). -/
theorem cFunRandNs_not_complementary :
    cFunRandNs (1 / 2 : ℚ) (fun _ => 3 / 4) (fun _ => 1 / 4) [1] [4] = .ok ([4], [4]) := by
  decide +kernel

/-! ## C64 -/

/-- The configured probability of `cFunRandXs` has no influence on the children. -/
theorem cFunRandXs_ignores_p {α : Type} (p q : ℚ) (u w : Nat → ℚ) (p1 p2 : List α) :
    cFunRandXs p u w p1 p2 = cFunRandXs q u w p1 p2 := rfl

/-- So the property "a coordinate of the first child comes from the first parent iff its draw is below
p" fails, e.g. for `p = 1/10` and the draw `3/10`; the same call on the fixed-size operator is right. -/
theorem cFunRandXs_wrong_probability :
    cFunRandXs (1 / 10) (fun _ => 3 / 10) (fun _ => 3 / 10) [1] [4] = .ok ([1], [4]) ∧
    cFunRandNs (1 / 10 : ℚ) (fun _ => 3 / 10) (fun _ => 3 / 10) [1] [4] = .ok ([4], [1]) := by
  decide +kernel

/-! ## C43 -/

/-- **C43 (part).**  The symbol mutation of a vector in a box, for every drawn coordinate, every draw
`u` in `[0,1)` of the comparison and every float draw: only the drawn coordinate can change, the
result is in the box, and the coordinate does change unless it is at the lower bound and
(`u = 0`, or the range has a single value).
Missing: in that last case the coordinate keeps its value, see `symbolMutate_unchanged`. -/
theorem symbolMutate_spec_partial {κ : Type} [Field κ] [LinearOrder κ] [IsStrictOrderedRing κ] (b : Box Int)
    (v : List Int) (hv : InBox b v) (idx : Nat) (hi : idx < b.dim) (u : κ) (h0 : 0 ≤ u) (h1 : u < 1)
    (t m : Nat) (hd : FloatDraw (t, m)) :
    ∃ w x y, symbolMutate b v idx u t m = .ok w ∧ InBox b w ∧ SameExcept v w idx ∧
      v[idx]? = some x ∧ w[idx]? = some y ∧
      (y ≠ x ∨ (x = b.min idx ∧ (u = 0 ∨ b.min idx = b.max idx))) := by
  have hi' : idx < v.length := by rw [hv.1]; exact hi
  obtain ⟨hb1, hb2⟩ := hv.2 idx hi'
  obtain ⟨d1, d2, d3⟩ := hd
  obtain ⟨x, hx⟩ : ∃ x, v[idx] = x := ⟨_, rfl⟩
  rw [hx] at hb1 hb2
  have hz : randIdxF32 t m 0 = 0 := by
    have h : roundF32 0 = 0 := by decide +kernel
    unfold randIdxF32
    rw [h, Nat.mul_zero, h, Nat.zero_div]
  unfold symbolMutate
  rw [List.getElem?_eq_getElem hi', hx]
  simp only
  split
  · rename_i hle
    by_cases hlow : b.min idx = x
    · have hnl : (x - b.min idx).toNat = 0 := by omega
      have hr : randIdxRangeF32 t m (b.min idx) x = x := by
        unfold randIdxRangeF32
        have : (x - b.min idx).toNat = 0 := hnl
        rw [this, hz]; omega
      refine ⟨_, x, x, rfl, ?_, set_same v idx _, by rw [← hx], ?_, Or.inr ⟨hlow.symm, ?_⟩⟩
      · exact set_in_box b v hv idx _ (by rw [hr]; exact ⟨hb1, hb2⟩)
      · rw [hr, List.getElem?_set_self hi']
      · rw [hnl] at hle
        simp only [Nat.cast_zero, zero_add] at hle
        have hnn : (0 : κ) ≤ ((b.max idx - x).toNat : κ) := Nat.cast_nonneg _
        have : u * ((b.max idx - x).toNat : κ) = 0 := le_antisymm hle (mul_nonneg h0 hnn)
        rcases mul_eq_zero.1 this with h | h
        · exact .inl h
        · right
          have := Nat.cast_eq_zero.1 h
          omega
    · have hr := randIdx_range_in_range t m (b.min idx) x d1 d2 d3 (by omega)
      refine ⟨_, x, _, rfl, ?_, set_same v idx _, by rw [← hx],
        List.getElem?_set_self hi', Or.inl (by omega)⟩
      exact set_in_box b v hv idx _ (by omega)
  · rename_i hle
    have hlt : x < b.max idx := by
      by_contra hcon
      have hng : (b.max idx - x).toNat = 0 := by omega
      rw [hng] at hle
      simp only [Nat.cast_zero, add_zero] at hle
      apply hle
      have hnn : (0 : κ) ≤ ((x - b.min idx).toNat : κ) := Nat.cast_nonneg _
      calc _ ≤ 1 * ((x - b.min idx).toNat : κ) := mul_le_mul_of_nonneg_right h1.le hnn
        _ = _ := one_mul _
    have hr := randIdx_range_in_range t m (x + 1) (b.max idx + 1) d1 d2 d3 (by omega)
    refine ⟨_, x, _, rfl, ?_, set_same v idx _, by rw [← hx],
      List.getElem?_set_self hi', Or.inl (by omega)⟩
    exact set_in_box b v hv idx _ (by omega)

example : symbolMutate (squareBox 2 0 9) [4, 7] 0 (1 / 4 : ℚ) 24 (2 ^ 23) = .ok [2, 7] ∧
    symbolMutate (squareBox 2 0 9) [4, 7] 0 (3 / 4 : ℚ) 24 (2 ^ 23) = .ok [7, 7] := by decide +kernel

/-- The exceptional case: with the draw 0 a coordinate at the lower bound is not changed. -/
theorem symbolMutate_unchanged :
    symbolMutate (squareBox 2 0 9) [0, 7] 0 (0 : ℚ) 24 (2 ^ 23) = .ok [0, 7] := by decide +kernel

end Heu
