import Verif.Model.ChaosFl
import Verif.Lemmas.IEEERound
import Verif.Props.Maths

/-!
# C14 with IEEE-754 arithmetic: the logistic map on `double`
-/

set_option linter.unusedVariables false

namespace Heu

theorem rep_pow (mb t : Nat) : Rep mb (2 ^ t) := ⟨1, t, by simp, by simp⟩

theorem rep_four {mb n : Nat} (h : Rep mb n) : Rep mb (4 * n) := by
  obtain ⟨m, k, hm, rfl⟩ := h
  exact ⟨m, k + 2, hm, by rw [pow_add]; ring⟩

/-- A value that exceeds a power of two by less than half a unit in the last place rounds down to it. -/
theorem rndUnits_near_pow (mb a b c : Nat) (hb : 0 < b)
    (h : 2 * a < 2 * (2 ^ (mb + c) * b) + 2 ^ c * b) : rndUnits mb a b ≤ 2 ^ (mb + c) := by
  rcases Nat.le_total a (2 ^ (mb + c) * b) with ha | ha
  · exact rndUnits_le mb a b hb (rep_pow _ _) ha
  have hq : a / b < 2 ^ (mb + c + 1) ∧ 2 ^ (mb + c) ≤ a / b := by
    constructor
    · rw [Nat.div_lt_iff_lt_mul hb]
      have h1 : 2 ^ c * b ≤ 2 ^ (mb + c) * b :=
        Nat.mul_le_mul_right _ (Nat.pow_le_pow_right (by norm_num) (by omega))
      have h2 : 2 ^ (mb + c + 1) * b = 2 * (2 ^ (mb + c) * b) := by rw [pow_succ]; ring
      rw [h2]; omega
    · exact (Nat.le_div_iff_mul_le hb).2 ha
  have hlog : Nat.log2 (a / b) = mb + c := by
    rw [Nat.log2_eq_iff (by have := Nat.two_pow_pos (mb + c); omega)]
    exact ⟨hq.2, hq.1⟩
  rw [rndUnits_def, hlog, Nat.add_sub_cancel_left]
  have hd : 0 < b * 2 ^ c := by positivity
  have he := (rndHE_err a (b * 2 ^ c) hd).1
  have hlt : rndHE a (b * 2 ^ c) < 2 ^ mb + 1 := by
    by_contra hcon
    have hge : (2 ^ mb + 1) * (b * 2 ^ c) ≤ rndHE a (b * 2 ^ c) * (b * 2 ^ c) :=
      Nat.mul_le_mul_right _ (by omega)
    have e1 : (2 ^ mb + 1) * (b * 2 ^ c) = 2 ^ (mb + c) * b + b * 2 ^ c := by rw [pow_add]; ring
    rw [e1] at hge
    have e2 : 2 ^ c * b = b * 2 ^ c := by ring
    rw [e2] at h
    omega
  calc rndHE a (b * 2 ^ c) * 2 ^ c ≤ 2 ^ mb * 2 ^ c := Nat.mul_le_mul_right _ (by omega)
    _ = 2 ^ (mb + c) := (pow_add _ _ _).symm

/-- Rounding error of a number between half of a power of two and that power. -/
theorem rndUnits_err_below (mb x c : Nat) (h1 : x < 2 ^ (mb + 1 + c)) :
    2 * rndUnits mb x 1 ≤ 2 * x + 2 ^ c := by
  have hlog : Nat.log2 x ≤ mb + c := by
    rcases Nat.eq_zero_or_pos x with rfl | hx
    · simp
    · have : Nat.log2 x < mb + 1 + c := (Nat.log2_lt (by omega)).2 h1
      omega
  obtain ⟨s, hs⟩ : ∃ s, s = Nat.log2 x - mb := ⟨_, rfl⟩
  have hsc : s ≤ c := by omega
  rw [rndUnits_def, Nat.div_one, ← hs, Nat.one_mul]
  have he := (rndHE_err x (2 ^ s) (by positivity)).1
  have : 2 ^ s ≤ 2 ^ c := Nat.pow_le_pow_right (by norm_num) hsc
  omega

/-- The heart: `round(v * 4 * round(1 - v)) ≤ 1`. -/
theorem chaos_units_le (mb c n : Nat) (hn : Rep mb n) (h1 : n ≤ 2 ^ (mb + 2 + c)) :
    rndUnits mb (n * (4 * rndUnits mb (2 ^ (mb + 2 + c) - n) 1)) (2 ^ (mb + 2 + c)) ≤ 2 ^ (mb + 2 + c) := by
  obtain ⟨B, hB⟩ : ∃ B, B = 2 ^ (mb + 2 + c) := ⟨_, rfl⟩
  have hBpos : 0 < B := hB ▸ Nat.two_pow_pos _
  rcases Nat.lt_or_ge (2 * n) B with hlt | hge
  · have hx : 2 ^ (mb + 2 + c) - n < 2 ^ (mb + 1 + (c + 1)) ∨ n = 0 := by
      rw [show mb + 1 + (c + 1) = mb + 2 + c by omega, ← hB]; omega
    rcases hx with hx | hx
    swap
    · subst hx
      refine rndUnits_le mb _ _ (Nat.two_pow_pos _) (rep_pow _ _) (by simp)
    have he := rndUnits_err_below mb _ _ hx
    obtain ⟨d, hd⟩ : ∃ d, d = rndUnits mb (2 ^ (mb + 2 + c) - n) 1 := ⟨_, rfl⟩
    rw [← hd] at he ⊢
    have key := rndUnits_near_pow mb (n * (4 * d)) (2 ^ (mb + 2 + c)) (2 + c) (Nat.two_pow_pos _)
    rw [show mb + (2 + c) = mb + 2 + c by omega] at key
    apply key
    rw [← hB] at he ⊢
    have e1 : 2 ^ (2 + c) = 2 * 2 ^ (c + 1) := by rw [show 2 + c = c + 1 + 1 by omega, pow_succ]; ring
    rw [e1]
    obtain ⟨u, hu⟩ : ∃ u, u = 2 ^ (c + 1) := ⟨_, rfl⟩
    rw [← hu] at he ⊢
    have hupos : 0 < u := hu ▸ Nat.two_pow_pos _
    obtain ⟨w, hw⟩ : ∃ w, B = 2 * n + w := ⟨B - 2 * n, by omega⟩
    have hwpos : 0 < w := by omega
    have hd2 : 2 * d ≤ 2 * (n + w) + u := by omega
    -- 8 n d ≤ 4 n (2(n+w)+u) < 2 B² + 2 u B
    have h3 : n * (2 * d) ≤ n * (2 * (n + w) + u) := Nat.mul_le_mul_left _ hd2
    rw [hw]
    nlinarith [Nat.mul_pos hwpos hwpos, Nat.mul_pos hupos hwpos]
  · -- 1 - v is exact
    have hrep : Rep mb (B - n) := by
      obtain ⟨p, k, hp, rfl⟩ := hn
      rcases Nat.lt_or_ge k (c + 1) with hk | hk
      · exfalso
        have h4 : p * 2 ^ k < 2 ^ (mb + 1) * 2 ^ k := Nat.mul_lt_mul_of_pos_right hp (Nat.two_pow_pos _)
        have h5 : 2 ^ (mb + 1) * 2 ^ k ≤ 2 ^ (mb + 1 + c) := by
          rw [← pow_add]; exact Nat.pow_le_pow_right (by norm_num) (by omega)
        have h6 : B = 2 * 2 ^ (mb + 1 + c) := by
          rw [hB, show mb + 2 + c = mb + 1 + c + 1 by omega, pow_succ]; ring
        omega
      · obtain ⟨j, rfl⟩ := Nat.exists_eq_add_of_le hk
        have h7 : B = 2 ^ (mb + 1) * 2 ^ (c + 1) := by
          rw [hB, ← pow_add]; congr 1; omega
        have h8 : p * 2 ^ (c + 1 + j) = p * 2 ^ j * 2 ^ (c + 1) := by rw [pow_add]; ring
        refine ⟨2 ^ (mb + 1) - p * 2 ^ j, c + 1, ?_, ?_⟩
        · have : 0 < p * 2 ^ j := by
            rcases Nat.eq_zero_or_pos (p * 2 ^ j) with h0 | h0
            · rw [h8, h0] at hge; omega
            · exact h0
          have := Nat.two_pow_pos (mb + 1)
          omega
        · rw [h8, h7, Nat.sub_mul]
    rw [← hB, rndUnits_rep1 hrep]
    rw [← hB] at h1
    refine rndUnits_le mb _ _ hBpos (hB ▸ rep_pow _ _) ?_
    obtain ⟨w, hw⟩ : ∃ w, B = n + w := ⟨B - n, by omega⟩
    rw [hw, Nat.add_sub_cancel_left]
    have : (n + w) * (n + w) = n * (4 * w) + ((n : ℤ) - w).natAbs ^ 2 := by
      zify
      rw [sq_abs]; ring
    omega

/-- A finite datum between 0 and 1. -/
def InUnit (F : Fmt) (x : Fl) : Prop :=
  x.Finite F ∧ (Fl.ofNat F 0).le x = true ∧ x.le (Fl.ofNat F 1) = true

theorem inUnit_iff {F : Fmt} (hF : F.Good) {x : Fl} : InUnit F x ↔
    ∃ s n, x = .fin s n ∧ Rep F.mb n ∧ n ≤ 2 ^ F.one ∧ (s = true → n = 0) := by
  have htop : F.one + 3 ≤ F.top := by
    have := hF.top_eq; have := hF.one_eq; have := hF.wide; omega
  constructor
  · rintro ⟨⟨s, n, rfl, hr, ht⟩, h0, h1⟩
    simp only [Fl.ofNat, Fl.le, decide_eq_true_eq, Nat.zero_mul, Nat.one_mul] at h0 h1
    refine ⟨s, n, rfl, hr, ?_, ?_⟩
    · cases s
      · simp only [Fl.units, Bool.false_eq_true, if_false] at h1; exact_mod_cast h1
      · simp only [Fl.units, Bool.false_eq_true, if_false, if_true] at h0
        have : n = 0 := by omega
        rw [this]; exact Nat.zero_le _
    · intro hs
      subst hs
      simp only [Fl.units, Bool.false_eq_true, if_false, if_true] at h0
      omega
  · rintro ⟨s, n, rfl, hr, hn, hs⟩
    refine ⟨⟨s, n, rfl, hr, lt_of_le_of_lt hn (Nat.pow_lt_pow_right (by norm_num) (by omega))⟩, ?_, ?_⟩
    · simp only [Fl.ofNat, Fl.le, decide_eq_true_eq, Nat.zero_mul]
      cases s
      · simp [Fl.units]
      · rw [hs rfl]; simp [Fl.units]
    · simp only [Fl.ofNat, Fl.le, decide_eq_true_eq, Nat.one_mul]
      cases s
      · simp only [Fl.units, Bool.false_eq_true, if_false]; exact_mod_cast hn
      · rw [hs rfl]; simp [Fl.units]

/-- One step in units. -/
theorem chaos_step_units {F : Fmt} (hF : F.Good) {s : Bool} {n : Nat} (hr : Rep F.mb n) (hn : n ≤ 2 ^ F.one)
    (hs : s = true → n = 0) :
    chaosStepFl F (.fin s n) =
      .fin s (rndUnits F.mb (n * (4 * rndUnits F.mb (2 ^ F.one - n) 1)) (2 ^ F.one)) ∧
    ((Fl.ofNat F 4).mul F (.fin s n)).mul F ((Fl.ofNat F 1).sub F (.fin s n)) = chaosStepFl F (.fin s n) ∧
    rndUnits F.mb (n * (4 * rndUnits F.mb (2 ^ F.one - n) 1)) (2 ^ F.one) ≤ 2 ^ F.one := by
  have htop : F.one + 3 ≤ F.top := by
    have := hF.top_eq; have := hF.one_eq; have := hF.wide; omega
  have hBpos : 0 < 2 ^ F.one := Nat.two_pow_pos _
  have hlt : ∀ k, k ≤ 4 * 2 ^ F.one → ¬ 2 ^ F.top ≤ k := by
    intro k hk
    have : 2 ^ (F.one + 3) ≤ 2 ^ F.top := Nat.pow_le_pow_right (by norm_num) htop
    rw [pow_add] at this
    omega
  obtain ⟨d, hd⟩ : ∃ d, d = rndUnits F.mb (2 ^ F.one - n) 1 := ⟨_, rfl⟩
  have hdrep : Rep F.mb d := hd ▸ rep_rndUnits _ _ _ one_pos
  have hdle : d ≤ 2 ^ F.one := hd ▸ rndUnits_le _ _ _ one_pos (rep_pow _ _) (by omega)
  have hsub : (Fl.ofNat F 1).sub F (.fin s n) = .fin false d := by
    simp only [Fl.ofNat, Fl.sub, Fl.neg, Fl.add, Nat.one_mul]
    have hz : Fl.units false (2 ^ F.one) + Fl.units (!s) n = ((2 ^ F.one - n : Nat) : Int) := by
      cases s
      · simp only [Fl.units, Bool.false_eq_true, if_false, Bool.not_false, if_true]
        omega
      · rw [hs rfl]; simp [Fl.units]
    rw [hz]
    by_cases h0 : 2 ^ F.one - n = 0
    · have hd0 : d = 0 := by rw [hd, h0]; simp [rndUnits, rndHE]
      rw [h0, hd0]; simp
    · rw [if_neg (by exact_mod_cast h0)]
      have hneg : ¬ (((2 ^ F.one - n : Nat) : Int) < 0) := by omega
      simp only [hneg, decide_false, Int.natAbs_natCast, Fl.mk, ← hd]
      rw [if_neg (hlt d (by omega))]
  have hmul4 : ∀ (t : Bool) (k : Nat), Rep F.mb k → k ≤ 2 ^ F.one →
      (Fl.ofNat F 4).mul F (.fin t k) = .fin t (4 * k) := by
    intro t k hk hkle
    simp only [Fl.ofNat, Fl.mul, Fl.mk, Bool.false_xor]
    have e : 4 * 2 ^ F.one * k = (4 * k) * 2 ^ F.one := by ring
    rw [e, rndUnits_rep hBpos (rep_four hk), if_neg (hlt _ (by omega))]
  have hfin : rndUnits F.mb (n * (4 * d)) (2 ^ F.one) ≤ 2 ^ F.one := by
    have hw := hF.wide
    have ho := hF.one_eq
    obtain ⟨c, hc⟩ : ∃ c, F.one = F.mb + 2 + c := ⟨F.one - F.mb - 2, by have := hF.mb9; omega⟩
    rw [hd, hc]
    rw [hc] at hn
    exact chaos_units_le F.mb c n hr hn
  have hstep : chaosStepFl F (.fin s n) = .fin s (rndUnits F.mb (n * (4 * d)) (2 ^ F.one)) := by
    unfold chaosStepFl
    rw [hsub, hmul4 _ _ hdrep hdle]
    simp only [Fl.mul, Fl.mk, Bool.xor_false]
    rw [if_neg (hlt _ (by omega))]
  refine ⟨by rw [hstep, hd], ?_, by rw [← hd]; exact hfin⟩
  rw [hstep, hsub, hmul4 _ _ hr hn]
  simp only [Fl.mul, Fl.mk, Bool.xor_false]
  have e : 4 * n * d = n * (4 * d) := by ring
  rw [e, if_neg (hlt _ (by omega))]

/-- C14 in floating point: a step from a value in [0, 1] yields a finite value in [0, 1], for `double`, `float`
and every similar format, however the operations round. -/
theorem chaos_ieee_in_unit (F : Fmt) (hF : F.Good) (v : Fl) (hv : InUnit F v) :
    InUnit F (chaosStepFl F v) := by
  obtain ⟨s, n, rfl, hr, hn, hs⟩ := (inUnit_iff hF).1 hv
  obtain ⟨h1, -, h3⟩ := chaos_step_units hF hr hn hs
  rw [h1, inUnit_iff hF]
  refine ⟨s, _, rfl, rep_rndUnits _ _ _ (Nat.two_pow_pos _), h3, ?_⟩
  intro h
  rw [hs h]; simp [rndUnits, rndHE]

/-- C14 in floating point: `iterate(n)` is `n` single steps. -/
theorem chaos_ieee_iterate (F : Fmt) (v : Fl) (n : Nat) : chaosIterateFl F n v = (chaosStepFl F)^[n] v := by
  induction n generalizing v with
  | zero => rfl
  | succ n ih => rw [chaosIterateFl, ih]; rfl

/-- C14 in floating point: all iterates stay in [0, 1]. -/
theorem chaos_ieee_iterates_in_unit (F : Fmt) (hF : F.Good) (v : Fl) (hv : InUnit F v) (n : Nat) :
    InUnit F (chaosIterateFl F n v) := by
  rw [chaos_ieee_iterate]
  induction n with
  | zero => exact hv
  | succ n ih => rw [Function.iterate_succ_apply']; exact chaos_ieee_in_unit F hF _ ih

theorem chaosFillFl_spec (F : Fmt) (hF : F.Good) (v : Fl) (hv : InUnit F v) (n : Nat) :
    chaosFillFl F n v = (List.range n).map fun i => (chaosStepFl F)^[i + 1] v := by
  induction n generalizing v with
  | zero => rfl
  | succ n ih =>
    obtain ⟨s, k, rfl, hr, hn, hs⟩ := (inUnit_iff hF).1 hv
    have h2 := (chaos_step_units hF hr hn hs).2.1
    rw [chaosFillFl]
    simp only [h2]
    rw [ih _ (chaos_ieee_in_unit F hF _ hv), List.range_succ_eq_map, List.map_cons, List.map_map]
    congr 1

/-- C14 in floating point: the bulk form writes, bit for bit, what the single steps yield, although it multiplies
in another order, and leaves the same state. -/
theorem chaos_ieee_makeSequence (F : Fmt) (hF : F.Good) (v : Fl) (hv : InUnit F v) (L : Nat) :
    (chaosMakeSequenceFl F v L).1 = (List.range L).map (fun i => (chaosStepFl F)^[i + 1] v) ∧
    (chaosMakeSequenceFl F v L).2 = (chaosStepFl F)^[L] v := by
  cases L with
  | zero => simp [chaosMakeSequenceFl]
  | succ n =>
    have key : chaosStepFl F v :: chaosFillFl F n (chaosStepFl F v) =
        (List.range (n + 1)).map (fun i => (chaosStepFl F)^[i + 1] v) := by
      rw [chaosFillFl_spec F hF _ (chaos_ieee_in_unit F hF v hv), List.range_succ_eq_map, List.map_cons,
        List.map_map]
      congr 1
    unfold chaosMakeSequenceFl
    simp only [Nat.add_eq_zero_iff, one_ne_zero, and_false, if_false, Nat.add_sub_cancel]
    refine ⟨key, ?_⟩
    have h : ∀ l (hl : l ≠ []), l = (List.range (n + 1)).map (fun i => (chaosStepFl F)^[i + 1] v) →
        l.getLast hl = (chaosStepFl F)^[n + 1] v := by
      intro l hl e
      subst e
      rw [List.getLast_eq_getElem]
      simp
    exact h _ _ key

/-- Non-vacuity: the double nearest to 0.3 is in range. -/
example : InUnit binary64 (.fin false (5404319552844595 * 2 ^ (binary64.one - 54))) := by
  rw [inUnit_iff binary64_good]
  exact ⟨false, _, rfl, ⟨5404319552844595, _, by decide, rfl⟩, by decide +kernel, by simp⟩

/-- Chaos may die: the seed 0.5, which the constructor accepts, gives 1, then 0 for ever. -/
theorem chaos_ieee_dies (n : Nat) :
    chaosIterateFl binary64 (n + 2) (.fin false (2 ^ (binary64.one - 1))) = .fin false 0 := by
  rw [chaos_ieee_iterate, Function.iterate_add_apply]
  have h : (chaosStepFl binary64)^[2] (.fin false (2 ^ (binary64.one - 1))) = .fin false 0 := by decide +kernel
  rw [h]
  induction n with
  | zero => rfl
  | succ n ih => rw [Function.iterate_succ_apply', ih]; decide +kernel

end Heu
