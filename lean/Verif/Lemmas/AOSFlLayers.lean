import Verif.Lemmas.AOSFlBox
import Verif.Lemmas.AOSLayers
import Verif.Lemmas.RefPointsFl
import Mathlib.Data.Nat.Log

/-! # Atomic orbital search on IEEE doubles: the plan of the layers -/

set_option linter.unusedSectionVars false
set_option linter.unusedSimpArgs false
set_option linter.unusedVariables false

namespace Heu
open Spec

variable {F : Fmt}

/-! ### counts -/

theorem roundInt_spec {x : Dbl F} {m N : Nat} (hx : x.val = .fin false m) (hm : m ≤ N * 2 ^ F.one)
    (hN : N ≤ 2147483647) : ∃ c : Nat, roundInt x = .ok (c : Int) ∧ c ≤ N ∧
      |(c : ℚ) - x.val.number F| ≤ 1 / 2 ∧ (2 ^ F.one ≤ 2 * m → 0 < c) := by
  obtain ⟨c, hc⟩ : ∃ c, c = (2 * m + 2 ^ F.one) / 2 ^ (F.one + 1) := ⟨_, rfl⟩
  have hp : 0 < 2 ^ F.one := by positivity
  have hdiv := Nat.div_add_mod (2 * m + 2 ^ F.one) (2 ^ (F.one + 1))
  have hmod := Nat.mod_lt (2 * m + 2 ^ F.one) (show 0 < 2 ^ (F.one + 1) by positivity)
  rw [← hc, pow_succ] at hdiv
  rw [pow_succ] at hmod
  have hcN : c ≤ N := by
    rw [hc]
    refine Nat.le_of_lt_succ (Nat.div_lt_of_lt_mul ?_)
    rw [pow_succ]
    nlinarith
  refine ⟨c, ?_, hcN, ?_, ?_⟩
  · unfold roundInt
    rw [hx]
    simp only [← hc, Bool.false_eq_true, if_false]
    rw [if_pos ⟨by omega, by omega⟩]
  · rw [hx, number_pos_eq, abs_le]
    have hpq : (0 : ℚ) < 2 ^ F.one := by positivity
    have e1 : (2 ^ F.one * 2 * c : ℚ) ≤ 2 * m + 2 ^ F.one := by
      have : 2 ^ F.one * 2 * c ≤ 2 * m + 2 ^ F.one := by omega
      exact_mod_cast this
    have e2 : (2 * m + 2 ^ F.one : ℚ) ≤ 2 ^ F.one * 2 * c + 2 ^ F.one * 2 := by
      have : 2 * m + 2 ^ F.one ≤ 2 ^ F.one * 2 * c + 2 ^ F.one * 2 := by omega
      exact_mod_cast this
    constructor
    · rw [neg_le_sub_iff_le_add, div_le_iff₀ hpq]; nlinarith
    · rw [sub_le_iff_le_add, ← sub_le_iff_le_add', le_div_iff₀ hpq]; nlinarith
  · intro h
    rw [hc]
    refine Nat.div_pos ?_ (by positivity)
    rw [pow_succ]; omega

/-- The share of a layer: between 0 and `n`, and at least one half for the first one. -/
theorem share_bounds {g total : Dbl F} {a t n : Nat} (hg : g.val = .fin false a) (ht : total.val = .fin false t)
    (htp : 0 < t) (hle : a ≤ t) (hone : F.one < F.top) (hn : n < 2 ^ (F.mb + 1))
    (hnt : n * 2 ^ F.one < 2 ^ F.top) :
    ∃ m, (g / total * Dbl.nat F n).val = .fin false m ∧ m ≤ n * 2 ^ F.one ∧
      (∀ k, 1 ≤ k → k ≤ n → k ≤ 2 ^ F.one → 1 ≤ F.one → t ≤ k * a → 2 ^ F.one ≤ 2 * m) := by
  have hp : 0 < 2 ^ F.one := by positivity
  have h2 : 1 < 2 ^ (F.mb + 1) := Nat.one_lt_two_pow (by omega)
  have hrone : ∀ j, Rep F.mb (2 ^ j) := fun j => ⟨1, j, h2, by ring⟩
  have hq : rndUnits F.mb (a * 2 ^ F.one) t ≤ 2 ^ F.one :=
    rndUnits_le _ _ _ htp (hrone _) (by rw [Nat.mul_comm]; exact Nat.mul_le_mul_left _ hle)
  have hqt : rndUnits F.mb (a * 2 ^ F.one) t < 2 ^ F.top := lt_of_le_of_lt hq (Nat.pow_lt_pow_right (by omega) hone)
  obtain ⟨q, hqe⟩ : ∃ q, q = rndUnits F.mb (a * 2 ^ F.one) t := ⟨_, rfl⟩
  rw [← hqe] at hq hqt
  have hm : rndUnits F.mb (q * (n * 2 ^ F.one)) (2 ^ F.one) ≤ n * 2 ^ F.one :=
    rndUnits_le _ _ _ hp ⟨n, F.one, hn, rfl⟩ (by rw [Nat.mul_comm]; exact Nat.mul_le_mul_left _ hq)
  refine ⟨rndUnits F.mb (q * (n * 2 ^ F.one)) (2 ^ F.one), ?_, hm, ?_⟩
  · show Fl.mul F (Fl.div F g.val total.val) (Fl.ofNat F n) = _
    rw [hg, ht]
    simp only [Fl.div, if_neg (by omega : ¬ t = 0), ← hqe]
    simp only [Fl.mk, if_neg (not_le.2 hqt), Fl.ofNat, Fl.mul, if_neg (not_le.2 (lt_of_le_of_lt hm hnt))]
    rfl
  · intro k hk1 hkn hk2 hone1 hta
    have hc1 : k ≤ 2 ^ Nat.clog 2 k := Nat.le_pow_clog (by omega) k
    have hc2 : 2 ^ Nat.clog 2 k < 2 * k := by
      rcases Nat.lt_or_ge 1 k with h | h
      · have := Nat.pow_pred_clog_lt_self (b := 2) (by omega) h
        have hcp : Nat.clog 2 k = (Nat.clog 2 k - 1) + 1 := by
          have := Nat.clog_pos (b := 2) (by omega) h; omega
        rw [hcp, pow_succ]
        simp only [Nat.pred_eq_sub_one] at this
        omega
      · have : k = 1 := by omega
        subst this; simp
    have hco : Nat.clog 2 k ≤ F.one := (Nat.clog_le_iff_le_pow (by omega)).2 hk2
    obtain ⟨j, hj⟩ : ∃ j, j + Nat.clog 2 k = F.one := ⟨F.one - Nat.clog 2 k, by omega⟩
    have hpw : 2 ^ j * 2 ^ Nat.clog 2 k = 2 ^ F.one := by rw [← pow_add, hj]
    have hkj : 2 ^ j * k ≤ 2 ^ F.one := by rw [← hpw]; exact Nat.mul_le_mul_left _ hc1
    have hkj2 : 2 ^ F.one ≤ 2 * (2 ^ j * k) := by
      rw [← hpw]
      calc 2 ^ j * 2 ^ Nat.clog 2 k ≤ 2 ^ j * (2 * k) := Nat.mul_le_mul_left _ hc2.le
        _ = 2 * (2 ^ j * k) := by ring
    have hqj : 2 ^ j ≤ q := by
      rw [hqe]
      refine le_rndUnits _ _ _ htp (hrone j) ?_
      calc 2 ^ j * t ≤ 2 ^ j * (k * a) := Nat.mul_le_mul_left _ hta
        _ = a * (2 ^ j * k) := by ring
        _ ≤ a * 2 ^ F.one := Nat.mul_le_mul_left _ hkj
    have h1 : 2 ^ (F.one - 1) ≤ rndUnits F.mb (q * (n * 2 ^ F.one)) (2 ^ F.one) := by
      refine le_rndUnits _ _ _ hp (hrone _) ?_
      have e : q * (n * 2 ^ F.one) = q * n * 2 ^ F.one := by ring
      rw [e]
      refine Nat.mul_le_mul_right _ ?_
      have e2 : 2 ^ F.one = 2 ^ (F.one - 1) * 2 := by rw [← pow_succ]; congr 1; omega
      have : 2 ^ j * k ≤ q * n := Nat.mul_le_mul hqj hkn
      omega
    have e2 : 2 ^ F.one = 2 ^ (F.one - 1) * 2 := by rw [← pow_succ]; congr 1; omega
    omega

/-! ### limits and layers -/

theorem cumulateInt_nat (ns : List Nat) : ∀ acc : Nat, acc + ns.sum ≤ 2147483647 →
    cumulateInt (acc : Int) (ns.map fun c : Nat => (c : Int)) = .ok ((cumulate acc ns).map fun c : Nat => (c : Int)) := by
  induction ns with
  | nil => intro acc _; rfl
  | cons c ns ih =>
    intro acc h
    rw [List.sum_cons] at h
    simp only [List.map_cons, cumulateInt, cumulate]
    rw [if_pos ⟨by omega, by omega⟩]
    have := ih (acc + c) (by omega)
    push_cast at this
    rw [this]
    rfl

theorem clampCount_nat (n c : Nat) : clampCount n (c : Int) = min c n := by
  unfold clampCount
  split <;> rename_i h
  · omega
  · simp; omega

theorem layerLimitsFl_nat {n : Nat} {ns : List Nat} (h : ns.sum ≤ 2147483647) :
    layerLimitsFl n (ns.map fun c : Nat => (c : Int)) = .ok (layerLimits n ns) := by
  unfold layerLimitsFl
  have := cumulateInt_nat ns 0 (by omega)
  simp only [Nat.cast_zero] at this
  rw [this, Out.ok_bind, List.map_map]
  congr 1
  exact List.map_congr_left fun c _ => clampCount_nat n c

theorem layerLimits_mono (n : Nat) (ns : List Nat) (i : Nat) (a b : Nat) (ha : (layerLimits n ns)[i]? = some a)
    (hb : (layerLimits n ns)[i + 1]? = some b) : a ≤ b := by
  rw [layerLimits_getElem?] at ha hb
  split at ha
  · split at hb
    · cases ha; cases hb
      unfold planned
      have : (ns.take (i + 1)).sum ≤ (ns.take (i + 1 + 1)).sum := by
        rw [List.take_add_one (i := i + 1), List.sum_append]; omega
      omega
    · cases hb
  · cases ha

theorem fillLayersFl_eq (limits : List Nat)
    (hmono : ∀ (i a b : Nat), limits[i]? = some a → limits[i + 1]? = some b → a ≤ b) (els : List Addr) :
    ∀ (counted cur : Nat) (layers : List (List Addr)), layers.length = limits.length →
      fillLayersFl limits els counted cur layers = fillLayers limits els counted cur layers := by
  induction els with
  | nil => intros; rfl
  | cons e els ih =>
    intro counted cur layers hl
    simp only [fillLayersFl, fillLayers]
    cases hc : limits[cur]? with
    | none => rfl
    | some lim =>
      dsimp only
      have hcl : cur < limits.length := by
        by_contra hcon
        rw [List.getElem?_eq_none (by omega)] at hc; cases hc
      by_cases hlim : lim ≤ counted
      · rw [if_pos hlim, if_pos hlim]
        cases hc' : limits[cur + 1]? with
        | none =>
          have : limits.length ≤ cur + 1 := List.getElem?_eq_none_iff.1 hc'
          rw [if_neg (by omega)]
        | some lim' =>
          dsimp only
          have : cur + 1 < limits.length := by
            by_contra hcon
            rw [List.getElem?_eq_none (by omega)] at hc'; cases hc'
          rw [if_pos (hmono _ _ _ hc hc'), if_pos (by omega)]
          exact ih _ _ _ (by simpa using hl)
      · rw [if_neg hlim, if_neg hlim, if_pos (by omega)]
        exact ih _ _ _ (by simpa using hl)

theorem makeLayersFl_eq (limits : List Nat) (els : List Addr) (hne : limits ≠ [])
    (hmono : ∀ (i a b : Nat), limits[i]? = some a → limits[i + 1]? = some b → a ≤ b) :
    makeLayersFl limits els = makeLayers limits els := by
  unfold makeLayersFl makeLayers
  rw [if_neg hne, fillLayersFl_eq limits hmono els 0 0 _ (by simp)]

end Heu
