import Verif.Model.MultiBitSet
import Verif.Spec.MultiBitSet
import Mathlib.Tactic.Ring
import Mathlib.Tactic.Linarith

namespace Heu
set_option linter.unusedSimpArgs false
set_option linter.unusedVariables false
set_option linter.unnecessarySeqFocus false

variable {w : Nat}

theorem blockMask_bit {p e : Nat} (hp : 0 < p) (hwp : w ≤ p) (hep : e ≤ p) (t : Nat) (ht : t < w) :
    (blockMask w p e).getLsbD t = decide (t < e) := by
  have h1 : ((1#p <<< e) - 1#p).toNat = 2 ^ e - 1 := by
    have hp2 : 1 < 2 ^ p := Nat.one_lt_two_pow (by omega)
    rw [BitVec.toNat_sub, BitVec.toNat_shiftLeft]
    simp only [BitVec.toNat_ofNat, Nat.mod_eq_of_lt hp2]
    rw [Nat.shiftLeft_eq, one_mul]
    have h0 : 0 < 2 ^ e := Nat.two_pow_pos e
    rcases Nat.lt_or_ge e p with h | h
    · have : 2 ^ e < 2 ^ p := Nat.pow_lt_pow_right (by omega) h
      rw [Nat.mod_eq_of_lt this]
      rw [show 2 ^ p - 1 + 2 ^ e = 2 ^ p + (2 ^ e - 1) by omega, Nat.add_mod_left,
        Nat.mod_eq_of_lt (by omega)]
    · have : e = p := by omega
      subst this
      rw [Nat.mod_self, Nat.add_zero, Nat.mod_eq_of_lt (by omega)]
  unfold blockMask
  rw [BitVec.getLsbD_setWidth, BitVec.getLsbD, h1, Nat.testBit_two_pow_sub_one]
  simp [ht]

theorem shlB_bit {p : Nat} (hwp : w ≤ p) {x : BitVec w} {k : Nat} (hk : k < p) :
    ∃ y, shlB p x k = .ok y ∧ ∀ t, t < w → y.getLsbD t = (decide (k ≤ t) && x.getLsbD (t - k)) := by
  refine ⟨_, if_pos hk, fun t ht => ?_⟩
  simp only [BitVec.getLsbD_setWidth, BitVec.getLsbD_shiftLeft, ht, decide_true, Bool.true_and]
  have h1 : t < p := by omega
  have h2 : t - k < p := by omega
  by_cases h3 : t < k <;> simp [h1, h2, h3] <;> omega

theorem shrB_bit {p : Nat} (hwp : w ≤ p) {x : BitVec w} {k : Nat} (hk : k < p) :
    ∃ y, shrB p x k = .ok y ∧ ∀ t, t < w → y.getLsbD t = x.getLsbD (t + k) := by
  refine ⟨_, if_pos hk, fun t ht => ?_⟩
  simp only [BitVec.getLsbD_setWidth, BitVec.getLsbD_ushiftRight, ht, decide_true, Bool.true_and]
  by_cases h : k + t < p
  · simp [h, Nat.add_comm]
  · rw [BitVec.getLsbD_of_ge x (t + k) (by omega)]; simp [h]

theorem shrShlB_bit {p : Nat} (hwp : w ≤ p) {x : BitVec w} {k : Nat} (hk : k < p) :
    ∃ y, shrShlB p x k = .ok y ∧ ∀ t, t < w → y.getLsbD t = (decide (k ≤ t) && x.getLsbD t) := by
  refine ⟨_, if_pos hk, fun t ht => ?_⟩
  simp only [BitVec.getLsbD_setWidth, BitVec.getLsbD_ushiftRight, BitVec.getLsbD_shiftLeft, ht,
    decide_true, Bool.true_and]
  have h1 : t < p := by omega
  by_cases h3 : t < k
  · simp [h1, h3]
  · have h4 : k + (t - k) = t := by omega
    simp [h1, h3, h4, show k ≤ t by omega]

theorem shlShrB_bit {x : BitVec w} {k : Nat} (hk : k < w) :
    ∃ y, shlShrB w x k = .ok y ∧ ∀ t, t < w → y.getLsbD t = (decide (t + k < w) && x.getLsbD t) := by
  refine ⟨_, if_pos hk, fun t ht => ?_⟩
  simp only [BitVec.getLsbD_setWidth, BitVec.getLsbD_ushiftRight, BitVec.getLsbD_shiftLeft, ht,
    decide_true, Bool.true_and, BitVec.setWidth_eq]
  by_cases h3 : t + k < w
  · have h4 : k + t - k = t := by omega
    simp [h3, h4, show k + t < w by omega]
  · simp [h3, show ¬ (k + t < w) by omega]

theorem loadB_ok {bs : List (BitVec w)} {i : Nat} (h : i < bs.length) :
    loadB bs i = .ok (bs.getD i 0) := by
  simp [loadB, h]

theorem storeB_ok {bs : List (BitVec w)} {i : Nat} (b : BitVec w) (h : i < bs.length) :
    storeB bs i b = .ok (bs.set i b) := if_pos h

theorem getD_set (bs : List (BitVec w)) (i j : Nat) (b : BitVec w) (h : i < bs.length) :
    (bs.set i b).getD j 0 = if j = i then b else bs.getD j 0 := by
  simp only [List.getD_eq_getElem?_getD, List.getElem?_set]
  by_cases hij : i = j
  · subst hij; simp [h]
  · simp [hij, Ne.symm hij]

theorem packedBit_eq (hw : 0 < w) (bs : List (BitVec w)) (q t : Nat) (ht : t < w) :
    packedBit bs (q * w + t) = (bs.getD q 0).getLsbD (w - 1 - t) := by
  unfold packedBit
  rw [Nat.mul_comm q w, Nat.mul_add_div hw, Nat.div_eq_of_lt ht, Nat.mul_add_mod, Nat.mod_eq_of_lt ht]
  simp [BitVec.getMsbD, ht]

/-- Position arithmetic: an element of `e ≤ w` bits starts in block `q` at offset `a`. -/
theorem elem_pos (hw : 0 < w) {e i : Nat} (he : 0 < e) (hew : e ≤ w) :
    ∃ q a, a < w ∧ e * i = q * w + a ∧ e * i / w = q ∧
      ((a + e ≤ w ∧ ((i + 1) * e - 1) / w = q) ∨
       (w < a + e ∧ ((i + 1) * e - 1) / w = q + 1)) := by
  refine ⟨e * i / w, e * i % w, Nat.mod_lt _ hw, ?_, rfl, ?_⟩
  · rw [Nat.mul_comm (e * i / w) w]; exact (Nat.div_add_mod _ _).symm
  · have h1 : e * i = w * (e * i / w) + e * i % w := (Nat.div_add_mod _ _).symm
    have h2 : (i + 1) * e = e * i + e := by ring
    have h3 : e * i % w < w := Nat.mod_lt _ hw
    generalize e * i / w = q at *
    generalize e * i % w = a at *
    rw [h2, h1]
    rcases Nat.lt_or_ge w (a + e) with h | h
    · right
      refine ⟨h, ?_⟩
      rw [show w * q + a + e - 1 = w * (q + 1) + (a + e - 1 - w) by rw [Nat.mul_add]; omega,
        Nat.mul_add_div hw, Nat.div_eq_of_lt (by omega)]
    · left
      refine ⟨h, ?_⟩
      rw [show w * q + a + e - 1 = w * q + (a + e - 1) by omega,
        Nat.mul_add_div hw, Nat.div_eq_of_lt (by omega)]; rfl

theorem blk_lt (hw : 0 < w) {n m k : Nat} (hk : k * w < m) (h : m ≤ w * n) : k < n := by
  rw [Nat.mul_comm] at h
  exact Nat.lt_of_mul_lt_mul_right (Nat.lt_of_lt_of_le hk h)

/-- Reading an element: its bits are the packed ones. -/
theorem getValue_bits {p e : Nat} (hw : 0 < w) (hwp : w ≤ p) (he : 0 < e) (hew : e ≤ w)
    (bs : List (BitVec w)) (i : Nat) (hi : e * (i + 1) ≤ w * bs.length) :
    ∃ v, getValue p e bs i = .ok v ∧
      ∀ t, v.getLsbD t = (decide (t < e) && packedBit bs (e * (i + 1) - 1 - t)) := by
  obtain ⟨q, a, ha, h1, h2, h3⟩ := elem_pos hw (i := i) he hew
  have h4 : (i + 1) * e = q * w + a + e := by rw [← h1]; ring
  have h4' : e * (i + 1) = q * w + a + e := by rw [← h1]; ring
  unfold getValue
  simp only [h2]
  rcases h3 with ⟨h5, h6⟩ | ⟨h5, h6⟩
  · simp only [h6, ne_eq, not_true, if_false, not_false_iff]
    rw [loadB_ok (blk_lt hw (by omega) hi), h4]
    simp only [Out.ok_bind]
    have hs : (q + 1) * w - (q * w + a + e - 1) - 1 = w - (a + e) := by
      rw [Nat.succ_mul]; omega
    rw [hs]
    obtain ⟨y, hy, hb⟩ := shrB_bit hwp (x := bs.getD q 0) (k := w - (a + e)) (by omega)
    rw [hy]
    refine ⟨_, rfl, fun t => ?_⟩
    by_cases ht : t < w
    · rw [BitVec.getLsbD_and, blockMask_bit (by omega) hwp (by omega) t ht, hb t ht, h4', Bool.and_comm]
      by_cases hte : t < e
      · simp only [hte, decide_true, Bool.true_and]
        rw [show q * w + a + e - 1 - t = q * w + (a + e - 1 - t) by omega,
          packedBit_eq hw _ _ _ (by omega)]
        congr 1; omega
      · simp [hte]
    · rw [BitVec.getLsbD_of_ge _ _ (by omega)]
      simp [show ¬ t < e by omega]
  · have hne : q ≠ q + 1 := by omega
    simp only [h6, ne_eq, hne, not_false_iff, if_true]
    rw [loadB_ok (blk_lt hw (by omega) hi),
      loadB_ok (blk_lt hw (k := q + 1) (by rw [Nat.succ_mul, h4']; omega) hi), h4]
    simp only [Out.ok_bind]
    have hs1 : q * w + a + e - 1 - (q + 1) * w + 1 = a + e - w := by
      rw [Nat.succ_mul]; omega
    have hs2 : (q + 1) * w + w - (q * w + a + e - 1) - 1 = 2 * w - (a + e) := by
      rw [Nat.succ_mul]; omega
    rw [hs1, hs2]
    obtain ⟨y, hy, hb⟩ := shlB_bit hwp (x := bs.getD q 0) (k := a + e - w) (by omega)
    obtain ⟨z, hz, hc⟩ := shrB_bit hwp (x := bs.getD (q + 1) 0) (k := 2 * w - (a + e)) (by omega)
    rw [hy, hz]
    refine ⟨_, rfl, fun t => ?_⟩
    by_cases ht : t < w
    · rw [BitVec.getLsbD_and, BitVec.getLsbD_or, blockMask_bit (by omega) hwp (by omega) t ht, hb t ht,
        hc t ht, h4', Bool.and_comm]
      by_cases hte : t < e
      · simp only [hte, decide_true, Bool.true_and]
        by_cases hk : a + e - w ≤ t
        · rw [show q * w + a + e - 1 - t = q * w + (a + e - 1 - t) by omega,
            packedBit_eq hw _ _ _ (by omega),
            BitVec.getLsbD_of_ge _ (t + (2 * w - (a + e))) (by omega)]
          simp only [hk, decide_true, Bool.true_and, Bool.or_false]
          congr 1; omega
        · rw [show q * w + a + e - 1 - t = (q + 1) * w + (a + e - w - 1 - t) by
              rw [Nat.succ_mul]; omega,
            packedBit_eq hw _ _ _ (by omega)]
          simp only [hk, decide_false, Bool.false_and, Bool.false_or]
          congr 1; omega
      · simp [hte]
    · rw [BitVec.getLsbD_of_ge _ _ (by omega)]
      simp [show ¬ t < e by omega]

/-- Writing an element: exactly its bits change.  Elements that straddle blocks need `p = w`. -/
theorem setValue_bits {p e : Nat} (hw : 0 < w) (hp : p = w ∨ (w ≤ p ∧ e ∣ w)) (he : 0 < e)
    (hew : e ≤ w) (bs : List (BitVec w)) (i : Nat) (v : BitVec w)
    (hi : e * (i + 1) ≤ w * bs.length) :
    ∃ bs', setValue p e bs i v = .ok bs' ∧ bs'.length = bs.length ∧
      ∀ k, packedBit bs' k =
        if e * i ≤ k ∧ k < e * (i + 1) then v.getLsbD (e * (i + 1) - 1 - k) else packedBit bs k := by
  have hwp : w ≤ p := by rcases hp with h | h <;> omega
  obtain ⟨q, a, ha, h1, h2, h3⟩ := elem_pos hw (i := i) he hew
  have h4 : (i + 1) * e = q * w + a + e := by rw [← h1]; ring
  have h4' : e * (i + 1) = q * w + a + e := by rw [← h1]; ring
  have hsplit : ∀ k, ∃ r t, t < w ∧ k = r * w + t := fun k =>
    ⟨k / w, k % w, Nat.mod_lt _ hw, by rw [Nat.mul_comm]; exact (Nat.div_add_mod _ _).symm⟩
  have hcmp : ∀ {r t : Nat}, t < w → r ≠ q → r ≠ q + 1 → (r * w + t < q * w ∨ q * w + 2 * w ≤ r * w + t) := by
    intro r t ht hr1 hr2
    rcases Nat.lt_or_ge r q with h | h
    · left
      have : (r + 1) * w ≤ q * w := Nat.mul_le_mul_right w h
      rw [Nat.succ_mul] at this; omega
    · right
      have : (q + 2) * w ≤ r * w := Nat.mul_le_mul_right w (by omega)
      rw [Nat.add_mul] at this; omega
  unfold setValue
  simp only [h2]
  rcases h3 with ⟨h5, h6⟩ | ⟨h5, h6⟩
  · simp only [h6, if_true]
    have hq : q < bs.length := blk_lt hw (by omega) hi
    rw [h4]
    have hs : (q + 1) * w - (q * w + a + e - 1) - 1 = w - (a + e) := by
      rw [Nat.succ_mul]; omega
    rw [hs]
    obtain ⟨m, hm, hmb⟩ := shlB_bit hwp (x := blockMask w p e) (k := w - (a + e)) (by omega)
    obtain ⟨y, hy, hyb⟩ := shlB_bit hwp (x := v &&& blockMask w p e) (k := w - (a + e)) (by omega)
    rw [hm, loadB_ok hq]
    simp only [Out.ok_bind]
    rw [storeB_ok _ hq]
    simp only [Out.ok_bind]
    rw [loadB_ok (by simpa using hq), hy]
    simp only [Out.ok_bind]
    rw [storeB_ok _ (by simpa using hq)]
    refine ⟨_, rfl, by simp, fun k => ?_⟩
    obtain ⟨r, t, ht, rfl⟩ := hsplit k
    rw [packedBit_eq hw _ _ _ ht, packedBit_eq hw _ _ _ ht, getD_set _ _ _ _ (by simpa using hq),
      getD_set _ _ _ _ hq, getD_set _ _ _ _ hq]
    by_cases hr : r = q
    · subst hr
      simp only [if_true]
      rw [BitVec.getLsbD_or, BitVec.getLsbD_and, BitVec.getLsbD_not, hmb _ (by omega),
        hyb _ (by omega), BitVec.getLsbD_and, blockMask_bit (by omega) hwp (by omega) _ (by omega)]
      by_cases hin : e * i ≤ r * w + t ∧ r * w + t < e * (i + 1)
      · rw [if_pos hin]
        have h7 : w - (a + e) ≤ w - 1 - t := by omega
        have h8 : w - 1 - t - (w - (a + e)) < e := by omega
        have h9 : w - 1 - t - (w - (a + e)) = e * (i + 1) - 1 - (r * w + t) := by omega
        rw [h9]
        rw [h9] at h8
        simp [h7, h8]
      · rw [if_neg hin]
        by_cases h7 : w - (a + e) ≤ w - 1 - t
        · have h8 : ¬ (w - 1 - t - (w - (a + e)) < e) := by omega
          simp [h7, h8, show w - 1 - t < w by omega]
        · simp [h7, show w - 1 - t < w by omega]
    · simp only [hr, if_false]
      rw [if_neg]
      rw [h4', h1]
      by_cases hr2 : r = q + 1
      · subst hr2; rw [Nat.succ_mul]; omega
      · rcases hcmp ht hr hr2 with h | h <;> omega
  · have hpw : p = w := by
      rcases hp with h | ⟨-, d, hd⟩
      · exact h
      · exfalso
        -- an element cannot straddle when e divides w
        have hed : e ∣ a := by
          have h10 : e ∣ q * w := ⟨q * d, by rw [hd]; ring⟩
          have h11 : e ∣ q * w + a := ⟨i, by omega⟩
          exact (Nat.dvd_add_right h10).1 h11
        obtain ⟨c, rfl⟩ := hed
        have : c < d := by
          by_contra hh
          have := Nat.mul_le_mul_left e (Nat.le_of_not_lt hh)
          omega
        have := Nat.mul_le_mul_left e (show c + 1 ≤ d from this)
        rw [Nat.mul_add, Nat.mul_one] at this
        omega
    subst hpw
    have hne : q ≠ q + 1 := by omega
    simp only [h6, hne, if_false]
    have hq : q < bs.length := blk_lt hw (by omega) hi
    have hq1 : q + 1 < bs.length := blk_lt hw (by rw [Nat.succ_mul, h4']; omega) hi
    have hs0 : (q + 1) * p - e * i = p - a := by rw [h1, Nat.succ_mul]; omega
    have hs1 : q * p + a + e - 1 - (q + 1) * p + 1 = a + e - p := by
      rw [Nat.succ_mul]; omega
    rw [h4, hs0, hs1]
    have hs2 : p - (a + e - p) = 2 * p - (a + e) := by omega
    rw [hs2, loadB_ok hq]
    obtain ⟨b1, hb1, hb1b⟩ := shrShlB_bit hwp (x := bs.getD q 0) (k := p - a) (by omega)
    obtain ⟨v1, hv1, hv1b⟩ := shrB_bit hwp (x := v &&& blockMask p p e) (k := a + e - p) (by omega)
    obtain ⟨v2, hv2, hv2b⟩ := shlB_bit hwp (x := v &&& blockMask p p e) (k := 2 * p - (a + e)) (by omega)
    simp only [Out.ok_bind, hb1]
    rw [storeB_ok _ hq]
    simp only [Out.ok_bind]
    rw [loadB_ok (by simpa using hq1), getD_set _ _ _ _ hq, if_neg (Ne.symm hne)]
    obtain ⟨b2, hb2, hb2b⟩ := shlShrB_bit (x := bs.getD (q + 1) 0) (k := a + e - p) (by omega)
    simp only [Out.ok_bind, hb2]
    rw [storeB_ok _ (by simpa using hq1)]
    simp only [Out.ok_bind, hv1, hv2]
    rw [loadB_ok (by simpa using hq), getD_set _ _ _ _ (by simpa using hq1), if_neg hne,
      getD_set _ _ _ _ hq, if_pos rfl]
    simp only [Out.ok_bind]
    rw [storeB_ok _ (by simpa using hq)]
    simp only [Out.ok_bind]
    rw [loadB_ok (by simpa using hq1), getD_set _ _ _ _ (by simpa using hq), if_neg (Ne.symm hne),
      getD_set _ _ _ _ (by simpa using hq1), if_pos rfl]
    simp only [Out.ok_bind]
    rw [storeB_ok _ (by simpa using hq1)]
    refine ⟨_, rfl, by simp, fun k => ?_⟩
    obtain ⟨r, t, ht, rfl⟩ := hsplit k
    rw [packedBit_eq hw _ _ _ ht, packedBit_eq hw _ _ _ ht, getD_set _ _ _ _ (by simpa using hq1),
      getD_set _ _ _ _ (by simpa using hq), getD_set _ _ _ _ (by simpa using hq1),
      getD_set _ _ _ _ hq]
    by_cases hr : r = q
    · subst hr
      rw [if_neg hne]
      simp only [if_true]
      rw [BitVec.getLsbD_or, hb1b _ (by omega), hv1b _ (by omega), BitVec.getLsbD_and]
      by_cases hin : e * i ≤ r * p + t ∧ r * p + t < e * (i + 1)
      · rw [if_pos hin, blockMask_bit (by omega) hwp (by omega) _ (by omega)]
        have h7 : ¬ (p - a ≤ p - 1 - t) := by omega
        have h9 : p - 1 - t + (a + e - p) = e * (i + 1) - 1 - (r * p + t) := by omega
        have h8 : p - 1 - t + (a + e - p) < e := by omega
        rw [h9] at h8 ⊢
        simp [h7, h8]
      · rw [if_neg hin]
        have h7 : p - a ≤ p - 1 - t := by omega
        by_cases h8 : p - 1 - t + (a + e - p) < p
        · rw [blockMask_bit (by omega) hwp (by omega) _ h8]
          simp [h7, show ¬ (p - 1 - t + (a + e - p) < e) by omega]
        · rw [BitVec.getLsbD_of_ge v _ (by omega)]
          simp [h7]
    · by_cases hr2 : r = q + 1
      · subst hr2
        rw [if_pos rfl]
        rw [BitVec.getLsbD_or, hb2b _ (by omega), hv2b _ (by omega), BitVec.getLsbD_and,
          blockMask_bit (by omega) hwp (by omega) _ (by omega)]
        by_cases hin : e * i ≤ (q + 1) * p + t ∧ (q + 1) * p + t < e * (i + 1)
        · rw [if_pos hin]
          rw [Nat.succ_mul] at hin
          have h9 : p - 1 - t - (2 * p - (a + e)) = e * (i + 1) - 1 - ((q + 1) * p + t) := by
            rw [Nat.succ_mul]; omega
          have h8 : p - 1 - t - (2 * p - (a + e)) < e := by omega
          have h7 : 2 * p - (a + e) ≤ p - 1 - t := by omega
          have h10 : ¬ (p - 1 - t + (a + e - p) < p) := by omega
          rw [h9] at h8 ⊢
          simp [h7, h8, h10]
        · rw [if_neg hin]
          rw [Nat.succ_mul] at hin
          have h7 : ¬ (2 * p - (a + e) ≤ p - 1 - t) := by omega
          have h10 : p - 1 - t + (a + e - p) < p := by omega
          simp [h7, h10]
      · simp only [hr, hr2, if_false]
        rw [if_neg]
        rw [h4', h1]
        rcases hcmp ht hr hr2 with h | h <;> omega

end Heu
