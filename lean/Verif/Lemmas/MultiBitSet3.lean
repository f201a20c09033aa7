import Verif.Lemmas.MultiBitSet2

/-! Element access for every block type, including the narrow ones (8 and 16 bits). -/

namespace Heu
set_option linter.unusedSimpArgs false
set_option linter.unusedVariables false
set_option linter.unnecessarySeqFocus false

variable {w : Nat}

/-- `(x << k) >> k`: clears the top `k` bits when shifts are done in the block type, does nothing when
they are done in a type at least twice as wide. -/
theorem shlShrB_gen_bit {p : Nat} (hp : p = w ∨ 2 * w ≤ p) {x : BitVec w} {k : Nat} (hk : k < w) :
    ∃ y, shlShrB p x k = .ok y ∧
      ∀ t, t < w → y.getLsbD t = ((decide (p ≠ w) || decide (t + k < w)) && x.getLsbD t) := by
  rcases hp with rfl | hp
  · obtain ⟨y, hy, hb⟩ := shlShrB_bit (x := x) hk
    exact ⟨y, hy, fun t ht => by rw [hb t ht]; simp⟩
  · refine ⟨_, if_pos (by omega), fun t ht => ?_⟩
    simp only [BitVec.getLsbD_setWidth, BitVec.getLsbD_ushiftRight, BitVec.getLsbD_shiftLeft, ht,
      decide_true, Bool.true_and]
    have h4 : k + t - k = t := by omega
    simp [h4, show k + t < p by omega, show p ≠ w by omega, show t < p by omega]

/-- Writing an element whatever the block type: its own bits change (in narrow blocks, shifts being done
in a type at least twice as wide, the bits in the second block keep what was set before), no others. -/
theorem setValue_bits_gen {p e : Nat} (hw : 0 < w) (hp : p = w ∨ 2 * w ≤ p) (he : 0 < e)
    (hew : e ≤ w) (bs : List (BitVec w)) (i : Nat) (v : BitVec w)
    (hi : e * (i + 1) ≤ w * bs.length) :
    ∃ bs', setValue p e bs i v = .ok bs' ∧ bs'.length = bs.length ∧
      ∀ k, packedBit bs' k =
        if e * i ≤ k ∧ k < e * (i + 1) then
          (v.getLsbD (e * (i + 1) - 1 - k) ||
            (decide (p ≠ w) && decide (k / w ≠ e * i / w) && packedBit bs k))
        else packedBit bs k := by
  have hwp : w ≤ p := by rcases hp with h | h <;> omega
  obtain ⟨q, a, ha, h1, h2, h3⟩ := elem_pos hw (i := i) he hew
  have h4 : (i + 1) * e = q * w + a + e := by rw [← h1]; ring
  have h4' : e * (i + 1) = q * w + a + e := by rw [← h1]; ring
  have hsplit : ∀ k, ∃ r t, t < w ∧ k = r * w + t := fun k =>
    ⟨k / w, k % w, Nat.mod_lt _ hw, by rw [Nat.mul_comm]; exact (Nat.div_add_mod _ _).symm⟩
  have hcmp : ∀ {r t : Nat}, t < w → r ≠ q → r ≠ q + 1 → (r * w + t < q * w ∨ q * w + 2 * w ≤ r * w + t) := by
    intro r t ht hr1 hr2
    rcases Nat.lt_or_ge r q with h | h
    · left
      have : (r + 1) * w ≤ q * w := Nat.mul_le_mul_right w h
      rw [Nat.succ_mul] at this; omega
    · right
      have : (q + 2) * w ≤ r * w := Nat.mul_le_mul_right w (by omega)
      rw [Nat.add_mul] at this; omega
  unfold setValue
  simp only [h2]
  rcases h3 with ⟨h5, h6⟩ | ⟨h5, h6⟩
  · simp only [h6, if_true]
    have hq : q < bs.length := blk_lt hw (by omega) hi
    rw [h4]
    have hs : (q + 1) * w - (q * w + a + e - 1) - 1 = w - (a + e) := by
      rw [Nat.succ_mul]; omega
    rw [hs]
    obtain ⟨m, hm, hmb⟩ := shlB_bit hwp (x := blockMask w p e) (k := w - (a + e)) (by omega)
    obtain ⟨y, hy, hyb⟩ := shlB_bit hwp (x := v &&& blockMask w p e) (k := w - (a + e)) (by omega)
    rw [hm, loadB_ok hq]
    simp only [Out.ok_bind]
    rw [storeB_ok _ hq]
    simp only [Out.ok_bind]
    rw [loadB_ok (by simpa using hq), hy]
    simp only [Out.ok_bind]
    rw [storeB_ok _ (by simpa using hq)]
    refine ⟨_, rfl, by simp, fun k => ?_⟩
    obtain ⟨r, t, ht, rfl⟩ := hsplit k
    rw [packedBit_eq hw _ _ _ ht, packedBit_eq hw _ _ _ ht, getD_set _ _ _ _ (by simpa using hq),
      getD_set _ _ _ _ hq, getD_set _ _ _ _ hq]
    by_cases hr : r = q
    · subst hr
      simp only [if_true]
      rw [BitVec.getLsbD_or, BitVec.getLsbD_and, BitVec.getLsbD_not, hmb _ (by omega),
        hyb _ (by omega), BitVec.getLsbD_and, blockMask_bit (by omega) hwp (by omega) _ (by omega)]
      by_cases hin : e * i ≤ r * w + t ∧ r * w + t < e * (i + 1)
      · rw [if_pos hin]
        have h7 : w - (a + e) ≤ w - 1 - t := by omega
        have h8 : w - 1 - t - (w - (a + e)) < e := by omega
        have hd : (r * w + t) / w = r := by
          rw [Nat.mul_comm, Nat.mul_add_div hw, Nat.div_eq_of_lt ht]; rfl
        have h9 : w - 1 - t - (w - (a + e)) = e * (i + 1) - 1 - (r * w + t) := by omega
        rw [h9]
        rw [h9] at h8
        simp [h7, h8, hd, h2]
      · rw [if_neg hin]
        by_cases h7 : w - (a + e) ≤ w - 1 - t
        · have h8 : ¬ (w - 1 - t - (w - (a + e)) < e) := by omega
          simp [h7, h8, show w - 1 - t < w by omega]
        · simp [h7, show w - 1 - t < w by omega]
    · simp only [hr, if_false]
      rw [if_neg]
      rw [h4', h1]
      by_cases hr2 : r = q + 1
      · subst hr2; rw [Nat.succ_mul]; omega
      · rcases hcmp ht hr hr2 with h | h <;> omega
  · have hne : q ≠ q + 1 := by omega
    simp only [h6, hne, if_false]
    have hq : q < bs.length := blk_lt hw (by omega) hi
    have hq1 : q + 1 < bs.length := blk_lt hw (by rw [Nat.succ_mul, h4']; omega) hi
    have hs0 : (q + 1) * w - e * i = w - a := by rw [h1, Nat.succ_mul]; omega
    have hs1 : q * w + a + e - 1 - (q + 1) * w + 1 = a + e - w := by
      rw [Nat.succ_mul]; omega
    rw [h4, hs0, hs1]
    have hs2 : w - (a + e - w) = 2 * w - (a + e) := by omega
    rw [hs2, loadB_ok hq]
    obtain ⟨b1, hb1, hb1b⟩ := shrShlB_bit hwp (x := bs.getD q 0) (k := w - a) (by omega)
    obtain ⟨v1, hv1, hv1b⟩ := shrB_bit hwp (x := v &&& blockMask w p e) (k := a + e - w) (by omega)
    obtain ⟨v2, hv2, hv2b⟩ := shlB_bit hwp (x := v &&& blockMask w p e) (k := 2 * w - (a + e)) (by omega)
    simp only [Out.ok_bind, hb1]
    rw [storeB_ok _ hq]
    simp only [Out.ok_bind]
    rw [loadB_ok (by simpa using hq1), getD_set _ _ _ _ hq, if_neg (Ne.symm hne)]
    obtain ⟨b2, hb2, hb2b⟩ := shlShrB_gen_bit hp (x := bs.getD (q + 1) 0) (k := a + e - w) (by omega)
    simp only [Out.ok_bind, hb2]
    rw [storeB_ok _ (by simpa using hq1)]
    simp only [Out.ok_bind, hv1, hv2]
    rw [loadB_ok (by simpa using hq), getD_set _ _ _ _ (by simpa using hq1), if_neg hne,
      getD_set _ _ _ _ hq, if_pos rfl]
    simp only [Out.ok_bind]
    rw [storeB_ok _ (by simpa using hq)]
    simp only [Out.ok_bind]
    rw [loadB_ok (by simpa using hq1), getD_set _ _ _ _ (by simpa using hq), if_neg (Ne.symm hne),
      getD_set _ _ _ _ (by simpa using hq1), if_pos rfl]
    simp only [Out.ok_bind]
    rw [storeB_ok _ (by simpa using hq1)]
    refine ⟨_, rfl, by simp, fun k => ?_⟩
    obtain ⟨r, t, ht, rfl⟩ := hsplit k
    rw [packedBit_eq hw _ _ _ ht, packedBit_eq hw _ _ _ ht, getD_set _ _ _ _ (by simpa using hq1),
      getD_set _ _ _ _ (by simpa using hq), getD_set _ _ _ _ (by simpa using hq1),
      getD_set _ _ _ _ hq]
    by_cases hr : r = q
    · subst hr
      rw [if_neg hne]
      simp only [if_true]
      rw [BitVec.getLsbD_or, hb1b _ (by omega), hv1b _ (by omega), BitVec.getLsbD_and]
      by_cases hin : e * i ≤ r * w + t ∧ r * w + t < e * (i + 1)
      · rw [if_pos hin, blockMask_bit (by omega) hwp (by omega) _ (by omega)]
        have h7 : ¬ (w - a ≤ w - 1 - t) := by omega
        have h9 : w - 1 - t + (a + e - w) = e * (i + 1) - 1 - (r * w + t) := by omega
        have h8 : w - 1 - t + (a + e - w) < e := by omega
        have hd : (r * w + t) / w = r := by
          rw [Nat.mul_comm, Nat.mul_add_div hw, Nat.div_eq_of_lt ht]; rfl
        rw [h9] at h8 ⊢
        simp [h7, h8, hd, h2]
      · rw [if_neg hin]
        have h7 : w - a ≤ w - 1 - t := by omega
        by_cases h8 : w - 1 - t + (a + e - w) < w
        · rw [blockMask_bit (by omega) hwp (by omega) _ h8]
          simp [h7, show ¬ (w - 1 - t + (a + e - w) < e) by omega]
        · rw [BitVec.getLsbD_of_ge v _ (by omega)]
          simp [h7]
    · by_cases hr2 : r = q + 1
      · subst hr2
        rw [if_pos rfl]
        rw [BitVec.getLsbD_or, hb2b _ (by omega), hv2b _ (by omega), BitVec.getLsbD_and,
          blockMask_bit (by omega) hwp (by omega) _ (by omega)]
        by_cases hin : e * i ≤ (q + 1) * w + t ∧ (q + 1) * w + t < e * (i + 1)
        · rw [if_pos hin]
          rw [Nat.succ_mul] at hin
          have h9 : w - 1 - t - (2 * w - (a + e)) = e * (i + 1) - 1 - ((q + 1) * w + t) := by
            rw [Nat.succ_mul]; omega
          have h8 : w - 1 - t - (2 * w - (a + e)) < e := by omega
          have h7 : 2 * w - (a + e) ≤ w - 1 - t := by omega
          have h10 : ¬ (w - 1 - t + (a + e - w) < w) := by omega
          have hd : ((q + 1) * w + t) / w = q + 1 := by
            rw [Nat.mul_comm, Nat.mul_add_div hw, Nat.div_eq_of_lt ht]
          rw [h9] at h8 ⊢
          simp [h7, h8, h10, hd, h2, Bool.or_comm]
        · rw [if_neg hin]
          rw [Nat.succ_mul] at hin
          have h7 : ¬ (2 * w - (a + e) ≤ w - 1 - t) := by omega
          have h10 : w - 1 - t + (a + e - w) < w := by omega
          simp [h7, h10]
      · simp only [hr, hr2, if_false]
        rw [if_neg]
        rw [h4', h1]
        rcases hcmp ht hr hr2 with h | h <;> omega


end Heu
