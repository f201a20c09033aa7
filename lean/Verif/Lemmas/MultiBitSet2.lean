import Verif.Lemmas.MultiBitSet
import Verif.Lemmas.Round
import Mathlib.Data.List.GetD

namespace Heu
set_option linter.unusedSimpArgs false
set_option linter.unusedVariables false

variable {w : Nat}

theorem roundF32_le24 {n : Nat} (h : n ≤ 2 ^ 24) : roundF32 n = n := by
  rcases Nat.lt_or_ge n (2 ^ 24) with h1 | h1
  · exact roundF32_small h1
  · have : n = 2 ^ 24 := by omega
    subst this
    decide +kernel

theorem blocksFor_bounds {e n : Nat} (hw : 0 < w) (h : n * e ≤ 2 ^ 24) :
    n * e ≤ w * blocksFor w e n ∧ w * blocksFor w e n < n * e + w := by
  unfold blocksFor
  rw [roundF32_le24 h]
  have h1 := Nat.div_add_mod (n * e + (w - 1)) w
  have h2 := Nat.mod_lt (n * e + (w - 1)) hw
  generalize (n * e + (w - 1)) / w = d at *
  generalize (n * e + (w - 1)) % w = m at *
  omega

theorem blocksFor_le {e n b : Nat} (hw : 0 < w) (h : n * e ≤ 2 ^ 24) (hb : n * e ≤ w * b) :
    blocksFor w e n ≤ b := by
  have := (blocksFor_bounds hw h).2
  by_contra hh
  have h2 : w * (b + 1) ≤ w * blocksFor w e n := Nat.mul_le_mul_left w (by omega)
  rw [Nat.mul_add] at h2
  omega

theorem le_capacity_iff {e : Nat} (he : 0 < e) (s : MBS w) (n : Nat) :
    n ≤ s.capacity e ↔ e * n ≤ w * s.blocks.length := by
  unfold MBS.capacity
  rw [Nat.le_div_iff_mul_le he, Nat.mul_comm n e, Nat.mul_comm w]

theorem mixLow_bit {nb : Nat} (h : nb ≤ w) (s d : BitVec w) (t : Nat) (ht : t < w) :
    (mixLow nb s d).getLsbD t = if t < nb then s.getLsbD t else d.getLsbD t := by
  unfold mixLow
  simp only [BitVec.getLsbD_or, BitVec.getLsbD_shiftLeft, BitVec.getLsbD_ushiftRight]
  by_cases h1 : t < nb
  · simp [h1, ht, show w - nb + t < w by omega, show w - nb + t - (w - nb) = t by omega]
  · simp [h1, ht, show ¬ (w - nb + t < w) by omega, show nb + (t - nb) = t by omega]

/-- What `memcpy` does, bit by bit. -/
theorem memcpyB_spec {dst src : List (BitVec w)} {n : Nat} (hw : 0 < w)
    (h1 : n ≤ dst.length * (w / 8)) (h2 : n ≤ src.length * (w / 8)) :
    ∃ d, memcpyB dst src n = .ok d ∧ d.length = dst.length ∧
      ∀ q t, q < dst.length → t < w → (d.getD q 0).getLsbD t =
        if q * (w / 8) + t / 8 < n then (src.getD q 0).getLsbD t else (dst.getD q 0).getLsbD t := by
  refine ⟨_, if_pos ⟨h1, h2⟩, by simp, fun q t hq ht => ?_⟩
  have hq' : q < (dst.mapIdx fun k d =>
      mixLow (min w (8 * (n - k * (w / 8)))) (src.getD k 0) d).length := by simpa using hq
  rw [List.getD_eq_getElem _ _ hq', List.getElem_mapIdx, mixLow_bit (Nat.min_le_left _ _) _ _ _ ht,
    List.getD_eq_getElem _ _ hq]
  have : (t < min w (8 * (n - q * (w / 8)))) ↔ (q * (w / 8) + t / 8 < n) := by omega
  simp only [this]

theorem packedBit_of_getD (hw : 0 < w) (bs : List (BitVec w)) (k : Nat) :
    packedBit bs k = (bs.getD (k / w) 0).getLsbD (w - 1 - k % w) := by
  have := packedBit_eq hw bs (k / w) (k % w) (Nat.mod_lt _ hw)
  rwa [Nat.mul_comm, Nat.div_add_mod] at this

theorem getValue_congr {p e : Nat} (hw : 0 < w) (hwp : w ≤ p) (he : 0 < e) (hew : e ≤ w)
    {bs bs' : List (BitVec w)} {i : Nat} (hi : e * (i + 1) ≤ w * bs.length)
    (hi' : e * (i + 1) ≤ w * bs'.length)
    (hb : ∀ k, e * i ≤ k → k < e * (i + 1) → packedBit bs k = packedBit bs' k) :
    getValue p e bs i = getValue p e bs' i := by
  obtain ⟨v, hv, hvb⟩ := getValue_bits hw hwp he hew bs i hi
  obtain ⟨v', hv', hvb'⟩ := getValue_bits hw hwp he hew bs' i hi'
  rw [hv, hv']
  congr 1
  apply BitVec.eq_of_getLsbD_eq
  intro t ht
  rw [hvb, hvb']
  by_cases hte : t < e
  · simp only [hte, decide_true, Bool.true_and]
    have : e * (i + 1) = e * i + e := by ring
    exact hb _ (by omega) (by omega)
  · simp [hte]

theorem toNat_of_bits {e : Nat} (hew : e ≤ w) {u v : BitVec w}
    (h : ∀ t, u.getLsbD t = (decide (t < e) && v.getLsbD t)) : u.toNat = v.toNat % 2 ^ e := by
  apply Nat.eq_of_testBit_eq
  intro t
  rw [Nat.testBit_mod_two_pow]
  exact h t

theorem elem_disjoint {e i j k : Nat} (hij : j ≠ i) (h1 : e * j ≤ k) (h2 : k < e * (j + 1)) :
    ¬ (e * i ≤ k ∧ k < e * (i + 1)) := by
  rintro ⟨h3, h4⟩
  rcases Nat.lt_or_ge j i with h | h
  · have := Nat.mul_le_mul_left e (show j + 1 ≤ i from h); omega
  · have := Nat.mul_le_mul_left e (show i + 1 ≤ j by omega); omega

theorem setValue_get_same {p e : Nat} (hw : 0 < w) (hp : p = w ∨ (w ≤ p ∧ e ∣ w)) (he : 0 < e)
    (hew : e ≤ w) (bs : List (BitVec w)) (i : Nat) (v : BitVec w)
    (hi : e * (i + 1) ≤ w * bs.length) :
    ∃ bs', setValue p e bs i v = .ok bs' ∧ bs'.length = bs.length ∧
      (∃ u, getValue p e bs' i = .ok u ∧ u.toNat = v.toNat % 2 ^ e) ∧
      (∀ j, j ≠ i → e * (j + 1) ≤ w * bs.length → getValue p e bs' j = getValue p e bs j) ∧
      (∀ k, ¬ (e * i ≤ k ∧ k < e * (i + 1)) → packedBit bs' k = packedBit bs k) := by
  have hwp : w ≤ p := by rcases hp with h | h <;> omega
  obtain ⟨bs', h1, h2, h3⟩ := setValue_bits hw hp he hew bs i v hi
  refine ⟨bs', h1, h2, ?_, ?_, ?_⟩
  · obtain ⟨u, hu, hub⟩ := getValue_bits hw hwp he hew bs' i (by rw [h2]; exact hi)
    refine ⟨u, hu, toNat_of_bits hew fun t => ?_⟩
    rw [hub]
    by_cases hte : t < e
    · simp only [hte, decide_true, Bool.true_and]
      have : e * (i + 1) = e * i + e := by ring
      rw [h3, if_pos (by omega)]
      congr 1; omega
    · simp [hte]
  · intro j hj hjb
    refine getValue_congr hw hwp he hew (by rw [h2]; exact hjb) hjb fun k hk1 hk2 => ?_
    rw [h3, if_neg (elem_disjoint hj hk1 hk2)]
  · intro k hk
    rw [h3, if_neg hk]

theorem setValue_out_of_bounds {p e : Nat} (hw : 0 < w) (bs : List (BitVec w)) (i : Nat) (v : BitVec w)
    (hi : w * bs.length ≤ e * i) : setValue p e bs i v = .ub := by
  have h1 : loadB bs (e * i / w) = .ub := by
    unfold loadB
    rw [List.getElem?_eq_none]
    rw [Nat.le_div_iff_mul_le hw, Nat.mul_comm]; exact hi
  unfold setValue
  simp only [h1]
  split
  · simp only [shlB]
    split <;> simp
  · simp

theorem mbsCtor_pos {e n : Nat} (g : MBS w) (h : n ≠ 0) :
    mbsCtor e g n = { blocks := List.replicate (blocksFor w e n) 0#w, size := n } := if_neg h

theorem blocksFor_big : blocksFor 64 1 (2 ^ 24 + 1) = 2 ^ 18 := by
  have h : roundF32 (2 ^ 24 + 1) = 2 ^ 24 := by
    have := roundF32_eq (q := 2 ^ 23) (r := 1) (s := 1) (by omega) (by omega) (by omega) (by omega)
    norm_num at this ⊢
    exact this
  unfold blocksFor
  rw [Nat.mul_one, h]
  norm_num

theorem ctor_write_ub {p e n i b : Nat} (hw : 0 < w) (g : MBS w) (v : BitVec w) (h0 : n ≠ 0)
    (hi : i < n) (hb : blocksFor w e n = b) (hbi : w * b ≤ e * i) :
    (mbsCtor e g n).write p e i v = .ub := by
  rw [mbsCtor_pos g h0]
  unfold MBS.write
  simp only [hi, if_true]
  rw [setValue_out_of_bounds hw _ _ _ (by rw [List.length_replicate, hb]; exact hbi)]
  rfl

theorem ctor_capacity {e n b : Nat} (g : MBS w) (h0 : n ≠ 0) (hb : blocksFor w e n = b) :
    (mbsCtor e g n).size = n ∧ (mbsCtor e g n).capacity e = b * w / e := by
  rw [mbsCtor_pos g h0, hb]
  simp [MBS.capacity]

/-- Copying `b` blocks' worth of bytes keeps the packed bits of these blocks. -/
theorem memcpyB_blocks {dst src : List (BitVec w)} {b : Nat} (hw : 0 < w) (h8 : 8 ∣ w)
    (h1 : b ≤ dst.length) (h2 : b ≤ src.length) :
    ∃ d, memcpyB dst src (b * (w / 8)) = .ok d ∧ d.length = dst.length ∧
      ∀ k, k < w * b → packedBit d k = packedBit src k := by
  obtain ⟨d, hd, hl, hb⟩ := memcpyB_spec (dst := dst) (src := src) (n := b * (w / 8)) hw
    (Nat.mul_le_mul_right _ h1) (Nat.mul_le_mul_right _ h2)
  refine ⟨d, hd, hl, fun k hk => ?_⟩
  have hq : k / w < b := by rwa [Nat.div_lt_iff_lt_mul hw, Nat.mul_comm]
  have ht : k % w < w := Nat.mod_lt _ hw
  rw [packedBit_of_getD hw, packedBit_of_getD hw, hb _ _ (by omega) (by omega), if_pos]
  obtain ⟨c, rfl⟩ := h8
  have hc : 8 * c / 8 = c := by omega
  rw [hc]
  have h3 : (k / (8 * c) + 1) * c ≤ b * c := Nat.mul_le_mul_right c hq
  rw [Nat.succ_mul] at h3
  have h4 : (8 * c - 1 - k % (8 * c)) / 8 < c := by omega
  omega

/-- `reserve`: when the storage need not grow, is empty, or has byte-sized blocks, the elements stay. -/
theorem reserve_keeps {e n : Nat} (hw : 0 < w) (h8 : 8 ∣ w) (he : 0 < e) (s : MBS w)
    (junk : Nat → BitVec w) (hn : n * e ≤ 2 ^ 24)
    (hg : n ≤ s.capacity e ∨ s.blocks = [] ∨ w = 8) :
    ∃ s', s.reserve e junk n = .ok s' ∧ s'.size = s.size ∧
      s.blocks.length ≤ s'.blocks.length ∧ e * n ≤ w * s'.blocks.length ∧
      ∀ k, k < w * s.blocks.length → packedBit s'.blocks k = packedBit s.blocks k := by
  unfold MBS.reserve
  by_cases hc : n ≤ s.capacity e
  · rw [if_pos hc]
    exact ⟨s, rfl, rfl, Nat.le_refl _, (le_capacity_iff he s n).1 hc, fun _ _ => rfl⟩
  · rw [if_neg hc]
    rw [le_capacity_iff he] at hc
    have hb := (blocksFor_bounds (w := w) hw hn).1
    rw [Nat.mul_comm n e] at hb
    have hlen : (freshBlocks junk (blocksFor w e n)).length = blocksFor w e n := by simp [freshBlocks]
    have hlt : s.blocks.length ≤ blocksFor w e n :=
      Nat.le_of_lt (Nat.lt_of_mul_lt_mul_left (a := w) (by omega))
    rcases hg with hg | hg | hg
    · exact absurd ((le_capacity_iff he s n).1 hg) hc
    · obtain ⟨d, hd, hl, hk⟩ := memcpyB_blocks (dst := freshBlocks junk (blocksFor w e n))
        (src := s.blocks) (b := 0) hw h8 (by omega) (by omega)
      rw [Nat.zero_mul] at hd
      rw [show s.blocks.length = 0 by simp [hg], hd]
      refine ⟨{ s with blocks := d }, rfl, rfl, by simp, ?_, by simp⟩
      simp only [hl, hlen]; exact hb
    · subst hg
      obtain ⟨d, hd, hl, hk⟩ := memcpyB_blocks (dst := freshBlocks junk (blocksFor 8 e n))
        (src := s.blocks) (b := s.blocks.length) hw h8 (by rw [hlen]; exact hlt) (Nat.le_refl _)
      rw [show s.blocks.length * (8 / 8) = s.blocks.length by omega] at hd
      rw [hd]
      refine ⟨{ s with blocks := d }, rfl, rfl, ?_, ?_, hk⟩
      · simp only [hl, hlen]; exact hlt
      · simp only [hl, hlen]; exact hb

end Heu
