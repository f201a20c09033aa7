import Verif.Lemmas.NSGA3
import Mathlib.MeasureTheory.Measure.Lebesgue.Basic
import Mathlib.Algebra.BigOperators.Intervals

/-! # C86: the random member of a niche is drawn uniformly -/

namespace Heu

section C86

/-- When the sequential draw stops at member `i`. -/
theorem pickRandom_eq_iff {α G : Type} [Field α] [LinearOrder α] (draws : Nat → α)
    (xs : List (Nat × G)) : ∀ (k i : Nat) (hi : i < xs.length), xs.Nodup →
    (pickRandom draws k xs.length xs = .ok xs[i] ↔
      (∀ j < i, ¬ draws (k + j) * ((xs.length - j : Nat) : α) ≤ 1) ∧
        draws (k + i) * ((xs.length - i : Nat) : α) ≤ 1) := by
  induction xs with
  | nil => intro k i hi; simp at hi
  | cons x xs ih =>
    intro k i hi hnd
    rw [pickRandom]
    have hnd' := List.nodup_cons.1 hnd
    cases i with
    | zero =>
      simp only [List.getElem_cons_zero, Nat.not_lt_zero, false_implies, implies_true, true_and,
        Nat.add_zero, Nat.sub_zero]
      split
      · rename_i h; exact ⟨fun _ => h, fun _ => rfl⟩
      · rename_i h
        simp only [h, iff_false]
        intro h'
        have hmem : ∀ (ys : List (Nat × G)) (k N : Nat) (p), pickRandom draws k N ys = .ok p → p ∈ ys := by
          intro ys
          induction ys with
          | nil => intro k N p h; simp [pickRandom] at h
          | cons y ys ih' =>
            intro k N p h
            rw [pickRandom] at h
            split at h
            · cases h; simp
            · exact List.mem_cons_of_mem _ (ih' _ _ _ h)
        exact hnd'.1 (hmem _ _ _ _ h')
    | succ i =>
      have hi' : i < xs.length := by simpa using hi
      simp only [List.getElem_cons_succ]
      split
      · rename_i h
        constructor
        · intro h'
          have h'' : x = xs[i] := by injection h'
          exact absurd (h'' ▸ List.getElem_mem hi') hnd'.1
        · rintro ⟨h1, _⟩
          exact absurd h (h1 0 (by omega))
      · rename_i h
        have := ih (k + 1) i hi' hnd'.2
        have hlen : (x :: xs).length - 1 = xs.length := by simp
        rw [hlen, this]
        constructor
        · rintro ⟨h1, h2⟩
          refine ⟨?_, ?_⟩
          · intro j hj
            cases j with
            | zero => simpa using h
            | succ j =>
              have := h1 j (by omega)
              rw [show k + 1 + j = k + (j + 1) by omega] at this
              simpa [Nat.add_sub_add_right] using this
          · rw [show k + 1 + i = k + (i + 1) by omega] at h2
            simpa [Nat.add_sub_add_right] using h2
        · rintro ⟨h1, h2⟩
          refine ⟨?_, ?_⟩
          · intro j hj
            have := h1 (j + 1) (by omega)
            rw [show k + (j + 1) = k + 1 + j by omega] at this
            simpa [Nat.add_sub_add_right] using this
          · rw [show k + (i + 1) = k + 1 + i by omega] at h2
            simpa [Nat.add_sub_add_right] using h2

theorem telescoping (n : Nat) : ∀ i, i < n →
    (∏ k ∈ Finset.range i, (1 - 1 / ((n - k : Nat) : ℝ))) * (1 / ((n - i : Nat) : ℝ)) = 1 / (n : ℝ) := by
  intro i
  induction i with
  | zero => intro _; simp
  | succ i ih =>
    intro h
    rw [Finset.prod_range_succ, ← ih (by omega), mul_assoc]
    congr 1
    obtain ⟨d, hd⟩ : ∃ d, n - i = d + 2 := ⟨n - i - 2, by omega⟩
    rw [show n - (i + 1) = d + 1 by omega, hd]
    have h1 : ((d + 1 : Nat) : ℝ) ≠ 0 := by positivity
    have h2 : ((d + 2 : Nat) : ℝ) ≠ 0 := by positivity
    field_simp
    push_cast; ring

/-- C86: with independent uniform draws from `[0,1)` every one of the `n` members of the niche is picked
with probability `1/n`: the set of draw vectors that pick member `i` has volume `1/n`. -/
theorem niche_pick_uniform {G : Type} (xs : List (Nat × G)) (hnd : xs.Nodup) (i : Nat)
    (hi : i < xs.length) :
    MeasureTheory.volume {u : Fin xs.length → ℝ | (∀ k, 0 ≤ u k ∧ u k < 1) ∧
      pickRandom (fun k => if h : k < xs.length then u ⟨k, h⟩ else 0) 0 xs.length xs = .ok xs[i]} =
    ENNReal.ofReal (1 / (xs.length : ℝ)) := by
  set n := xs.length with hn
  have hset : {u : Fin n → ℝ | (∀ k, 0 ≤ u k ∧ u k < 1) ∧
      pickRandom (fun k => if h : k < n then u ⟨k, h⟩ else 0) 0 n xs = .ok xs[i]} =
      Set.pi Set.univ (fun k : Fin n => if k.1 < i then Set.Ioo (1 / ((n - k.1 : Nat) : ℝ)) 1
        else if k.1 = i then Set.Ico 0 1 ∩ Set.Iic (1 / ((n - i : Nat) : ℝ)) else Set.Ico 0 1) := by
    ext u
    simp only [Set.mem_ofPred_eq, Set.mem_pi, Set.mem_univ, true_implies]
    rw [pickRandom_eq_iff (fun k => if h : k < n then u ⟨k, h⟩ else 0) xs 0 i hi hnd]
    simp only [← hn, Nat.zero_add]
    constructor
    · rintro ⟨h1, h2, h3⟩ k
      have hpos : (0 : ℝ) < ((n - k.1 : Nat) : ℝ) := by
        have := k.2; exact_mod_cast (by omega : 0 < n - k.1)
      split
      · rename_i hk
        have := h2 k.1 hk
        rw [dif_pos k.2, not_le] at this
        exact ⟨by rw [div_lt_iff₀ hpos]; exact this, (h1 k).2⟩
      · split
        · rename_i hk
          refine ⟨⟨(h1 k).1, (h1 k).2⟩, ?_⟩
          rw [Set.mem_Iic, ← hk, le_div_iff₀ hpos]
          rw [← hk, dif_pos k.2] at h3
          exact h3
        · exact ⟨(h1 k).1, (h1 k).2⟩
    · intro h
      refine ⟨?_, ?_, ?_⟩
      · intro k
        have hk := h k
        have hpos : (0 : ℝ) < ((n - k.1 : Nat) : ℝ) := by
          have := k.2; exact_mod_cast (by omega : 0 < n - k.1)
        split at hk
        · exact ⟨(le_of_lt (lt_trans (by positivity) hk.1)), hk.2⟩
        · split at hk
          · exact ⟨hk.1.1, hk.1.2⟩
          · exact ⟨hk.1, hk.2⟩
      · intro j hj
        have hjn : j < n := by omega
        have hk := h ⟨j, hjn⟩
        have hpos : (0 : ℝ) < ((n - j : Nat) : ℝ) := by exact_mod_cast (by omega : 0 < n - j)
        rw [if_pos (by exact hj)] at hk
        rw [dif_pos hjn, not_le]
        exact (div_lt_iff₀ hpos).1 hk.1
      · have hk := h ⟨i, hi⟩
        have hpos : (0 : ℝ) < ((n - i : Nat) : ℝ) := by exact_mod_cast (by omega : 0 < n - i)
        rw [if_neg (by simp), if_pos rfl] at hk
        rw [dif_pos hi]
        exact (le_div_iff₀ hpos).1 hk.2
  rw [hset, MeasureTheory.volume_pi_pi]
  have hw : ∀ k : Fin n, MeasureTheory.volume (if k.1 < i then Set.Ioo (1 / ((n - k.1 : Nat) : ℝ)) 1
        else if k.1 = i then Set.Ico 0 1 ∩ Set.Iic (1 / ((n - i : Nat) : ℝ)) else Set.Ico 0 1) =
      ENNReal.ofReal (if k.1 < i then 1 - 1 / ((n - k.1 : Nat) : ℝ) else
        if k.1 = i then 1 / ((n - i : Nat) : ℝ) else 1) := by
    intro k
    split
    · rw [Real.volume_Ioo]
    · split
      · have h1 : (1 : ℝ) ≤ ((n - i : Nat) : ℝ) := by exact_mod_cast (by omega : 1 ≤ n - i)
        rcases eq_or_lt_of_le h1 with h1 | h1
        · rw [← h1]
          have : Set.Ico (0 : ℝ) 1 ∩ Set.Iic (1 / 1) = Set.Ico 0 1 := by
            apply Set.inter_eq_left.2
            intro x hx; simpa using hx.2.le
          rw [this, Real.volume_Ico]; simp
        · have hlt : 1 / ((n - i : Nat) : ℝ) < 1 := by rw [div_lt_one (by linarith)]; exact h1
          have : Set.Ico (0 : ℝ) 1 ∩ Set.Iic (1 / ((n - i : Nat) : ℝ)) =
              Set.Icc 0 (1 / ((n - i : Nat) : ℝ)) := by
            ext x
            simp only [Set.mem_inter_iff, Set.mem_Ico, Set.mem_Iic, Set.mem_Icc]
            constructor
            · rintro ⟨⟨h1, h2⟩, h3⟩; exact ⟨h1, h3⟩
            · rintro ⟨h1, h2⟩; exact ⟨⟨h1, lt_of_le_of_lt h2 hlt⟩, h2⟩
          rw [this, Real.volume_Icc]; simp
      · rw [Real.volume_Ico]; simp
  rw [Finset.prod_congr rfl (fun k _ => hw k)]
  rw [← ENNReal.ofReal_prod_of_nonneg]
  · congr 1
    have hprod := Fin.prod_univ_eq_prod_range (fun k => if k < i then 1 - 1 / ((n - k : Nat) : ℝ) else
        if k = i then 1 / ((n - i : Nat) : ℝ) else 1) n
    rw [hprod]
    obtain ⟨d, hd⟩ : ∃ d, n = i + 1 + d := ⟨n - (i + 1), by omega⟩
    rw [← telescoping n i hi]
    have hsplit : ∀ f : Nat → ℝ, ∏ k ∈ Finset.range n, f k =
        (∏ k ∈ Finset.range i, f k) * f i * ∏ k ∈ Finset.range d, f (i + 1 + k) := by
      intro f
      rw [hd, Finset.prod_range_add, Finset.prod_range_succ]
    rw [hsplit]
    have h3 : ∏ k ∈ Finset.range d, (if i + 1 + k < i then 1 - 1 / ((n - (i + 1 + k) : Nat) : ℝ) else
        if i + 1 + k = i then 1 / ((n - i : Nat) : ℝ) else 1) = 1 := by
      apply Finset.prod_eq_one
      intro k _
      rw [if_neg (by omega), if_neg (by omega)]
    rw [h3, mul_one, if_neg (lt_irrefl i), if_pos rfl]
    congr 1
    apply Finset.prod_congr rfl
    intro k hk
    rw [if_pos (Finset.mem_range.1 hk)]
  · intro k _
    split
    · rename_i hk
      have h1 : (1 : ℝ) ≤ ((n - k.1 : Nat) : ℝ) := by exact_mod_cast (by omega : 1 ≤ n - k.1)
      have : 1 / ((n - k.1 : Nat) : ℝ) ≤ 1 := by rw [div_le_one (by linarith)]; exact h1
      linarith
    · split
      · positivity
      · norm_num

/-- Non-vacuity: three members, the middle one has probability 1/3. -/
example : MeasureTheory.volume {u : Fin 3 → ℝ | (∀ k, 0 ≤ u k ∧ u k < 1) ∧
    pickRandom (fun k => if h : k < 3 then u ⟨k, h⟩ else 0) 0 3 [(0, 'a'), (0, 'b'), (0, 'c')] =
      .ok (0, 'b')} = ENNReal.ofReal (1 / 3) := by
  simpa using niche_pick_uniform [(0, 'a'), (0, 'b'), (0, 'c')] (by decide) 1 (by decide)

end C86

end Heu
