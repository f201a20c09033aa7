import Verif.Model.Maths
import Verif.Lemmas.Round
import Mathlib.Data.Nat.Choose.Basic
import Mathlib.Data.Nat.Factorial.Basic
import Mathlib.Algebra.Order.Ring.Rat
import Mathlib.Algebra.Field.Rat
import Mathlib.Tactic.IntervalCases
import Mathlib.Tactic.Linarith

/-!
# Properties C12 - C15: binomials, min/max, logistic chaos, random indices
-/

namespace Heu

/-! ## C12 -/

/-- `fractorial` is the factorial modulo `2^64`, for every argument. -/
theorem fractorial_eq (n : Nat) : fractorial64 n = n.factorial % 2 ^ 64 := by
  induction n with
  | zero => rfl
  | succ n ih =>
    unfold fractorial64
    split
    · rw [ih, Nat.factorial_succ, Nat.mul_mod_mod]
    · have : n = 0 := by omega
      subst this; rfl

/-- Up to 20 the factorial is exact. -/
theorem fractorial_exact_partial (n : Nat) (h : n ≤ 20) : fractorial64 n = n.factorial := by
  rw [fractorial_eq]
  apply Nat.mod_eq_of_lt
  exact lt_of_le_of_lt (Nat.factorial_le h) (by decide +kernel)

/-- **C12 (part).**  `NchooseK(N,K)` is the binomial coefficient for every `K ≤ N ≤ 20`.
Missing: `N > 20`, where the property is false of the code (`nchooseK_wrong`,
`nchooseK_divides_by_zero`). -/
theorem nchooseK_eq_choose_partial (N K : Nat) (hK : K ≤ N) (hN : N ≤ 20) :
    nchooseK64 N K = .ok (N.choose K) := by
  have main : ∀ K, K ≤ N → K * 2 ≤ N → nchooseK64 N K = .ok (N.choose K) := by
    intro K hK h2
    unfold nchooseK64
    rw [dif_neg (by omega)]
    have hle : K.factorial * (N - K).factorial ≤ (20).factorial :=
      (Nat.le_of_dvd (Nat.factorial_pos N) (Nat.factorial_mul_factorial_dvd_factorial hK)).trans
        (Nat.factorial_le hN)
    have hlt : K.factorial * (N - K).factorial < 2 ^ 64 := lt_of_le_of_lt hle (by decide +kernel)
    have hpos : 0 < K.factorial * (N - K).factorial :=
      Nat.mul_pos (Nat.factorial_pos _) (Nat.factorial_pos _)
    rw [fractorial_exact_partial K (by omega), fractorial_exact_partial (N - K) (by omega),
      fractorial_exact_partial N hN, Nat.mod_eq_of_lt hlt]
    simp only [hpos.ne', if_false]
    rw [Nat.choose_eq_factorial_div_factorial hK]
  by_cases h : K * 2 > N
  · unfold nchooseK64
    rw [dif_pos h, main (N - K) (by omega) (by omega), Nat.choose_symm hK]
  · exact main K hK (by omega)

example : nchooseK64 20 12 = .ok 125970 := by decide +kernel

/-- The general claim fails at the very next `N`: C(21,10) = 352716, the code computes 98014. -/
theorem nchooseK_wrong : nchooseK64 21 10 = .ok 98014 ∧ Nat.choose 21 10 = 352716 := by
  constructor <;> decide +kernel

/-- From `N - K ≥ 66` (with `K` the smaller part) on, every call divides by zero: `66!` is a
multiple of `2^64`. -/
theorem nchooseK_divides_by_zero (N K : Nat) (hK : K * 2 ≤ N) (h : 66 ≤ N - K) :
    nchooseK64 N K = .ub := by
  unfold nchooseK64
  rw [dif_neg (by omega)]
  have hdvd : 2 ^ 64 ∣ (N - K).factorial :=
    dvd_trans (by decide +kernel : 2 ^ 64 ∣ (66).factorial) (Nat.factorial_dvd_factorial h)
  have : fractorial64 (N - K) = 0 := by
    rw [fractorial_eq]; exact Nat.mod_eq_zero_of_dvd hdvd
  simp [this]

/-- Reached by an ordinary configuration: 3 objectives with reference point precision 66. -/
example : nchooseK64 (3 + 66 - 1) 66 = .ub := by decide +kernel

/-- Exactly which factorials are right: those up to 20. -/
theorem fractorial_exact_iff (n : Nat) : fractorial64 n = n.factorial ↔ n ≤ 20 := by
  refine ⟨fun h => ?_, fractorial_exact_partial n⟩
  by_contra hn
  have h1 : (21).factorial ≤ n.factorial := Nat.factorial_le (by omega)
  have h2 : 2 ^ 64 ≤ (21).factorial := by decide +kernel
  have h3 : fractorial64 n < 2 ^ 64 := by
    rw [fractorial_eq]; exact Nat.mod_lt _ (by decide)
  omega

/-- The value computed for the smaller of `K`, `N - K`. -/
private theorem nchooseK_small (N K : Nat) (h : K * 2 ≤ N) :
    nchooseK64 N K =
      if (fractorial64 K * fractorial64 (N - K)) % 2 ^ 64 = 0 then .ub
      else .ok (fractorial64 N / ((fractorial64 K * fractorial64 (N - K)) % 2 ^ 64)) := by
  unfold nchooseK64
  rw [dif_neg (by omega)]

private theorem nchooseK_large (N K : Nat) (h : N < K * 2) : nchooseK64 N K = nchooseK64 N (N - K) := by
  conv_lhs => unfold nchooseK64
  rw [dif_pos h]

/-- The computation of `nchooseK_small` gives the binomial coefficient. -/
private def rightAt (N K : Nat) : Bool :=
  (fractorial64 K * fractorial64 (N - K)) % 2 ^ 64 != 0 &&
    fractorial64 N / ((fractorial64 K * fractorial64 (N - K)) % 2 ^ 64) == N.choose K

set_option maxRecDepth 100000 in
private theorem rightAt_table : ∀ N, N < 66 → ∀ K, K < 33 → (20 < N ∧ K * 2 ≤ N) →
    (rightAt N K = true ↔ K = 0 ∨ (N = 60 ∧ K = 1)) := by
  decide +kernel

/-- **C12, exactly.**  For `K ≤ N` the call returns the binomial coefficient if and only if `N ≤ 20`,
or it is the trivial coefficient 1 (`K = 0` or `K = N`) with `N ≤ 65`, or it is the one lucky case
C(60,1) = C(60,59). -/
theorem nchooseK_right_iff (N K : Nat) (hK : K ≤ N) :
    nchooseK64 N K = .ok (N.choose K) ↔
      N ≤ 20 ∨ (N ≤ 65 ∧ (K = 0 ∨ K = N)) ∨ (N = 60 ∧ (K = 1 ∨ K = 59)) := by
  have main : ∀ K, K * 2 ≤ N →
      (nchooseK64 N K = .ok (N.choose K) ↔ N ≤ 20 ∨ (N ≤ 65 ∧ K = 0) ∨ (N = 60 ∧ K = 1)) := by
    intro K h2
    by_cases h20 : N ≤ 20
    · simp [h20, nchooseK_eq_choose_partial N K (by omega) h20]
    · by_cases h65 : N ≤ 65
      · have ht := rightAt_table N (by omega) K (by omega) ⟨by omega, h2⟩
        rw [nchooseK_small N K h2]
        unfold rightAt at ht
        generalize (fractorial64 K * fractorial64 (N - K)) % 2 ^ 64 = d at *
        by_cases hd : d = 0
        · subst hd
          simp only [if_true, bne_self_eq_false, Bool.false_and, Bool.false_eq_true, false_iff] at ht ⊢
          simp only [reduceCtorEq, false_iff]
          omega
        · rw [if_neg hd]
          simp only [Out.ok.injEq, Bool.and_eq_true, bne_iff_ne, ne_eq, hd, not_false_iff, true_and,
            beq_iff_eq] at ht ⊢
          rw [ht]; omega
      · have h0 : fractorial64 N = 0 := by
          rw [fractorial_eq]
          exact Nat.mod_eq_zero_of_dvd (dvd_trans (by decide +kernel : 2 ^ 64 ∣ (66).factorial)
            (Nat.factorial_dvd_factorial (by omega)))
        have hpos : 0 < N.choose K := Nat.choose_pos (by omega)
        rw [nchooseK_small N K h2, h0]
        constructor
        · intro h
          split at h
          · cases h
          · simp only [Nat.zero_div, Out.ok.injEq] at h; omega
        · omega
  by_cases h : N < K * 2
  · rw [nchooseK_large N K h, ← Nat.choose_symm hK, main (N - K) (by omega)]
    omega
  · rw [main K (by omega)]; omega

example : nchooseK64 60 59 = .ok 60 ∧ nchooseK64 61 1 ≠ .ok 61 := by
  constructor <;> decide +kernel

/-! ## C13 -/

section
variable {α : Type} [LinearOrder α]

private theorem minV_spec (a : α) (l : List α) :
    minV a l ∈ a :: l ∧ ∀ x ∈ a :: l, minV a l ≤ x := by
  induction l generalizing a with
  | nil => simp [minV]
  | cons b l ih =>
    have h := ih (impMin2 a b)
    have hm : impMin2 a b = a ∨ impMin2 a b = b := by unfold impMin2; split <;> simp
    have hle : impMin2 a b ≤ a ∧ impMin2 a b ≤ b := by
      unfold impMin2; split
      · next h => exact ⟨h, le_rfl⟩
      · next h => exact ⟨le_rfl, (not_le.1 h).le⟩
    simp only [minV, List.mem_cons, forall_eq_or_imp] at h ⊢
    refine ⟨?_, h.2.1.trans hle.1, h.2.1.trans hle.2, h.2.2⟩
    rcases h.1 with h1 | h1
    · rcases hm with hm | hm
      · left; rw [h1, hm]
      · right; left; rw [h1, hm]
    · right; right; exact h1

private theorem maxV_spec (a : α) (l : List α) :
    maxV a l ∈ a :: l ∧ ∀ x ∈ a :: l, x ≤ maxV a l := by
  induction l generalizing a with
  | nil => simp [maxV]
  | cons b l ih =>
    have h := ih (impMax2 a b)
    have hm : impMax2 a b = a ∨ impMax2 a b = b := by unfold impMax2; split <;> simp
    have hle : a ≤ impMax2 a b ∧ b ≤ impMax2 a b := by
      unfold impMax2; split
      · next h => exact ⟨h, le_rfl⟩
      · next h => exact ⟨le_rfl, (not_le.1 h).le⟩
    simp only [maxV, List.mem_cons, forall_eq_or_imp] at h ⊢
    refine ⟨?_, hle.1.trans h.2.1, hle.2.trans h.2.1, h.2.2⟩
    rcases h.1 with h1 | h1
    · rcases hm with hm | hm
      · left; rw [h1, hm]
      · right; left; rw [h1, hm]
    · right; right; exact h1

private theorem minCT_spec (a : α) (l : List α) :
    minCT a l ∈ a :: l ∧ ∀ x ∈ a :: l, minCT a l ≤ x := by
  induction l generalizing a with
  | nil => simp [minCT]
  | cons b l ih =>
    have gen : (if a < minCT b l then a else minCT b l) ∈ a :: b :: l ∧
        ∀ x ∈ a :: b :: l, (if a < minCT b l then a else minCT b l) ≤ x := by
      have h := ih b
      split
      · next hlt =>
        refine ⟨List.mem_cons_self, ?_⟩
        intro x hx
        rcases List.mem_cons.1 hx with rfl | hx
        · exact le_rfl
        · exact hlt.le.trans (h.2 x hx)
      · next hlt =>
        refine ⟨List.mem_cons_of_mem _ h.1, ?_⟩
        intro x hx
        rcases List.mem_cons.1 hx with rfl | hx
        · exact not_lt.1 hlt
        · exact h.2 x hx
    cases l with
    | nil =>
      simp only [minCT]
      split
      · next h => simpa using h.le
      · next h => simpa using h
    | cons c l => simpa only [minCT] using gen

private theorem maxCT_spec (a : α) (l : List α) :
    maxCT a l ∈ a :: l ∧ ∀ x ∈ a :: l, x ≤ maxCT a l := by
  induction l generalizing a with
  | nil => simp [maxCT]
  | cons b l ih =>
    have gen : (if a > maxCT b l then a else maxCT b l) ∈ a :: b :: l ∧
        ∀ x ∈ a :: b :: l, x ≤ (if a > maxCT b l then a else maxCT b l) := by
      have h := ih b
      split
      · next hlt =>
        refine ⟨List.mem_cons_self, ?_⟩
        intro x hx
        rcases List.mem_cons.1 hx with rfl | hx
        · exact le_rfl
        · exact (h.2 x hx).trans (le_of_lt hlt)
      · next hlt =>
        refine ⟨List.mem_cons_of_mem _ h.1, ?_⟩
        intro x hx
        rcases List.mem_cons.1 hx with rfl | hx
        · exact not_lt.1 hlt
        · exact h.2 x hx
    cases l with
    | nil =>
      simp only [maxCT]
      split
      · next h => simpa using h.le
      · next h => simpa using h
    | cons c l => simpa only [maxCT] using gen

/-- **C13** (run time).  `heu::min(a, args...)` is one of the arguments and below all of them. -/
theorem min_is_minimum (a : α) (args : List α) :
    minV a args ∈ a :: args ∧ ∀ x ∈ a :: args, minV a args ≤ x := minV_spec a args

/-- **C13** (run time).  `heu::max(a, args...)` is one of the arguments and above all of them. -/
theorem max_is_maximum (a : α) (args : List α) :
    maxV a args ∈ a :: args ∧ ∀ x ∈ a :: args, x ≤ maxV a args := maxV_spec a args

/-- **C13** (compile time). -/
theorem ct_min_is_minimum (a : α) (vals : List α) :
    minCT a vals ∈ a :: vals ∧ ∀ x ∈ a :: vals, minCT a vals ≤ x := minCT_spec a vals

/-- **C13** (compile time). -/
theorem ct_max_is_maximum (a : α) (vals : List α) :
    maxCT a vals ∈ a :: vals ∧ ∀ x ∈ a :: vals, x ≤ maxCT a vals := maxCT_spec a vals

end

example : minV 3 [5, -2, 7] = -2 ∧ maxV 3 [5, -2, 7] = 7 ∧ minCT 3 [5, -2, 7] = -2 ∧
    maxCT 3 [5, -2, 7] = (7 : Int) := by decide

/-! ## C14 -/

section
variable {α : Type} [Field α] [LinearOrder α] [IsStrictOrderedRing α]

/-- **C14** (range).  From a value in `[0,1]` every later value is in `[0,1]`. -/
theorem chaos_in_unit (n : Nat) (v : α) (h0 : 0 ≤ v) (h1 : v ≤ 1) :
    0 ≤ chaosIterate n v ∧ chaosIterate n v ≤ 1 := by
  induction n generalizing v with
  | zero => exact ⟨h0, h1⟩
  | succ n ih =>
    refine ih _ ?_ ?_
    · have : 0 ≤ 1 - v := by linarith
      positivity
    · nlinarith [sq_nonneg (2 * v - 1)]

omit [LinearOrder α] [IsStrictOrderedRing α] in
private theorem chaosFill_spec (n : Nat) (v : α) :
    chaosFill n v = (List.range n).map (fun i => chaosIterate (i + 1) v) := by
  induction n generalizing v with
  | zero => rfl
  | succ n ih =>
    have e : 4 * v * (1 - v) = v * (4 * (1 - v)) := by ring
    simp only [chaosFill, List.range_succ_eq_map, List.map_cons, List.map_map, ih, e]
    rfl

omit [LinearOrder α] [IsStrictOrderedRing α] in
private theorem chaosIterate_succ' (n : Nat) (v : α) :
    chaosIterate (n + 1) v = chaosStep (chaosIterate n v) := by
  induction n generalizing v with
  | zero => rfl
  | succ n ih => rw [chaosIterate, ih]; rfl

omit [LinearOrder α] [IsStrictOrderedRing α] in
/-- **C14** (bulk form).  `makeSequence(dst,L)` writes exactly `L` values, the `i`-th being the value
after `i+1` single steps, and leaves the state after `L` single steps; `L = 0` included. -/
theorem chaos_makeSequence (v : α) (L : Nat) :
    (chaosMakeSequence v L).1 = (List.range L).map (fun i => chaosStep^[i + 1] v) ∧
    (chaosMakeSequence v L).2 = chaosStep^[L] v := by
  have hit : ∀ n, chaosIterate n v = chaosStep^[n] v := by
    intro n
    induction n with
    | zero => rfl
    | succ n ih => rw [chaosIterate_succ', ih, Function.iterate_succ_apply']
  have key : ∀ n, chaosStep v :: chaosFill n (chaosStep v) =
      (List.range (n + 1)).map (fun i => chaosStep^[i + 1] v) := by
    intro n
    rw [chaosFill_spec, List.range_succ_eq_map, List.map_cons, List.map_map]
    congr 1
    apply List.map_congr_left
    intro i _
    rw [Function.comp_apply, ← hit]
    rfl
  unfold chaosMakeSequence
  by_cases h : L = 0
  · subst h; simp
  · obtain ⟨n, rfl⟩ : ∃ n, L = n + 1 := ⟨L - 1, by omega⟩
    simp only [h, if_false, Nat.add_sub_cancel]
    refine ⟨key n, ?_⟩
    simp only [key]
    simp [List.range_succ]

omit [LinearOrder α] [IsStrictOrderedRing α] in
/-- **C14** (`iterate`).  `iterate(It)` is `It` single steps. -/
theorem chaos_iterate (v : α) (n : Nat) : chaosIterate n v = chaosStep^[n] v := by
  induction n with
  | zero => rfl
  | succ n ih => rw [chaosIterate_succ', ih, Function.iterate_succ_apply']

/-- **C14** (all values written by `makeSequence`). -/
theorem chaos_makeSequence_in_unit (v : α) (h0 : 0 < v) (h1 : v < 1) (L : Nat) :
    (∀ x ∈ (chaosMakeSequence v L).1, 0 ≤ x ∧ x ≤ 1) ∧
    0 ≤ (chaosMakeSequence v L).2 ∧ (chaosMakeSequence v L).2 ≤ 1 := by
  rw [(chaos_makeSequence v L).1, (chaos_makeSequence v L).2]
  refine ⟨?_, ?_⟩
  · intro x hx
    obtain ⟨i, -, rfl⟩ := List.mem_map.1 hx
    rw [← chaos_iterate]
    exact chaos_in_unit _ v h0.le h1.le
  · rw [← chaos_iterate]
    exact chaos_in_unit _ v h0.le h1.le

end

example : (0 : ℚ) < 1 / 4 ∧ (1 / 4 : ℚ) < 1 ∧
    (chaosMakeSequence (1 / 4 : ℚ) 2) = ([3 / 4, 3 / 4], 3 / 4) := by decide +kernel

/-! ## C15 -/

/-- **C15** (`randIdx(size)`).  For every size and every float draw in `[0,1)` the index is below
the size. -/
theorem randIdx_in_range (t m size : Nat) (ht : 24 ≤ t) (hm : m < 2 ^ t) (hrep : roundF32 m = m)
    (hs : 1 ≤ size) : randIdxF32 t m size < size :=
  randIdxF32_lt ht hm (hrep ▸ rep_roundF32 m) hs

example : 24 ≤ 32 ∧ 2 ^ 32 - 2 ^ 8 < 2 ^ 32 ∧ roundF32 (2 ^ 32 - 2 ^ 8) = 2 ^ 32 - 2 ^ 8 ∧
    randIdxF32 32 (2 ^ 32 - 2 ^ 8) 100 = 99 ∧
    randIdxF32 32 (2 ^ 32 - 2 ^ 8) (2 ^ 24 + 3) = 2 ^ 24 + 2 := by decide +kernel

/-- **C15** (`randIdx(min, max_plus_1)`). -/
theorem randIdx_range_in_range (t m : Nat) (mn mx1 : Int) (ht : 24 ≤ t) (hm : m < 2 ^ t)
    (hrep : roundF32 m = m) (h : mn < mx1) :
    mn ≤ randIdxRangeF32 t m mn mx1 ∧ randIdxRangeF32 t m mn mx1 < mx1 := by
  have := randIdx_in_range t m (mx1 - mn).toNat ht hm hrep (by omega)
  unfold randIdxRangeF32
  omega

example : randIdxRangeF32 32 (2 ^ 31) (-3) 5 = 1 := by decide +kernel

/-- **C15** (every index can occur).  Every index in the range is produced by some draw, for ranges
of at most `2^23` values. -/
theorem randIdx_reaches (mn mx1 : Int) (h : mx1 - mn ≤ 2 ^ 23) (i : Int) (h1 : mn ≤ i)
    (h2 : i < mx1) :
    ∃ m, m < 2 ^ 24 ∧ roundF32 m = m ∧ randIdxRangeF32 24 m mn mx1 = i := by
  obtain ⟨m, hm, he⟩ := randIdxF32_reach (size := (mx1 - mn).toNat) (i := (i - mn).toNat)
    (by omega) (by omega)
  refine ⟨m, hm, roundF32_small hm, ?_⟩
  unfold randIdxRangeF32
  rw [he]; omega

/-- The bound matters: for `2^24+1` values the last index never occurs, whatever the draw. -/
theorem randIdx_misses_last (t m : Nat) (ht : 24 ≤ t) (hm : m < 2 ^ t) (hrep : roundF32 m = m) :
    randIdxF32 t m (2 ^ 24 + 1) ≠ 2 ^ 24 := by
  have e : roundF32 (2 ^ 24 + 1) = 2 ^ 24 := by decide +kernel
  have e' : roundF32 (2 ^ 24) = 2 ^ 24 := by decide +kernel
  have h := randIdx_in_range t m (2 ^ 24) ht hm hrep (by norm_num)
  unfold randIdxF32 at *
  rw [e]; rw [e'] at h; omega

/-- **C15** (`randD(min,max)`).  Over exact arithmetic the value is in `[min, max)`. -/
theorem randD_in_range {α : Type} [Field α] [LinearOrder α] [IsStrictOrderedRing α]
    (u mn mx : α) (h0 : 0 ≤ u) (h1 : u < 1) (h : mn < mx) :
    mn ≤ randDRange u mn mx ∧ randDRange u mn mx < mx := by
  unfold randDRange
  constructor
  · have : 0 ≤ (mx - mn) * u := mul_nonneg (by linarith) h0
    linarith
  · have : (mx - mn) * u < (mx - mn) * 1 := mul_lt_mul_of_pos_left h1 (by linarith)
    linarith

example : randDRange (1 / 4 : ℚ) (-1) 3 = 0 := by decide +kernel

end Heu
