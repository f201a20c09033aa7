import Verif.Props.DTLZRest
import Mathlib.Order.Bounds.Basic

/-!
# C75: DTLZ8
-/

set_option linter.unusedVariables false
set_option linter.unusedSimpArgs false

namespace Heu
open Spec TestFuns

theorem fill_loop (S : Nat → ℝ) (body : Nat → List ℝ → Out (List ℝ)) (f : List ℝ) (k : Nat)
    (hk : k ≤ f.length) (hb : ∀ i < f.length, ∀ g, body i g = wr g i (S i)) :
    forUp 0 k body f = .ok ((List.range k).map S ++ f.drop k) := by
  induction k with
  | zero => simp [forUp]
  | succ k ih =>
    rw [forUp_succ _ _ (Nat.zero_le _), ih (by omega), Out.ok_bind, hb k (by omega), wr,
      if_pos (by simp; omega)]
    congr 1
    rw [List.set_append_right _ _ (by simp), List.length_map, List.length_range, Nat.sub_self,
      List.drop_eq_getElem_cons (by omega : k < f.length), List.set_cons_zero, List.range_succ,
      List.map_append, List.append_assoc]
    rfl

theorem range_sum (x : List ℝ) (lo hi : Nat) (h : hi ≤ x.length) :
    ((List.range' lo (hi - lo)).map fun i => x.getD i 0).sum = ((x.drop lo).take (hi - lo)).sum := by
  congr 1
  apply List.ext_getElem
  · simp; omega
  · intro i h1 h2
    simp at h1 h2
    simp only [List.getElem_map, List.getElem_range', List.getElem_take, List.getElem_drop]
    rw [List.getD_eq_getElem x 0 (by omega)]
    congr 1
    omega

/-- What the code sums for objective `i`: the entries from `i * N / M` to
`min((i + 1) * N / M, N - 1)`, both included, divided by `⌊N / M⌋`. -/
noncomputable def raw8 (x : List ℝ) (M i : Nat) : ℝ :=
  ((x.drop (i * x.length / M)).take
    (min ((i + 1) * x.length / M) (x.length - 1) + 1 - i * x.length / M)).sum /
      ((x.length / M : Nat) : ℝ)

theorem fitness8_eq (x f : List ℝ) (hM : 1 ≤ f.length) (hN : f.length < x.length) :
    (fitness8 x f).bind (fun f' => .ok (f'.map (· / ((x.length / f.length : Nat) : ℝ)))) =
      .ok ((List.range f.length).map (raw8 x f.length)) := by
  have h := fill_loop (fun i => ((x.drop (i * x.length / f.length)).take
    (min ((i + 1) * x.length / f.length) (x.length - 1) + 1 - i * x.length / f.length)).sum)
    (fun objIdx f' => do
      let sum ← forUp (objIdx * x.length / f.length)
        (min ((objIdx + 1) * x.length / f.length) (x.length - 1) + 1) (fun idx sum => do
          let a ← rd x idx
          return sum + a) (0 : ℝ)
      wr f' objIdx sum) f f.length le_rfl (by
      intro i hi g
      rw [forUp_sum _ _ _ (fun i => x.getD i 0) (by
        intro j _ hj s
        have : j < x.length := by omega
        simp only [rd_ok this, Out.ok_bind, Out.pure_eq, List.getD_eq_getElem x 0 this]), Out.ok_bind,
        range_sum _ _ _ (by omega), zero_add])
  unfold fitness8
  dsimp only
  rw [h]
  simp only [Out.bind, List.drop_length, List.append_nil, List.map_map]
  rfl

/-! ### The smallest sum of two of the first `M - 1` objectives -/

/-- The sums of two different objectives among the first `M - 1`. -/
def PairSums (f : List ℝ) : Set ℝ :=
  {s | ∃ i j, i < j ∧ j + 1 < f.length ∧ s = f.getD i 0 + f.getD j 0}

/-- `r` is the least element of `S`, or `none` and `S` is empty. -/
def LeastOpt (r : Option ℝ) (S : Set ℝ) : Prop :=
  (r = none ∧ S = ∅) ∨ ∃ m, r = some m ∧ IsLeast S m

theorem leastOpt_insert {r : Option ℝ} {S : Set ℝ} (h : LeastOpt r S) (s : ℝ) :
    LeastOpt (some (minInf r s)) (S ∪ {s}) := by
  right
  rcases h with ⟨rfl, rfl⟩ | ⟨m, rfl, hm⟩
  · exact ⟨s, rfl, by simp [IsLeast, lowerBounds]⟩
  · refine ⟨min m s, rfl, ?_, ?_⟩
    · rcases le_total m s with h | h
      · left; simp only [min_eq_left h]; exact hm.1
      · right; simp [min_eq_right h]
    · intro t ht
      rcases ht with ht | ht
      · exact le_trans (min_le_left _ _) (hm.2 ht)
      · rw [Set.mem_singleton_iff] at ht
        subst ht
        exact min_le_right _ _

theorem min2Dynamic_least (f : List ℝ) : ∃ r, min2Dynamic f = .ok r ∧ LeastOpt r (PairSums f) := by
  have inner : ∀ (i : Nat) (k : Nat), i + 1 ≤ k → k + 1 ≤ f.length → ∀ (r : Option ℝ) (S : Set ℝ),
      LeastOpt r S → ∃ r', forUp (i + 1) k (fun j r => do
        let a ← rd f i
        let b ← rd f j
        return some (minInf r (a + b))) r = .ok r' ∧
        LeastOpt r' (S ∪ {s | ∃ j, i < j ∧ j < k ∧ s = f.getD i 0 + f.getD j 0}) := by
    intro i k
    induction k with
    | zero => intro h; omega
    | succ k ih =>
      intro h1 h2 r S hS
      by_cases hk : i + 1 = k + 1
      · obtain rfl : i = k := by omega
        refine ⟨r, by simp [forUp], ?_⟩
        have : {s : ℝ | ∃ j, i < j ∧ j < i + 1 ∧ s = f.getD i 0 + f.getD j 0} = ∅ := by
          ext s; simp; intros; omega
        rw [this, Set.union_empty]
        exact hS
      · obtain ⟨r', hr', hl⟩ := ih (by omega) (by omega) r S hS
        have hi : i < f.length := by omega
        have hk' : k < f.length := by omega
        refine ⟨some (minInf r' (f[i] + f[k])), ?_, ?_⟩
        · rw [forUp_succ _ _ (by omega), hr', Out.ok_bind]
          simp only [rd_ok hi, rd_ok hk', Out.ok_bind, Out.pure_eq]
        · have := leastOpt_insert hl (f[i] + f[k])
          have hse : ∀ A B : Set ℝ, A = B → LeastOpt (some (minInf r' (f[i] + f[k]))) A → LeastOpt (some (minInf r' (f[i] + f[k]))) B := fun A B h => h ▸ id
          refine hse _ _ ?_ this
          symm
          ext s
          simp only [Set.mem_union, Set.mem_ofPred_eq, Set.mem_singleton_iff]
          constructor
          · rintro (h | ⟨j, h3, h4, h5⟩)
            · exact .inl (.inl h)
            · by_cases hjk : j = k
              · subst hjk
                right
                rw [h5, List.getD_eq_getElem f 0 hi, List.getD_eq_getElem f 0 hk']
              · exact .inl (.inr ⟨j, h3, by omega, h5⟩)
          · rintro ((h | ⟨j, h3, h4, h5⟩) | h)
            · exact .inl h
            · exact .inr ⟨j, h3, by omega, h5⟩
            · right
              exact ⟨k, by omega, by omega, by rw [h, List.getD_eq_getElem f 0 hi, List.getD_eq_getElem f 0 hk']⟩
  have outer : ∀ k, k + 2 ≤ f.length ∨ k = 0 → ∃ r, forUp 0 k (fun i r => forUp (i + 1) (f.length - 1) (fun j r => do
      let a ← rd f i
      let b ← rd f j
      return some (minInf r (a + b))) r) none = .ok r ∧
      LeastOpt r {s | ∃ i j, i < k ∧ i < j ∧ j + 1 < f.length ∧ s = f.getD i 0 + f.getD j 0} := by
    intro k
    induction k with
    | zero => intro _; exact ⟨none, by simp [forUp], .inl ⟨rfl, by ext; simp⟩⟩
    | succ k ih =>
      intro h
      obtain ⟨r, hr, hl⟩ := ih (by omega)
      obtain ⟨r', hr', hl'⟩ := inner k (f.length - 1) (by omega) (by omega) r _ hl
      refine ⟨r', ?_, ?_⟩
      · rw [forUp_succ _ _ (Nat.zero_le _), hr, Out.ok_bind, hr']
      · convert hl' using 1
        ext s
        simp only [Set.mem_union, Set.mem_ofPred_eq]
        constructor
        · rintro ⟨i, j, h1, h2, h3, h4⟩
          by_cases hik : i = k
          · subst hik
            exact .inr ⟨j, h2, by omega, h4⟩
          · exact .inl ⟨i, j, by omega, h2, h3, h4⟩
        · rintro (⟨i, j, h1, h2, h3, h4⟩ | ⟨j, h2, h3, h4⟩)
          · exact ⟨i, j, by omega, h2, h3, h4⟩
          · exact ⟨k, j, by omega, h2, by omega, h4⟩
  obtain ⟨r, hr, hl⟩ := outer (f.length - 2) (by omega)
  refine ⟨r, hr, ?_⟩
  convert hl using 1
  ext s
  simp only [PairSums, Set.mem_ofPred_eq]
  constructor
  · rintro ⟨i, j, h1, h2, h3⟩; exact ⟨i, j, by omega, h1, h2, h3⟩
  · rintro ⟨i, j, h0, h1, h2, h3⟩; exact ⟨i, j, h1, h2, h3⟩

theorem min2Fixed_least (f : List ℝ) (hM : 3 ≤ f.length) :
    ∀ fuel i j, i + 3 ≤ f.length → i < j → j + 1 ≤ f.length → (i + 3 = f.length → j + 2 = f.length) →
      (f.length - 3 - i) * f.length + (f.length - j) ≤ fuel →
      ∃ m, min2Fixed f fuel i j = .ok m ∧
        IsLeast {s | ∃ a b, (i < a ∨ (a = i ∧ j ≤ b)) ∧ a < b ∧ b + 1 < f.length ∧
          s = f.getD a 0 + f.getD b 0} m := by
  intro fuel
  induction fuel with
  | zero => intro i j _ _ h _ hf; omega
  | succ fuel ih =>
    intro i j h1 h2 h3 h4 hf
    unfold min2Fixed
    dsimp only
    have hi : i < f.length := by omega
    by_cases hlt : i + 3 < f.length
    · rw [if_pos hlt]
      by_cases hj : j + 1 < f.length
      · rw [if_pos hj]
        have hjl : j < f.length := by omega
        obtain ⟨m, hm, hl⟩ := ih i (j + 1) h1 (by omega) (by omega) (by omega) (by omega)
        refine ⟨min (f[i] + f[j]) m, ?_, ?_⟩
        · simp only [rd_ok hi, rd_ok hjl, Out.ok_bind, hm, Out.pure_eq]
        · constructor
          · rcases le_total (f[i] + f[j]) m with h | h
            · rw [min_eq_left h]
              exact ⟨i, j, .inr ⟨rfl, le_rfl⟩, h2, by omega,
                by rw [List.getD_eq_getElem f 0 hi, List.getD_eq_getElem f 0 hjl]⟩
            · rw [min_eq_right h]
              obtain ⟨a, b, h5, h6⟩ := hl.1
              exact ⟨a, b, by omega, h6⟩
          · rintro s ⟨a, b, h5, h6, h7, h8⟩
            by_cases hab : a = i ∧ b = j
            · obtain ⟨rfl, rfl⟩ := hab
              rw [h8, List.getD_eq_getElem f 0 hi, List.getD_eq_getElem f 0 hjl]
              exact min_le_left _ _
            · exact le_trans (min_le_right _ _) (hl.2 ⟨a, b, by omega, h6, h7, h8⟩)
      · rw [if_neg hj]
        have hfu : (f.length - 3 - (i + 1)) * f.length + (f.length - (i + 2)) ≤ fuel := by
          have e : f.length - 3 - i = (f.length - 3 - (i + 1)) + 1 := by omega
          rw [e, Nat.add_mul] at hf
          omega
        obtain ⟨m, hm, hl⟩ := ih (i + 1) (i + 2) (by omega) (by omega) (by omega) (by omega) hfu
        refine ⟨m, hm, ?_⟩
        convert hl using 1
        ext s
        constructor
        · rintro ⟨a, b, h5, h6, h7, h8⟩; exact ⟨a, b, by omega, h6, h7, h8⟩
        · rintro ⟨a, b, h5, h6, h7, h8⟩; exact ⟨a, b, by omega, h6, h7, h8⟩
    · rw [if_neg hlt, if_pos (by omega)]
      have hjl : j < f.length := by omega
      refine ⟨f[i] + f[j], ?_, ?_, ?_⟩
      · simp only [rd_ok hi, rd_ok hjl, Out.ok_bind, Out.pure_eq]
      · exact ⟨i, j, .inr ⟨rfl, le_rfl⟩, h2, by omega,
          by rw [List.getD_eq_getElem f 0 hi, List.getD_eq_getElem f 0 hjl]⟩
      · rintro s ⟨a, b, h5, h6, h7, h8⟩
        obtain rfl : a = i := by omega
        obtain rfl : b = j := by omega
        rw [h8, List.getD_eq_getElem f 0 hi, List.getD_eq_getElem f 0 hjl]

/-- C75: both variants of the search for the smallest pair of objectives find it, for three or more
objectives. -/
theorem min2_least (fixed : Bool) (f : List ℝ) (hM : 3 ≤ f.length) :
    ∃ m, min2 fixed f = .ok (some m) ∧ IsLeast (PairSums f) m := by
  unfold min2
  cases fixed with
  | true =>
    obtain ⟨m, hm, hl⟩ := min2Fixed_least f hM (f.length * f.length) 0 1 (by omega) (by omega)
      (by omega) (by omega) (by
        rw [Nat.sub_zero, Nat.sub_mul]
        have : 3 * f.length ≤ f.length * f.length := Nat.mul_le_mul_right _ hM
        omega)
    refine ⟨m, by simp [hm, Out.bind], ?_⟩
    convert hl using 1
    ext s
    constructor
    · rintro ⟨a, b, h6, h7, h8⟩; exact ⟨a, b, by omega, h6, h7, h8⟩
    · rintro ⟨a, b, h5, h6, h7, h8⟩; exact ⟨a, b, h6, h7, h8⟩
  | false =>
    obtain ⟨r, hr, hl⟩ := min2Dynamic_least f
    rcases hl with ⟨rfl, he⟩ | ⟨m, rfl, hm⟩
    · exfalso
      have : f.getD 0 0 + f.getD 1 0 ∈ PairSums f := ⟨0, 1, by omega, by omega, rfl⟩
      rw [he] at this
      exact this
    · exact ⟨m, by simpa using hr, hm⟩

/-! ### DTLZ8 -/

/-- C75 (DTLZ8), the part that holds: with at least three objectives and more variables than
objectives no access is out of range; objective `i` is `raw8 x M i`, plus a penalty of at least 1000
exactly when constraint `i` (of the code) is violated. -/
theorem dtlz8_value_partial (fixed : Bool) (x f : List ℝ) (hM : 3 ≤ f.length)
    (hN : f.length < x.length) :
    ∃ r m, dtlz8 fixed x f = .ok r ∧ r.length = f.length ∧
      IsLeast {s | ∃ i j, i < j ∧ j + 1 < f.length ∧ s = raw8 x f.length i + raw8 x f.length j} m ∧
      ∀ i < f.length, r[i]? = some (
        let g := if i + 1 = f.length then 2 * raw8 x f.length i + m - 1
          else raw8 x f.length (f.length - 1) + 4 * raw8 x f.length i - 1
        if g < 0 then raw8 x f.length i + (1000 - g) else raw8 x f.length i) := by
  obtain ⟨M, hMe⟩ : ∃ M, M = f.length := ⟨_, rfl⟩
  obtain ⟨w, hw⟩ : ∃ w, w = (List.range M).map (raw8 x M) := ⟨_, rfl⟩
  have hwl : w.length = M := by rw [hw]; simp
  have hget : ∀ i < M, w.getD i 0 = raw8 x M i := by
    intro i hi
    rw [List.getD_eq_getElem w 0 (by omega)]
    simp [hw]
  obtain ⟨m, hm, hl⟩ := min2_least fixed w (by omega)
  have h8 := fitness8_eq x f (by omega) hN
  rw [← hMe, ← hw] at h8
  cases hf8 : fitness8 x f with
  | ub => rw [hf8] at h8; simp [Out.bind] at h8
  | timeout => rw [hf8] at h8; simp [Out.bind] at h8
  | ok f' =>
    rw [hf8] at h8
    simp only [Out.bind, Out.ok.injEq] at h8
    have hlast : M - 1 < w.length := by omega
    refine ⟨List.zipWith (fun v gv => if gv < 0 then v + (1e3 + (-gv)) else v) w
      ((w.dropLast.map fun v => w[M - 1] + 4 * v - 1) ++ [2 * w[M - 1] + m - 1]), m, ?_, ?_, ?_, ?_⟩
    · unfold dtlz8
      dsimp only
      rw [if_neg (by omega), hf8, Out.ok_bind, ← hMe, h8, rd_ok hlast, Out.ok_bind, hm, Out.ok_bind]
      rfl
    · simp [hwl, ← hMe]; omega
    · rw [← hMe]
      convert hl using 1
      ext s
      simp only [PairSums, Set.mem_ofPred_eq, hwl]
      constructor
      · rintro ⟨i, j, h1, h2, h3⟩
        exact ⟨i, j, h1, h2, by rw [hget i (by omega), hget j (by omega)]; exact h3⟩
      · rintro ⟨i, j, h1, h2, h3⟩
        exact ⟨i, j, h1, h2, by rw [hget i (by omega), hget j (by omega)] at h3; exact h3⟩
    · intro i hi
      rw [← hMe] at hi ⊢
      have hwi : w[i]? = some (raw8 x M i) := by
        rw [List.getElem?_eq_getElem (by omega), ← List.getD_eq_getElem w 0, hget i hi]
      have hwm : w[M - 1] = raw8 x M (M - 1) := by
        rw [← List.getD_eq_getElem w 0 hlast, hget _ (by omega)]
      rw [List.getElem?_zipWith, hwi]
      by_cases hlst : i + 1 = M
      · have hg : ((w.dropLast.map fun v => w[M - 1] + 4 * v - 1) ++ [2 * w[M - 1] + m - 1])[i]? =
            some (2 * w[M - 1] + m - 1) := by
          rw [List.getElem?_append_right (by simp; omega)]
          have : i - (w.dropLast.map fun v => w[M - 1] + 4 * v - 1).length = 0 := by simp; omega
          rw [this]
          rfl
        have him : i = M - 1 := by omega
        subst him
        rw [hg, hwm]
        simp only [if_pos hlst]
        congr 1
        split <;> norm_num <;> ring
      · have hg : ((w.dropLast.map fun v => w[M - 1] + 4 * v - 1) ++ [2 * w[M - 1] + m - 1])[i]? =
            some (raw8 x M (M - 1) + 4 * raw8 x M i - 1) := by
          rw [List.getElem?_append_left (by simp; omega), List.getElem?_map, List.getElem?_dropLast,
            if_pos (by omega), hwi, hwm]
          rfl
        rw [hg]
        simp only [if_neg hlst]
        congr 1
        split <;> norm_num <;> ring

example : ∃ r m, dtlz8 true [0, 0, 1, 1, 1, 0, 0] [9, 9, 9] = .ok r ∧
    IsLeast {s | ∃ i j, i < j ∧ j + 1 < 3 ∧ s = raw8 [0, 0, 1, 1, 1, 0, 0] 3 i + raw8 [0, 0, 1, 1, 1, 0, 0] 3 j} m := by
  obtain ⟨r, m, h1, _, h3, _⟩ := dtlz8_value_partial true [0, 0, 1, 1, 1, 0, 0] [9, 9, 9] (by simp) (by simp)
  exact ⟨r, m, h1, h3⟩

/-- C75 (DTLZ8), the part that fails: the documented objective is an average of `N / M` variables, so
it is 1 when every variable is 1.  The code sums `N / M + 1` variables and divides by `N / M`. -/
theorem dtlz8_overlap (k M : Nat) (hk : 2 ≤ k) (hM : 2 ≤ M) :
    raw8 (List.replicate (k * M) 1) M 0 = ((k : ℝ) + 1) / k := by
  unfold raw8
  have hlen : (List.replicate (k * M) (1 : ℝ)).length = k * M := by simp
  rw [hlen, Nat.zero_mul, Nat.zero_div, List.drop_zero, Nat.zero_add, Nat.one_mul,
    Nat.mul_div_cancel _ (by omega)]
  have hlt : k + 1 ≤ k * M := by nlinarith
  rw [Nat.min_eq_left (by omega), Nat.sub_zero, List.take_replicate, Nat.min_eq_left hlt,
    List.sum_replicate]
  simp

end Heu
