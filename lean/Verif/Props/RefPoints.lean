import Verif.Lemmas.RefPoints
import Verif.Props.Maths
import Verif.Spec.RefPoints
import Verif.Spec.Pareto
import Mathlib.Data.Fin.VecNotation
import Mathlib.Tactic.Linarith
import Mathlib.Data.Nat.Choose.Bounds
import Mathlib.Algebra.BigOperators.Field
import Mathlib.Algebra.Order.BigOperators.Ring.Finset

/-!
# Properties C23, C24, C58, C59: reference points, ideal point, association, normalisation
-/

set_option linter.unusedSectionVars false

namespace Heu
open Spec

section C23
variable {α : Type} [Field α] [CharZero α] {d : Nat}

/-- **C23** (generation, no bound on the dimension or precision).  Whenever
`computeReferencePointPoses` does not divide by zero, it yields exactly C(dim+precision-1, precision)
points, all distinct, and they are exactly the lattice points. -/
theorem referencePoints_are_lattice (precision : Nat) (hp : 1 ≤ precision) (junk : Fin (d + 1) → α)
    (pts : List (Fin (d + 1) → α)) (h : computeReferencePointPoses junk precision = .ok pts) :
    pts.Nodup ∧ pts.length = (d + 1 + precision - 1).choose precision ∧
    ∀ v, v ∈ pts ↔ IsLatticePoint precision v := by
  have := computeRP_spec hp junk
  have hpts : pts = (priMakeRP precision 0 0 (junk, [])).2 := by
    unfold computeReferencePointPoses at h
    split at h <;> simp_all
  rw [hpts]
  refine ⟨this.1, ?_, ?_⟩
  · rw [this.2.1]; congr 1; omega
  · intro v
    rw [this.2.2 v]
    exact exists_congr fun c => and_congr_right fun _ => by rw [funext_iff]

/-- 3 objectives with precision 6: the premises are met and there are 28 points. -/
example : ∃ pts, computeReferencePointPoses (d := 2) (fun _ => (7 : ℚ)) 6 = .ok pts ∧
    pts.length = 28 := by
  have h : nchooseK64 (2 + 1 + 6 - 1) 6 = .ok 28 := by decide +kernel
  have hc : computeReferencePointPoses (d := 2) (fun _ => (7 : ℚ)) 6 =
      .ok (priMakeRP 6 0 0 (fun _ => (7 : ℚ), [])).2 := by
    unfold computeReferencePointPoses; rw [h]
  exact ⟨_, hc, (referencePoints_are_lattice 6 (by norm_num) _ _ hc).2.1⟩

/-- Lattice points are non-negative and sum to one. -/
theorem latticePoint_simplex {α : Type} [Field α] [LinearOrder α] [IsStrictOrderedRing α] {m : Nat}
    (p : Nat) (hp : 1 ≤ p) (v : Fin m → α) (h : IsLatticePoint p v) :
    (∀ i, 0 ≤ v i) ∧ ∑ i, v i = 1 := by
  obtain ⟨c, hc, hv⟩ := h
  have hp0 : (p : α) ≠ 0 := Nat.cast_ne_zero.2 (by omega)
  refine ⟨fun i => by rw [hv]; positivity, ?_⟩
  simp only [hv]
  rw [← Finset.sum_div, ← Nat.cast_sum, hc, div_self hp0]

/-- **C23 (part)** (single layer).  While `dim + precision - 1 ≤ 20` the reference matrix has exactly
C(dim+precision-1, precision) = `referencePointCount()` columns, all distinct, exactly the lattice
points.  Missing: larger configurations, where the claim is false of the code
(`referencePoses_lost`, `referencePoses_trap`). -/
theorem referencePoses_partial (precision : Nat) (hp : 1 ≤ precision)
    (hN : d + 1 + precision - 1 ≤ 20) (junk : Fin (d + 1) → α)
    (shuffle : List (Fin (d + 1) → α) → List (Fin (d + 1) → α))
    (hsh : ∀ l, (shuffle l).Perm l) :
    ∃ cols, makeReferencePoses junk shuffle precision = .ok cols ∧ cols.Nodup ∧
      cols.length = (d + 1 + precision - 1).choose precision ∧
      nchooseK64 (d + 1 + precision - 1) precision = .ok cols.length ∧
      ∀ v, v ∈ cols ↔ IsLatticePoint precision v := by
  have hc := nchooseK_eq_choose_partial (d + 1 + precision - 1) precision (by omega) hN
  have hcomp : computeReferencePointPoses junk precision =
      .ok (priMakeRP precision 0 0 (junk, [])).2 := by
    unfold computeReferencePointPoses; rw [hc]
  obtain ⟨h1, h2, h3⟩ := referencePoints_are_lattice precision hp junk _ hcomp
  generalize hP : (priMakeRP precision 0 0 (junk, [])).2 = pts at *
  have hperm := hsh pts
  refine ⟨shuffle pts, ?_, hperm.nodup_iff.2 h1, ?_, ?_, ?_⟩
  · unfold makeReferencePoses
    rw [show precision + (d + 1) - 1 = d + 1 + precision - 1 by omega, hc, hcomp]
    simp only [Out.ok_bind]
    rw [copyColumns_eq _ _ (by rw [hperm.length_eq, h2])]
    rw [List.take_of_length_le (by rw [hperm.length_eq, h2])]
  · rw [hperm.length_eq, h2]
  · rw [hperm.length_eq, h2, hc]
  · intro v; rw [hperm.mem_iff, h3]

example : 1 ≤ 4 ∧ 2 + 1 + 4 - 1 ≤ 20 ∧ (2 + 1 + 4 - 1).choose 4 = 15 := by decide

/-- **C23 (part)** (double layer).  While both `dim + precision - 1 ≤ 20`: the inner lattice scaled by
`invSqrt2`, followed by the outer lattice. -/
theorem referencePoses2_partial (inner outer : Nat) (hi : 1 ≤ inner) (ho : 1 ≤ outer)
    (hNi : d + 1 + inner - 1 ≤ 20) (hNo : d + 1 + outer - 1 ≤ 20) (junk : Fin (d + 1) → α)
    (invSqrt2 : α) :
    ∃ ipts opts : List (Fin (d + 1) → α), makeReferencePoses2 junk invSqrt2 inner outer =
        .ok (ipts.map (fun v r => v r * invSqrt2) ++ opts) ∧
      ipts.Nodup ∧ opts.Nodup ∧
      ipts.length = (d + 1 + inner - 1).choose inner ∧
      opts.length = (d + 1 + outer - 1).choose outer ∧
      (∀ v, v ∈ ipts ↔ IsLatticePoint inner v) ∧ (∀ v, v ∈ opts ↔ IsLatticePoint outer v) := by
  have hci := nchooseK_eq_choose_partial (d + 1 + inner - 1) inner (by omega) hNi
  have hco := nchooseK_eq_choose_partial (d + 1 + outer - 1) outer (by omega) hNo
  have hcompi : computeReferencePointPoses junk inner =
      .ok (priMakeRP inner 0 0 (junk, [])).2 := by
    unfold computeReferencePointPoses; rw [hci]
  have hcompo : computeReferencePointPoses junk outer =
      .ok (priMakeRP outer 0 0 (junk, [])).2 := by
    unfold computeReferencePointPoses; rw [hco]
  obtain ⟨h1, h2, h3⟩ := referencePoints_are_lattice inner hi junk _ hcompi
  obtain ⟨h1', h2', h3'⟩ := referencePoints_are_lattice outer ho junk _ hcompo
  refine ⟨_, _, ?_, h1, h1', h2, h2', h3, h3'⟩
  unfold makeReferencePoses2
  rw [show inner + (d + 1) - 1 = d + 1 + inner - 1 by omega, hci,
    show outer + (d + 1) - 1 = d + 1 + outer - 1 by omega, hco, hcompi, hcompo]
  simp only [Out.ok_bind]
  have hb : ∀ p, d + 1 + p - 1 ≤ 20 → (d + 1 + p - 1).choose p ≤ 2 ^ 20 := by
    intro p hp
    calc (d + 1 + p - 1).choose p ≤ 2 ^ (d + 1 + p - 1) := Nat.choose_le_two_pow ..
      _ ≤ 2 ^ 20 := Nat.pow_le_pow_right (by norm_num) hp
  have hsum : ((d + 1 + inner - 1).choose inner + (d + 1 + outer - 1).choose outer) % 2 ^ 64 =
      (d + 1 + inner - 1).choose inner + (d + 1 + outer - 1).choose outer := by
    apply Nat.mod_eq_of_lt
    have := hb inner hNi; have := hb outer hNo
    norm_num at *; omega
  rw [hsum]
  have hlen : (List.map (fun (v : Fin (d + 1) → α) r => v r * invSqrt2)
      (priMakeRP inner 0 0 (junk, [])).2 ++ (priMakeRP outer 0 0 (junk, [])).2).length =
      (d + 1 + inner - 1).choose inner + (d + 1 + outer - 1).choose outer := by
    rw [List.length_append, List.length_map, h2, h2']
  rw [copyColumns_eq _ _ (by rw [hlen]), List.take_of_length_le (by rw [hlen])]

/-- The full claim fails for 3 objectives and precision 19: the matrix has 58 columns although the
lattice has 210 points, whatever the shuffle. -/
theorem referencePoses_lost (junk : Fin 3 → α) (shuffle : List (Fin 3 → α) → List (Fin 3 → α))
    (cols : List (Fin 3 → α)) (h : makeReferencePoses junk shuffle 19 = .ok cols) :
    cols.length = 58 ∧ Nat.choose 21 19 = 210 := by
  have hc : nchooseK64 (19 + (2 + 1) - 1) 19 = .ok 58 := by decide +kernel
  refine ⟨?_, by decide +kernel⟩
  unfold makeReferencePoses at h
  rw [hc] at h
  simp only [Out.ok_bind, Out.bind_eq_ok] at h
  obtain ⟨rfP, -, h⟩ := h
  exact copyColumns_length _ _ _ h

/-- ... and the 58 columns are really produced (the premise above is met). -/
theorem referencePoses_lost_runs (junk : Fin 3 → α) :
    ∃ cols, makeReferencePoses junk id 19 = .ok cols := by
  have hc : nchooseK64 (19 + (2 + 1) - 1) 19 = .ok 58 := by decide +kernel
  have hcomp : computeReferencePointPoses junk 19 = .ok (priMakeRP 19 0 0 (junk, [])).2 := by
    unfold computeReferencePointPoses
    rw [show 2 + 1 + 19 - 1 = 19 + (2 + 1) - 1 from rfl, hc]
  have h2 := (referencePoints_are_lattice 19 (by norm_num) junk _ hcomp).2.1
  refine ⟨((priMakeRP 19 0 0 (junk, [])).2).take 58, ?_⟩
  unfold makeReferencePoses
  rw [hc, hcomp]
  simp only [Out.ok_bind, id]
  rw [copyColumns_eq _ _ (by rw [h2]; decide +kernel)]

/-- With 3 objectives and any precision of at least 66, making the reference points divides by
zero. -/
theorem referencePoses_trap (precision : Nat) (h : 66 ≤ precision) (junk : Fin 3 → α)
    (shuffle : List (Fin 3 → α) → List (Fin 3 → α)) :
    makeReferencePoses junk shuffle precision = .ub := by
  have h1 : nchooseK64 (precision + (2 + 1) - 1) precision = .ub := by
    unfold nchooseK64
    rw [dif_pos (by omega)]
    exact nchooseK_divides_by_zero _ _ (by omega) (by omega)
  unfold makeReferencePoses
  rw [h1]; rfl

/-- **C23** (what the matrix contains, for every dimension and precision).  If making the reference points returns at
all, the columns are distinct lattice points, as many as `referencePointCount()` says; it returns exactly if
`referencePointCount()` does and does not exceed the number of lattice points. -/
theorem referencePoses_sound (precision : Nat) (hp : 1 ≤ precision) (junk : Fin (d + 1) → α)
    (shuffle : List (Fin (d + 1) → α) → List (Fin (d + 1) → α)) (hsh : ∀ l, (shuffle l).Perm l) :
    (∀ cols, makeReferencePoses junk shuffle precision = .ok cols →
      cols.Nodup ∧ (∀ v ∈ cols, IsLatticePoint precision v) ∧
      nchooseK64 (d + 1 + precision - 1) precision = .ok cols.length) ∧
    ((∃ cols, makeReferencePoses junk shuffle precision = .ok cols) ↔
      ∃ n, nchooseK64 (d + 1 + precision - 1) precision = .ok n ∧ n ≤ (d + 1 + precision - 1).choose precision) := by
  have hs := computeRP_spec (α := α) hp junk
  have hlen : ∀ n, nchooseK64 (d + 1 + precision - 1) precision = .ok n →
      makeReferencePoses junk shuffle precision =
        copyColumns (shuffle (priMakeRP precision 0 0 (junk, [])).2) n := by
    intro n hn
    unfold makeReferencePoses computeReferencePointPoses
    rw [show precision + (d + 1) - 1 = d + 1 + precision - 1 by omega, hn]
    rfl
  have hperm := hsh (priMakeRP precision 0 0 (junk, [])).2
  have hN : d + precision = d + 1 + precision - 1 := by omega
  have hsl : (shuffle (priMakeRP precision 0 0 (junk, [])).2).length = (d + 1 + precision - 1).choose precision := by
    rw [hperm.length_eq, hs.2.1, hN]
  have hlong : ∀ n, (d + 1 + precision - 1).choose precision < n → ∀ cols,
      copyColumns (shuffle (priMakeRP precision 0 0 (junk, [])).2) n ≠ .ok cols := by
    intro n hn cols
    match n, hn with
    | n + 1, hn =>
      intro he
      rw [copyColumns, Out.bind_eq_ok] at he
      obtain ⟨a, -, h2⟩ := he
      rw [List.getElem?_eq_none (by rw [hsl]; omega)] at h2
      simp at h2
  have hret : ∀ cols, makeReferencePoses junk shuffle precision = .ok cols →
      ∃ n, nchooseK64 (d + 1 + precision - 1) precision = .ok n ∧ n ≤ (d + 1 + precision - 1).choose precision ∧
        cols = (shuffle (priMakeRP precision 0 0 (junk, [])).2).take n := by
    intro cols hc
    have hc' := hc
    unfold makeReferencePoses at hc'
    obtain ⟨n, hn, -⟩ := Out.bind_eq_ok.1 hc'
    rw [show precision + (d + 1) - 1 = d + 1 + precision - 1 by omega] at hn
    rw [hlen n hn] at hc
    by_cases hle : n ≤ (d + 1 + precision - 1).choose precision
    · rw [copyColumns_eq _ _ (by rw [hsl]; exact hle)] at hc
      exact ⟨n, hn, hle, (Out.ok.inj hc).symm⟩
    · exact absurd hc (hlong n (by omega) cols)
  refine ⟨fun cols hc => ?_, fun ⟨cols, hc⟩ => ?_, fun ⟨n, hn, hle⟩ => ?_⟩
  · obtain ⟨n, hn, hle, rfl⟩ := hret cols hc
    refine ⟨(List.take_sublist _ _).nodup (hperm.nodup_iff.2 hs.1), fun v hv => ?_, ?_⟩
    · have := (hs.2.2 v).1 (hperm.mem_iff.1 (List.mem_of_mem_take hv))
      obtain ⟨c, h1, h2⟩ := this
      exact ⟨c, h1, fun i => congrFun h2 i⟩
    · rw [List.length_take, hsl, min_eq_left hle, hn]
  · obtain ⟨n, hn, hle, -⟩ := hret cols hc
    exact ⟨n, hn, hle⟩
  · rw [hlen n hn, copyColumns_eq _ _ (by rw [hsl]; exact hle)]
    exact ⟨_, rfl⟩

/-- **C23, exactly.**  With at least one objective and precision at least 1, the reference matrix consists of exactly
the lattice points, each once, if and only if `objectives + precision - 1 ≤ 20`, or there is one objective and the
precision is at most 65, or it is one of the two lucky cases (60 objectives with precision 1, two objectives with
precision 59). -/
theorem referencePoses_exact (precision : Nat) (hp : 1 ≤ precision) (junk : Fin (d + 1) → α)
    (shuffle : List (Fin (d + 1) → α) → List (Fin (d + 1) → α)) (hsh : ∀ l, (shuffle l).Perm l) :
    (∃ cols, makeReferencePoses junk shuffle precision = .ok cols ∧ cols.Nodup ∧
        ∀ v, v ∈ cols ↔ IsLatticePoint precision v) ↔
      d + precision ≤ 20 ∨ (d = 0 ∧ precision ≤ 65) ∨ (d = 59 ∧ precision = 1) ∨ (d = 1 ∧ precision = 59) := by
  obtain ⟨h1, h2⟩ := referencePoses_sound precision hp junk shuffle hsh
  have hs := computeRP_spec (α := α) hp junk
  have hN : d + precision = d + 1 + precision - 1 := by omega
  have hright := nchooseK_right_iff (d + precision) precision (by omega)
  have hiff : (d + precision ≤ 20 ∨ (d = 0 ∧ precision ≤ 65) ∨ (d = 59 ∧ precision = 1) ∨ (d = 1 ∧ precision = 59)) ↔
      nchooseK64 (d + precision) precision = .ok ((d + precision).choose precision) := by
    rw [hright]; omega
  rw [hiff]
  have hcard : ∀ cols : List (Fin (d + 1) → α), cols.Nodup → (∀ v, v ∈ cols ↔ IsLatticePoint precision v) →
      cols.length = (d + precision).choose precision := by
    intro cols hnd hm
    rw [← hs.2.1]
    refine ((List.perm_ext_iff_of_nodup hnd hs.1).2 fun v => ?_).length_eq
    rw [hm, hs.2.2]
    exact exists_congr fun c => and_congr_right fun _ => by rw [funext_iff]
  constructor
  · rintro ⟨cols, hc, hnd, hm⟩
    have := (h1 cols hc).2.2
    rw [hN, this, hcard cols hnd hm, hN]
  · intro h
    rw [hN] at h
    obtain ⟨cols, hc⟩ := h2.2 ⟨_, h, le_rfl⟩
    obtain ⟨hnd, hsub, hcnt⟩ := h1 cols hc
    refine ⟨cols, hc, hnd, fun v => ⟨hsub v, fun hv => ?_⟩⟩
    rw [h] at hcnt
    have hl : cols.length = (priMakeRP precision 0 0 (junk, [])).2.length := by
      rw [hs.2.1, hN]; exact (Out.ok.inj hcnt).symm
    have hsubset : cols ⊆ (priMakeRP precision 0 0 (junk, [])).2 := by
      intro w hw
      obtain ⟨c, e1, e2⟩ := hsub w hw
      exact (hs.2.2 w).2 ⟨c, e1, funext e2⟩
    have hp' := (List.subperm_of_subset hnd hsubset).perm_of_length_le hl.ge
    obtain ⟨c, e1, e2⟩ := hv
    exact hp'.mem_iff.2 ((hs.2.2 v).2 ⟨c, e1, funext e2⟩)

/-- Two objectives: precision 19 is right, 20 is not, 59 is right again. -/
example : (1 + 19 ≤ 20 ∨ (1 = 0 ∧ 19 ≤ 65) ∨ (1 = 59 ∧ 19 = 1) ∨ (1 = 1 ∧ 19 = 59)) ∧
    ¬ (1 + 20 ≤ 20 ∨ (1 = 0 ∧ 20 ≤ 65) ∨ (1 = 59 ∧ 20 = 1) ∨ (1 = 1 ∧ 20 = 59)) := by decide

end C23

/-! ## C24 -/

section C24
variable {α : Type} [LinearOrder α] {m : Nat}

private theorem fold_best (fOpt : FitnessOption) (l : List (Fin m → α)) (b : Fin m → α) (i : Fin m) :
    let r := l.foldl (moBestStep fOpt) b
    (r i = b i ∨ ∃ f ∈ l, r i = f i) ∧ ¬ Better fOpt (b i) (r i) ∧ ∀ f ∈ l, ¬ Better fOpt (f i) (r i) := by
  induction l generalizing b with
  | nil => cases fOpt <;> simp [Better]
  | cons g l ih =>
    simp only [List.foldl_cons]
    obtain ⟨h1, h2, h3⟩ := ih (moBestStep fOpt b g)
    refine ⟨?_, ?_, ?_⟩
    · rcases h1 with h1 | ⟨f, hf, h1⟩
      · cases fOpt
        · rcases min_choice (b i) (g i) with h | h
          · left; rw [h1]; exact h
          · right; exact ⟨g, List.mem_cons_self, by rw [h1]; exact h⟩
        · rcases max_choice (b i) (g i) with h | h
          · left; rw [h1]; exact h
          · right; exact ⟨g, List.mem_cons_self, by rw [h1]; exact h⟩
      · right; exact ⟨f, List.mem_cons_of_mem _ hf, h1⟩
    · cases fOpt
      · simp only [Better, not_lt] at *; exact h2.trans (min_le_left _ _)
      · simp only [Better, not_lt] at *; exact (le_max_left _ _).trans h2
    · intro f hf
      rcases List.mem_cons.1 hf with rfl | hf
      · cases fOpt
        · simp only [Better, not_lt] at *; exact h2.trans (min_le_right _ _)
        · simp only [Better, not_lt] at *; exact (le_max_right _ _).trans h2
      · exact h3 f hf

/-- **C24.**  For a non-empty population `bestFitness()` has in each objective a value that some
individual attains and that nobody beats. -/
theorem bestFitness_ideal (fOpt : FitnessOption) (pop : List (Fin m → α)) (h : pop ≠ []) :
    ∃ best, moBestFitness fOpt pop = .ok best ∧
      ∀ i, (∃ f ∈ pop, best i = f i) ∧ ∀ f ∈ pop, ¬ Better fOpt (f i) (best i) := by
  match pop, h with
  | g :: gs, _ =>
    refine ⟨_, rfl, fun i => ?_⟩
    have := fold_best fOpt (g :: gs) g i
    refine ⟨?_, this.2.2⟩
    rcases this.1 with h | h
    · exact ⟨g, List.mem_cons_self, h⟩
    · exact h

example : ((moBestFitness .lessBetter [![3, 1], ![2, 5]]).satisfies
      (fun r => decide (r = (![2, 1] : Fin 2 → ℕ)))) = true ∧
    ((moBestFitness .greaterBetter [![3, 1], ![2, 5]]).satisfies
      (fun r => decide (r = (![3, 5] : Fin 2 → ℕ)))) = true := by
  decide +kernel

/-- The empty population is the only failure (undefined behaviour of `front()`). -/
theorem bestFitness_empty (fOpt : FitnessOption) :
    moBestFitness fOpt ([] : List (Fin m → α)) = .ub := rfl

end C24

/-! ## C58: association with the nearest reference line -/

section C58
variable {α : Type} [Field α] [LinearOrder α] [IsStrictOrderedRing α] {m : Nat}

private theorem dot_self_pos (w : Fin m → α) (hw : ∃ i, w i ≠ 0) : 0 < ∑ j, w j * w j := by
  obtain ⟨i, hi⟩ := hw
  exact Finset.sum_pos' (fun j _ => mul_self_nonneg _) ⟨i, Finset.mem_univ _, mul_self_pos.2 hi⟩

private theorem expand (w s : Fin m → α) (t : α) :
    sqDist (fun i => t * w i) s =
      t ^ 2 * (∑ j, w j * w j) - 2 * t * (∑ j, w j * s j) + ∑ j, s j ^ 2 := by
  unfold sqDist
  rw [Finset.mul_sum, Finset.mul_sum, ← Finset.sum_sub_distrib, ← Finset.sum_add_distrib]
  exact Finset.sum_congr rfl fun i _ => by ring

private theorem refDistance_eq (w s : Fin m → α) :
    refDistance w s = sqDist (fun i => ((∑ j, w j * s j) / (∑ j, w j * w j)) * w i) s := by
  unfold refDistance sqDist
  exact Finset.sum_congr rfl fun i _ => by congr 2; ring

/-- The stored distance is the squared Euclidean distance from the normalised fitness to the line
through the origin and the reference point: it is attained on the line and no point of the line is
closer. -/
theorem refDistance_is_line_distance (w s : Fin m → α) (hw : ∃ i, w i ≠ 0) :
    (∃ t, refDistance w s = sqDist (fun i => t * w i) s) ∧
    ∀ t, refDistance w s ≤ sqDist (fun i => t * w i) s := by
  refine ⟨⟨_, refDistance_eq w s⟩, fun t => ?_⟩
  rw [refDistance_eq, expand, expand]
  have hpos := dot_self_pos w hw
  generalize (∑ j, w j * w j) = A at *
  generalize (∑ j, w j * s j) = B at *
  have h1 : (B / A) ^ 2 * A - 2 * (B / A) * B = - (B ^ 2 / A) := by field_simp; ring
  have h2 : t ^ 2 * A - 2 * t * B - (-(B ^ 2 / A)) = A * (t - B / A) ^ 2 := by
    field_simp; ring
  have h3 : 0 ≤ A * (t - B / A) ^ 2 := mul_nonneg hpos.le (sq_nonneg _)
  linarith

private theorem findNearest_fold (s : Fin m → α) (ws : List (Fin m → α)) (pre : List (Fin m → α))
    (acc : Nat × α × Nat) (h1 : acc.2.2 = pre.length)
    (h2 : ∃ w, pre[acc.1]? = some w ∧ acc.2.1 = refDistance w s)
    (h3 : ∀ w ∈ pre, acc.2.1 ≤ refDistance w s) :
    let r := ws.foldl (fun (acc : Nat × α × Nat) w' =>
      if refDistance w' s < acc.2.1 then (acc.2.2, refDistance w' s, acc.2.2 + 1)
      else (acc.1, acc.2.1, acc.2.2 + 1)) acc
    (∃ w, (pre ++ ws)[r.1]? = some w ∧ r.2.1 = refDistance w s) ∧
    ∀ w ∈ pre ++ ws, r.2.1 ≤ refDistance w s := by
  induction ws generalizing pre acc with
  | nil => simpa using ⟨h2, h3⟩
  | cons w ws ih =>
    simp only [List.foldl_cons]
    have := ih (pre ++ [w]) (if refDistance w s < acc.2.1 then (acc.2.2, refDistance w s, acc.2.2 + 1)
      else (acc.1, acc.2.1, acc.2.2 + 1)) (by split <;> simp [h1]) ?_ ?_
    · simpa [List.append_assoc] using this
    · split
      · exact ⟨w, by simp [h1], rfl⟩
      · obtain ⟨w', hw', he⟩ := h2
        refine ⟨w', ?_, he⟩
        rw [List.getElem?_append_left]
        · exact hw'
        · exact (List.getElem?_eq_some_iff.1 hw').1
    · intro w' hw'
      rcases List.mem_append.1 hw' with h | h
      · split
        · next hlt => exact hlt.le.trans (h3 w' h)
        · exact h3 w' h
      · rw [List.mem_singleton.1 h]
        split
        · exact le_rfl
        · next hlt => exact not_lt.1 hlt

/-- **C58.**  `findNearest` returns a valid reference point index and its squared perpendicular
distance, and no point on the line through any reference point is closer. -/
theorem findNearest_nearest (refs : List (Fin m → α)) (s : Fin m → α) (hne : refs ≠ [])
    (hw : ∀ w ∈ refs, ∃ i, w i ≠ 0) :
    ∃ idx dist w, findNearest refs s = .ok (idx, dist) ∧ refs[idx]? = some w ∧
      (∃ t, dist = sqDist (fun i => t * w i) s) ∧
      ∀ w' ∈ refs, ∀ t, dist ≤ sqDist (fun i => t * w' i) s := by
  match refs, hne with
  | w :: ws, _ =>
    obtain ⟨⟨w', hw', he⟩, hle⟩ := findNearest_fold s ws [w] (0, refDistance w s, 1) rfl
      ⟨w, rfl, rfl⟩ (by simp)
    refine ⟨_, _, w', rfl, by simpa using hw', ?_, ?_⟩
    · rw [he]
      exact (refDistance_is_line_distance w' s (hw w' (by
        have := List.mem_of_getElem? hw'; simpa using this))).1
    · intro v hv t
      refine (hle v (by simpa using hv)).trans ((refDistance_is_line_distance v s (hw v hv)).2 t)

example : findNearest [![0, 1], ![1 / 2, 1 / 2], ![1, 0]] (![3, 1] : Fin 2 → ℚ) = .ok (2, 1) := by
  decide +kernel

/-- Reference points produced by the solver meet the premise of C58: they are never the origin. -/
theorem latticePoint_nonzero (p : Nat) (hp : 1 ≤ p) (v : Fin m → α) (h : IsLatticePoint p v) :
    ∃ i, v i ≠ 0 := by
  by_contra hc
  push Not at hc
  have := (latticePoint_simplex p hp v h).2
  simp [hc] at this

end C58

/-! ## C59: normalisation -/

section C59
variable {α : Type} [Field α] [LinearOrder α] [IsStrictOrderedRing α] {m : Nat}

omit [Field α] [IsStrictOrderedRing α] in
theorem nsga3Ideal_spec (first : Fin m → α) (l : List (Fin m → α)) (i : Fin m) :
    nsga3Ideal first l i ≤ first i ∧ (∀ f ∈ l, nsga3Ideal first l i ≤ f i) ∧
    (nsga3Ideal first l i = first i ∨ ∃ f ∈ l, nsga3Ideal first l i = f i) := by
  unfold nsga3Ideal
  induction l generalizing first with
  | nil => simp
  | cons g l ih =>
    obtain ⟨h1, h2, h3⟩ := ih (fun i => min (first i) (g i))
    simp only [List.foldl_cons]
    refine ⟨h1.trans (min_le_left _ _), ?_, ?_⟩
    · intro f hf
      rcases List.mem_cons.1 hf with rfl | hf
      · exact h1.trans (min_le_right _ _)
      · exact h2 f hf
    · rcases h3 with h | ⟨f, hf, h⟩
      · rcases min_choice (first i) (g i) with h' | h'
        · left; rw [h]; exact h'
        · right; exact ⟨g, List.mem_cons_self, by rw [h]; exact h'⟩
      · right; exact ⟨f, List.mem_cons_of_mem _ hf, h⟩

omit [Field α] [IsStrictOrderedRing α] in
theorem nsga3Extreme_spec (first : Fin m → α) (l : List (Fin m → α)) (c : Fin m) :
    first c ≤ nsga3Extreme first l c c ∧ (∀ f ∈ l, f c ≤ nsga3Extreme first l c c) ∧
    (nsga3Extreme first l c = first ∨ nsga3Extreme first l c ∈ l) := by
  unfold nsga3Extreme
  induction l generalizing first with
  | nil => simp
  | cons g l ih =>
    obtain ⟨h1, h2, h3⟩ := ih (if g c > first c then g else first)
    simp only [List.foldl_cons]
    have hA : first c ≤ (if g c > first c then g else first) c ∧
        g c ≤ (if g c > first c then g else first) c := by
      split
      · next h => exact ⟨le_of_lt h, le_rfl⟩
      · next h => exact ⟨le_rfl, not_lt.1 h⟩
    refine ⟨hA.1.trans h1, ?_, ?_⟩
    · intro f hf
      rcases List.mem_cons.1 hf with rfl | hf
      · exact hA.2.trans h1
      · exact h2 f hf
    · rcases h3 with h | h
      · by_cases hc : g c > first c
        · right; rw [h, if_pos hc]; exact List.mem_cons_self
        · left; rw [h, if_neg hc]
      · right; exact List.mem_cons_of_mem _ h

/-- **C59** (ideal point).  Every candidate is, after translation, non-negative in every objective,
and in every objective some candidate is zero. -/
theorem normalize_ideal (tiny : α) (selected : List (Fin m → α)) (fl0 : Fin m → α)
    (fl : List (Fin m → α)) (i : Fin m) :
    let ideal := (nsga3Normalize tiny selected fl0 fl).1
    (∀ f ∈ selected ++ fl0 :: fl, 0 ≤ f i - ideal i) ∧
    ∃ f ∈ selected ++ fl0 :: fl, f i - ideal i = 0 := by
  have h := nsga3Ideal_spec fl0 (selected ++ fl0 :: fl) i
  refine ⟨fun f hf => sub_nonneg.2 (h.2.1 f hf), ?_⟩
  rcases h.2.2 with h | ⟨f, hf, h⟩
  · exact ⟨fl0, by simp, sub_eq_zero.2 h.symm⟩
  · exact ⟨f, hf, sub_eq_zero.2 h.symm⟩

/-- **C59** (regular case).  If the matrix of translated extreme points is accepted as regular and
the intercepts are finite, then all extreme points lie on the plane with these intercepts: their
normalised coordinates sum to one.  There is one extreme point per objective, a candidate that is
maximal in that objective. -/
theorem normalize_extremes_on_unit_plane (tiny : α) (ht : 0 ≤ tiny) (selected : List (Fin m → α))
    (fl0 : Fin m → α) (fl : List (Fin m → α)) (P : Matrix (Fin m) (Fin m) α)
    (hP : ∀ r c, P r c = nsga3Extreme fl0 (selected ++ fl0 :: fl) c r -
      (nsga3Normalize tiny selected fl0 fl).1 r)
    (hreg : tiny < |P.det|)
    (hfin : ∀ r, (nsga3Normalize tiny selected fl0 fl).2.1 r ≠ 0) (c : Fin m) :
    ∃ e ∈ selected ++ fl0 :: fl, (∀ f ∈ selected ++ fl0 :: fl, f c ≤ e c) ∧
      ∑ r, (nsga3Normalize tiny selected fl0 fl).2.2 e r = 1 := by
  have hP' : P = fun r c => nsga3Extreme fl0 (selected ++ fl0 :: fl) c r -
      nsga3Ideal fl0 (selected ++ fl0 :: fl) r := by
    funext r c; exact hP r c
  have hint : (nsga3Normalize tiny selected fl0 fl).2.1 = extremePoints2Intercept P := by
    unfold nsga3Normalize
    simp only
    rw [← hP', if_neg (not_le.2 hreg)]
  have hdet : IsUnit P.transpose.det := by
    rw [Matrix.det_transpose, isUnit_iff_ne_zero]
    intro h; rw [h, abs_zero] at hreg; exact absurd hreg (not_lt.2 ht)
  obtain ⟨-, h2, h3⟩ := nsga3Extreme_spec fl0 (selected ++ fl0 :: fl) c
  refine ⟨nsga3Extreme fl0 (selected ++ fl0 :: fl) c, ?_, h2, ?_⟩
  · rcases h3 with h | h
    · rw [h]; simp
    · exact h
  · have hsolve : Matrix.mulVec P.transpose (Matrix.mulVec (P.transpose)⁻¹ (fun _ => 1)) = fun _ => 1 := by
      rw [Matrix.mulVec_mulVec, Matrix.mul_nonsing_inv _ hdet, Matrix.one_mulVec]
    have hc := congrFun hsolve c
    rw [Matrix.mulVec, dotProduct] at hc
    rw [← hc]
    apply Finset.sum_congr rfl
    intro r _
    have hr := hfin r
    rw [hint] at hr
    have e : (nsga3Normalize tiny selected fl0 fl).2.2 (nsga3Extreme fl0 (selected ++ fl0 :: fl) c) r =
        P r c / extremePoints2Intercept P r := by
      rw [← hint, hP]; rfl
    rw [e, Matrix.transpose_apply, extremePoints2Intercept, one_div, div_inv_eq_mul]

/-- **C59** (singular case).  If the matrix is rejected as singular, every normalised coordinate with
a positive intercept lies in `[0,1]`. -/
theorem normalize_singular_unit_box (tiny : α) (selected : List (Fin m → α))
    (fl0 : Fin m → α) (fl : List (Fin m → α)) (P : Matrix (Fin m) (Fin m) α)
    (hP : ∀ r c, P r c = nsga3Extreme fl0 (selected ++ fl0 :: fl) c r -
      (nsga3Normalize tiny selected fl0 fl).1 r)
    (hsing : |P.det| ≤ tiny) (f : Fin m → α) (hf : f ∈ selected ++ fl0 :: fl) (r : Fin m)
    (hpos : 0 < (nsga3Normalize tiny selected fl0 fl).2.1 r) :
    0 ≤ (nsga3Normalize tiny selected fl0 fl).2.2 f r ∧
    (nsga3Normalize tiny selected fl0 fl).2.2 f r ≤ 1 := by
  have hP' : P = fun r c => nsga3Extreme fl0 (selected ++ fl0 :: fl) c r -
      nsga3Ideal fl0 (selected ++ fl0 :: fl) r := by
    funext r c; exact hP r c
  have hint : (nsga3Normalize tiny selected fl0 fl).2.1 r = P r r := by
    unfold nsga3Normalize
    simp only
    rw [← hP', if_pos hsing]
    exact (hP r r).symm
  have e : (nsga3Normalize tiny selected fl0 fl).2.2 f r =
      (f r - nsga3Ideal fl0 (selected ++ fl0 :: fl) r) /
        (nsga3Normalize tiny selected fl0 fl).2.1 r := rfl
  rw [e]
  refine ⟨div_nonneg (sub_nonneg.2 ((nsga3Ideal_spec _ _ r).2.1 f hf)) hpos.le, ?_⟩
  rw [div_le_one hpos, hint, hP]
  exact sub_le_sub_right ((nsga3Extreme_spec _ _ r).2.1 f hf) _

/-- the premises of the singular case are met by two candidates that tie on both objectives' extremes -/
example : nsga3Ideal (![3, 4] : Fin 2 → ℚ) [![3, 4], ![1, 2]] = ![1, 2] ∧
    nsga3Extreme (![3, 4] : Fin 2 → ℚ) [![3, 4], ![1, 2]] 0 = ![3, 4] ∧
    nsga3Extreme (![3, 4] : Fin 2 → ℚ) [![3, 4], ![1, 2]] 1 = ![3, 4] := by decide +kernel

/-- the premises of the regular case are met by two candidates with a trade-off: `P = diag(2,3)` -/
example : nsga3Ideal (![1, 5] : Fin 2 → ℚ) [![1, 5], ![3, 2]] = ![1, 2] ∧
    nsga3Extreme (![1, 5] : Fin 2 → ℚ) [![1, 5], ![3, 2]] 0 = ![3, 2] ∧
    nsga3Extreme (![1, 5] : Fin 2 → ℚ) [![1, 5], ![3, 2]] 1 = ![1, 5] := by decide +kernel

end C59

end Heu
