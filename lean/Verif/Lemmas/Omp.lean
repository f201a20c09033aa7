import Verif.Spec.Omp
import Mathlib.Data.List.Perm.Basic
import Mathlib.Data.List.Nodup
import Mathlib.Tactic.Common

/-!
# Lemmas on traces of parallel loops
-/

set_option linter.unusedVariables false
set_option linter.unusedSimpArgs false
set_option linter.unusedSectionVars false

namespace Heu
open Spec

section
variable {L : Type} {V : L → Type} [DecidableEq L]

theorem exec_of_ne (a : Act V) (m : ∀ l, V l) {l : L} (h : l ≠ a.loc) : a.exec m l = m l := by
  unfold Act.exec
  rw [Function.update_of_ne h]

theorem exec_self (a : Act V) (m : ∀ l, V l) : a.exec m a.loc = a.val m := by
  unfold Act.exec
  rw [Function.update_self]

theorem exec_comm (x y : Act V) (h : ¬ Conflict x y) (m : ∀ l, V l) :
    x.exec (y.exec m) = y.exec (x.exec m) := by
  unfold Conflict at h
  push Not at h
  obtain ⟨h1, h2, h3⟩ := h
  have e1 : x.val (y.exec m) = x.val m := x.loc_only _ _ fun l hl =>
    exec_of_ne y m fun e => h2 (e ▸ hl)
  have e2 : y.val (x.exec m) = y.val m := y.loc_only _ _ fun l hl =>
    exec_of_ne x m fun e => h3 (e ▸ hl)
  unfold Act.exec at *
  rw [e1, e2, Function.update_comm h1]

theorem runTrace_append (a b : List (Nat × Act V)) (m : ∀ l, V l) :
    runTrace (a ++ b) m = runTrace b (runTrace a m) := List.foldl_append

theorem runTrace_cons (s : Nat × Act V) (b : List (Nat × Act V)) (m : ∀ l, V l) :
    runTrace (s :: b) m = runTrace b (s.2.exec m) := rfl

theorem runTrace_move (s : Nat × Act V) (a : List (Nat × Act V)) (h : ∀ t ∈ a, ¬ Conflict s.2 t.2)
    (m : ∀ l, V l) : s.2.exec (runTrace a m) = runTrace a (s.2.exec m) := by
  induction a generalizing m with
  | nil => rfl
  | cons t a ih =>
    rw [runTrace_cons, runTrace_cons, ih (fun t ht => h t (List.mem_cons_of_mem _ ht)),
      exec_comm _ _ (h t List.mem_cons_self)]

/-- A location nobody writes keeps its value. -/
theorem runTrace_frame (tr : List (Nat × Act V)) (l : L) (h : ∀ s ∈ tr, l ≠ s.2.loc) (m : ∀ l, V l) :
    runTrace tr m l = m l := by
  induction tr generalizing m with
  | nil => rfl
  | cons s tr ih =>
    rw [runTrace_cons, ih (fun t ht => h t (List.mem_cons_of_mem _ ht)), exec_of_ne _ _ (h s List.mem_cons_self)]

theorem runTrace_eq_of_filters (c : Nat → Nat) (tr tr' : List (Nat × Act V))
    (hf : ∀ k, tr.filter (fun s => decide (c s.1 = k)) = tr'.filter (fun s => decide (c s.1 = k)))
    (hc : ∀ s ∈ tr, ∀ t ∈ tr, c s.1 ≠ c t.1 → ¬ Conflict s.2 t.2) (m : ∀ l, V l) :
    runTrace tr m = runTrace tr' m := by
  induction tr' generalizing tr m with
  | nil =>
    have : tr = [] := by
      rw [List.eq_nil_iff_forall_not_mem]
      intro s hs
      have h := hf (c s.1)
      rw [List.filter_nil, List.filter_eq_nil_iff] at h
      exact h s hs (by simp)
    rw [this]
  | cons s r ih =>
    have h := hf (c s.1)
    rw [List.filter_cons_of_pos (by simp), List.filter_eq_cons_iff] at h
    obtain ⟨a, b, rfl, ha, -, hb⟩ := h
    have hane : ∀ t ∈ a, c t.1 ≠ c s.1 := fun t ht e => ha t ht (by simpa using e)
    have hconf : ∀ t ∈ a, ¬ Conflict s.2 t.2 := fun t ht =>
      hc s (by simp) t (by simp [ht]) (Ne.symm (hane t ht))
    rw [runTrace_append, runTrace_cons, runTrace_move s a hconf, ← runTrace_append, runTrace_cons]
    apply ih
    · intro k
      have hk := hf k
      rw [List.filter_append] at hk
      rw [List.filter_append]
      by_cases e : c s.1 = k
      · subst e
        have : a.filter (fun t => decide (c t.1 = c s.1)) = [] := by
          rw [List.filter_eq_nil_iff]
          intro t ht
          simpa using hane t ht
        rw [this, List.nil_append, hb]
      · rw [List.filter_cons_of_neg (by simpa using e), List.filter_cons_of_neg (by simpa using e)] at hk
        exact hk
    · intro x hx y hy
      have hx' : x ∈ a ++ s :: b := by
        rcases List.mem_append.mp hx with h | h <;> simp [h]
      have hy' : y ∈ a ++ s :: b := by
        rcases List.mem_append.mp hy with h | h <;> simp [h]
      exact hc x hx' y hy'

theorem filter_flatMap_tag (c : Nat → Nat) (k : Nat) (l : List Nat) (acts : Nat → List (Act V)) :
    (l.flatMap fun i => (acts i).map fun a => (i, a)).filter (fun s => decide (c s.1 = k)) =
      (l.filter fun i => decide (c i = k)).flatMap fun i => (acts i).map fun a => (i, a) := by
  induction l with
  | nil => rfl
  | cons i l ih =>
    rw [List.flatMap_cons, List.filter_append, ih]
    by_cases e : c i = k
    · rw [List.filter_cons_of_pos (by simpa using e), List.flatMap_cons]
      congr 1
      rw [List.filter_eq_self]
      intro s hs
      obtain ⟨a, -, rfl⟩ := List.mem_map.mp hs
      simpa using e
    · rw [List.filter_cons_of_neg (by simpa using e)]
      have : ((acts i).map fun a => (i, a)).filter (fun s => decide (c s.1 = k)) = [] := by
        rw [List.filter_eq_nil_iff]
        intro s hs
        obtain ⟨a, -, rfl⟩ := List.mem_map.mp hs
        simpa using e
      rw [this, List.nil_append]

theorem seqTrace_ompTrace (chunk n : Nat) (acts : Nat → List (Act V)) :
    OmpTrace chunk n acts (seqTrace n acts) := fun k => by
  unfold seqTrace
  exact filter_flatMap_tag (fun i => i / chunk) k _ acts

theorem mem_ompTrace {chunk n : Nat} {acts : Nat → List (Act V)} {tr : List (Nat × Act V)}
    (h : OmpTrace chunk n acts tr) {s : Nat × Act V} (hs : s ∈ tr) : s.1 < n ∧ s.2 ∈ acts s.1 := by
  have hm : s ∈ tr.filter (fun t => t.1 / chunk = s.1 / chunk) := List.mem_filter.mpr ⟨hs, by simp⟩
  rw [h (s.1 / chunk)] at hm
  obtain ⟨i, hi, hm⟩ := List.mem_flatMap.mp hm
  obtain ⟨a, ha, rfl⟩ := List.mem_map.mp hm
  exact ⟨List.mem_range.mp (List.mem_filter.mp hi).1, ha⟩

theorem raceFree_run {chunk n : Nat} {acts : Nat → List (Act V)} {tr : List (Nat × Act V)}
    (hr : ¬ DataRace chunk n acts) (h : OmpTrace chunk n acts tr) (m : ∀ l, V l) :
    runTrace tr m = runTrace (seqTrace n acts) m := by
  refine runTrace_eq_of_filters (fun i => i / chunk) tr _ (fun k => ?_) ?_ m
  · rw [h k, seqTrace_ompTrace chunk n acts k]
  · intro s hs t ht hne hcf
    exact hr ⟨s.1, t.1, (mem_ompTrace h hs).1, (mem_ompTrace h ht).1, hne, s.2, (mem_ompTrace h hs).2, t.2,
      (mem_ompTrace h ht).2, hcf⟩

theorem raceFree_mono {n : Nat} {acts : Nat → List (Act V)} (hr : ¬ DataRace 1 n acts) (chunk : Nat) :
    ¬ DataRace chunk n acts := by
  rintro ⟨i, j, hi, hj, hne, hx⟩
  refine hr ⟨i, j, hi, hj, ?_, hx⟩
  rw [Nat.div_one, Nat.div_one]
  rintro rfl
  exact hne rfl

/-- What a race-free loop leaves in a location that only iteration `i` writes: what iteration `i` alone does. -/
theorem raceFree_local {n : Nat} {acts : Nat → List (Act V)} (hr : ¬ DataRace 1 n acts) {i : Nat} (hi : i < n)
    (l : L) (hl : ∀ j < n, j ≠ i → ∀ a ∈ acts j, l ≠ a.loc) (m : ∀ l, V l) :
    runTrace (seqTrace n acts) m l = (acts i).foldl (fun m a => a.exec m) m l := by
  let ord := i :: (List.range n).filter (fun j => decide (j ≠ i))
  have hperm : ord.Perm (List.range n) := by
    apply (List.perm_ext_iff_of_nodup _ List.nodup_range).mpr
    · intro j
      simp only [ord, List.mem_cons, List.mem_filter, List.mem_range, decide_eq_true_eq]
      constructor
      · rintro (rfl | h)
        · exact hi
        · exact h.1
      · intro hj
        by_cases e : j = i
        · exact Or.inl e
        · exact Or.inr ⟨hj, e⟩
    · refine List.nodup_cons.mpr ⟨by simp, List.nodup_range.filter _⟩
  have ht : OmpTrace 1 n acts (ord.flatMap fun i => (acts i).map fun a => (i, a)) := by
    intro k
    refine (filter_flatMap_tag (fun i => i / 1) k ord acts).trans ?_
    have e : ∀ l : List Nat, (l.filter fun i => decide (i / 1 = k)) = List.replicate (l.count k) k := by
      intro l
      rw [← List.filter_eq]
      apply List.filter_congr
      intro j _
      rw [Nat.div_one]
    show List.flatMap _ (ord.filter _) = List.flatMap _ ((List.range n).filter _)
    rw [e, e, hperm.count_eq]
  rw [← raceFree_run hr ht]
  simp only [ord, List.flatMap_cons]
  rw [runTrace_append, runTrace_frame]
  · unfold runTrace
    rw [List.foldl_map]
  · intro s hs
    obtain ⟨j, hj, hs⟩ := List.mem_flatMap.mp hs
    obtain ⟨a, ha, rfl⟩ := List.mem_map.mp hs
    obtain ⟨hj, hne⟩ := List.mem_filter.mp hj
    exact hl j (List.mem_range.mp hj) (by simpa using hne) a ha

end

end Heu
