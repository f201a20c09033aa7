import Verif.Props.MORun
import Verif.Props.Feasible

/-!
# C65 for the multi-objective solvers: a run never leaves a set its operators respect
-/

set_option linter.unusedSectionVars false
set_option linter.unusedVariables false

namespace Heu
open Spec

section
variable {V α : Type} {m : Nat} [Field α] [LinearOrder α] [IsStrictOrderedRing α]
variable (o : FitnessOption) (f : V → Fin m → α) (K : Nat)
variable (sel : Nat → (Addr → Fin m → α) → List Addr → Out (SelectResult Addr))
variable (v : Nat → MOVary V m α)

theorem mo_compute_all (P : V → Prop) (pop : Pop (Gene V (Fin m → α))) (h : ∀ c ∈ pop, P c.2.var) :
    ∀ c ∈ computeAllFitness f pop, P c.2.var := by
  intro c hc
  obtain ⟨d, hd, rfl⟩ := List.mem_map.1 hc
  have : (evalGene f d.2).var = d.2.var := by unfold evalGene; split <;> rfl
  show P (evalGene f d.2).var
  rw [this]; exact h d hd

theorem moSelect_sub {se : (Addr → Fin m → α) → List Addr → Out (SelectResult Addr)} {s t : MOState V m α}
    (h : moSelect se s = .ok t) : ∀ c ∈ t.pop, c ∈ s.pop := by
  unfold moSelect at h
  rw [Out.bind_eq_ok] at h
  obtain ⟨r, -, hr⟩ := h
  cases hr
  intro c hc
  exact (List.mem_filter.1 hc).1

/-- Every generation stays in `P`, whatever the selection. -/
theorem mo_feasible (P : V → Prop)
    (hsh : ∀ g l, ((v g).cxShuffle l).Perm l)
    (hcx : ∀ g n a b, P a → P b → P ((v g).cx n a b).1 ∧ P ((v g).cx n a b).2)
    (hmu : ∀ g n a, P a → P ((v g).mu n a)) (s : MOState V m α) (hP : ∀ c ∈ s.pop, P c.2.var)
    (i : Nat) (t : MOState V m α) (ht : stateAfter (moSolver o f sel v) s i = .ok t) :
    ∀ c ∈ t.pop, P c.2.var := by
  induction i generalizing t with
  | zero =>
    intro c hc
    exact mo_compute_all f P _ hP c (moSelect_sub (show moSelect _ _ = _ from ht) c hc)
  | succ i ih =>
    simp only [stateAfter, Out.bind_eq_ok] at ht
    obtain ⟨t0, ht0, ht⟩ := ht
    intro c hc
    refine mo_compute_all f P _ ?_ c (moSelect_sub (show moSelect _ _ = _ from ht) c hc)
    refine mutate_all P _ _ (hmu _) _ _ ?_
    exact crossover_all P _ _ (hcx _) _ _ (hsh _) _ (ih t0 ht0)

theorem mo_run_feasible (P : V → Prop)
    (hsh : ∀ g l, ((v g).cxShuffle l).Perm l)
    (hcx : ∀ g n a b, P a → P b → P ((v g).cx n a b).1 ∧ P ((v g).cx n a b).2)
    (hmu : ∀ g n a, P a → P ((v g).mu n a)) (s : MOState V m α) (hP : ∀ c ∈ s.pop, P c.2.var)
    (maxGen maxFail fuel : Nat) (r : RunResult (MOState V m α) (Fin m → α))
    (hr : gaRun (moSolver o f sel v) maxGen maxFail fuel s = .ok r) :
    ∀ c ∈ r.state.pop, P c.2.var :=
  mo_feasible o f sel v P hsh hcx hmu s hP _ _ (run_record _ maxGen maxFail fuel s r hr).2.1

end

section
variable {V α : Type} {m : Nat} [Field α] [LinearOrder α] [IsStrictOrderedRing α]

/-- **C65**, NSGA-II: if the initial individuals are in `P` and crossover and mutation respect `P`, every
individual after a run is in `P`. -/
theorem nsga2_run_feasible (o : FitnessOption) (K : Nat) (eps : α) (f : V → Fin m → α)
    (e : Nat → NSGA2Env m) (v : Nat → MOVary V m α) (P : V → Prop)
    (hsh : ∀ g l, ((v g).cxShuffle l).Perm l)
    (hcx : ∀ g n a b, P a → P b → P ((v g).cx n a b).1 ∧ P ((v g).cx n a b).2)
    (hmu : ∀ g n a, P a → P ((v g).mu n a)) (s : MOState V m α) (hP : ∀ c ∈ s.pop, P c.2.var)
    (maxGen maxFail fuel : Nat) (r : RunResult (MOState V m α) (Fin m → α))
    (hr : gaRun (nsga2Solver o K eps f e v) maxGen maxFail fuel s = .ok r) :
    ∀ c ∈ r.state.pop, P c.2.var :=
  mo_run_feasible o f _ v P hsh hcx hmu s hP maxGen maxFail fuel r hr

/-- **C65**, NSGA-III. -/
theorem nsga3_run_feasible (K : Nat) (tiny : α) (refs : List (Fin m → α)) (f : V → Fin m → α)
    (e : Nat → NSGA3Env α) (v : Nat → MOVary V m α) (fl : Nat → Nat) (P : V → Prop)
    (hsh : ∀ g l, ((v g).cxShuffle l).Perm l)
    (hcx : ∀ g n a b, P a → P b → P ((v g).cx n a b).1 ∧ P ((v g).cx n a b).2)
    (hmu : ∀ g n a, P a → P ((v g).mu n a)) (s : MOState V m α) (hP : ∀ c ∈ s.pop, P c.2.var)
    (maxGen maxFail fuel : Nat) (r : RunResult (MOState V m α) (Fin m → α))
    (hr : gaRun (nsga3Solver K tiny refs f e v fl) maxGen maxFail fuel s = .ok r) :
    ∀ c ∈ r.state.pop, P c.2.var :=
  mo_run_feasible .lessBetter f _ v P hsh hcx hmu s hP maxGen maxFail fuel r hr

/-- **C65** and C88 together: NSGA-II on a non-empty box with the default initialisation, the default real
crossover (`0 ≤ r ≤ 1`) and the default continuous mutation returns, and the final population consists of `K`
points of the box whose non-dominated ones are the reported front. -/
theorem nsga2_default_run_in_box (o : FitnessOption) (K : Nat) (hK : 1 ≤ K) (eps : α)
    (f : List α → Fin m → α) (e : Nat → NSGA2Env m) (v : Nat → MOVary (List α) m α)
    (hsh : ∀ g l, ((v g).cxShuffle l).Perm l)
    (b : Box α) (hne : NonEmptyBox b) (delta : Nat → α) (r : α) (hr0 : 0 ≤ r) (hr1 : r ≤ 1)
    (idx : Nat → Nat → Nat) (hidx : ∀ g n, idx g n < b.dim) (u : Nat → Nat → α)
    (hu : ∀ g n, 0 ≤ u g n ∧ u g n < 1)
    (hcx : ∀ g n, (v g).cx n = boxCx r) (hmu : ∀ g n, (v g).mu n = boxMu b delta (idx g n) (u g n))
    (draw : Nat → Nat → α) (hdraw : ∀ i j, 0 ≤ draw i j ∧ draw i j < 1) (junk : Fin m → α)
    (maxGen maxFail : Nat) (order : Finset Addr → List Addr)
    (hord : ∀ S, (order S).Nodup ∧ ∀ a, a ∈ order S ↔ a ∈ S) :
    ∃ res, gaRun (nsga2Solver o K eps f e v) maxGen maxFail (maxGen + 1)
        (moInit K (fun i => initializeReal b (draw i)) junk) = .ok res ∧
      res.state.pop.length = K ∧ (∀ c ∈ res.state.pop, InBox b c.2.var) ∧
      ∃ front, paretoFront order res.state = .ok front ∧
        IsFrontOf o f (res.state.pop.map fun c => c.2.var) front := by
  obtain ⟨res, h1, -, h3, -, h5, -⟩ := nsga2_run o K eps f e v hK
    (moInit K (fun i => initializeReal b (draw i)) junk) (mo_init_ready K f _ _) maxGen maxFail order hord
  refine ⟨res, h1, h3, ?_, h5⟩
  refine nsga2_run_feasible o K eps f e v (InBox b) hsh ?_ ?_ _ ?_ maxGen maxFail _ res h1
  · intro g n p q hp hq
    rw [hcx]
    obtain ⟨c1, c2, h, h1, h2⟩ := cFunNd_in_box b r hr0 hr1 p q hp hq
    simp only [boxCx, h]
    exact ⟨h1, h2⟩
  · intro g n a ha
    rw [hmu]
    obtain ⟨w, -, -, h, h1, -⟩ := applyDelta_cont b delta a ha (idx g n) (hidx g n) (u g n)
      (hu g n).1 (hu g n).2
    simp only [boxMu, h]
    exact h1
  · intro c hc
    simp only [moInit, initializePop, List.mem_map] at hc
    obtain ⟨i, -, rfl⟩ := hc
    exact initialize_real_in_box b (draw i) (hdraw i) hne

/-- **C65** and C88 together for NSGA-III. -/
theorem nsga3_default_run_in_box (K : Nat) (hK : 1 ≤ K) (hK32 : K < 2 ^ 32) (tiny : α) (ht : 0 ≤ tiny)
    (refs : List (Fin m → α)) (hrefs : refs ≠ []) (hw : ∀ w ∈ refs, ∃ i, w i ≠ 0)
    (f : List α → Fin m → α) (e : Nat → NSGA3Env α) (he : ∀ g, (e g).Legal) (fl : Nat → Nat)
    (hfuel : ∀ n, n + refs.length ≤ fl n) (v : Nat → MOVary (List α) m α)
    (hsh : ∀ g l, ((v g).cxShuffle l).Perm l)
    (b : Box α) (hne : NonEmptyBox b) (delta : Nat → α) (r : α) (hr0 : 0 ≤ r) (hr1 : r ≤ 1)
    (idx : Nat → Nat → Nat) (hidx : ∀ g n, idx g n < b.dim) (u : Nat → Nat → α)
    (hu : ∀ g n, 0 ≤ u g n ∧ u g n < 1)
    (hcx : ∀ g n, (v g).cx n = boxCx r) (hmu : ∀ g n, (v g).mu n = boxMu b delta (idx g n) (u g n))
    (draw : Nat → Nat → α) (hdraw : ∀ i j, 0 ≤ draw i j ∧ draw i j < 1) (junk : Fin m → α)
    (maxGen maxFail : Nat) (order : Finset Addr → List Addr)
    (hord : ∀ S, (order S).Nodup ∧ ∀ a, a ∈ order S ↔ a ∈ S) :
    ∃ res, gaRun (nsga3Solver K tiny refs f e v fl) maxGen maxFail (maxGen + 1)
        (moInit K (fun i => initializeReal b (draw i)) junk) = .ok res ∧
      res.state.pop.length = K ∧ (∀ c ∈ res.state.pop, InBox b c.2.var) ∧
      ∃ front, paretoFront order res.state = .ok front ∧
        IsFrontOf .lessBetter f (res.state.pop.map fun c => c.2.var) front := by
  obtain ⟨res, h1, -, h3, -, h5, -⟩ := nsga3_run K tiny refs f e v fl hK hK32 ht hrefs hw he hfuel
    (moInit K (fun i => initializeReal b (draw i)) junk) (mo_init_ready K f _ _) maxGen maxFail order hord
  refine ⟨res, h1, h3, ?_, h5⟩
  refine nsga3_run_feasible K tiny refs f e v fl (InBox b) hsh ?_ ?_ _ ?_ maxGen maxFail _ res h1
  · intro g n p q hp hq
    rw [hcx]
    obtain ⟨c1, c2, h, h1, h2⟩ := cFunNd_in_box b r hr0 hr1 p q hp hq
    simp only [boxCx, h]
    exact ⟨h1, h2⟩
  · intro g n a ha
    rw [hmu]
    obtain ⟨w, -, -, h, h1, -⟩ := applyDelta_cont b delta a ha (idx g n) (hidx g n) (u g n)
      (hu g n).1 (hu g n).2
    simp only [boxMu, h]
    exact h1
  · intro c hc
    simp only [moInit, initializePop, List.mem_map] at hc
    obtain ⟨i, -, rfl⟩ := hc
    exact initialize_real_in_box b (draw i) (hdraw i) hne

end

/-- Non-vacuity: a one-generation NSGA-II run with the default operators on the box `[0,1]^2` returns three
points of the box. -/
example : (gaRun (nsga2Solver .lessBetter 3 (1 / 10000000000 : ℚ)
      (fun x : List ℚ => ![x.getD 0 0, 1 - x.getD 0 0 + x.getD 1 0])
      (fun _ => ⟨insertionSorter, fun _ => insertionSorter, insertionSorter⟩)
      (fun _ => ⟨fun _ => boxCx (1 / 5), fun _ => true, id,
        fun _ => boxMu (squareBox 2 (0 : ℚ) 1) (fun _ => 1 / 10) 1 (1 / 4), fun _ => true, 0⟩)) 1 0 2
      (moInit 3 (fun i => initializeReal (squareBox 2 0 1) fun j => ((i + j : Nat) : ℚ) / 4) 0)).satisfies
    (fun r => decide (r.generation = 1 ∧ r.state.pop.length = 3) && r.state.pop.all fun c =>
      c.2.var.length == 2 && c.2.var.all fun x => decide (0 ≤ x) && decide (x ≤ 1)) = true := by
  decide +kernel

end Heu
