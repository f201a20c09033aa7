import Verif.Lemmas.MORun
import Verif.Props.Box

/-!
# C88–C90: whole runs of the multi-objective solvers

`nsga2Solver o K eps f e v` and `nsga3Solver K tiny refs f e v fuel` are the solvers with fitness function `f`
and population size `K`; the draws of generation `g` are in `e g` and `v g`.
-/

set_option linter.unusedSectionVars false
set_option linter.unusedVariables false

namespace Heu
open Spec

section generic
variable {V α : Type} {m : Nat} [Field α] [LinearOrder α] [IsStrictOrderedRing α]
variable (o : FitnessOption) (f : V → Fin m → α) (K : Nat)
variable (sel : Nat → (Addr → Fin m → α) → List Addr → Out (SelectResult Addr))
variable (v : Nat → MOVary V m α)

theorem mo_generation (hK : 1 ≤ K) (hg : ∀ g, GoodSelection o K (sel g)) {s : MOState V m α}
    (h : MOReady K f s) (maxGen maxFail fuel : Nat) (r : RunResult (MOState V m α) (Fin m → α))
    (hr : gaRun (moSolver o f sel v) maxGen maxFail fuel s = .ok r) : r.generation = maxGen := by
  obtain ⟨h1, h2, -, -⟩ := run_stops _ maxGen maxFail fuel s r hr
  obtain ⟨-, h3, -⟩ := run_record _ maxGen maxFail fuel s r hr
  obtain ⟨t, c, ht, -, -, -, hc, hst, -⟩ := mo_after o f K sel v hK hg h r.generation
  rw [h3] at ht
  cases ht
  by_contra hne
  have := (h2 (by omega)).2
  have h0 : (moSolver o f sel v).failTimes r.state = 0 := hst.fail.trans hc
  omega

open Classical in
theorem paretoFront_isFront {s t : MOState V m α} (hst : MOStep o K f s t)
    (hd : DistinctNodes t.pop) (hev : MOEvaluated f t.pop) (order : Finset Addr → List Addr)
    (hord : ∀ S, (order S).Nodup ∧ ∀ a, a ∈ order S ↔ a ∈ S) :
    ∃ front, paretoFront order t = .ok front ∧ IsFrontOf o f (t.pop.map fun c => c.2.var) front := by
  have hfit : ∀ a ∈ order t.pf, (deref t.pop a >>= fun g => Out.ok g.fitness) = .ok (fitAt t.pop a) := by
    intro a ha
    rw [(hord _).2, hst.front] at ha
    obtain ⟨c, hc, rfl, -⟩ := ha
    rw [deref_of_mem hd hc, Out.ok_bind, fitAt_of_mem hd hc]
  refine ⟨(order t.pf).map (fitAt t.pop), ?_, ?_⟩
  · unfold paretoFront
    revert hfit
    generalize order t.pf = l
    intro hfit
    induction l with
    | nil => rfl
    | cons a l ih =>
      rw [List.mapM_cons, hfit a (by simp), Out.ok_bind, ih (fun x hx => hfit x (by simp [hx]))]
      rfl
  · unfold IsFrontOf
    obtain ⟨nd, hnd⟩ : ∃ nd, nd = t.pop.filter fun c =>
      decide (∀ z ∈ t.pop, ¬ Dominates o (f z.2.var) (f c.2.var)) := ⟨_, rfl⟩
    suffices hs : ((order t.pf).map (fitAt t.pop)).Perm ((nd.map fun c => c.2.var).map f) by
      convert hs using 2
      rw [hnd, List.filter_map]
      congr 1
      apply List.filter_congr
      intro c _
      simp only [Function.comp, List.forall_mem_map]
    rw [List.map_map]
    have e2 : nd.map (f ∘ fun c => c.2.var) = (nd.map (·.1)).map (fitAt t.pop) := by
      rw [List.map_map]
      apply List.map_congr_left
      intro c hc
      have hc' : c ∈ t.pop := by rw [hnd] at hc; exact (List.mem_filter.1 hc).1
      show f c.2.var = fitAt t.pop c.1
      rw [fitAt_of_mem hd hc', (hev c hc').2]
    rw [e2]
    apply List.Perm.map
    apply (List.perm_ext_iff_of_nodup (hord _).1 ?_).2
    · intro a
      rw [(hord _).2, hst.front, hnd]
      simp only [List.mem_map, List.mem_filter, decide_eq_true_eq]
      constructor
      · rintro ⟨c, h1, h2, h3⟩; exact ⟨c, ⟨h1, h3⟩, h2⟩
      · rintro ⟨c, ⟨h1, h3⟩, h2⟩; exact ⟨c, h1, h2, h3⟩
    · rw [hnd]; exact List.Nodup.sublist (List.filter_sublist.map _) hd

/-- What is true at the end of every multi-objective run. -/
theorem mo_run (hK : 1 ≤ K) (hg : ∀ g, GoodSelection o K (sel g)) (s : MOState V m α)
    (h : MOReady K f s) (maxGen maxFail : Nat) (order : Finset Addr → List Addr)
    (hord : ∀ S, (order S).Nodup ∧ ∀ a, a ∈ order S ↔ a ∈ S) :
    ∃ r, gaRun (moSolver o f sel v) maxGen maxFail (maxGen + 1) s = .ok r ∧
      r.generation = maxGen ∧ r.state.pop.length = K ∧
      (∀ c ∈ r.state.pop, c.2.fitness = f c.2.var) ∧
      (∃ front, paretoFront order r.state = .ok front ∧
        IsFrontOf o f (r.state.pop.map fun c => c.2.var) front) ∧
      ∃ best, r.record.getLast? = some best ∧ ∀ j, (∃ c ∈ r.state.pop, best j = f c.2.var j) ∧
        ∀ c ∈ r.state.pop, ¬ Better o (f c.2.var j) (best j) := by
  obtain ⟨r, hr⟩ := mo_run_total o f K sel v hK hg h maxGen maxFail
  obtain ⟨h1, h2, h3⟩ := run_record _ maxGen maxFail _ s r hr
  obtain ⟨t, c, ht, -, hc1, hc2, -, hst, -⟩ := mo_after o f K sel v hK hg h r.generation
  rw [h2] at ht
  cases ht
  obtain ⟨t1, t2⟩ := moStep_ready o f K hc1 hc2 hst
  refine ⟨r, hr, mo_generation o f K sel v hK hg h _ _ _ r hr, hst.size, fun c hc => (t2 c hc).2,
    paretoFront_isFront o f K hst t1.distinct t2 order hord, r.record[r.generation], ?_, ?_⟩
  · have e : r.record.length - 1 = r.generation := by omega
    rw [List.getLast?_eq_getElem?, e, List.getElem?_eq_getElem]
  · obtain ⟨t, ht, hb⟩ := h3 r.generation (by omega)
    rw [h2] at ht
    cases ht
    have hne : (r.state.pop.map fun c => c.2.fitness) ≠ [] := by
      intro h
      have : r.state.pop.length = 0 := by simpa using congrArg List.length h
      have := hst.size
      omega
    obtain ⟨b, hb', hbi⟩ := bestFitness_ideal o _ hne
    have hbb : b = r.record[r.generation] := by
      have : moBestFitness o (r.state.pop.map fun c => c.2.fitness) = .ok r.record[r.generation] := hb
      rw [hb'] at this
      simpa using this
    subst hbb
    intro j
    obtain ⟨⟨y, hy, hyj⟩, hall⟩ := hbi j
    obtain ⟨c, hc, rfl⟩ := List.mem_map.1 hy
    refine ⟨⟨c, hc, ?_⟩, ?_⟩
    · rw [hyj, (t2 c hc).2]
    · intro c hc
      have := hall _ (List.mem_map_of_mem hc)
      rwa [(t2 c hc).2] at this

theorem mo_elitism (hK : 1 ≤ K) (hg : ∀ g, GoodSelection o K (sel g)) (s : MOState V m α)
    (h : MOReady K f s) (i : Nat) (c t : MOState V m α)
    (hc : candidatesAt (moSolver o f sel v) s i = .ok c)
    (ht : stateAfter (moSolver o f sel v) s i = .ok t) :
    t.pop.length = K ∧ t.pop.Sublist c.pop ∧
    ∀ x ∈ c.pop, ∀ y ∈ t.pop, Dominates o (f x.2.var) (f y.2.var) → x ∈ t.pop := by
  obtain ⟨t', c', ht', hc', -, -, -, hst, -⟩ := mo_after o f K sel v hK hg h i
  rw [hc] at hc'; cases hc'
  rw [ht] at ht'; cases ht'
  exact ⟨hst.size, hst.sub, hst.elitism⟩

theorem mo_covers (hK : 1 ≤ K) (hg : ∀ g, GoodSelection o K (sel g)) (s : MOState V m α)
    (h : MOReady K f s) (i j : Nat) (hij : i ≤ j)
    (hroom : ∀ k, i ≤ k → k ≤ j → ∀ t, stateAfter (moSolver o f sel v) s k = .ok t → t.pf.card < K)
    (c t : MOState V m α) (hc : candidatesAt (moSolver o f sel v) s i = .ok c)
    (ht : stateAfter (moSolver o f sel v) s j = .ok t) :
    ∀ x ∈ c.pop, ∃ y ∈ t.pop, y.1 ∈ t.pf ∧
      (f y.2.var = f x.2.var ∨ Dominates o (f y.2.var) (f x.2.var)) := by
  classical
  induction j, hij using Nat.le_induction generalizing t with
  | base =>
    obtain ⟨t', c', ht', hc', -, -, -, hst, -⟩ := mo_after o f K sel v hK hg h i
    rw [hc] at hc'; cases hc'
    rw [ht] at ht'; cases ht'
    intro x hx
    obtain ⟨y, hy, hy1, hy2⟩ := dominated_by_nondominated o (fun c => f c.2.var) c.pop _ x hx le_rfl
    obtain ⟨hy3, hy4⟩ := hst.complete (hroom i le_rfl le_rfl t ht) y hy hy1
    refine ⟨y, hy3, hy4, ?_⟩
    rcases hy2 with rfl | hy2
    · exact Or.inl rfl
    · exact Or.inr hy2
  | succ j hij ih =>
    obtain ⟨t0, -, ht0, -⟩ := mo_after o f K sel v hK hg h j
    obtain ⟨t', c', ht', hc', -, -, -, hst, hnext⟩ := mo_after o f K sel v hK hg h (j + 1)
    rw [ht] at ht'; cases ht'
    intro x hx
    obtain ⟨y0, hy0, -, hy0x⟩ := ih (fun k hk hk' => hroom k hk (by omega)) t0 ht0 x hx
    have hy0c := hnext j rfl t0 ht0 y0 hy0
    obtain ⟨y, hy, hy1, hy2⟩ := dominated_by_nondominated o (fun c => f c.2.var) c'.pop _ y0 hy0c le_rfl
    obtain ⟨hy3, hy4⟩ := hst.complete (hroom (j + 1) (by omega) le_rfl t ht) y hy hy1
    refine ⟨y, hy3, hy4, ?_⟩
    rcases hy2 with rfl | hy2
    · exact hy0x
    · rcases hy0x with e | e
      · rw [← e]; exact Or.inr hy2
      · exact Or.inr (dominates_trans' hy2 e)

theorem mo_record_monotone (hK : 1 ≤ K) (hg : ∀ g, GoodSelection o K (sel g)) (s : MOState V m α)
    (h : MOReady K f s) (maxGen maxFail fuel : Nat) (r : RunResult (MOState V m α) (Fin m → α))
    (hr : gaRun (moSolver o f sel v) maxGen maxFail fuel s = .ok r) (i j : Nat) (hij : i ≤ j)
    (hj : j < r.record.length)
    (hroom : ∀ k, i ≤ k → k ≤ j → ∀ t, stateAfter (moSolver o f sel v) s k = .ok t → t.pf.card < K)
    (obj : Fin m) : ¬ Better o (r.record[i] obj) (r.record[j] obj) := by
  obtain ⟨-, -, h3⟩ := run_record _ maxGen maxFail fuel s r hr
  obtain ⟨ti, hti, hbi⟩ := h3 i (by omega)
  obtain ⟨tj, htj, hbj⟩ := h3 j hj
  obtain ⟨ti', ci, hti', hci, ci1, ci2, -, hsti, -⟩ := mo_after o f K sel v hK hg h i
  obtain ⟨tj', cj, htj', hcj, cj1, cj2, -, hstj, -⟩ := mo_after o f K sel v hK hg h j
  rw [hti] at hti'; cases hti'
  rw [htj] at htj'; cases htj'
  have e1 := (moStep_ready o f K ci1 ci2 hsti).2
  have e2 := (moStep_ready o f K cj1 cj2 hstj).2
  have hne : ∀ {t : MOState V m α}, t.pop.length = K → (t.pop.map fun c => c.2.fitness) ≠ [] := by
    intro t ht hh
    have : t.pop.length = 0 := by simpa using congrArg List.length hh
    omega
  obtain ⟨bi, hbi', hi⟩ := bestFitness_ideal o _ (hne hsti.size)
  obtain ⟨bj, hbj', hj'⟩ := bestFitness_ideal o _ (hne hstj.size)
  have e3 : bi = r.record[i] := by
    have : moBestFitness o (ti.pop.map fun c => c.2.fitness) = .ok r.record[i] := hbi
    rw [hbi'] at this; simpa using this
  have e4 : bj = r.record[j] := by
    have : moBestFitness o (tj.pop.map fun c => c.2.fitness) = .ok r.record[j] := hbj
    rw [hbj'] at this; simpa using this
  rw [← e3, ← e4]
  obtain ⟨⟨y, hy, hyj⟩, -⟩ := hi obj
  obtain ⟨x, hx, rfl⟩ := List.mem_map.1 hy
  obtain ⟨z, hz, -, hzx⟩ := mo_covers o f K sel v hK hg s h i j hij hroom ci tj hci htj x (hsti.sub.subset hx)
  have h5 := (hj' obj).2 _ (List.mem_map_of_mem hz)
  rw [(e2 z hz).2] at h5
  rw [hyj, (e1 x hx).2]
  have h6 : ¬ Better o (f x.2.var obj) (f z.2.var obj) := by
    rcases hzx with e | e
    · rw [e]; exact better_irrefl _ _
    · exact e.1 obj
  exact not_better_trans h6 h5

theorem mo_fail_ignored {maxGen maxFail : Nat} :
    ∀ {fuel gen : Nat} {s : MOState V m α} {record : List (Fin m → α)}, s.fail = 0 →
      gaLoop (moSolver o f sel v) maxGen maxFail fuel gen s record =
        gaLoop (moSolver o f sel v) maxGen 0 fuel gen s record := by
  intro fuel
  induction fuel with
  | zero => intros; rfl
  | succ fuel ih =>
    intro gen s record hs
    simp only [gaLoop]
    cases hsel : (moSolver o f sel v).select (gen + 1) ((moSolver o f sel v).computeAllFitness s) with
    | ok t =>
      have ht : t.fail = 0 := by
        have : moSelect (sel (gen + 1)) ((moSolver o f sel v).computeAllFitness s) = .ok t := hsel
        unfold moSelect at this
        rw [Out.bind_eq_ok] at this
        obtain ⟨r, -, hr⟩ := this
        cases hr
        exact hs
      have hft : (moSolver o f sel v).failTimes t = 0 := ht
      simp only [Out.ok_bind]
      congr 1
      funext b
      simp only [hft]
      split
      · rfl
      · have : ¬ (maxFail > 0 ∧ 0 > maxFail) := by omega
        rw [if_neg this, if_neg (by omega)]
        exact ih ht
    | ub => rfl
    | timeout => rfl

end generic

section nsga2
variable {V α : Type} {m : Nat} [Field α] [LinearOrder α] [IsStrictOrderedRing α]
variable (o : FitnessOption) (K : Nat) (eps : α) (f : V → Fin m → α)
variable (e : Nat → NSGA2Env m) (v : Nat → MOVary V m α)

/-- C88, NSGA-II: from any legitimate start with at least `K ≥ 1` individuals, `run()` returns after exactly
`maxGenerations` generations, leaves exactly `K` evaluated individuals, `paretoFront` dereferences no dangling
pointer and returns the objective vectors of exactly the non-dominated individuals of the final population,
and the last record entry is the ideal point of the final population. -/
theorem nsga2_run (hK : 1 ≤ K) (s : MOState V m α) (h : MOReady K f s) (maxGen maxFail : Nat)
    (order : Finset Addr → List Addr) (hord : ∀ S, (order S).Nodup ∧ ∀ a, a ∈ order S ↔ a ∈ S) :
    ∃ r, gaRun (nsga2Solver o K eps f e v) maxGen maxFail (maxGen + 1) s = .ok r ∧
      r.generation = maxGen ∧ r.state.pop.length = K ∧
      (∀ c ∈ r.state.pop, c.2.fitness = f c.2.var) ∧
      (∃ front, paretoFront order r.state = .ok front ∧
        IsFrontOf o f (r.state.pop.map fun c => c.2.var) front) ∧
      ∃ best, r.record.getLast? = some best ∧ ∀ j, (∃ c ∈ r.state.pop, best j = f c.2.var j) ∧
        ∀ c ∈ r.state.pop, ¬ Better o (f c.2.var j) (best j) :=
  mo_run o f K _ v hK (fun g => good_nsga2 o K eps (e g)) s h maxGen maxFail order hord

/-- C88: the freshly initialised solver is a legitimate start. -/
theorem mo_init_ready (init : Nat → V) (junk : Fin m → α) : MOReady K f (moInit K init junk) :=
  moReady_init f K init junk

/-- C90, NSGA-II: in every generation, whoever dominates a survivor survives itself. -/
theorem nsga2_run_elitism (hK : 1 ≤ K) (s : MOState V m α) (h : MOReady K f s) (i : Nat)
    (c t : MOState V m α) (hc : candidatesAt (nsga2Solver o K eps f e v) s i = .ok c)
    (ht : stateAfter (nsga2Solver o K eps f e v) s i = .ok t) :
    t.pop.length = K ∧ t.pop.Sublist c.pop ∧
    ∀ x ∈ c.pop, ∀ y ∈ t.pop, Dominates o (f x.2.var) (f y.2.var) → x ∈ t.pop :=
  mo_elitism o f K _ v hK (fun g => good_nsga2 o K eps (e g)) s h i c t hc ht

/-- C90, NSGA-II: as long as the reported front is smaller than the population, everybody evaluated in
generation `i` is matched or dominated by a member of the front reported in any later generation `j`.
Missing: fronts that fill the population (`nsga2_front_deteriorates`). -/
theorem nsga2_front_covers_partial (hK : 1 ≤ K) (s : MOState V m α) (h : MOReady K f s) (i j : Nat)
    (hij : i ≤ j)
    (hroom : ∀ k, i ≤ k → k ≤ j → ∀ t, stateAfter (nsga2Solver o K eps f e v) s k = .ok t → t.pf.card < K)
    (c t : MOState V m α) (hc : candidatesAt (nsga2Solver o K eps f e v) s i = .ok c)
    (ht : stateAfter (nsga2Solver o K eps f e v) s j = .ok t) :
    ∀ x ∈ c.pop, ∃ y ∈ t.pop, y.1 ∈ t.pf ∧
      (f y.2.var = f x.2.var ∨ Dominates o (f y.2.var) (f x.2.var)) :=
  mo_covers o f K _ v hK (fun g => good_nsga2 o K eps (e g)) s h i j hij hroom c t hc ht

/-- C90, NSGA-II: … and then no objective of the record gets worse. -/
theorem nsga2_record_monotone_partial (hK : 1 ≤ K) (s : MOState V m α) (h : MOReady K f s)
    (maxGen maxFail fuel : Nat) (r : RunResult (MOState V m α) (Fin m → α))
    (hr : gaRun (nsga2Solver o K eps f e v) maxGen maxFail fuel s = .ok r) (i j : Nat) (hij : i ≤ j)
    (hj : j < r.record.length)
    (hroom : ∀ k, i ≤ k → k ≤ j → ∀ t, stateAfter (nsga2Solver o K eps f e v) s k = .ok t → t.pf.card < K)
    (obj : Fin m) : ¬ Better o (r.record[i] obj) (r.record[j] obj) :=
  mo_record_monotone o f K _ v hK (fun g => good_nsga2 o K eps (e g)) s h maxGen maxFail fuel r hr i j hij hj
    hroom obj

/-- C89, NSGA-II: `maxFailTimes` has no influence on a run. -/
theorem nsga2_ignores_maxFailTimes (s : MOState V m α) (maxGen maxFail fuel : Nat) :
    gaRun (nsga2Solver o K eps f e v) maxGen maxFail fuel s =
      gaRun (nsga2Solver o K eps f e v) maxGen 0 fuel s :=
  mo_fail_ignored o f _ v rfl

end nsga2

section nsga3
variable {V α : Type} {m : Nat} [Field α] [LinearOrder α] [IsStrictOrderedRing α]
variable (K : Nat) (tiny : α) (refs : List (Fin m → α)) (f : V → Fin m → α)
variable (e : Nat → NSGA3Env α) (v : Nat → MOVary V m α) (fuel : Nat → Nat)

/-- C88, NSGA-III: as for NSGA-II, with any non-empty list of non-zero reference points; the fuel of the
niching loop is not a restriction (number of candidates plus number of reference points). -/
theorem nsga3_run (hK : 1 ≤ K) (hK32 : K < 2 ^ 32) (ht : 0 ≤ tiny) (hrefs : refs ≠ [])
    (hw : ∀ w ∈ refs, ∃ i, w i ≠ 0) (he : ∀ g, (e g).Legal) (hfuel : ∀ n, n + refs.length ≤ fuel n)
    (s : MOState V m α) (h : MOReady K f s) (maxGen maxFail : Nat)
    (order : Finset Addr → List Addr) (hord : ∀ S, (order S).Nodup ∧ ∀ a, a ∈ order S ↔ a ∈ S) :
    ∃ r, gaRun (nsga3Solver K tiny refs f e v fuel) maxGen maxFail (maxGen + 1) s = .ok r ∧
      r.generation = maxGen ∧ r.state.pop.length = K ∧
      (∀ c ∈ r.state.pop, c.2.fitness = f c.2.var) ∧
      (∃ front, paretoFront order r.state = .ok front ∧
        IsFrontOf .lessBetter f (r.state.pop.map fun c => c.2.var) front) ∧
      ∃ best, r.record.getLast? = some best ∧ ∀ j, (∃ c ∈ r.state.pop, best j = f c.2.var j) ∧
        ∀ c ∈ r.state.pop, ¬ Better .lessBetter (f c.2.var j) (best j) :=
  mo_run .lessBetter f K _ v hK
    (fun g => good_nsga3 K hK32 tiny ht refs hrefs hw (e g) (he g) fuel hfuel) s h maxGen maxFail order hord

/-- C90, NSGA-III: in every generation, whoever dominates a survivor survives itself. -/
theorem nsga3_run_elitism (hK : 1 ≤ K) (hK32 : K < 2 ^ 32) (ht : 0 ≤ tiny) (hrefs : refs ≠ [])
    (hw : ∀ w ∈ refs, ∃ i, w i ≠ 0) (he : ∀ g, (e g).Legal) (hfuel : ∀ n, n + refs.length ≤ fuel n)
    (s : MOState V m α) (h : MOReady K f s) (i : Nat)
    (c t : MOState V m α) (hc : candidatesAt (nsga3Solver K tiny refs f e v fuel) s i = .ok c)
    (hta : stateAfter (nsga3Solver K tiny refs f e v fuel) s i = .ok t) :
    t.pop.length = K ∧ t.pop.Sublist c.pop ∧
    ∀ x ∈ c.pop, ∀ y ∈ t.pop, Dominates .lessBetter (f x.2.var) (f y.2.var) → x ∈ t.pop :=
  mo_elitism .lessBetter f K _ v hK
    (fun g => good_nsga3 K hK32 tiny ht refs hrefs hw (e g) (he g) fuel hfuel) s h i c t hc hta

/-- C90, NSGA-III: as for NSGA-II. -/
theorem nsga3_front_covers_partial (hK : 1 ≤ K) (hK32 : K < 2 ^ 32) (ht : 0 ≤ tiny) (hrefs : refs ≠ [])
    (hw : ∀ w ∈ refs, ∃ i, w i ≠ 0) (he : ∀ g, (e g).Legal) (hfuel : ∀ n, n + refs.length ≤ fuel n)
    (s : MOState V m α) (h : MOReady K f s) (i j : Nat) (hij : i ≤ j)
    (hroom : ∀ k, i ≤ k → k ≤ j → ∀ t,
      stateAfter (nsga3Solver K tiny refs f e v fuel) s k = .ok t → t.pf.card < K)
    (c t : MOState V m α) (hc : candidatesAt (nsga3Solver K tiny refs f e v fuel) s i = .ok c)
    (hta : stateAfter (nsga3Solver K tiny refs f e v fuel) s j = .ok t) :
    ∀ x ∈ c.pop, ∃ y ∈ t.pop, y.1 ∈ t.pf ∧
      (f y.2.var = f x.2.var ∨ Dominates .lessBetter (f y.2.var) (f x.2.var)) :=
  mo_covers .lessBetter f K _ v hK
    (fun g => good_nsga3 K hK32 tiny ht refs hrefs hw (e g) (he g) fuel hfuel) s h i j hij hroom c t hc hta

/-- C90, NSGA-III: as for NSGA-II. -/
theorem nsga3_record_monotone_partial (hK : 1 ≤ K) (hK32 : K < 2 ^ 32) (ht : 0 ≤ tiny) (hrefs : refs ≠ [])
    (hw : ∀ w ∈ refs, ∃ i, w i ≠ 0) (he : ∀ g, (e g).Legal) (hfuel : ∀ n, n + refs.length ≤ fuel n)
    (s : MOState V m α) (h : MOReady K f s) (maxGen maxFail fl : Nat)
    (r : RunResult (MOState V m α) (Fin m → α))
    (hr : gaRun (nsga3Solver K tiny refs f e v fuel) maxGen maxFail fl s = .ok r) (i j : Nat) (hij : i ≤ j)
    (hj : j < r.record.length)
    (hroom : ∀ k, i ≤ k → k ≤ j → ∀ t,
      stateAfter (nsga3Solver K tiny refs f e v fuel) s k = .ok t → t.pf.card < K)
    (obj : Fin m) : ¬ Better .lessBetter (r.record[i] obj) (r.record[j] obj) :=
  mo_record_monotone .lessBetter f K _ v hK
    (fun g => good_nsga3 K hK32 tiny ht refs hrefs hw (e g) (he g) fuel hfuel) s h maxGen maxFail fl r hr i j
    hij hj hroom obj

/-- C89, NSGA-III: `maxFailTimes` has no influence on a run. -/
theorem nsga3_ignores_maxFailTimes (s : MOState V m α) (maxGen maxFail fl : Nat) :
    gaRun (nsga3Solver K tiny refs f e v fuel) maxGen maxFail fl s =
      gaRun (nsga3Solver K tiny refs f e v fuel) maxGen 0 fl s :=
  mo_fail_ignored .lessBetter f _ v rfl

end nsga3

/-! ## Concrete runs -/

/-- Two objectives, the objective vector being the variables themselves; insertion sort everywhere; every
couple is crossed, giving the children `kids g`; nobody mutates. -/
def demoRun (o : FitnessOption) (K : Nat) (pts : List (Fin 2 → ℚ)) (kids : (Fin 2 → ℚ) × (Fin 2 → ℚ))
    (maxGen maxFail : Nat) : Out (RunResult (MOState (Fin 2 → ℚ) 2 ℚ) (Fin 2 → ℚ)) :=
  gaRun (nsga2Solver o K (1 / 10000000000 : ℚ) id
      (fun _ => ⟨insertionSorter, fun _ => insertionSorter, insertionSorter⟩)
      (fun _ => ⟨fun _ _ _ => kids, fun _ => true, id, fun _ x => x, fun _ => false, 0⟩))
    maxGen maxFail (maxGen + 1) (moInit K (fun i => pts.getD i 0) 0)

/-- Non-vacuity: a run of three generations in which nothing improves although `maxFailTimes` is 1; the final
front has two members in a population of three. -/
example : (demoRun .lessBetter 3 [![1, 2], ![2, 1], ![3, 3]] (![4, 4], ![5, 5]) 3 1).satisfies (fun r =>
    decide (r.generation = 3 ∧ r.record = [![1, 1], ![1, 1], ![1, 1], ![1, 1]] ∧
      r.state.pop.length = 3 ∧ r.state.pf.card = 2)) = true := by decide +kernel

/-- The full claim of C90 fails for NSGA-II when the front fills the population: here (maximising, with a
stable sort) the best value of the first objective gets lost, 10 becoming 5, because the non-dominated
individual that has it shares it with a dominated one. -/
theorem nsga2_front_deteriorates :
    (demoRun .greaterBetter 2 [![10, 1], ![10, 2]] (![5, 5], ![0, 10]) 1 0).satisfies (fun r =>
      decide (r.record = [![10, 2], ![5, 10]] ∧ r.state.pop.map (fun c => c.2.var) = [![5, 5], ![0, 10]])) =
      true := by decide +kernel

/-- Non-vacuity of the NSGA-III premises: legal draws, reference points, fuel. -/
example : (⟨insertionSorter, fun S => S.sort (· ≤ ·),
      fun _ => { rIdx := fun _ => 0, draws := fun _ => 1 / 2, order := id }⟩ : NSGA3Env ℚ).Legal ∧
    (∀ w ∈ ([![0, 1], ![1 / 2, 1 / 2], ![1, 0]] : List (Fin 2 → ℚ)), ∃ i, w i ≠ 0) ∧
    (∀ n, n + ([![0, 1], ![1 / 2, 1 / 2], ![1, 0]] : List (Fin 2 → ℚ)).length ≤ n + 3) := by
  refine ⟨⟨fun S g => by simp, fun k => ⟨fun _ h => h, fun _ => by norm_num, fun l => List.Perm.refl l⟩⟩, ?_,
    fun n => le_rfl⟩
  decide +kernel

end Heu
