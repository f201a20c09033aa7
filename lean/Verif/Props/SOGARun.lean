import Verif.Lemmas.Trailing
import Verif.Props.SOGA

/-!
# C27, C33–C35 over whole runs of a single-objective solver

`sogaSolver o f m K e v` is the solver with fitness function `f`, method `m`, population size `K`, and the
draws of generation `g` in `e g` and `v g`.
-/

set_option linter.unusedSectionVars false

namespace Heu
open Spec

section
variable {V α : Type} [Field α] [LinearOrder α] [IsStrictOrderedRing α]
variable (o : FitnessOption) (f : V → α) (m : SelectMethod) (K : Nat)
variable (e : Nat → SelectEnv (Gene V α) α) (v : Nat → VaryEnv V α)

/-- A legitimate starting point: different nodes, a provisional best that is in the population, and no
stale fitness. -/
structure Ready (s : SOState (Gene V α)) : Prop where
  distinct : DistinctNodes s.pop
  best : s.best ∈ s.pop.map (·.1)
  cache : CacheCorrect f s.pop

/-- Everybody is evaluated and correct. -/
def AllEvaluated (pop : Pop (Gene V α)) : Prop :=
  ∀ c ∈ pop, c.2.computed = true ∧ c.2.fitness = f c.2.var

theorem ready_compute {s : SOState (Gene V α)} (h : Ready f s) :
    let s' := (sogaSolver o f m K e v).computeAllFitness s
    Ready f s' ∧ AllEvaluated f s'.pop ∧ s'.best = s.best ∧ s'.fail = s.fail := by
  intro s'
  have h1 := (evaluation_complete f s.pop h.cache).1
  refine ⟨⟨?_, ?_, fun c hc _ => (h1 c hc).2⟩, h1, rfl, rfl⟩
  · show DistinctNodes (computeAllFitness f s.pop)
    unfold DistinctNodes; rw [distinct_computeAllFitness]; exact h.distinct
  · show s.best ∈ (computeAllFitness f s.pop).map (·.1)
    rw [distinct_computeAllFitness]; exact h.best

theorem ready_select (he : ∀ g, ValidEnv (e g)) {s s' : SOState (Gene V α)} {g : Nat} (h : Ready f s)
    (ha : AllEvaluated f s.pop) (hs : (sogaSolver o f m K e v).select g s = .ok s') :
    Ready f s' ∧ AllEvaluated f s'.pop := by
  have hsp := runSelect_spec o Gene.fitness m (e g) (he g) K s s' h.distinct hs
  have ha' : AllEvaluated f s'.pop := by
    intro c hc
    obtain ⟨d, hd, hde⟩ := hsp.noInvention c hc
    rw [← hde]; exact ha d hd
  obtain ⟨c, hcb, hc, -⟩ := hsp.best
  exact ⟨⟨hsp.distinct, List.mem_map.2 ⟨c, hc, hcb⟩, fun c hc _ => (ha' c hc).2⟩, ha'⟩

theorem vary_pop (g : Nat) (t : SOState (Gene V α)) :
    let t' := (sogaSolver o f m K e v).mutate g ((sogaSolver o f m K e v).crossover g t)
    (∃ k, Appends t.pop t'.pop k) ∧ t'.best = t.best ∧ t'.fail = t.fail := by
  intro t'
  exact ⟨⟨_, (crossoverLoop_appends _ _ _ _ _).trans (mutate_fold_appends _ _ _ _)⟩, rfl, rfl⟩

/-- The next generation's candidates contain all survivors unchanged. -/
theorem next_candidates {t : SOState (Gene V α)} {g : Nat} (h : Ready f t)
    (ha : AllEvaluated f t.pop) :
    let S := sogaSolver o f m K e v
    let s2 := S.computeAllFitness (S.mutate g (S.crossover g t))
    Ready f s2 ∧ AllEvaluated f s2.pop ∧ (∀ c ∈ t.pop, c ∈ s2.pop) ∧ s2.best = t.best ∧
      s2.fail = t.fail := by
  intro S s2
  obtain ⟨⟨k, hk⟩, hb, hf⟩ := vary_pop o f m K e v g t
  have hr : Ready f (S.mutate g (S.crossover g t)) := by
    refine ⟨hk.distinct h.distinct, ?_, cacheCorrect_appends hk h.cache⟩
    obtain ⟨⟨new, hnew, -⟩, -⟩ := hk
    rw [hb, hnew, List.map_append, List.mem_append]
    exact Or.inl h.best
  obtain ⟨h1, h2, h3, h4⟩ := ready_compute o f m K e v hr
  refine ⟨h1, h2, ?_, h3.trans hb, h4.trans hf⟩
  intro c hc
  obtain ⟨⟨new, hnew, -⟩, -⟩ := hk
  refine List.mem_map.2 ⟨c, ?_, ?_⟩
  · show c ∈ (S.mutate g (S.crossover g t)).pop
    rw [hnew]; exact List.mem_append_left _ hc
  · simp [evalGene, (ha c hc).1]

/-- Invariant of all selected states. -/
theorem after_ready (he : ∀ g, ValidEnv (e g)) {s : SOState (Gene V α)} (h : Ready f s) (i : Nat)
    {t : SOState (Gene V α)} (ht : stateAfter (sogaSolver o f m K e v) s i = .ok t) :
    Ready f t ∧ AllEvaluated f t.pop := by
  induction i generalizing t with
  | zero =>
    obtain ⟨h1, h2, -⟩ := ready_compute o f m K e v
      (s := (sogaSolver o f m K e v).resetFailTimes s) ⟨h.distinct, h.best, h.cache⟩
    exact ready_select o f m K e v he h1 h2 ht
  | succ i ih =>
    simp only [stateAfter, Out.bind_eq_ok] at ht
    obtain ⟨t0, ht0, ht⟩ := ht
    obtain ⟨h1, h2⟩ := ih ht0
    obtain ⟨h3, h4, -⟩ := next_candidates o f m K e v (g := i + 1) h1 h2
    exact ready_select o f m K e v he h3 h4 ht

theorem bestFitness_ok {t : SOState (Gene V α)} {b : α}
    (h : (sogaSolver o f m K e v).bestFitness t = .ok b) :
    ∃ g, deref t.pop t.best = .ok g ∧ g.fitness = b := by
  have h' : (deref t.pop t.best >>= fun g => Out.ok g.fitness) = .ok b := h
  rw [Out.bind_eq_ok] at h'
  obtain ⟨g, h1, h2⟩ := h'
  simp only [Out.ok.injEq] at h2
  exact ⟨g, h1, h2⟩

/-- C27/C32 at the end of a run: everybody in the final population carries its true fitness and the
reported best fitness is the value of the fitness function at `result()`. -/
theorem soga_run_consistent (he : ∀ g, ValidEnv (e g)) (s : SOState (Gene V α)) (h : Ready f s)
    (maxGen maxFail fuel : Nat) (r : RunResult (SOState (Gene V α)) α)
    (hr : gaRun (sogaSolver o f m K e v) maxGen maxFail fuel s = .ok r) :
    (∀ c ∈ r.state.pop, c.2.fitness = f c.2.var) ∧
    ∃ g, deref r.state.pop r.state.best = .ok g ∧ g.fitness = f g.var ∧
      r.record.getLast? = some (f g.var) ∧ ∀ c ∈ r.state.pop, ¬ Better o (f c.2.var) (f g.var) := by
  obtain ⟨h1, h2, h3⟩ := run_record _ maxGen maxFail fuel s r hr
  obtain ⟨hrd, hall⟩ := after_ready o f m K e v he h _ h2
  obtain ⟨t, ht, hb⟩ := h3 r.generation (by omega)
  rw [h2] at ht
  simp only [Out.ok.injEq] at ht
  subst ht
  obtain ⟨g, hg, hgb⟩ := bestFitness_ok o f m K e v hb
  have hgm := deref_ok hg
  have hgf : g.fitness = f g.var := (hall _ hgm).2
  refine ⟨fun c hc => (hall c hc).2, g, hg, hgf, ?_, ?_⟩
  · rw [List.getLast?_eq_getElem?, h1, Nat.add_sub_cancel, List.getElem?_eq_getElem (by omega), ← hgb.symm.trans hgf]
  · -- the last selection reports its best
    have hsel : ∃ s0, DistinctNodes s0.pop ∧
        runSelect o Gene.fitness m (e (r.generation + 1)) K s0 = .ok r.state := by
      cases hgn : r.generation with
      | zero =>
        rw [hgn] at h2
        exact ⟨_, (ready_compute o f m K e v (s := (sogaSolver o f m K e v).resetFailTimes s)
          ⟨h.distinct, h.best, h.cache⟩).1.distinct, h2⟩
      | succ i =>
        rw [hgn] at h2
        simp only [stateAfter, Out.bind_eq_ok] at h2
        obtain ⟨t0, ht0, ht⟩ := h2
        obtain ⟨a1, a2⟩ := after_ready o f m K e v he h i ht0
        exact ⟨_, (next_candidates o f m K e v (g := i + 1) a1 a2).1.distinct, ht⟩
    obtain ⟨s0, hd0, hs0⟩ := hsel
    obtain ⟨g', hg', -, hu⟩ := selection_reports_best o Gene.fitness m _ (he _) K s0 r.state hd0 hs0
    rw [hg] at hg'
    simp only [Out.ok.injEq] at hg'
    subst hg'
    intro c hc
    rw [← hgf, ← (hall c hc).2]
    exact hu c hc

/-! ## C33 -/

theorem record_step (he : ∀ g, ValidEnv (e g)) (hel : ∀ g, 1 ≤ (e g).eliteNum)
    (hm : m = .Truncation ∨ m = .EliteReserved) {s : SOState (Gene V α)} (h : Ready f s) {i : Nat}
    {t t' : SOState (Gene V α)} {b b' : α}
    (ht : stateAfter (sogaSolver o f m K e v) s i = .ok t)
    (ht' : stateAfter (sogaSolver o f m K e v) s (i + 1) = .ok t')
    (hb : (sogaSolver o f m K e v).bestFitness t = .ok b)
    (hb' : (sogaSolver o f m K e v).bestFitness t' = .ok b') : ¬ Better o b b' := by
  simp only [stateAfter, ht, Out.ok_bind] at ht'
  obtain ⟨a1, a2⟩ := after_ready o f m K e v he h i ht
  obtain ⟨n1, n2, n3, -, -⟩ := next_candidates o f m K e v (g := i + 1) a1 a2
  obtain ⟨g, hg, rfl⟩ := bestFitness_ok o f m K e v hb
  obtain ⟨g', hg', rfl⟩ := bestFitness_ok o f m K e v hb'
  obtain ⟨g'', hg'', hu⟩ := elitist_step o Gene.fitness m hm (e (i + 2)) (hel _) K _ t' n1.distinct ht'
  rw [hg'] at hg''
  simp only [Out.ok.injEq] at hg''
  subst hg''
  exact hu _ (n3 _ (deref_ok hg))

/-- C33: with Truncation or EliteReserved, in every run that returns, no record entry is better than a
later one. -/
theorem elitist_record_monotone (he : ∀ g, ValidEnv (e g)) (hel : ∀ g, 1 ≤ (e g).eliteNum)
    (hm : m = .Truncation ∨ m = .EliteReserved) (s : SOState (Gene V α)) (h : Ready f s)
    (maxGen maxFail fuel : Nat) (r : RunResult (SOState (Gene V α)) α)
    (hr : gaRun (sogaSolver o f m K e v) maxGen maxFail fuel s = .ok r)
    (i j : Nat) (hij : i ≤ j) (hj : j < r.record.length) :
    ¬ Better o r.record[i] r.record[j] := by
  obtain ⟨-, -, h3⟩ := run_record _ maxGen maxFail fuel s r hr
  induction j, hij using Nat.le_induction with
  | base => exact better_irrefl _ _
  | succ j hij ih =>
    obtain ⟨t, ht, hb⟩ := h3 j (by omega)
    obtain ⟨t', ht', hb'⟩ := h3 (j + 1) hj
    exact not_better_trans (ih (by omega)) (record_step o f m K e v he hel hm h ht ht' hb hb')

/-- C33: … and the first record entry is at least as good as every initial individual. -/
theorem elitist_record_start (hel : ∀ g, 1 ≤ (e g).eliteNum)
    (hm : m = .Truncation ∨ m = .EliteReserved) (s : SOState (Gene V α)) (h : Ready f s)
    (maxGen maxFail fuel : Nat) (r : RunResult (SOState (Gene V α)) α)
    (hr : gaRun (sogaSolver o f m K e v) maxGen maxFail fuel s = .ok r) :
    ∃ b, r.record[0]? = some b ∧ ∀ c ∈ s.pop, ¬ Better o (f c.2.var) b := by
  obtain ⟨h1, -, h3⟩ := run_record _ maxGen maxFail fuel s r hr
  obtain ⟨t, ht, hb⟩ := h3 0 (by omega)
  refine ⟨r.record[0], List.getElem?_eq_getElem (by omega), ?_⟩
  obtain ⟨c1, c2, -⟩ := ready_compute o f m K e v
    (s := (sogaSolver o f m K e v).resetFailTimes s) ⟨h.distinct, h.best, h.cache⟩
  obtain ⟨g, hg, hgb⟩ := bestFitness_ok o f m K e v hb
  obtain ⟨g'', hg'', hu⟩ := elitist_step o Gene.fitness m hm (e 1) (hel _) K _ t c1.distinct ht
  rw [hg] at hg''
  simp only [Out.ok.injEq] at hg''
  subst hg''
  intro c hc
  rw [← hgb]
  have hmem : (c.1, evalGene f c.2) ∈ computeAllFitness f s.pop := List.mem_map.2 ⟨c, hc, rfl⟩
  have hv : (evalGene f c.2).var = c.2.var := by unfold evalGene; split <;> rfl
  have hfit := (c2 _ hmem).2
  simp only [hv] at hfit
  rw [← hfit]
  exact hu _ hmem

/-! ## C34 -/

/-- C34, one generation: the counter is reset exactly when the new best is strictly better than the
old one and incremented otherwise. -/
theorem failTimes_step {γ : Type} (fit : γ → α) (en : SelectEnv γ α) (hen : ValidEnv en)
    (s s' : SOState γ) (hd : DistinctNodes s.pop) (h : runSelect o fit m en K s = .ok s') :
    ∃ new old, deref s'.pop s'.best = .ok new ∧ deref s.pop s.best = .ok old ∧
      (Better o (fit new) (fit old) → s'.fail = 0) ∧
      (¬ Better o (fit new) (fit old) → s'.fail = s.fail + 1) := by
  obtain ⟨c, old, h1, h2, h3, h4⟩ := (runSelect_spec o fit m en hen K s s' hd h).fail
  exact ⟨c, old, h1, h2, h3, h4⟩

/-- C34 over a whole run: the final `failTimes()` is the number of consecutive latest generations whose
best (as recorded) was not strictly better than that of the generation before; the reference of the first
generation is the provisional best. -/
theorem soga_failTimes [∀ a b : α, Decidable (Better o a b)] (he : ∀ g, ValidEnv (e g))
    (s : SOState (Gene V α)) (h : Ready f s) (g0 : Gene V α) (hg0 : deref s.pop s.best = .ok g0)
    (maxGen maxFail fuel : Nat) (r : RunResult (SOState (Gene V α)) α)
    (hr : gaRun (sogaSolver o f m K e v) maxGen maxFail fuel s = .ok r) :
    r.state.fail = trailingFails o (f g0.var) r.record := by
  obtain ⟨h1, h2, h3⟩ := run_record _ maxGen maxFail fuel s r hr
  have key : ∀ i (hi : i < r.record.length) t, stateAfter (sogaSolver o f m K e v) s i = .ok t →
      t.fail = trailingFails o (f g0.var) (r.record.take (i + 1)) ∧
      ∃ g, deref t.pop t.best = .ok g ∧ g.fitness = r.record[i] := by
    intro i
    induction i with
    | zero =>
      intro hi t ht
      obtain ⟨c1, c2, c3, c4⟩ := ready_compute o f m K e v
        (s := (sogaSolver o f m K e v).resetFailTimes s) ⟨h.distinct, h.best, h.cache⟩
      obtain ⟨t', ht', hb⟩ := h3 0 hi
      rw [ht] at ht'
      simp only [Out.ok.injEq] at ht'
      subst ht'
      obtain ⟨g, hg, hgb⟩ := bestFitness_ok o f m K e v hb
      refine ⟨?_, g, hg, hgb⟩
      obtain ⟨new, old, d1, d2, d3, d4⟩ :=
        failTimes_step o m K Gene.fitness (e 1) (he 1) _ t c1.distinct ht
      rw [hg] at d1
      simp only [Out.ok.injEq] at d1
      subst d1
      have hold : old.fitness = f g0.var := by
        have hmem : (s.best, evalGene f g0) ∈ computeAllFitness f s.pop :=
          List.mem_map.2 ⟨_, deref_ok hg0, rfl⟩
        have hh : deref (computeAllFitness f s.pop) s.best = .ok (evalGene f g0) :=
          deref_of_mem (c1.distinct) hmem
        have d2' : deref (computeAllFitness f s.pop) s.best = .ok old := d2
        rw [d2'] at hh
        simp only [Out.ok.injEq] at hh
        have hv : (evalGene f g0).var = g0.var := by unfold evalGene; split <;> rfl
        rw [hh, (c2 _ hmem).2, hv]
      have h0 : r.record.take (0 + 1) = [] ++ [r.record[0]] := by
        rw [List.take_succ_eq_append_getElem hi]; simp
      have hta := trailingFails_append o (f g0.var) [] r.record[0] (f g0.var) rfl
      rw [h0]
      rw [hold, hgb] at d3 d4
      by_cases hbt : Better o r.record[0] (f g0.var)
      · rw [d3 hbt, hta.1 hbt]
      · rw [d4 hbt, hta.2 hbt]; rfl
    | succ i ih =>
      intro hi t ht
      obtain ⟨t', ht', hb⟩ := h3 (i + 1) hi
      rw [ht] at ht'
      simp only [Out.ok.injEq] at ht'
      subst ht'
      obtain ⟨g, hg, hgb⟩ := bestFitness_ok o f m K e v hb
      refine ⟨?_, g, hg, hgb⟩
      obtain ⟨t0, ht0, -⟩ := h3 i (by omega)
      obtain ⟨ih1, g', hg', hgb'⟩ := ih (by omega) t0 ht0
      simp only [stateAfter, ht0, Out.ok_bind] at ht
      obtain ⟨a1, a2⟩ := after_ready o f m K e v he h i ht0
      obtain ⟨n1, n2, n3, n4, n5⟩ := next_candidates o f m K e v (g := i + 1) a1 a2
      obtain ⟨new, old, d1, d2, d3, d4⟩ :=
        failTimes_step o m K Gene.fitness (e (i + 2)) (he _) _ t n1.distinct ht
      rw [hg] at d1
      simp only [Out.ok.injEq] at d1
      subst d1
      have hold : old = g' := by
        have hh := deref_of_mem n1.distinct (n3 _ (deref_ok hg'))
        simp only at hh n4
        rw [n4, hh] at d2
        simp only [Out.ok.injEq] at d2
        exact d2.symm
      subst hold
      have h0 : r.record.take (i + 1 + 1) = r.record.take (i + 1) ++ [r.record[i + 1]] :=
        List.take_succ_eq_append_getElem hi
      have hlast : ((f g0.var) :: r.record.take (i + 1)).getLast (by simp) = r.record[i] := by
        have : r.record.take (i + 1) = r.record.take i ++ [r.record[i]] :=
          List.take_succ_eq_append_getElem (by omega)
        rw [List.getLast_cons (by intro h9; have := congrArg List.length h9; rw [List.length_take] at this; simp only [List.length_nil] at this; omega)]
        simp only [this]
        rw [List.getLast_append_singleton]
      have hta := trailingFails_append o (f g0.var) (r.record.take (i + 1)) r.record[i + 1] _ hlast
      rw [h0]
      rw [hgb', hgb] at d3 d4
      by_cases hbt : Better o r.record[i + 1] r.record[i]
      · rw [d3 hbt, hta.1 hbt]
      · rw [d4 hbt, hta.2 hbt, n5, ih1]
  have := (key r.generation (by omega) r.state h2).1
  rw [this, ← h1, List.take_length]

/-! ## C35 over whole runs -/

theorem gaLoop_no_ub {σ R : Type} (S : GASolver σ R) (I : σ → Prop)
    (hsel : ∀ g s, I s → S.select (g + 1) (S.computeAllFitness s) ≠ .ub)
    (hnext : ∀ g s t, I s → S.select (g + 1) (S.computeAllFitness s) = .ok t →
      (∃ b, S.bestFitness t = .ok b) ∧ I (S.mutate (g + 1) (S.crossover (g + 1) t)))
    {maxGen maxFail : Nat} :
    ∀ {fuel gen : Nat} {s : σ} {record : List R}, I s →
      gaLoop S maxGen maxFail fuel gen s record ≠ .ub := by
  intro fuel
  induction fuel with
  | zero => intro gen s record _; simp [gaLoop]
  | succ fuel ih =>
    intro gen s record hI
    cases hs : S.select (gen + 1) (S.computeAllFitness s) with
    | ub => exact absurd hs (hsel _ _ hI)
    | timeout => simp [gaLoop, hs]
    | ok t =>
      obtain ⟨⟨b, hb⟩, hI'⟩ := hnext _ _ _ hI hs
      simp only [gaLoop, hs, hb, Out.ok_bind]
      split
      · simp
      · split
        · simp
        · exact ih hI'

/-- C35 (partial) over whole runs: with the eight methods that cache the old best fitness, no run ever
has undefined behaviour, whatever the draws, options and user functions. -/
theorem soga_run_no_ub_partial (he : ∀ g, ValidEnv (e g)) (hK : 0 < K)
    (hm : m ≠ .Truncation ∧ m ≠ .EliteReserved ∧ m ≠ .RunTimeSelectMethod)
    (hT : m = .Tournament → ∀ g, (e g).tournamentSize < K)
    (s : SOState (Gene V α)) (h : Ready f s) (maxGen maxFail fuel : Nat) :
    gaRun (sogaSolver o f m K e v) maxGen maxFail fuel s ≠ .ub := by
  refine gaLoop_no_ub _ (Ready f) ?_ ?_ (s := (sogaSolver o f m K e v).resetFailTimes s)
    ⟨h.distinct, h.best, h.cache⟩
  · intro g s hs
    obtain ⟨h1, -⟩ := ready_compute o f m K e v hs
    exact selection_no_use_after_erase_partial o Gene.fitness m (e (g + 1)) (he _) K hK _ h1.distinct
      h1.best hm (fun hmt => hT hmt _)
  · intro g s t hs ht
    obtain ⟨h1, h2, -⟩ := ready_compute o f m K e v hs
    obtain ⟨r1, r2⟩ := ready_select o f m K e v he h1 h2 ht
    refine ⟨?_, ?_⟩
    · obtain ⟨c, hc, hcb⟩ := List.mem_map.1 r1.best
      have := deref_of_mem r1.distinct hc
      rw [hcb] at this
      exact ⟨_, by show (deref t.pop t.best >>= _) = _; rw [this]; rfl⟩
    · obtain ⟨⟨k, hk⟩, hb, hf⟩ := vary_pop o f m K e v (g + 1) t
      refine ⟨hk.distinct r1.distinct, ?_, cacheCorrect_appends hk r1.cache⟩
      obtain ⟨⟨new, hnew, -⟩, -⟩ := hk
      rw [hb, hnew, List.map_append, List.mem_append]
      exact Or.inl r1.best

/-- `initializePop` gives a legitimate starting point. -/
theorem sogaInit_ready (hK : 0 < K) (init : Nat → V) (junk : α) : Ready f (sogaInit K init junk) := by
  refine ⟨?_, ?_, ?_⟩
  · show ((initializePop K init junk).map (·.1)).Nodup
    have : (initializePop K init junk).map (·.1) = List.range K := by
      simp [initializePop, List.map_map, Function.comp_def]
    rw [this]; exact List.nodup_range
  · show 0 ∈ (initializePop K init junk).map (·.1)
    have : (initializePop K init junk).map (·.1) = List.range K := by
      simp [initializePop, List.map_map, Function.comp_def]
    rw [this]; simpa using hK
  · exact cache_never_stale f _ (.init K init junk)

end

/-! ## Non-vacuity: real runs -/

/-- crossover swaps, mutation subtracts one; everybody is crossed and the first individual mutated -/
def demoVary : VaryEnv ℚ ℚ where
  cx _ a b := (b, a)
  cxSel _ := true
  cxShuffle := id
  mu _ x := x - 1
  muSel a := a == 0
  junk := 12345

/-- A run of three generations with EliteReserved returns; its record does not get worse. -/
example : (gaRun (sogaSolver .lessBetter (fun x : ℚ => x ^ 2) .EliteReserved 3
      (fun _ => { demoEnv (Gene ℚ ℚ) with ds := fun _ => { u := 0, hit := fun _ => true } })
      (fun _ => { demoVary with cxSel := fun _ => false })) 3 0 4
      (sogaInit 3 (fun i => (4 : ℚ) + i) 0)).satisfies
    (fun r => r.generation == 3 && r.record.length == 4 && r.record.all fun b => decide (b ≤ 16)) = true := by
  decide +kernel

/-- A run with RouletteWheel that stops because of failures. -/
example : (gaRun (sogaSolver .lessBetter (fun x : ℚ => x ^ 2) .RouletteWheel 3
      (fun _ => demoEnv (Gene ℚ ℚ)) (fun _ => { demoVary with muSel := fun _ => false })) 50 2 51
      (sogaInit 3 (fun i => (4 : ℚ) + i) 0)).satisfies
    (fun r => r.generation == 2 && r.state.fail == 3) = true := by
  decide +kernel

/-- C35, negation in a real run: Truncation with `populationSize = 1` and a mutation that improves reads
the erased old best in the second generation. -/
theorem truncation_run_use_after_erase :
    (match gaRun (sogaSolver .lessBetter (fun x : ℚ => x ^ 2) .Truncation 1
        (fun _ => demoEnv (Gene ℚ ℚ)) (fun _ => demoVary)) 3 0 4 (sogaInit 1 (fun _ => (4 : ℚ)) 0) with
     | .ub => true | _ => false) = true := by decide +kernel

end Heu
