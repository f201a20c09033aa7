import Verif.Lemmas.SOGACallsFl

/-!
# C149: runs of the single-objective solver on `double`s, whatever the user's functions do
-/

set_option linter.unusedSectionVars false
set_option linter.unusedVariables false
set_option linter.unusedSimpArgs false

namespace Heu
open Spec

section
variable {κ V ω : Type} [DecidableEq V] {F : Fmt}

/-- not NaN -/
def IsValue (x : Dbl F) : Prop := x.val ≠ .nan

theorem sogaHostFl_fair (opt : FitnessOption) (m : SelectMethod) (K : Nat)
    (env : ω → SelectEnv (Gene V (Dbl F)) (Dbl F)) (he : ∀ w, ValidEnvFl F (env w)) (pow : Dbl F → Nat → Dbl F)
    (R : Rest κ V (Dbl F) ω) (hR : FairRest R) : FairHost (guarded IsValue (sogaHostFl F opt m K env pow R)) := by
  refine ⟨hR.shuffle, hR.order, ?_⟩
  intro pop t w r hd hr
  obtain ⟨hp, hr⟩ := guarded_select hr
  simp only [sogaHostFl] at hr
  obtain ⟨s, hs, h2⟩ := Out.bind_eq_ok.1 hr
  have h3 := Out.ok.inj h2
  subst h3
  have := selection_fl_spec F opt Gene.fitness m (env w) (he w) pow K { pop := pop, best := t.1, fail := t.2 } s hd
    hp hs
  exact ⟨this.distinct, this.noInvention⟩

theorem elitist_stepFl (o : FitnessOption) {γ : Type} [DecidableEq γ] (fit : γ → Dbl F) (m : SelectMethod)
    (hm : m = .Truncation ∨ m = .EliteReserved) (e : SelectEnv γ (Dbl F)) (he : ValidEnvFl F e) (hel : 1 ≤ e.eliteNum)
    (pow : Dbl F → Nat → Dbl F) (K : Nat) (s s' : SOState γ) (hd : DistinctNodes s.pop)
    (hn : ∀ c ∈ s.pop, (fit c.2).val ≠ .nan) (h : runSelectFl o fit m e pow K s = .ok s') :
    ∃ g, deref s'.pop s'.best = .ok g ∧ ∀ c ∈ s.pop, ¬ Better o (fitExt fit c.2) (fitExt fit g) := by
  have hsp := selection_fl_spec F o fit m e he pow K s s' hd hn h
  rcases hm with rfl | rfl
  · simp only [runSelectFl, truncation_fl o fit hn] at h
    obtain ⟨-, -, -, ⟨c, hcb, hc, hu⟩, -⟩ := truncation_spec o (fitExt fit) _ hd h
    exact ⟨c.2, by rw [← hcb]; exact deref_of_mem hsp.distinct hc, hu.2⟩
  · obtain ⟨c, hcb, hc, -⟩ := hsp.best
    exact ⟨c.2, by rw [← hcb]; exact deref_of_mem hsp.distinct hc, (eliteFl_best o fit hd hn hel h c hcb hc).2⟩

variable [LE κ] [DecidableLE κ]

/-- What the loop leaves: the reported best against the survivors and, for elitist methods, against all values. -/
theorem soga_fl_loop (opt : FitnessOption) (m : SelectMethod) (K : Nat)
    (env : ω → SelectEnv (Gene V (Dbl F)) (Dbl F)) (he : ∀ w, ValidEnvFl F (env w)) (pow : Dbl F → Nat → Dbl F)
    (R : Rest κ V (Dbl F) ω) (hR : FairRest R) (u : UserFns V (Dbl F) ω) (o : GALimits κ) :
    ∀ (fuel gen : Nat) (pop : Pop (Gene V (Dbl F))) (t : Addr × Nat) (w : ω) (l : List (UserCall V (Dbl F)))
      (record : List (Dbl F)) (r : CallsResult V (Dbl F) (ω × List (UserCall V (Dbl F))) (Addr × Nat) (Dbl F)),
      DistinctNodes pop →
      callsLoop (logged u) (unaware (guarded IsValue (sogaHostFl F opt m K env pow R))) o fuel gen pop t (w, l) record =
        .ok r →
      ∃ es g, r.world.2 = l ++ es ∧ deref r.pop r.rest.1 = .ok g ∧ r.record.getLast? = some g.fitness ∧
        (∀ c ∈ r.pop, ¬ Better opt (extended F c.2.fitness.val) (extended F g.fitness.val)) ∧
        (m = .Truncation ∨ m = .EliteReserved → (∀ w, 1 ≤ (env w).eliteNum) →
          ∀ p ∈ valuedPop pop ++ values es, ¬ Better opt (extended F p.2.val) (extended F g.fitness.val))
  | 0, gen, pop, t, w, l, record, r, hd, hr => by cases hr
  | fuel + 1, gen, pop, t, w, l, record, r, hd, hr => by
    obtain ⟨pop1, w1, fs, pop2, t2, w2, b, e1, e2, e3, hs, hb, hd2, hor, hcase⟩ :=
      callsLoop_inv u _ (sogaHostFl_fair opt m K env he pow R hR) o fuel gen pop t w l record r hd hr
    obtain ⟨hval1, hs⟩ := guarded_select hs
    simp only [sogaHostFl] at hs
    obtain ⟨s, hs1, hs2⟩ := Out.bind_eq_ok.1 hs
    have hs3 := Out.ok.inj hs2
    simp only [Prod.mk.injEq] at hs3
    obtain ⟨⟨rfl, rfl⟩, rfl⟩ := hs3
    have hsp := selection_fl_spec F opt Gene.fitness m (env w1) (he w1) pow K
      { pop := pop1, best := t.1, fail := t.2 } s e2.distinct hval1 hs1
    obtain ⟨cb, hcb, hcm, hcu⟩ := hsp.best
    have hg : deref s.pop s.best = .ok cb.2 := by rw [← hcb]; exact deref_of_mem hsp.distinct hcm
    have hbg : b = cb.2.fitness := by
      simp only [guarded, sogaHostFl] at hb
      rw [hg] at hb
      exact (Out.ok.inj hb).symm
    have hall : m = .Truncation ∨ m = .EliteReserved → (∀ w, 1 ≤ (env w).eliteNum) →
        ∀ p ∈ valuedPop pop ++ values fs,
          ¬ Better opt (extended F p.2.val) (extended F cb.2.fitness.val) := by
      intro hm hel p hp
      obtain ⟨g', hg', hu⟩ := elitist_stepFl opt Gene.fitness m hm (env w1) (he w1) (hel w1) pow K _ s e2.distinct hval1
        hs1
      rw [hg] at hg'
      obtain rfl := Out.ok.inj hg'
      rcases List.mem_append.1 hp with h1 | h1
      · obtain ⟨c, hc, hcc, rfl⟩ := mem_valuedPop.1 h1
        exact hu c (e2.keep c hc hcc)
      · obtain ⟨c, hc, -, h2⟩ := e2.stored p h1
        rw [← h2]; exact hu c hc
    rcases hcase with rfl | ⟨pop3, cs, pop4, w4, ms, g2, g3, g4, g5, m2, m3, m4, m5, hrec⟩
    · exact ⟨fs, cb.2, rfl, hg, by simp [hbg], hcu, hall⟩
    · have hcomp : ∀ c ∈ s.pop, c.2.computed = true := fun c hc => by
        obtain ⟨d, hdm, hde⟩ := hor c hc
        rw [← hde]; exact e2.done d hdm
      obtain ⟨es, g', r1, r2, r3, r4, r5⟩ := soga_fl_loop opt m K env he pow R hR u o fuel
        (gen + 1) pop4 (s.best, s.fail) w4 (l ++ fs ++ cs ++ ms) (record ++ [b]) r (m2.distinct (g2.distinct hd2)) hrec
      obtain ⟨-, n2⟩ := grown_unvalued (g2.trans m2) hcomp
      refine ⟨fs ++ cs ++ ms ++ es, g', by rw [r1]; simp [List.append_assoc], r2, r3, r4, ?_⟩
      intro hm hel
      have hgg : ¬ Better opt (extended F cb.2.fitness.val) (extended F g'.fitness.val) := by
        refine r5 hm hel (cb.2.var, cb.2.fitness) (List.mem_append_left _ ?_)
        rw [n2]
        exact List.mem_map.2 ⟨_, hcm, rfl⟩
      have hval : values (fs ++ cs ++ ms ++ es) = values fs ++ values es := by
        simp only [values_append, cross_values g3, mut_values m3, List.append_nil]
      rw [hval]
      intro p hp
      rw [← List.append_assoc] at hp
      rcases List.mem_append.1 hp with h1 | h1
      · exact not_better_trans (hall hm hel p h1) hgg
      · exact r5 hm hel p (List.mem_append_right _ h1)

variable (opt : FitnessOption) (m : SelectMethod) (K : Nat) (env : ω → SelectEnv (Gene V (Dbl F)) (Dbl F))
  (he : ∀ w, ValidEnvFl F (env w)) (pow : Dbl F → Nat → Dbl F) (R : Rest κ V (Dbl F) ω) (hR : FairRest R)
  (u : UserFns V (Dbl F) ω) (hu : ∀ v y w, (u.fit v y w).1.val ≠ .nan) (lim : GALimits κ)
  (pop : Pop (Gene V (Dbl F))) (hd : DistinctNodes pop)
  (hpop : ∀ c ∈ pop, c.2.computed = true → c.2.fitness.val ≠ .nan)
  (t : Addr × Nat) (w : ω) (r : CallsResult V (Dbl F) (ω × List (UserCall V (Dbl F))) (Addr × Nat) (Dbl F))
  (hr : callsRun (logged u) (unaware (sogaHostFl F opt m K env pow R)) lim pop t (w, []) = .ok r)
include he hR hu hd hpop hr

/-- **C149**: any of the ten selection methods on IEEE fitness values, whatever the user's functions do, as long as the
fitness function never returns NaN.  If `run()` returns, its calls were those of the documented loop (one evaluation for
each new candidate, crossover and mutation only of valued candidates); every individual has the value that the one call
for it returned (or that it had before); `result()` and `bestFitness()` read a living individual, which has the last
entry of the record as its fitness and is not beaten by any individual of the final population. -/
theorem soga_ieee_calls_run :
    ∃ ks g, ks.length = r.generation ∧
      RunLog List.Perm (valuedPop pop) (unvaluedPop pop) ks r.world.2 ∧
      (∀ c ∈ r.pop, c.2.computed = true ∧ (c.2.var, c.2.fitness) ∈ valuedPop pop ++ values r.world.2) ∧
      (r.rest.1, g) ∈ r.pop ∧ r.record.getLast? = some g.fitness ∧
      ∀ c ∈ r.pop, ¬ Better opt (extended F c.2.fitness.val) (extended F g.fitness.val) := by
  have hf := sogaHostFl_fair opt m K env he pow R hR
  have hr' : callsRun (logged u) (unaware (guarded IsValue (sogaHostFl F opt m K env pow R))) lim pop t (w, []) =
      .ok r := by
    unfold callsRun at hr ⊢
    rw [← hr]
    exact callsLoop_guard u IsValue hu _ hf lim _ _ pop _ w [] [] hd hpop
  obtain ⟨es, ks, a1, a2, a3, a4⟩ := ga_run_calls u _ hf lim pop hd t w [] r hr'
  obtain ⟨es', g, b1, b2, b3, b4, -⟩ := soga_fl_loop opt m K env he pow R hR u lim _ _ _ _ _ _ _ r hd hr'
  rw [List.nil_append] at a1
  subst a1
  exact ⟨ks, g, a2, a3, a4, deref_ok b2, b3, b4⟩

/-- **C149**: with Truncation, or EliteReserved with at least one elite, no value that the fitness function ever returned
during the run (and none the population had before) is better than the reported one. -/
theorem soga_ieee_best_of_all_calls (hm : m = .Truncation ∨ m = .EliteReserved) (hel : ∀ w, 1 ≤ (env w).eliteNum) :
    ∃ g, (r.rest.1, g) ∈ r.pop ∧ r.record.getLast? = some g.fitness ∧
      (g.var, g.fitness) ∈ valuedPop pop ++ values r.world.2 ∧
      ∀ p ∈ valuedPop pop ++ values r.world.2, ¬ Better opt (extended F p.2.val) (extended F g.fitness.val) := by
  have hf := sogaHostFl_fair opt m K env he pow R hR
  have hr' : callsRun (logged u) (unaware (guarded IsValue (sogaHostFl F opt m K env pow R))) lim pop t (w, []) =
      .ok r := by
    unfold callsRun at hr ⊢
    rw [← hr]
    exact callsLoop_guard u IsValue hu _ hf lim _ _ pop _ w [] [] hd hpop
  obtain ⟨es, ks, a1, a2, a3, a4⟩ := ga_run_calls u _ hf lim pop hd t w [] r hr'
  obtain ⟨es', g, b1, b2, b3, b4, b5⟩ := soga_fl_loop opt m K env he pow R hR u lim _ _ _ _ _ _ _ r hd hr'
  rw [List.nil_append] at a1 b1
  subst a1
  rw [← b1] at b5
  exact ⟨g, deref_ok b2, b3, (a4 _ (deref_ok b2)).2, b5 hm hel⟩

/-- **C149**: the number of evaluations: all candidates without a value at the start, and at most `3 K` per generation
(all methods but StochasticUniversal, and EliteReserved with more elites than places). -/
theorem soga_ieee_evaluations_bound (hm : m ≠ .StochasticUniversal)
    (hel : m = .EliteReserved → ∀ w, (env w).eliteNum ≤ K) :
    r.world.2.countP UserCall.isFit =
      (unvaluedPop pop).length + 2 * r.world.2.countP UserCall.isCross + r.world.2.countP UserCall.isMut ∧
    r.world.2.countP UserCall.isFit ≤ (unvaluedPop pop).length + 3 * (K * r.generation) := by
  have hf := sogaHostFl_fair opt m K env he pow R hR
  have hr' : callsRun (logged u) (unaware (guarded IsValue (sogaHostFl F opt m K env pow R))) lim pop t (w, []) =
      .ok r := by
    unfold callsRun at hr ⊢
    rw [← hr]
    exact callsLoop_guard u IsValue hu _ hf lim _ _ pop _ w [] [] hd hpop
  obtain ⟨es, a1, a2, a3⟩ := ga_run_counts u _ hf lim pop hd t w [] r hr'
  obtain ⟨es', b1, -, -, b2⟩ := ga_run_bound u _ hf lim K (by
    intro pop t w r hd hr
    obtain ⟨hp, hr⟩ := guarded_select hr
    simp only [sogaHostFl] at hr
    obtain ⟨s, hs, h2⟩ := Out.bind_eq_ok.1 hr
    have h3 := Out.ok.inj h2
    subst h3
    have := selection_fl_size_partial F opt Gene.fitness m (env w) (he w) pow K
      { pop := pop, best := t.1, fail := t.2 } s hd hp hm (fun h => hel h w) hs
    show s.pop.length ≤ K
    rw [this]
    exact Nat.min_le_left _ _) pop hd t w [] r hr'
  rw [List.nil_append] at a1 b1
  subst a1
  rw [b1] at a2 ⊢
  exact ⟨a2, b2⟩

end

/-! ## Runs that return -/

section
variable {κ V ω : Type} [DecidableEq V] [LE κ] [DecidableLE κ]

/-- What the settings have to be for `selection_fl_finishes_partial`, apart from the values. -/
structure MildSettings (m : SelectMethod) (K : Nat) (e : SelectEnv (Gene V (Dbl binary64)) (Dbl binary64)) : Prop where
  fuel : K ≤ e.fuel
  tournament : m = .Tournament → e.tournamentSize < K
  probability : m = .Probability → AtMost binary64 400 e.big
  linearRank : m = .LinearRank → AtMost binary64 0 e.worst ∧ AtMost binary64 0 e.best
  exponentialRank : m = .ExponentialRank → Uniform01 binary64 e.base

theorem grown_length {pop pop' : Pop (Gene V (Dbl binary64))} {es : List (UserCall V (Dbl binary64))}
    (h : PopGrown pop pop' es) : pop'.length = pop.length + (made es).length := by
  obtain ⟨⟨new, rfl, -, hv⟩, -⟩ := h
  rw [← hv, List.length_append, List.length_map]

/-- **C149**: with Tournament (`tournamentSize < populationSize`), MonteCarlo, Probability, LinearRank, ExponentialRank
or Boltzmann, populations of less than `2^29` and values of magnitude at most `2^970` (Boltzmann: whose exponentials are
that small too), `run()` in binary64 arithmetic returns, in at most `maxGenerations` generations, with exactly
`populationSize` individuals if there were as many – whatever the user's functions do.  (`pow` maps `[0,1]` into `[0,1]`
and does not exceed its base there.) -/
theorem soga_ieee_run_returns (opt : FitnessOption) (m : SelectMethod)
    (hm : m = .Tournament ∨ m = .MonteCarlo ∨ m = .Probability ∨ m = .LinearRank ∨ m = .ExponentialRank ∨
      m = .Boltzmann)
    (K : Nat) (hK : 0 < K) (hK29 : K < 2 ^ 29)
    (env : ω → SelectEnv (Gene V (Dbl binary64)) (Dbl binary64)) (he : ∀ w, ValidEnvFl binary64 (env w))
    (hs : ∀ w, MildSettings m K (env w)) (pow : Dbl binary64 → Nat → Dbl binary64)
    (hpow : ∀ (x : Dbl binary64) k, 0 ≤ x → x ≤ Dbl.nat binary64 1 →
      0 ≤ pow x k ∧ pow x k ≤ Dbl.nat binary64 1 ∧ (0 < k → pow x k ≤ x))
    (R : Rest κ V (Dbl binary64) ω) (hR : FairRest R) (u : UserFns V (Dbl binary64) ω) (lim : GALimits κ)
    (Q : Dbl binary64 → Prop) (hQ : ∀ y, Q y → AtMost binary64 970 y)
    (hB : m = .Boltzmann → ∀ w y, Q y → AtMost binary64 970 ((env w).exp ((env w).strength * y)))
    (hu : ∀ v y w, Q (u.fit v y w).1)
    (pop : Pop (Gene V (Dbl binary64))) (hd : DistinctNodes pop) (hlen : pop.length < 2 ^ 31) (hlK : K ≤ pop.length)
    (hpop : ∀ c ∈ pop, c.2.computed = true → Q c.2.fitness) (t : Addr × Nat) (ht : t.1 ∈ pop.map (·.1)) (w : ω) :
    ∃ r, callsRun (logged u) (unaware (sogaHostFl binary64 opt m K env pow R)) lim pop t (w, []) = .ok r ∧
      r.generation ≤ lim.maxGen ∧ r.record.length = r.generation + 1 ∧ r.pop.length = K := by
  have key : ∀ (fuel gen : Nat) (pop : Pop (Gene V (Dbl binary64))) (t : Addr × Nat) (w : ω)
      (l : List (UserCall V (Dbl binary64))) (record : List (Dbl binary64)), lim.maxGen + 1 = gen + fuel → 0 < fuel →
      record.length = gen → DistinctNodes pop → pop.length < 2 ^ 31 → K ≤ pop.length →
      (∀ c ∈ pop, c.2.computed = true → Q c.2.fitness) → t.1 ∈ pop.map (·.1) →
      ∃ r, callsLoop (logged u) (unaware (sogaHostFl binary64 opt m K env pow R)) lim fuel gen pop t (w, l) record =
        .ok r ∧ r.generation ≤ lim.maxGen ∧ r.record.length = r.generation + 1 ∧ r.pop.length = K := by
    intro fuel
    induction fuel with
    | zero => intro gen pop t w l record _ h0; omega
    | succ fuel ih =>
      intro gen pop t w l record hgen _ hrec hd hlen hlK hpop ht
      obtain ⟨pop1, w1, fs, e1, e2, e3⟩ := evaluateCalls_spec u (sogaHostFl binary64 opt m K env pow R) hR.order pop w l hd
      have hQ1 : ∀ c ∈ pop1, Q c.2.fitness := fun c hc =>
        evalCalls_values (logged u) Q (fun v y s => hu v y s.1) _ _ _ _ hpop e1 c hc (e2.done c hc)
      have hfit1 : ∀ c ∈ pop1, AtMost binary64 970 c.2.fitness := fun c hc => hQ _ (hQ1 c hc)
      have hval1 : ∀ c ∈ pop1, c.2.fitness.val ≠ .nan := fun c hc => by
        obtain ⟨⟨s, n, h, -⟩, -⟩ := hfit1 c hc
        rw [h]; simp
      have hb1 : t.1 ∈ pop1.map (·.1) := by
        have hev := evaluated_addrs e1
        rw [hev]; exact ht
      obtain ⟨s, hsel⟩ := selection_fl_finishes_partial opt Gene.fitness m (env w1) (he w1) pow K hK
        { pop := pop1, best := t.1, fail := t.2 } e2.distinct hb1 (by show pop1.length < _; rw [e2.length]; exact hlen)
        (hs w1).fuel hfit1 (by rcases hm with rfl | rfl | rfl | rfl | rfl | rfl <;> simp) (hs w1).tournament
        (by rcases hm with rfl | rfl | rfl | rfl | rfl | rfl <;> simp) (hs w1).probability (hs w1).linearRank
        (hs w1).exponentialRank hpow (fun h c hc => hB h w1 _ (hQ1 c hc))
      have hsp := selection_fl_spec binary64 opt Gene.fitness m (env w1) (he w1) pow K _ s e2.distinct hval1 hsel
      have hsize : s.pop.length = K := by
        have := selection_fl_size_partial binary64 opt Gene.fitness m (env w1) (he w1) pow K _ s e2.distinct hval1
          (by rcases hm with rfl | rfl | rfl | rfl | rfl | rfl <;> simp)
          (by rcases hm with rfl | rfl | rfl | rfl | rfl | rfl <;> simp) hsel
        rw [this]
        show min K pop1.length = K
        rw [e2.length]; omega
      obtain ⟨cb, hcb, hcm, -⟩ := hsp.best
      have hg : deref s.pop s.best = .ok cb.2 := by rw [← hcb]; exact deref_of_mem hsp.distinct hcm
      rw [callsLoop, e1]
      simp only [Out.ok_bind]
      have hsel' : (unaware (sogaHostFl binary64 opt m K env pow R)).select pop1 t (w1, l ++ fs) =
          .ok ((s.pop, (s.best, s.fail)), (R.next w1, l ++ fs)) := by
        simp only [unaware, sogaHostFl]
        rw [hsel]
        rfl
      have hbest : (unaware (sogaHostFl binary64 opt m K env pow R)).bestFitness s.pop (s.best, s.fail) =
          .ok cb.2.fitness := by
        simp only [unaware, sogaHostFl]
        rw [hg]
        rfl
      rw [hsel']
      simp only [Out.ok_bind]
      rw [hbest]
      simp only [Out.ok_bind]
      split
      · exact ⟨_, rfl, by simp only; omega, by simp [hrec], hsize⟩
      · split
        · exact ⟨_, rfl, by simp only; omega, by simp [hrec], hsize⟩
        · obtain ⟨pop3, w3, cs, g1, g2, g3, g4, -⟩ := crossoverCalls_spec u (sogaHostFl binary64 opt m K env pow R)
            hR.shuffle lim.cxProb s.pop (R.next w1) (l ++ fs)
          obtain ⟨pop4, w4, ms, m1, m2, m3, m4, -⟩ := mutateCalls_spec u (sogaHostFl binary64 opt m K env pow R)
            lim.muProb pop3 w3 (l ++ fs ++ cs)
          rw [g1]
          simp only
          rw [m1]
          have l3 := grown_length g2
          have l4 := grown_length m2
          rw [(cross_only g3).2.2.2.2] at l3
          rw [(mut_only m3).2.2.2.2] at l4
          refine ih (gen + 1) pop4 (s.best, s.fail) w4 _ _ (by omega) (by omega) (by simp [hrec])
            (m2.distinct (g2.distinct hsp.distinct)) (by omega) (by omega) ?_ ?_
          · intro c hc hcc
            obtain ⟨⟨n3, rfl, hn3, -⟩, -⟩ := g2
            obtain ⟨⟨n4, rfl, hn4, -⟩, -⟩ := m2
            rcases List.mem_append.1 hc with h1 | h1
            · rcases List.mem_append.1 h1 with h1 | h1
              · obtain ⟨d, hdm, hde⟩ := hsp.noInvention c h1
                rw [← hde]; exact hQ1 d hdm
              · rw [hn3 c h1] at hcc; cases hcc
            · rw [hn4 c h1] at hcc; cases hcc
          · obtain ⟨⟨n3, rfl, -, -⟩, -⟩ := g2
            obtain ⟨⟨n4, rfl, -, -⟩, -⟩ := m2
            rw [List.map_append, List.map_append]
            exact List.mem_append_left _ (List.mem_append_left _ (List.mem_map.2 ⟨cb, hcm, hcb⟩))
  exact key (lim.maxGen + 1) 0 pop (t.1, 0) w [] [] (by omega) (by omega) rfl hd hlen hlK hpop ht

end

/-! ## Examples -/

/-- A noisy fitness function on doubles: the `n`-th call adds `n % 3`; one candidate in five gets the penalty `+inf`. -/
def noisyFnsFl : UserFns Nat (Dbl binary64) Nat where
  ini _ w := (4 + w, w + 1)
  fit v _ w := (if v % 5 = 4 then ⟨.inf false⟩ else Dbl.nat binary64 ((v % 7) + w % 3), w + 1)
  cross p q w := ((p + q, p + 3), w + 1)
  muta v w := (v + 1, w + 1)

/-- The rest: the draws are 0, 1, 2, 0, …. -/
def noisyRestFl : Rest Nat Nat (Dbl binary64) Nat where
  next w := w + 1
  rnd w := (w % 3, w + 1)
  shuffle l w := (l, w)
  order := id
  junk := 0

/-- The assumptions hold: valid draws, a fair rest, no NaN. -/
example : (∀ w : Nat, ValidEnvFl binary64 ((fun _ => demoEnvFl (Gene Nat (Dbl binary64))) w)) ∧ FairRest noisyRestFl ∧
    (∀ v y w, (noisyFnsFl.fit v y w).1.val ≠ .nan) ∧ (∀ w : Nat, 1 ≤ (demoEnvFl (Gene Nat (Dbl binary64))).eliteNum) := by
  refine ⟨fun _ => demoEnvFl_valid _, ⟨fun _ _ => .refl _, fun _ => .refl _⟩, ?_, fun _ => le_refl _⟩
  intro v y w
  simp only [noisyFnsFl]
  split
  · simp
  · rw [nat_val]; simp [Fl.units]

/-- … and a whole run with three of the methods: initialisation, evaluations and two generations. -/
example : [SelectMethod.Truncation, .MonteCarlo, .Tournament].all (fun m =>
    (callsRun (logged noisyFnsFl)
      (unaware (sogaHostFl binary64 .lessBetter m 4 (fun _ => demoEnvFl _) demoPow noisyRestFl)) ⟨2, 0, 1, 0⟩
      (initializeCalls (logged noisyFnsFl) 4 ⟨0, 0, false⟩ [] (0, [])).1 (1, 0)
      (initializeCalls (logged noisyFnsFl) 4 ⟨0, 0, false⟩ [] (0, [])).2).satisfies
    (fun r => r.generation == 2 && r.record.length == 3 && r.pop.length == 4 &&
      r.world.2.countP UserCall.isCross != 0 && r.world.2.countP UserCall.isMut != 0)) = true := by
  decide +kernel

/-- The hypotheses of `soga_ieee_run_returns` hold in a concrete case: Probability, four individuals, noisy values. -/
example (G : Nat) : ∃ r, callsRun (logged { noisyFnsFl with
      fit := fun v _ w => (Dbl.nat binary64 ((v % 7) + w % 3), w + 1) })
      (unaware (sogaHostFl binary64 .lessBetter .Probability 4 (fun _ => demoEnvFl _) demoPow noisyRestFl)) ⟨G, 0, 1, 0⟩
      [(0, ⟨4, 0, false⟩), (1, ⟨7, 0, false⟩), (2, ⟨5, 0, false⟩), (3, ⟨9, 0, false⟩)] (0, 0) (0, []) = .ok r ∧
      r.generation ≤ G ∧ r.record.length = r.generation + 1 ∧ r.pop.length = 4 := by
  refine soga_ieee_run_returns .lessBetter .Probability (by simp) 4 (by decide) (by decide) _
    (fun _ => demoEnvFl_valid _) ?_ demoPow ?_ noisyRestFl ⟨fun _ _ => .refl _, fun _ => .refl _⟩ _ ⟨G, 0, 1, 0⟩
    (fun y => ∃ k, k < 16 ∧ y = Dbl.nat binary64 k) ?_ (by simp) ?_ _ (by unfold DistinctNodes; decide) (by decide)
    (by decide) ?_ (0, 0) (by decide) 0
  · intro _
    refine ⟨by simp [demoEnvFl], by simp, fun _ => ?_, by simp, by simp⟩
    obtain ⟨h1, h2⟩ := atMost_nat (k := 2 ^ 40) (e := 40) (by decide) (by decide) (by decide)
    exact ⟨h1, h2.trans (pow_le_pow_right₀ (by norm_num) (by decide))⟩
  · intro x k h0 h1
    unfold demoPow
    split
    · refine ⟨by decide +kernel, by decide +kernel, fun h => by omega⟩
    · have : x.val ≠ .nan := by
        rintro h
        rw [Dbl.le_def, h] at h1
        simp [Fl.le] at h1
      exact ⟨h0, h1, fun _ => fl_le_refl this⟩
  · rintro y ⟨k, hk, rfl⟩
    obtain ⟨h1, h2⟩ := atMost_nat (k := k) (e := 4) (by omega) (by omega) (by decide)
    exact ⟨h1, h2.trans (pow_le_pow_right₀ (by norm_num) (by decide))⟩
  · intro v y w
    exact ⟨_, by omega, rfl⟩
  · intro c hc hcc
    simp only [List.mem_cons, List.not_mem_nil, or_false] at hc
    rcases hc with rfl | rfl | rfl | rfl <;> cases hcc

end Heu
