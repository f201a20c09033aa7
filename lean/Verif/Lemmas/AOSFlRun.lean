import Verif.Lemmas.AOSFl

/-! # Atomic orbital search on IEEE doubles: histories and runs -/

set_option linter.unusedSectionVars false
set_option linter.unusedSimpArgs false
set_option linter.unusedVariables false
set_option linter.unnecessarySimpa false

namespace Heu
open Spec

variable {F : Fmt}

section
variable (impl : AOSImpl) (opt : FitnessOption) (o : AOSOption) (b : Box (Dbl F)) (f : List (Dbl F) → Dbl F)
  (env : Nat → AOSEnvFl F)

/-- What the beginning of a run relies on. -/
structure AOSReadyFl (s : AOSState (Dbl F)) : Prop where
  distinct : DistinctNodes s.electrons
  cache : CacheCorrect f s.electrons

/-- The state after an evaluation. -/
structure AfterEvalFl (t : AOSState (Dbl F)) : Prop extends Evaluated f t where
  alive : ∃ g, (t.best, g) ∈ t.electrons
  best : NumericEnergies t.electrons → ∃ c, c.1 = t.best ∧ Unbeaten opt energyValue t.electrons c

variable {impl opt o b f env}

theorem afterEvalFl_of_evaluate {s t : AOSState (Dbl F)} (hs : AOSReadyFl f s) (h : aosEvaluate opt f s = .ok t) :
    AfterEvalFl opt f t := by
  obtain ⟨-, -, h1, -, h2, -, h3⟩ := aosEvaluate_fl h hs.distinct hs.cache
  exact ⟨h1, h2, fun hn => (h3 hn).1⟩

theorem AfterEvalFl.deref {t : AOSState (Dbl F)} (h : AfterEvalFl opt f t) :
    ∃ g, Heu.deref t.electrons t.best = .ok g ∧ (t.best, g) ∈ t.electrons ∧
      (NumericEnergies t.electrons → ∀ c ∈ t.electrons, ¬ Better opt (energyValue c.2) (energyValue g)) := by
  obtain ⟨g, hg⟩ := h.alive
  refine ⟨g, deref_of_mem h.distinct hg, hg, ?_⟩
  intro hn
  obtain ⟨c, hc, hu⟩ := h.best hn
  have e1 := deref_of_mem h.distinct hu.1
  rw [hc, deref_of_mem h.distinct hg] at e1
  cases e1
  exact hu.2

/-- One generation, from evaluation to evaluation. -/
theorem generation_fl {e : AOSEnvFl F} {t u v t' : AOSState (Dbl F)} (ht : AfterEvalFl opt f t)
    (h1 : selectAndMakeLayersFl opt o e.sort e.layerNum e.gauss e.total t = .ok u)
    (h2 : aosChildren impl opt b e.toAOSEnv u = .ok v) (h3 : aosEvaluate opt f v = .ok t') :
    AfterEvalFl opt f t' ∧ u.best = t.best ∧ AOSReadyFl f v ∧
    (∃ S, S.Perm t.electrons ∧ S.Pairwise (fun a b => electronCompare opt b a = false) ∧
      u.electrons = keptFl o S t) ∧
    (∃ new, v.electrons = u.electrons ++ new ∧
      t'.electrons = u.electrons ++ computeAllFitness f new ∧
      new.length = u.electrons.length ∧ ∀ c ∈ new, c.1 ≠ t.best) ∧
    (NumericEnergies t'.electrons →
      ∃ g g', Heu.deref t.electrons t.best = .ok g ∧ Heu.deref t'.electrons t'.best = .ok g' ∧
      t'.early = if energyValue g = energyValue g' then t.early + 1 else 0) := by
  obtain ⟨S, cs, ls, -, hp, hsrt, hu1, hu2, hu3, -, -, -, -, hmk⟩ := select_okFl h1
  obtain ⟨w, hw1, hw2, hw3, -, -, hw4, hw5⟩ := children_ok h2
  have hgrow := updateElectrons_ok (P := fun _ => True) (fun _ _ _ _ _ _ _ _ _ _ _ _ _ => trivial) hw5
  obtain ⟨new, hn1, hn2, hn3⟩ := hgrow.new
  have hdk : DistinctNodes (keptFl o S t) := distinct_filter ht.distinct _
  have hdv : DistinctNodes v.electrons := hgrow.distinct (by rw [hw1, hu1]; exact hdk)
  have hck : ∀ c ∈ u.electrons, c.2.computed = true ∧ c.2.fitness = f c.2.var := by
    intro c hc
    rw [hu1] at hc
    exact ht.computed c (keptFl_sub c hc)
  have hcv : CacheCorrect f v.electrons := by
    intro c hc hcomp
    rw [hn1] at hc
    rcases List.mem_append.1 hc with h | h
    · rw [hw1] at h; exact (hck c h).2
    · have := (hn3 c h).1; rw [this] at hcomp; cases hcomp
  have hready : AOSReadyFl f v := ⟨hdv, hcv⟩
  obtain ⟨e1, e2, e3, -, e4, -, e5⟩ := aosEvaluate_fl h3 hdv hcv
  have ht'e : t'.electrons = u.electrons ++ computeAllFitness f new := by
    rw [e1, hn1, computeAllFitness_append, hw1, computeAllFitness_id fun c hc => (hck c hc).1]
  have hnb : ∀ c ∈ new, c.1 ≠ t.best := by
    intro c hc
    have := (hn3 c hc).2.2
    rw [hw2, hu2] at this; exact this
  obtain ⟨g, hg1, hg2, -⟩ := ht.deref
  have hsum : (w.layers.map (·.members.length)).sum = u.electrons.length := by
    have := layers_members hw4
    have h2 := congrArg (List.map List.length) this
    rw [List.map_map, List.map_map] at h2
    have h4 := congrArg List.sum h2
    have h5 : (u.layers.map (List.length ∘ fun x => x.members)).sum = ((u.layers.map (·.members)).flatten).length := by
      rw [List.length_flatten, List.map_map]
    refine (h4.trans h5).trans ?_
    rw [(makeLayersFl_flatten hmk).1, List.length_map, hu1, (keptFl_perm ht.distinct hp).length_eq]
  refine ⟨⟨e3, e4, fun hn => (e5 hn).1⟩, hu2, hready, ⟨S, hp, hsrt, hu1⟩,
    ⟨new, by rw [hn1, hw1], ht'e, by rw [hn2, hsum], hnb⟩, ?_⟩
  intro hn
  obtain ⟨-, prev, bst, e6, e7, e8⟩ := e5 hn
  refine ⟨g, bst, hg1, e7, ?_⟩
  have hb : v.best = t.best := by rw [hgrow.best, hw2, hu2]
  have hmem := deref_ok e6
  rw [hb, ht'e] at hmem
  have : (t.best, prev) ∈ t.electrons := by
    rcases List.mem_append.1 hmem with h | h
    · rw [hu1] at h; exact keptFl_sub _ h
    · obtain ⟨d, hd, hde⟩ := List.mem_map.1 h
      have := hnb d hd
      rw [Prod.mk.injEq] at hde
      exact absurd hde.1 this
  have h4 := deref_of_mem ht.distinct this
  rw [hg1] at h4
  cases h4
  rw [e8, hgrow.early, hw3, hu3]

theorem aosEvalFl_after {s0 : AOSState (Dbl F)} (hs : AOSReadyFl f s0) :
    ∀ (i : Nat) (t : AOSState (Dbl F)), aosEvalFl impl opt o b f env s0 i = .ok t → AfterEvalFl opt f t := by
  intro i
  induction i with
  | zero => intro t h; exact afterEvalFl_of_evaluate hs h
  | succ i ih =>
    intro t h
    simp only [aosEvalFl, Out.bind_eq_ok] at h
    obtain ⟨t0, h0, u, h1, v, h2, h3⟩ := h
    exact (generation_fl (ih t0 h0) h1 h2 h3).1

theorem aosEvalFl_succ {s0 t' : AOSState (Dbl F)} {i : Nat}
    (h : aosEvalFl impl opt o b f env s0 (i + 1) = .ok t') :
    ∃ t u v, aosEvalFl impl opt o b f env s0 i = .ok t ∧
      selectAndMakeLayersFl opt o (env i).sort (env i).layerNum (env i).gauss (env i).total t = .ok u ∧
      aosChildren impl opt b (env i).toAOSEnv u = .ok v ∧ aosEvaluate opt f v = .ok t' := by
  simp only [aosEvalFl, Out.bind_eq_ok] at h
  obtain ⟨t0, h0, u, h1, v, h2, h3⟩ := h
  exact ⟨t0, u, v, h0, h1, h2, h3⟩

/-- At most twice `electronNum` electrons, from at most that many. -/
theorem aosEvalFl_length {s0 : AOSState (Dbl F)} (hs : AOSReadyFl f s0) (h0 : s0.electrons.length ≤ 2 * o.electronNum) :
    ∀ (i : Nat) (t : AOSState (Dbl F)), aosEvalFl impl opt o b f env s0 i = .ok t →
      t.electrons.length ≤ 2 * o.electronNum := by
  intro i
  cases i with
  | zero =>
    intro t h
    obtain ⟨h1, -⟩ := aosEvaluate_fl h hs.distinct hs.cache
    rw [h1]; simpa [computeAllFitness] using h0
  | succ i =>
    intro t h
    obtain ⟨t1, u, v, h1, h2, h3, h4⟩ := aosEvalFl_succ h
    have ha := aosEvalFl_after hs i t1 h1
    obtain ⟨-, -, -, ⟨S, hp, -, hu⟩, ⟨new, -, ht, hn, -⟩, -⟩ := generation_fl ha h2 h3 h4
    have := keptFl_length (o := o) ha.distinct hp
    rw [ht, List.length_append]
    simp only [computeAllFitness, List.length_map, hn, hu, this]
    omega

/-- Best energies do not get worse. -/
theorem aosEvalFl_mono {s0 : AOSState (Dbl F)} (hs : AOSReadyFl f s0) (h0 : 0 < o.electronNum) {i j : Nat}
    (hij : i ≤ j) (hn : ∀ k, k ≤ j → ∀ t, aosEvalFl impl opt o b f env s0 k = .ok t → NumericEnergies t.electrons)
    {t t' : AOSState (Dbl F)} (h : aosEvalFl impl opt o b f env s0 i = .ok t)
    (h' : aosEvalFl impl opt o b f env s0 j = .ok t') {e e' : Dbl F} (he : BestEnergyFl opt t.electrons e)
    (he' : BestEnergyFl opt t'.electrons e') : ¬ Better opt (extended F e.val) (extended F e'.val) := by
  induction j, hij using Nat.le_induction generalizing t' e' with
  | base =>
    rw [h] at h'; cases h'
    obtain ⟨c, hc, rfl⟩ := he.1
    exact he'.2 c hc
  | succ j hij ih =>
    obtain ⟨t1, u, v, h1, h2, h3, h4⟩ := aosEvalFl_succ h'
    have ha := aosEvalFl_after hs j t1 h1
    have hn1 := hn j (by omega) t1 h1
    obtain ⟨c, hc, hu⟩ := ha.best hn1
    have hb1 : BestEnergyFl opt t1.electrons c.2.fitness := ⟨⟨c, hu.1, rfl⟩, hu.2⟩
    have hm := ih (fun k hk => hn k (by omega)) h1 hb1
    obtain ⟨-, -, -, ⟨S, hp, hsrt, hue⟩, ⟨new, -, ht, -⟩, -⟩ := generation_fl ha h2 h3 h4
    obtain ⟨d, hd, hde⟩ := bestEnergy_survivesFl (opt := opt) (o := o) ha.distinct hp hsrt hn1 h0 hu
    refine not_better_trans hm ?_
    have := he'.2 d (by rw [ht, hue]; exact List.mem_append_left _ hd)
    rw [hde] at this
    exact this

/-! ### the loop -/

theorem aosLoopFl_spec {s0 : AOSState (Dbl F)} :
    ∀ (fuel gen : Nat) (s : AOSState (Dbl F)) (rec : List (Dbl F)) (r : RunResult (AOSState (Dbl F)) (Dbl F)),
    aosEvaluate opt f s = aosEvalFl impl opt o b f env s0 gen → gen ≤ o.maxGeneration →
    aosLoopFl impl opt o b f env fuel gen s rec = .ok r →
    gen ≤ r.generation ∧ r.generation ≤ o.maxGeneration ∧
    (∃ t, aosEvalFl impl opt o b f env s0 r.generation = .ok t ∧
      selectAndMakeLayersFl opt o (env r.generation).sort (env r.generation).layerNum
        (env r.generation).gauss (env r.generation).total t = .ok r.state) ∧
    (r.generation = o.maxGeneration ∨ o.maxEarlyStop ≤ r.state.early) ∧
    (∀ i, gen ≤ i → i < r.generation → ∃ t, aosEvalFl impl opt o b f env s0 i = .ok t ∧
      t.early < o.maxEarlyStop) ∧
    ∃ bs, r.record = rec ++ bs ∧ bs.length + gen = r.generation + 1 ∧
      ∀ (i : Nat) (e : Dbl F), bs[i]? = some e → ∃ t g, aosEvalFl impl opt o b f env s0 (gen + i) = .ok t ∧
        Heu.deref t.electrons t.best = .ok g ∧ g.fitness = e := by
  intro fuel
  induction fuel with
  | zero => intro gen s rec r _ _ h; cases h
  | succ fuel ih =>
    intro gen s rec r hs hg h
    simp only [aosLoopFl, Out.bind_eq_ok] at h
    obtain ⟨t, ht, g, hgd, u, hu, h⟩ := h
    obtain ⟨_, _, _, -, -, -, -, -, hsu, -⟩ := select_okFl hu
    rw [hs] at ht
    by_cases hstop : gen ≥ o.maxGeneration ∨ u.early ≥ o.maxEarlyStop
    · rw [if_pos hstop] at h
      cases h
      refine ⟨le_rfl, hg, ⟨t, ht, hu⟩, ?_, ?_, [g.fitness], rfl, by simp; omega, ?_⟩
      · rcases hstop with h | h
        · exact Or.inl (by dsimp only; omega)
        · exact Or.inr h
      · intro i h1 h2; dsimp only at h2; omega
      · intro i e he
        cases i with
        | zero =>
          simp at he; subst he
          exact ⟨t, g, ht, hgd, rfl⟩
        | succ i => simp at he
    · rw [if_neg hstop, Out.bind_eq_ok] at h
      obtain ⟨v, hv, h⟩ := h
      have hs' : aosEvaluate opt f v = aosEvalFl impl opt o b f env s0 (gen + 1) := by
        simp only [aosEvalFl, ht, Out.ok_bind, hu, hv]
      have hlt : gen + 1 ≤ o.maxGeneration := by omega
      obtain ⟨h1, h2, h3, h4, h5, bs, h6, h7, h8⟩ := ih (gen + 1) v _ r hs' hlt h
      refine ⟨by omega, h2, h3, h4, ?_, g.fitness :: bs, ?_, by simp; omega, ?_⟩
      · intro i hi1 hi2
        rcases Nat.eq_or_lt_of_le hi1 with rfl | hi1
        · refine ⟨t, ht, ?_⟩
          rw [← hsu]; omega
        · exact h5 i hi1 hi2
      · rw [h6, List.append_assoc]; rfl
      · intro i e he
        cases i with
        | zero =>
          simp at he; subst he
          exact ⟨t, g, ht, hgd, rfl⟩
        | succ i =>
          simp at he
          obtain ⟨t', g', h1, h2, h3⟩ := h8 i e he
          exact ⟨t', g', by rw [show gen + (i + 1) = gen + 1 + i by omega]; exact h1, h2, h3⟩

theorem aosLoopFl_no_timeout : ∀ (fuel gen : Nat) (s : AOSState (Dbl F)) (rec : List (Dbl F)),
    o.maxGeneration < gen + fuel → aosLoopFl impl opt o b f env fuel gen s rec ≠ .timeout ∨ fuel = 0 := by
  intro fuel
  induction fuel with
  | zero => intro gen s rec h; exact Or.inr rfl
  | succ fuel ih =>
    intro gen s rec hf
    left
    simp only [aosLoopFl]
    cases h1 : aosEvaluate opt f s with
    | ub => simp
    | timeout => exact absurd h1 aosEvaluate_no_timeout
    | ok t =>
      rw [Out.ok_bind]
      cases h2 : Heu.deref t.electrons t.best with
      | ub => simp
      | timeout => exact absurd h2 deref_no_timeout
      | ok g =>
        rw [Out.ok_bind]
        cases h3 : selectAndMakeLayersFl opt o (env gen).sort (env gen).layerNum (env gen).gauss (env gen).total t with
        | ub => simp
        | timeout => exact absurd h3 selectFl_no_timeout
        | ok u =>
          rw [Out.ok_bind]
          by_cases hstop : gen ≥ o.maxGeneration ∨ u.early ≥ o.maxEarlyStop
          · rw [if_pos hstop]; simp
          · rw [if_neg hstop]
            cases h4 : aosChildren impl opt b (env gen).toAOSEnv u with
            | ub => simp
            | timeout => exact absurd h4 aosChildren_no_timeout
            | ok v =>
              rw [Out.ok_bind]
              rcases ih (gen + 1) v (rec ++ [g.fitness]) (by omega) with h | h
              · exact h
              · omega

end

end Heu
