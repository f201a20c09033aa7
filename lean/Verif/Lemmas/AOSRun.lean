import Verif.Lemmas.AOS

/-! # Atomic orbital search: histories and runs -/

set_option linter.unusedSectionVars false
set_option linter.unusedSimpArgs false
set_option linter.unusedVariables false
set_option linter.unnecessarySimpa false

namespace Heu
open Spec

theorem aosEvaluate_no_timeout {α : Type} [Add α] [Div α] [Zero α] [NatCast α] [LT α] [DecidableLT α] [LE α] [DecidableLE α] {opt : FitnessOption}
    {f : List α → α} {s : AOSState α} : aosEvaluate opt f s ≠ .timeout := by
  unfold aosEvaluate computeAtomBSBELE
  split
  · simp
  · have := deref_no_timeout (pop := (aosComputeFitness f s).electrons) (a := (aosComputeFitness f s).best)
    intro h
    rename_i front rest he
    dsimp only at h
    cases hd : deref (aosComputeFitness f s).electrons (aosComputeFitness f s).best with
    | ub => rw [hd] at h; cases h
    | timeout => exact this hd
    | ok g => rw [hd] at h; cases h

theorem aosChildren_no_timeout {α : Type} [Add α] [Sub α] [Mul α] [Div α] [NatCast α] [LT α] [DecidableLT α]
    {impl : AOSImpl} {opt : FitnessOption} {b : Box α} {e : AOSEnv α} {u : AOSState α} :
    aosChildren impl opt b e u ≠ .timeout := by
  unfold aosChildren computeLayerBSBELE
  have h1 : u.layers.mapM (computeLayer impl opt u.electrons) ≠ .timeout :=
    Out.mapM_no_timeout fun _ _ => computeLayer_no_timeout
  cases hm : u.layers.mapM (computeLayer impl opt u.electrons) with
  | ub => simp
  | timeout => exact absurd hm h1
  | ok ls => simp only [Out.ok_bind]; exact updateElectrons_no_timeout

variable {α : Type} [Field α] [LinearOrder α] [FloorSemiring α]

section
variable (impl : AOSImpl) (opt : FitnessOption) (o : AOSOption) (b : Box α) (f : List α → α)
  (env : Nat → AOSEnv α)

/-- What the beginning of a run relies on. -/
structure AOSReady (s : AOSState α) : Prop where
  distinct : DistinctNodes s.electrons
  cache : CacheCorrect f s.electrons

/-- The state after an evaluation. -/
structure AfterEval (t : AOSState α) : Prop extends Evaluated f t where
  best : ∃ c, c.1 = t.best ∧ Unbeaten opt (fun g => g.fitness) t.electrons c

variable {impl opt o b f env}

theorem afterEval_of_evaluate {s t : AOSState α} (hs : AOSReady f s) (h : aosEvaluate opt f s = .ok t) :
    AfterEval opt f t := by
  obtain ⟨-, -, h1, h2, -, -⟩ := aosEvaluate_ok h hs.distinct hs.cache
  exact ⟨h1, h2⟩

theorem AfterEval.deref {t : AOSState α} (h : AfterEval opt f t) :
    ∃ g, Heu.deref t.electrons t.best = .ok g ∧ (t.best, g) ∈ t.electrons ∧
      (∀ c ∈ t.electrons, ¬ Better opt c.2.fitness g.fitness) := by
  obtain ⟨c, hc, hu⟩ := h.best
  refine ⟨c.2, ?_, ?_, hu.2⟩
  · rw [← hc]; exact deref_of_mem h.distinct hu.1
  · rw [← hc]; exact hu.1

/-- One generation, from evaluation to evaluation. -/
theorem generation_spec {e : AOSEnv α} {t u v t' : AOSState α} (ht : AfterEval opt f t)
    (h1 : selectAndMakeLayers opt o e.sort e.layerNum e.gauss t = .ok u)
    (h2 : aosChildren impl opt b e u = .ok v) (h3 : aosEvaluate opt f v = .ok t') :
    AfterEval opt f t' ∧ (∀ c ∈ keptElectrons opt o e.sort t, c ∈ t'.electrons) ∧
    u.electrons = keptElectrons opt o e.sort t ∧ u.best = t.best ∧ AOSReady f v ∧
    (∃ new, v.electrons = u.electrons ++ new ∧
      t'.electrons = u.electrons ++ computeAllFitness f new ∧
      new.length = (u.layers.map (·.members.length)).sum ∧ ∀ c ∈ new, c.1 ≠ t.best) ∧
    ∃ g g', Heu.deref t.electrons t.best = .ok g ∧ Heu.deref t'.electrons t'.best = .ok g' ∧
      t'.early = if g.fitness = g'.fitness then t.early + 1 else 0 := by
  obtain ⟨hu1, hu2, hu3, -, -, -⟩ := select_ok h1
  obtain ⟨w, hw1, hw2, hw3, -, -, hw4, hw5⟩ := children_ok h2
  have hgrow := updateElectrons_ok (P := fun _ => True) (fun _ _ _ _ _ _ _ _ _ _ _ _ _ => trivial) hw5
  obtain ⟨new, hn1, hn2, hn3⟩ := hgrow.new
  have hdk : DistinctNodes (keptElectrons opt o e.sort t) := distinct_filter ht.distinct _
  have hdv : DistinctNodes v.electrons := hgrow.distinct (by rw [hw1, hu1]; exact hdk)
  have hck : ∀ c ∈ u.electrons, c.2.computed = true ∧ c.2.fitness = f c.2.var := by
    intro c hc
    rw [hu1] at hc
    exact ht.computed c (kept_sub c hc)
  have hcv : CacheCorrect f v.electrons := by
    intro c hc hcomp
    rw [hn1] at hc
    rcases List.mem_append.1 hc with h | h
    · rw [hw1] at h; exact (hck c h).2
    · have := (hn3 c h).1; rw [this] at hcomp; cases hcomp
  have hready : AOSReady f v := ⟨hdv, hcv⟩
  obtain ⟨e1, e2, e3, e4, ⟨prev, bst, e5, e6, e7⟩, -⟩ := aosEvaluate_ok h3 hdv hcv
  have ht'e : t'.electrons = u.electrons ++ computeAllFitness f new := by
    rw [e1, hn1, computeAllFitness_append, hw1, computeAllFitness_id fun c hc => (hck c hc).1]
  have hnb : ∀ c ∈ new, c.1 ≠ t.best := by
    intro c hc
    have := (hn3 c hc).2.2
    rw [hw2, hu2] at this; exact this
  obtain ⟨g, hg1, hg2, -⟩ := ht.deref
  have hsum : (w.layers.map (·.members.length)).sum = (u.layers.map (·.members.length)).sum := by
    have := layers_members hw4
    have h2 := congrArg (List.map List.length) this
    rw [List.map_map, List.map_map] at h2
    exact congrArg List.sum h2
  refine ⟨⟨e3, e4⟩, ?_, hu1, hu2, hready, ⟨new, by rw [hn1, hw1], ht'e, by rw [hn2, hsum], hnb⟩,
    g, bst, hg1, e6, ?_⟩
  · intro c hc
    rw [ht'e]; rw [hu1]
    exact List.mem_append_left _ hc
  · have hb : v.best = t.best := by rw [hgrow.best, hw2, hu2]
    have hmem := deref_ok e5
    rw [hb, ht'e] at hmem
    have : (t.best, prev) ∈ t.electrons := by
      rcases List.mem_append.1 hmem with h | h
      · rw [hu1] at h; exact kept_sub _ h
      · obtain ⟨d, hd, hde⟩ := List.mem_map.1 h
        have := hnb d hd
        rw [Prod.mk.injEq] at hde
        exact absurd hde.1 this
    have h4 := deref_of_mem ht.distinct this
    rw [hg1] at h4
    cases h4
    rw [e7, hgrow.early, hw3, hu3]

theorem aosEval_after {s0 : AOSState α} (hs : AOSReady f s0) :
    ∀ (i : Nat) (t : AOSState α), aosEval impl opt o b f env s0 i = .ok t → AfterEval opt f t := by
  intro i
  induction i with
  | zero => intro t h; exact afterEval_of_evaluate hs h
  | succ i ih =>
    intro t h
    simp only [aosEval, Out.bind_eq_ok] at h
    obtain ⟨t0, h0, u, h1, v, h2, h3⟩ := h
    exact (generation_spec (ih t0 h0) h1 h2 h3).1

theorem aosEval_succ {s0 t' : AOSState α} {i : Nat}
    (h : aosEval impl opt o b f env s0 (i + 1) = .ok t') :
    ∃ t u v, aosEval impl opt o b f env s0 i = .ok t ∧
      selectAndMakeLayers opt o (env i).sort (env i).layerNum (env i).gauss t = .ok u ∧
      aosChildren impl opt b (env i) u = .ok v ∧ aosEvaluate opt f v = .ok t' := by
  simp only [aosEval, Out.bind_eq_ok] at h
  obtain ⟨t0, h0, u, h1, v, h2, h3⟩ := h
  exact ⟨t0, u, v, h0, h1, h2, h3⟩

/-- Best energies do not get worse. -/
theorem aosEval_mono {s0 : AOSState α} (hs : AOSReady f s0) (hn : 0 < o.electronNum) {i j : Nat} (hij : i ≤ j)
    {t t' : AOSState α} (h : aosEval impl opt o b f env s0 i = .ok t)
    (h' : aosEval impl opt o b f env s0 j = .ok t') {e e' : α} (he : BestEnergy opt t.electrons e)
    (he' : BestEnergy opt t'.electrons e') : ¬ Better opt e e' := by
  induction j, hij using Nat.le_induction generalizing t' e' with
  | base =>
    rw [h] at h'; cases h'
    obtain ⟨c, hc, rfl⟩ := he.1
    exact he'.2 c hc
  | succ j hij ih =>
    obtain ⟨t1, u, v, h1, h2, h3, h4⟩ := aosEval_succ h'
    have ha := aosEval_after hs j t1 h1
    obtain ⟨c, hc, hu⟩ := ha.best
    have hb1 : BestEnergy opt t1.electrons c.2.fitness := ⟨⟨c, hu.1, rfl⟩, hu.2⟩
    have hm := ih h1 hb1
    obtain ⟨-, hkeep, -⟩ := generation_spec ha h2 h3 h4
    obtain ⟨d, hd, hde⟩ := bestEnergy_survives (opt := opt) (o := o) (sort := (env j).sort) ha.distinct hn hu
    refine not_better_trans hm ?_
    rw [← hde]
    exact he'.2 d (hkeep d hd)

/-! ### the loop -/

theorem aosLoop_spec {s0 : AOSState α} :
    ∀ (fuel gen : Nat) (s : AOSState α) (rec : List α) (r : RunResult (AOSState α) α),
    aosEvaluate opt f s = aosEval impl opt o b f env s0 gen → gen ≤ o.maxGeneration →
    aosLoop impl opt o b f env fuel gen s rec = .ok r →
    gen ≤ r.generation ∧ r.generation ≤ o.maxGeneration ∧
    (∃ t, aosEval impl opt o b f env s0 r.generation = .ok t ∧
      selectAndMakeLayers opt o (env r.generation).sort (env r.generation).layerNum
        (env r.generation).gauss t = .ok r.state) ∧
    (r.generation = o.maxGeneration ∨ o.maxEarlyStop ≤ r.state.early) ∧
    (∀ i, gen ≤ i → i < r.generation → ∃ t, aosEval impl opt o b f env s0 i = .ok t ∧
      t.early < o.maxEarlyStop) ∧
    ∃ bs, r.record = rec ++ bs ∧ bs.length + gen = r.generation + 1 ∧
      ∀ (i : Nat) (e : α), bs[i]? = some e → ∃ t g, aosEval impl opt o b f env s0 (gen + i) = .ok t ∧
        Heu.deref t.electrons t.best = .ok g ∧ g.fitness = e := by
  intro fuel
  induction fuel with
  | zero => intro gen s rec r _ _ h; cases h
  | succ fuel ih =>
    intro gen s rec r hs hg h
    simp only [aosLoop, Out.bind_eq_ok] at h
    obtain ⟨t, ht, g, hgd, u, hu, h⟩ := h
    have hsu := select_ok hu
    rw [hs] at ht
    by_cases hstop : gen ≥ o.maxGeneration ∨ u.early ≥ o.maxEarlyStop
    · rw [if_pos hstop] at h
      cases h
      refine ⟨le_rfl, hg, ⟨t, ht, hu⟩, ?_, ?_, [g.fitness], rfl, by simp; omega, ?_⟩
      · rcases hstop with h | h
        · exact Or.inl (by dsimp only; omega)
        · exact Or.inr h
      · intro i h1 h2; dsimp only at h2; omega
      · intro i e he
        cases i with
        | zero =>
          simp at he; subst he
          exact ⟨t, g, ht, hgd, rfl⟩
        | succ i => simp at he
    · rw [if_neg hstop, Out.bind_eq_ok] at h
      obtain ⟨v, hv, h⟩ := h
      have hs' : aosEvaluate opt f v = aosEval impl opt o b f env s0 (gen + 1) := by
        simp only [aosEval, ht, Out.ok_bind, hu, hv]
      have hlt : gen + 1 ≤ o.maxGeneration := by omega
      obtain ⟨h1, h2, h3, h4, h5, bs, h6, h7, h8⟩ := ih (gen + 1) v _ r hs' hlt h
      refine ⟨by omega, h2, h3, h4, ?_, g.fitness :: bs, ?_, by simp; omega, ?_⟩
      · intro i hi1 hi2
        rcases Nat.eq_or_lt_of_le hi1 with rfl | hi1
        · refine ⟨t, ht, ?_⟩
          rw [← hsu.2.2.1]; omega
        · exact h5 i hi1 hi2
      · rw [h6, List.append_assoc]; rfl
      · intro i e he
        cases i with
        | zero =>
          simp at he; subst he
          exact ⟨t, g, ht, hgd, rfl⟩
        | succ i =>
          simp at he
          obtain ⟨t', g', h1, h2, h3⟩ := h8 i e he
          exact ⟨t', g', by rw [show gen + (i + 1) = gen + 1 + i by omega]; exact h1, h2, h3⟩

theorem aosLoop_no_timeout : ∀ (fuel gen : Nat) (s : AOSState α) (rec : List α),
    o.maxGeneration < gen + fuel → aosLoop impl opt o b f env fuel gen s rec ≠ .timeout ∨ fuel = 0 := by
  intro fuel
  induction fuel with
  | zero => intro gen s rec h; exact Or.inr rfl
  | succ fuel ih =>
    intro gen s rec hf
    left
    simp only [aosLoop]
    cases h1 : aosEvaluate opt f s with
    | ub => simp
    | timeout => exact absurd h1 aosEvaluate_no_timeout
    | ok t =>
      rw [Out.ok_bind]
      cases h2 : Heu.deref t.electrons t.best with
      | ub => simp
      | timeout => exact absurd h2 deref_no_timeout
      | ok g =>
        rw [Out.ok_bind]
        cases h3 : selectAndMakeLayers opt o (env gen).sort (env gen).layerNum (env gen).gauss t with
        | ub => simp
        | timeout => exact absurd h3 select_no_timeout
        | ok u =>
          rw [Out.ok_bind]
          by_cases hstop : gen ≥ o.maxGeneration ∨ u.early ≥ o.maxEarlyStop
          · rw [if_pos hstop]; simp
          · rw [if_neg hstop]
            cases h4 : aosChildren impl opt b (env gen) u with
            | ub => simp
            | timeout => exact absurd h4 aosChildren_no_timeout
            | ok v =>
              rw [Out.ok_bind]
              rcases ih (gen + 1) v (rec ++ [g.fitness]) (by omega) with h | h
              · exact h
              · omega

/-! ### totality -/

theorem children_total' {e : AOSEnv α} {t u : AOSState α} (hdist : DistinctNodes t.electrons)
    (hbst : ∃ c, c.1 = t.best ∧ Unbeaten opt (fun g => g.fitness) t.electrons c)
    (hties : tiedForBest opt t.electrons ≤ o.electronNum)
    (hu : selectAndMakeLayers opt o e.sort e.layerNum e.gauss t = .ok u)
    (hne : ∀ l ∈ u.layers, l.members ≠ [])
    (hflat : (u.layers.map (·.members)).flatten = (keptNodes opt o e.sort t).map (·.1)) :
    ∃ v, aosChildren impl opt b e u = .ok v ∧ v.best ∈ v.electrons.map (·.1) := by
  obtain ⟨hu1, hu2, hu3, -, -, -⟩ := select_ok hu
  have hmem : ∀ l ∈ u.layers, ∀ a ∈ l.members, a ∈ u.electrons.map (·.1) := by
    intro l hl a ha
    have : a ∈ (keptNodes opt o e.sort t).map (·.1) := by
      rw [← hflat, List.mem_flatten]
      exact ⟨_, List.mem_map_of_mem hl, ha⟩
    rw [hu1]
    exact ((kept_perm hdist).map _).mem_iff.2 this
  obtain ⟨c, hc, hub⟩ := hbst
  have hbest : u.best ∈ u.electrons.map (·.1) := by
    rw [hu2, hu1, ← hc]
    exact List.mem_map_of_mem (best_survives hdist hub hties)
  obtain ⟨ls, hls⟩ : ∃ ls, u.layers.mapM (computeLayer impl opt u.electrons) = .ok ls :=
    Out.mapM_total fun l hl => computeLayer_total (hne l hl) (hmem l hl)
  obtain ⟨hlen, hpt⟩ := Out.mapM_length hls
  have hls' : ∀ l' ∈ ls, ∃ l ∈ u.layers, computeLayer impl opt u.electrons l = .ok l' := by
    intro l' hl'
    obtain ⟨i, hi, rfl⟩ := List.getElem_of_mem hl'
    exact ⟨u.layers[i], List.getElem_mem _, hpt i _ _ (List.getElem?_eq_getElem (by omega))
      (List.getElem?_eq_getElem hi)⟩
  obtain ⟨v, hv⟩ := updateElectrons_total (opt := opt) (b := b) (draw := e.draw) (junk := e.junk)
    (s0 := { u with layers := ls }) hbest
    (fun l' hl' => by
      obtain ⟨l, hl, hc⟩ := hls' l' hl'
      exact (computeLayer_ok hc).2.1)
    (fun l' hl' a ha => by
      obtain ⟨l, hl, hc⟩ := hls' l' hl'
      rw [(computeLayer_ok hc).1] at ha
      exact hmem l hl a ha)
  refine ⟨v, ?_, ?_⟩
  · unfold aosChildren computeLayerBSBELE
    simp only [hls, Out.ok_bind]
    exact hv
  · have hgrow := updateElectrons_ok (P := fun _ => True) (fun _ _ _ _ _ _ _ _ _ _ _ _ _ => trivial) hv
    rw [hgrow.best]
    obtain ⟨d, hd, hdb⟩ := List.mem_map.1 hbest
    show u.best ∈ _
    rw [← hdb]
    exact List.mem_map_of_mem (hgrow.sub d hd)

theorem children_total {e : AOSEnv α} {t u : AOSState α} (ht : AfterEval opt f t)
    (hties : tiedForBest opt t.electrons ≤ o.electronNum)
    (hu : selectAndMakeLayers opt o e.sort e.layerNum e.gauss t = .ok u)
    (hne : ∀ l ∈ u.layers, l.members ≠ [])
    (hflat : (u.layers.map (·.members)).flatten = (keptNodes opt o e.sort t).map (·.1)) :
    ∃ v, aosChildren impl opt b e u = .ok v ∧ v.best ∈ v.electrons.map (·.1) :=
  children_total' ht.distinct ht.best hties hu hne hflat

end

end Heu
