import Verif.Lemmas.GA

/-!
# C25–C29: the genetic main loop, evaluation, crossover and mutation
-/

set_option linter.unusedSectionVars false

namespace Heu
open Spec

/-! ## C25, C26 -/

section run
variable {σ R : Type} (S : GASolver σ R)

/-- C25: `maxGenerations + 1` iterations always suffice: whatever evaluation, selection, crossover and
mutation do, the loop does not run longer (as long as each single selection ends). -/
theorem run_terminates (maxGen maxFail : Nat) (s : σ) (hsel : ∀ g s, S.select g s ≠ .timeout)
    (hb : ∀ s, S.bestFitness s ≠ .timeout) :
    gaRun S maxGen maxFail (maxGen + 1) s ≠ .timeout :=
  gaLoop_no_timeout S hsel hb (by omega) (by omega)

/-- C25: on return the generation counter is at most `maxGenerations`; the run ended there because the
limit was reached or because there were too many failures, and it did not go past an earlier state
with too many failures. -/
theorem run_stops (maxGen maxFail fuel : Nat) (s : σ) (r : RunResult σ R)
    (h : gaRun S maxGen maxFail fuel s = .ok r) :
    r.generation ≤ maxGen ∧
    (r.generation < maxGen → TooManyFails S maxFail r.state) ∧
    (maxFail = 0 → r.generation = maxGen) ∧
    (∀ i < r.generation, ∀ t, stateAfter S s i = .ok t → ¬ TooManyFails S maxFail t) := by
  have := gaLoop_spec S (s0 := s) (gen := 0) (s := S.resetFailTimes s) (record := []) rfl rfl
    (Nat.zero_le _) (by simp) (by simp) h
  obtain ⟨h1, -, -, -, h5, h6⟩ := this
  refine ⟨h1, fun hl => ?_, fun h0 => ?_, h6⟩
  · rcases h5 with h5 | h5
    · omega
    · exact h5
  · rcases h5 with h5 | h5
    · exact h5
    · exact absurd h5.1 (by omega)

/-- C26: one record entry per selection, the `i`-th being the best fitness after the `i`-th selection;
the returned state is the one after the last selection. -/
theorem run_record (maxGen maxFail fuel : Nat) (s : σ) (r : RunResult σ R)
    (h : gaRun S maxGen maxFail fuel s = .ok r) :
    r.record.length = r.generation + 1 ∧
    stateAfter S s r.generation = .ok r.state ∧
    ∀ i (hi : i < r.record.length),
      ∃ t, stateAfter S s i = .ok t ∧ S.bestFitness t = .ok r.record[i] := by
  have := gaLoop_spec S (s0 := s) (gen := 0) (s := S.resetFailTimes s) (record := []) rfl rfl
    (Nat.zero_le _) (by simp) (by simp) h
  exact ⟨this.2.1, this.2.2.2.1, this.2.2.1⟩

end run

/-- A toy solver for the examples: the state counts selections and failures. -/
def toySolver (fails : Nat → Bool) : GASolver (Nat × Nat) Nat where
  computeAllFitness s := s
  select g s := .ok (s.1 + 1, if fails g then s.2 + 1 else 0)
  crossover _ s := s
  mutate _ s := s
  bestFitness s := .ok s.1
  failTimes s := s.2
  resetFailTimes s := (s.1, 0)

/-- Non-vacuity: a run that reaches the limit … -/
example : (gaRun (toySolver fun _ => false) 3 0 4 (0, 7)).satisfies
    (fun r => r.generation == 3 && r.record == [1, 2, 3, 4]) = true := by decide +kernel
/-- … and one that stops early because of failures (three failures exceed the limit of two). -/
example : (gaRun (toySolver fun _ => true) 100 2 101 (0, 7)).satisfies
    (fun r => r.generation == 2 && r.record == [1, 2, 3]) = true := by decide +kernel

/-! ## C27 -/

section cache
variable {V F : Type}

/-- Populations that can occur: initialised, then any sequence of evaluation, selection (anything that
keeps copies of members only, see C18, C22 and C31), crossover and mutation, with any draws. -/
inductive Occurs (f : V → F) : Pop (Gene V F) → Prop
  | init (K : Nat) (init : Nat → V) (junk : F) : Occurs f (initializePop K init junk)
  | evaluate {p} : Occurs f p → Occurs f (computeAllFitness f p)
  | select {p p'} : Occurs f p → (∀ c' ∈ p', ∃ c ∈ p, c.2 = c'.2) → Occurs f p'
  | crossover {p} (junk cx sel shuffle) : Occurs f p → Occurs f (crossover junk cx sel shuffle p)
  | mutate {p} (junk mu sel) : Occurs f p → Occurs f (mutate junk mu sel p)

theorem cacheCorrect_appends {f : V → F} {p q : Pop (Gene V F)} {k : Nat} (h : Appends p q k)
    (hp : CacheCorrect f p) : CacheCorrect f q := by
  obtain ⟨⟨new, rfl, -, hn⟩, -⟩ := h
  intro c hc hcc
  rcases List.mem_append.1 hc with h | h
  · exact hp c h hcc
  · rw [hn c h] at hcc; exact absurd hcc (by simp)

/-- C27: whatever the history, an individual marked as evaluated carries the fitness function's value
at its current variables. -/
theorem cache_never_stale (f : V → F) (pop : Pop (Gene V F)) (h : Occurs f pop) :
    CacheCorrect f pop := by
  induction h with
  | init K init junk =>
    intro c hc hcc
    simp only [initializePop, List.mem_map] at hc
    obtain ⟨i, -, rfl⟩ := hc
    simp at hcc
  | evaluate _ ih =>
    intro c hc hcc
    simp only [computeAllFitness, List.mem_map] at hc
    obtain ⟨d, hd, rfl⟩ := hc
    simp only [evalGene]
    split
    · next hcomp => exact ih d hd hcomp
    · rfl
  | select _ hsub ih =>
    intro c hc hcc
    obtain ⟨d, hd, he⟩ := hsub c hc
    rw [← he]; exact ih d hd (by rw [he]; exact hcc)
  | crossover junk cx sel shuffle _ ih => exact cacheCorrect_appends (crossoverLoop_appends ..) ih
  | mutate junk mu sel _ ih => exact cacheCorrect_appends (mutate_fold_appends ..) ih

/-- C27: after evaluation everybody is evaluated, correctly, and nothing but fitness and flag has
changed. -/
theorem evaluation_complete (f : V → F) (pop : Pop (Gene V F)) (h : CacheCorrect f pop) :
    (∀ c ∈ computeAllFitness f pop, c.2.computed = true ∧ c.2.fitness = f c.2.var) ∧
    (computeAllFitness f pop).map (fun c => (c.1, c.2.var)) = pop.map (fun c => (c.1, c.2.var)) := by
  constructor
  · intro c hc
    simp only [computeAllFitness, List.mem_map] at hc
    obtain ⟨d, hd, rfl⟩ := hc
    simp only [evalGene]
    split
    · next hcomp => exact ⟨hcomp, h d hd hcomp⟩
    · exact ⟨rfl, rfl⟩
  · unfold computeAllFitness
    rw [List.map_map]
    apply List.map_congr_left
    intro c _
    simp only [Function.comp_apply, evalGene]
    split <;> rfl

/-- C27: the fitness function is not consulted for evaluated individuals: the result depends only on
its values at the variables of the others. -/
theorem evaluation_skips_cached (f f' : V → F) (pop : Pop (Gene V F))
    (h : ∀ c ∈ pop, c.2.computed = false → f c.2.var = f' c.2.var) :
    computeAllFitness f pop = computeAllFitness f' pop := by
  apply List.map_congr_left
  intro c hc
  simp only [evalGene]
  cases hcc : c.2.computed with
  | true => simp
  | false => simp [h c hc hcc]

/-- C27: … and it is consulted for every other one: the outcome shows its value there. -/
theorem evaluation_uses_new (f : V → F) (pop : Pop (Gene V F)) (c : Cell (Gene V F)) (hc : c ∈ pop)
    (h : c.2.computed = false) :
    (c.1, { var := c.2.var, fitness := f c.2.var, computed := true }) ∈ computeAllFitness f pop := by
  refine List.mem_map.2 ⟨c, hc, ?_⟩
  simp [evalGene, h]

end cache

/-- Non-vacuity: initialise, evaluate, cross all three individuals (one stays over), mutate the first,
evaluate: 6 individuals, all evaluated. -/
example :
    let f := fun n : Nat => n * n
    let p0 := computeAllFitness f (initializePop 3 (fun i => i) 99)
    let p1 := mutate 99 (fun _ x => x + 10) (· == 0)
      (crossover 99 (fun _ a b => (a + b, 7)) (fun _ => true) id p0)
    Occurs f (computeAllFitness f p1) ∧
    (computeAllFitness f p1).map (fun c => (c.2.var, c.2.fitness)) =
      [(0, 0), (1, 1), (2, 4), (1, 1), (7, 49), (10, 100)] ∧
    (p1.map fun c => c.2.computed) = [true, true, true, false, false, false] :=
  ⟨.evaluate (.mutate _ _ _ (.crossover _ _ _ _ (.evaluate (.init _ _ _)))), by decide +kernel,
    by decide +kernel⟩

/-! ## C28 -/

section parallel
variable {V F : Type}

/-- C28: every interleaving of the store-fitness and set-flag actions of all tasks (in any assignment
to threads) gives the population of the sequential loop. -/
theorem parallel_evaluation_eq_sequential (f : V → F) (pop : Pop (Gene V F))
    (hd : DistinctNodes pop) (sched : List (Addr × Bool))
    (hs : sched.Perm ((evalTasks pop).flatMap fun a => [(a, false), (a, true)])) :
    computeAllFitnessPar f pop sched = computeAllFitness f pop := by
  rw [par_eq_map]
  apply List.map_congr_left
  intro c hc
  rw [foldl_actCell]
  have hmem : ∀ b, (c.1, b) ∈ sched ↔ c.2.computed = false := by
    intro b
    rw [hs.mem_iff]
    simp only [List.mem_flatMap, evalTasks, List.mem_map, List.mem_filter]
    constructor
    · rintro ⟨a, ⟨d, ⟨hdm, hdc⟩, rfl⟩, hx⟩
      have hcd : c.1 = d.1 := by
        simp only [List.mem_cons, Prod.mk.injEq, List.not_mem_nil, or_false] at hx
        rcases hx with hx | hx <;> exact hx.1
      have : c = d := List.inj_on_of_nodup_map hd hc hdm hcd
      rw [this]; simpa using hdc
    · intro h
      refine ⟨c.1, ⟨c, ⟨hc, by simp [h]⟩, rfl⟩, ?_⟩
      cases b <;> simp
  simp only [hmem]
  obtain ⟨a, v, fi, co⟩ := c
  cases co <;> simp [evalGene]

/-- C28: different tasks write different nodes, so concurrent tasks do not race, and every task
concerns a node of the population. -/
theorem evaluation_tasks_disjoint (pop : Pop (Gene V F)) (hd : DistinctNodes pop) :
    (evalTasks pop).Nodup ∧ ∀ a ∈ evalTasks pop, a ∈ pop.map (·.1) := by
  refine ⟨hd.sublist ((List.filter_sublist).map _), ?_⟩
  intro a ha
  exact ((List.filter_sublist (l := pop)).map _).subset ha

end parallel

/-- Non-vacuity: a genuine interleaving of two tasks. -/
example :
    let pop : Pop (Gene Nat Nat) := [(3, ⟨5, 0, false⟩), (4, ⟨6, 36, true⟩), (9, ⟨7, 0, false⟩)]
    let sched := [(9, false), (3, false), (3, true), (9, true)]
    DistinctNodes pop ∧ sched.Perm ((evalTasks pop).flatMap fun a => [(a, false), (a, true)]) ∧
    (computeAllFitnessPar (fun n => n * n) pop sched).map (fun c => c.2.fitness) = [25, 36, 49] :=
  ⟨by decide +kernel, by decide +kernel, by decide +kernel⟩

/-! ## C29 -/

section vary
variable {V F : Type}

/-- couples in the order the loop takes them -/
def couplesOf {β : Type} : List β → List (β × β)
  | a :: b :: l => (a, b) :: couplesOf l
  | _ => []

theorem couplesOf_flat {β : Type} (l : List β) :
    (couplesOf l).flatMap (fun p => [p.1, p.2]) = l.take (2 * (l.length / 2)) ∧
    (couplesOf l).length = l.length / 2 := by
  match l with
  | [] => simp [couplesOf]
  | [a] => simp [couplesOf]
  | a :: b :: l =>
    have := couplesOf_flat l
    have e : 2 * ((a :: b :: l).length / 2) = 2 * (l.length / 2) + 2 := by
      simp only [List.length_cons]; omega
    refine ⟨?_, by simp only [couplesOf, List.length_cons, this.2]; omega⟩
    rw [e]
    simp [couplesOf, this.1]

theorem crossoverLoop_genes (junk : F) (cx : Nat → V → V → V × V) (n : Nat)
    (q : List (Cell (Gene V F))) (pop : Pop (Gene V F)) :
    (crossoverLoop junk cx n q pop).map (·.2) = pop.map (·.2) ++ offspring junk cx n (couplesOf q) := by
  match q with
  | [] => simp [crossoverLoop, couplesOf, offspring]
  | [a] => simp [crossoverLoop, couplesOf, offspring]
  | a :: b :: q =>
    simp only [crossoverLoop, couplesOf, offspring]
    rw [crossoverLoop_genes, emplaceBack_genes, emplaceBack_genes]
    simp [unevaluated, List.append_assoc]

/-- C29, crossover: the old individuals stay as they are and where they are; the appended ones are the
unevaluated children, two per couple; the couples are formed from selected individuals, each used at
most once, and at most one selected individual stays single.  Nodes stay distinct. -/
theorem crossover_appends (junk : F) (cx : Nat → V → V → V × V) (sel : Addr → Bool)
    (shuffle : List (Cell (Gene V F)) → List (Cell (Gene V F)))
    (hshuffle : ∀ l, (shuffle l).Perm l) (pop : Pop (Gene V F)) (hd : DistinctNodes pop) :
    ∃ (new : Pop (Gene V F)) (couples : List (Cell (Gene V F) × Cell (Gene V F))),
      crossover junk cx sel shuffle pop = pop ++ new ∧
      new.map (·.2) = offspring junk cx 0 couples ∧
      new.length = 2 * couples.length ∧
      couples.length = (pop.filter fun c => sel c.1).length / 2 ∧
      (couples.flatMap fun p => [p.1, p.2]).Subperm (pop.filter fun c => sel c.1) ∧
      DistinctNodes (pop ++ new) := by
  set q := shuffle (pop.filter fun c => sel c.1) with hq
  set q' := if q.length % 2 = 1 then q.dropLast else q with hq'
  have hqp : q.Perm (pop.filter fun c => sel c.1) := hshuffle _
  have heven : q'.length = 2 * (q.length / 2) := by
    rw [hq']; split
    · simp; omega
    · omega
  have hsub : q'.Sublist q := by
    rw [hq']; split
    · exact List.dropLast_sublist _
    · exact List.Sublist.refl _
  have hcr : crossover junk cx sel shuffle pop = crossoverLoop junk cx 0 q'.reverse pop := rfl
  obtain ⟨⟨new, hnew, hlen, -⟩, hdist⟩ := crossoverLoop_appends junk cx 0 q'.reverse pop
  have hg := crossoverLoop_genes junk cx 0 q'.reverse pop
  have hc := couplesOf_flat q'.reverse
  rw [hnew, List.map_append] at hg
  refine ⟨new, couplesOf q'.reverse, by rw [hcr, hnew], List.append_cancel_left hg, ?_, ?_, ?_, ?_⟩
  · rw [hlen, hc.2]
  · rw [hc.2, List.length_reverse, heven, ← hqp.length_eq]; omega
  · rw [hc.1, List.take_of_length_le (by rw [List.length_reverse, heven]; omega)]
    exact ((List.reverse_perm q').subperm.trans hsub.subperm).trans hqp.subperm
  · rw [← hnew]; exact hdist hd

theorem mutate_genes (junk : F) (mu : Nat → V → V) (l : List (Cell (Gene V F) × Nat))
    (pop : Pop (Gene V F)) :
    (l.foldl (fun (p : Pop (Gene V F)) s =>
      emplaceBack p { var := mu s.2 s.1.2.var, fitness := junk, computed := false }) pop).map (·.2) =
    pop.map (·.2) ++ l.map fun s => unevaluated junk (mu s.2 s.1.2.var) := by
  induction l generalizing pop with
  | nil => simp
  | cons x l ih =>
    simp only [List.foldl_cons]
    rw [ih, emplaceBack_genes]
    simp [unevaluated]

/-- C29, mutation: the old individuals stay as they are and where they are; the appended ones are the
unevaluated mutants of the selected individuals, one each, in population order. -/
theorem mutate_appends (junk : F) (mu : Nat → V → V) (sel : Addr → Bool) (pop : Pop (Gene V F))
    (hd : DistinctNodes pop) :
    ∃ new : Pop (Gene V F),
      mutate junk mu sel pop = pop ++ new ∧
      new.map (·.2) = (pop.filter fun c => sel c.1).mapIdx
        (fun i c => unevaluated junk (mu i c.2.var)) ∧
      DistinctNodes (pop ++ new) := by
  obtain ⟨⟨new, hnew, hlen, -⟩, hdist⟩ :=
    mutate_fold_appends junk mu (pop.filter fun c => sel c.1).zipIdx pop
  have hg := mutate_genes junk mu (pop.filter fun c => sel c.1).zipIdx pop
  rw [hnew, List.map_append] at hg
  refine ⟨new, hnew, ?_, by rw [← hnew]; exact hdist hd⟩
  rw [List.append_cancel_left hg, List.mapIdx_eq_zipIdx_map]

/-- C29: crossover and mutation together never shrink the population and at most quadruple it. -/
theorem vary_growth (junk junk' : F) (cx : Nat → V → V → V × V) (selC selM : Addr → Bool)
    (shuffle : List (Cell (Gene V F)) → List (Cell (Gene V F)))
    (hshuffle : ∀ l, (shuffle l).Perm l) (mu : Nat → V → V) (pop : Pop (Gene V F))
    (hd : DistinctNodes pop) :
    let pop' := mutate junk' mu selM (crossover junk cx selC shuffle pop)
    pop.length ≤ pop'.length ∧ pop'.length ≤ 4 * pop.length := by
  intro pop'
  obtain ⟨new, couples, h1, -, h3, h4, -, h6⟩ := crossover_appends junk cx selC shuffle hshuffle pop hd
  obtain ⟨new', g1, g2, -⟩ := mutate_appends junk' mu selM _ (h1 ▸ h6)
  have hl := congrArg List.length g2
  simp only [List.length_map, List.length_mapIdx] at hl
  have hf1 := List.length_filter_le (fun c : Cell (Gene V F) => selC c.1) pop
  have hf2 := List.length_filter_le (fun c : Cell (Gene V F) => selM c.1)
    (crossover junk cx selC shuffle pop)
  have e1 : (crossover junk cx selC shuffle pop).length = pop.length + new.length := by
    rw [h1, List.length_append]
  have e2 : pop'.length = (crossover junk cx selC shuffle pop).length + new'.length := by
    show (mutate junk' mu selM (crossover junk cx selC shuffle pop)).length = _
    rw [g1, List.length_append]
  omega

end vary

/-- Non-vacuity, and the factor four is reached: everybody is crossed and mutated. -/
example :
    let pop : Pop (Gene Nat Nat) := [(3, ⟨5, 0, false⟩), (4, ⟨6, 36, true⟩)]
    DistinctNodes pop ∧
    (mutate 0 (fun _ x => x) (fun _ => true)
      (crossover 0 (fun _ a b => (b, a)) (fun _ => true) id pop)).length = 8 :=
  ⟨by decide +kernel, by decide +kernel⟩

end Heu
