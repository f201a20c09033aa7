import Verif.Lemmas.SOSelect2
import Verif.Props.NSGA
import Verif.Props.GA

/-!
# C30–C37: single-objective selection and runs

`o` is the optimisation direction, `fit` the fitness, `K` is `populationSize`, `s.pop` the population
handed to selection, `s.best` the address of the gene reported as best before.
-/

set_option linter.unusedSectionVars false

namespace Heu
open Spec

section
variable {γ α : Type} [Field α] [LinearOrder α] [IsStrictOrderedRing α]

/-- What the standard library and the generators guarantee about the draws of one selection:
shuffles permute, tournament indices lie in the population and outside the tournament, uniform draws
lie in `[0,1)`. -/
structure ValidEnv (e : SelectEnv γ α) : Prop where
  shuffle : ∀ l, (e.shuffle l).Perm l
  order : ∀ l, (e.order l).Perm l
  tournamentSize : 1 ≤ e.tournamentSize
  idxB : ∀ n k j, e.tournamentSize < n → e.tournamentSize ≤ e.idxB n k j ∧ e.idxB n k j < n
  u0 : 0 ≤ e.u0 ∧ e.u0 < 1
  u : ∀ i, 0 ≤ e.u i ∧ e.u i < 1

/-- All ten methods at once. -/
theorem runSelect_spec (o : FitnessOption) (fit : γ → α) (m : SelectMethod) (e : SelectEnv γ α)
    (he : ValidEnv e) (K : Nat) (s s' : SOState γ) (hd : DistinctNodes s.pop)
    (h : runSelect o fit m e K s = .ok s') : SelectSpec o fit s s' := by
  cases m with
  | RouletteWheel => exact (roulette_spec o fit hd h).1
  | Tournament => exact (tournament_spec o fit he.shuffle he.order he.tournamentSize hd h).1
  | Truncation => exact (truncation_spec o fit e.sort hd h).1
  | MonteCarlo => exact (montecarlo_spec o fit he.shuffle hd h).1
  | Probability =>
    refine ((weighted_shape o fit (es := fun _ => _) (rMax := fun _ => _) (fun _ => ?_) hd).1 s' h).1
    rw [map_fst_map]
    split <;> rw [map_fst_map, shiftedSpace_map]
  | LinearRank =>
    refine ((weighted_shape o fit (es := fun _ => _) (rMax := fun _ => _) (fun _ => ?_) hd).1 s' h).1
    rw [zipIdx_map_fst]; exact e.sort.perm _ _
  | ExponentialRank =>
    refine ((weighted_shape o fit (es := fun _ => _) (rMax := fun _ => _) (fun _ => ?_) hd).1 s' h).1
    rw [zipIdx_map_fst _ (fun i => (e.base - 1) / (e.base ^ s.pop.length - 1) * e.base ^ i)]
    exact e.sort.perm _ _
  | Boltzmann =>
    refine ((weighted_shape o fit (es := fun _ => _) (rMax := fun _ => _) (fun _ => ?_) hd).1 s' h).1
    rw [List.map_map]
    show (s.pop.map fun c => c).Perm _
    simp
  | StochasticUniversal => exact (sus_spec o fit hd h).1
  | EliteReserved => exact (elite_spec o fit hd h).1
  | RunTimeSelectMethod => simp [runSelect] at h

/-! ## C30 -/

/-- C30 (partial): selection leaves `min K n` individuals, for all ten methods, except that
StochasticUniversal needs two different fitness values and EliteReserved at most `K` elites; see
`sus_equal_fitness_keeps_everyone` and `elite_keeps_all_elites` for what happens otherwise.  Missing
from the full statement: exactly those two cases, where it is false. -/
theorem selection_exact_size_partial (o : FitnessOption) (fit : γ → α) (m : SelectMethod)
    (e : SelectEnv γ α) (he : ValidEnv e) (K : Nat) (hK : 0 < K) (s s' : SOState γ)
    (hd : DistinctNodes s.pop)
    (hsus : m = .StochasticUniversal → ∃ a ∈ s.pop, ∃ b ∈ s.pop, fit a.2 ≠ fit b.2)
    (hel : m = .EliteReserved → e.eliteNum ≤ K)
    (h : runSelect o fit m e K s = .ok s') : s'.pop.length = min K s.pop.length := by
  cases m with
  | RouletteWheel => exact (roulette_spec o fit hd h).2
  | Tournament => exact (tournament_spec o fit he.shuffle he.order he.tournamentSize hd h).2.1
  | Truncation => exact (truncation_spec o fit e.sort hd h).2.1
  | MonteCarlo => exact (montecarlo_spec o fit he.shuffle hd h).2
  | Probability =>
    refine ((weighted_shape o fit (es := fun _ => _) (rMax := fun _ => _) (fun _ => ?_) hd).1 s' h).2
    rw [map_fst_map]
    split <;> rw [map_fst_map, shiftedSpace_map]
  | LinearRank =>
    refine ((weighted_shape o fit (es := fun _ => _) (rMax := fun _ => _) (fun _ => ?_) hd).1 s' h).2
    rw [zipIdx_map_fst]; exact e.sort.perm _ _
  | ExponentialRank =>
    refine ((weighted_shape o fit (es := fun _ => _) (rMax := fun _ => _) (fun _ => ?_) hd).1 s' h).2
    rw [zipIdx_map_fst _ (fun i => (e.base - 1) / (e.base ^ s.pop.length - 1) * e.base ^ i)]
    exact e.sort.perm _ _
  | Boltzmann =>
    refine ((weighted_shape o fit (es := fun _ => _) (rMax := fun _ => _) (fun _ => ?_) hd).1 s' h).2
    rw [List.map_map]
    show (s.pop.map fun c => c).Perm _
    simp
  | StochasticUniversal =>
    refine (sus_spec o fit hd h).2.1 hK he.u0.1 he.u0.2 ?_
    intro hall
    obtain ⟨a, ha, b, hb, hab⟩ := hsus rfl
    exact hab (hall a ha b hb)
  | EliteReserved =>
    have := (elite_spec o fit hd h).2.2.2.1
    have := hel rfl
    omega
  | RunTimeSelectMethod => simp [runSelect] at h

/-- C30, negation for StochasticUniversal: when all individuals have the same fitness nobody is ever
eliminated, whatever the draws, so a population above `K` stays above `K`. -/
theorem sus_equal_fitness_keeps_everyone (o : FitnessOption) (fit : γ → α) (e : SelectEnv γ α)
    (he : ValidEnv e) (K : Nat) (hK : 0 < K) (s : SOState γ) (hd : DistinctNodes s.pop)
    (hb : s.best ∈ s.pop.map (·.1)) (heq : ∀ a ∈ s.pop, ∀ b ∈ s.pop, fit a.2 = fit b.2) :
    ∃ s', runSelect o fit .StochasticUniversal e K s = .ok s' ∧ s'.pop = s.pop := by
  obtain ⟨s', hs'⟩ := sus_total o fit (u0 := e.u0) (u := e.u) hd hb hK (fun i => (he.u i).2)
  exact ⟨s', hs', (sus_spec o fit hd hs').2.2 (fun i => (he.u i).2) heq⟩

/-- C30, negation for EliteReserved: with more elites than `populationSize`, all elites stay. -/
theorem elite_keeps_all_elites (o : FitnessOption) (fit : γ → α) (e : SelectEnv γ α) (K : Nat)
    (s s' : SOState γ) (hd : DistinctNodes s.pop)
    (h : runSelect o fit .EliteReserved e K s = .ok s') :
    s'.pop.length = min s.pop.length (max K e.eliteNum) := (elite_spec o fit hd h).2.2.2.1

/-- C30: nine methods finish within `K` roulette rounds (RouletteWheel: provided that in each round with
vanishing weights one of the random draws hits; each such round may also select nobody, with a
probability below one). -/
theorem selection_finishes (o : FitnessOption) (fit : γ → α) (m : SelectMethod) (e : SelectEnv γ α)
    (he : ValidEnv e) (K : Nat) (hK : 0 < K) (s : SOState γ) (hd : DistinctNodes s.pop)
    (hb : s.best ∈ s.pop.map (·.1)) (hfuel : K ≤ e.fuel)
    (hm : m ≠ .Truncation ∧ m ≠ .EliteReserved ∧ m ≠ .RunTimeSelectMethod)
    (hT : m = .Tournament → e.tournamentSize < K)
    (hR : m = .RouletteWheel → ∀ it, ∃ j, j ≤ s.pop.length - K ∧ (e.ds it).hit j = true) :
    ∃ s', runSelect o fit m e K s = .ok s' := by
  cases m with
  | RouletteWheel => exact roulette_total o fit hd hb hK hfuel (hR rfl)
  | Tournament =>
    exact tournament_total o fit he.shuffle he.tournamentSize hd hb (hT rfl)
      (fun hlt k j => (he.idxB _ k j (by have := hT rfl; omega)).2)
  | Truncation => exact absurd rfl hm.1
  | MonteCarlo => exact montecarlo_total o fit he.shuffle hd hb hK
  | Probability =>
    refine (weighted_shape o fit (es := fun _ => _) (rMax := fun _ => _) (fun _ => ?_) hd).2.1 hb hK hfuel
    rw [map_fst_map]
    split <;> rw [map_fst_map, shiftedSpace_map]
  | LinearRank =>
    refine (weighted_shape o fit (es := fun _ => _) (rMax := fun _ => _) (fun _ => ?_) hd).2.1 hb hK hfuel
    rw [zipIdx_map_fst]; exact e.sort.perm _ _
  | ExponentialRank =>
    refine (weighted_shape o fit (es := fun _ => _) (rMax := fun _ => _) (fun _ => ?_) hd).2.1 hb hK hfuel
    rw [zipIdx_map_fst _ (fun i => (e.base - 1) / (e.base ^ s.pop.length - 1) * e.base ^ i)]
    exact e.sort.perm _ _
  | Boltzmann =>
    refine (weighted_shape o fit (es := fun _ => _) (rMax := fun _ => _) (fun _ => ?_) hd).2.1 hb hK hfuel
    rw [List.map_map]
    show (s.pop.map fun c => c).Perm _
    simp
  | StochasticUniversal => exact sus_total o fit hd hb hK (fun i => (he.u i).2)
  | EliteReserved => exact absurd rfl hm.2.1
  | RunTimeSelectMethod => exact absurd rfl hm.2.2

/-! ## C31, C32 -/

/-- C31: every survivor of every method is a copy of an individual of the population before. -/
theorem selection_invents_nobody (o : FitnessOption) (fit : γ → α) (m : SelectMethod)
    (e : SelectEnv γ α) (he : ValidEnv e) (K : Nat) (s s' : SOState γ) (hd : DistinctNodes s.pop)
    (h : runSelect o fit m e K s = .ok s') :
    ∀ c' ∈ s'.pop, ∃ c ∈ s.pop, c.2 = c'.2 :=
  (runSelect_spec o fit m e he K s s' hd h).noInvention

/-- C32: after every method the reported best is a member of the surviving population (so reading it
is well defined) and no survivor beats it. -/
theorem selection_reports_best (o : FitnessOption) (fit : γ → α) (m : SelectMethod)
    (e : SelectEnv γ α) (he : ValidEnv e) (K : Nat) (s s' : SOState γ) (hd : DistinctNodes s.pop)
    (h : runSelect o fit m e K s = .ok s') :
    ∃ g, deref s'.pop s'.best = .ok g ∧ (s'.best, g) ∈ s'.pop ∧
      ∀ c ∈ s'.pop, ¬ Better o (fit c.2) (fit g) := by
  have hs := runSelect_spec o fit m e he K s s' hd h
  obtain ⟨c, hcb, hc, hu⟩ := hs.best
  refine ⟨c.2, ?_, ?_, hu⟩
  · rw [← hcb]; exact deref_of_mem hs.distinct hc
  · rw [← hcb]; exact hc

/-! ## C36 -/

/-- C36: when somebody has to go, tournament selection plays exactly `K` games; in each game exactly
`tournamentSize` pairwise different members of the population take part and one that nobody in the game
beats wins; the survivors are exactly the winners, each as often as it won; and from one game to the next
every seat gets a new occupant. -/
theorem tournament_winners (o : FitnessOption) (fit : γ → α) (e : SelectEnv γ α) (he : ValidEnv e)
    (K : Nat) (s s' : SOState γ) (hd : DistinctNodes s.pop) (hlt : K < s.pop.length)
    (h : runSelect o fit .Tournament e K s = .ok s') :
    ∃ (games : List (List (Cell γ))) (winners : List (Cell γ)),
      games.length = K ∧
      List.Forall₂ (fun game w => game.length = e.tournamentSize ∧ game.Subperm s.pop ∧
        Unbeaten o fit game w) games winners ∧
      (s'.pop.map (·.2)).Perm (winners.map (·.2)) ∧
      games.IsChain (fun g g' => ∀ seat, seat < e.tournamentSize → g'[seat]? ≠ g[seat]?) := by
  obtain ⟨games, winners, h1, h2, h3, h4⟩ :=
    (tournament_spec o fit he.shuffle he.order he.tournamentSize hd h).2.2 hlt
  have hTS : e.tournamentSize < K := by
    simp only [runSelect, selectTournament] at h
    by_contra hc
    rw [if_pos hc] at h
    cases h
  exact ⟨games, winners, h1, h2, h3, h4 fun k j => (he.idxB _ k j (by omega)).1⟩

/-! ## C35 -/

/-- C35 (partial): eight of the ten methods never touch an erased individual (no undefined
behaviour at all), for every population, every draw and however long they run.  Missing: Truncation and
EliteReserved, for which it is false (see below). -/
theorem selection_no_use_after_erase_partial (o : FitnessOption) (fit : γ → α) (m : SelectMethod)
    (e : SelectEnv γ α) (he : ValidEnv e) (K : Nat) (hK : 0 < K) (s : SOState γ)
    (hd : DistinctNodes s.pop) (hb : s.best ∈ s.pop.map (·.1))
    (hm : m ≠ .Truncation ∧ m ≠ .EliteReserved ∧ m ≠ .RunTimeSelectMethod)
    (hT : m = .Tournament → e.tournamentSize < K) :
    runSelect o fit m e K s ≠ .ub := by
  cases m with
  | RouletteWheel => exact roulette_no_ub o fit hd hb hK
  | Tournament =>
    obtain ⟨s', hs'⟩ := tournament_total o fit he.shuffle he.tournamentSize hd hb (hT rfl)
      (order := e.order) (idxB := e.idxB s.pop.length)
      (fun hlt k j => (he.idxB _ k j (by have := hT rfl; omega)).2)
    simp only [runSelect, hs']; simp
  | Truncation => exact absurd rfl hm.1
  | MonteCarlo =>
    obtain ⟨s', hs'⟩ := montecarlo_total o fit he.shuffle hd hb hK
    simp only [runSelect, hs']; simp
  | Probability =>
    refine (weighted_shape o fit (es := fun _ => _) (rMax := fun _ => _) (fun _ => ?_) hd).2.2 hb hK
    rw [map_fst_map]
    split <;> rw [map_fst_map, shiftedSpace_map]
  | LinearRank =>
    refine (weighted_shape o fit (es := fun _ => _) (rMax := fun _ => _) (fun _ => ?_) hd).2.2 hb hK
    rw [zipIdx_map_fst]; exact e.sort.perm _ _
  | ExponentialRank =>
    refine (weighted_shape o fit (es := fun _ => _) (rMax := fun _ => _) (fun _ => ?_) hd).2.2 hb hK
    rw [zipIdx_map_fst _ (fun i => (e.base - 1) / (e.base ^ s.pop.length - 1) * e.base ^ i)]
    exact e.sort.perm _ _
  | Boltzmann =>
    refine (weighted_shape o fit (es := fun _ => _) (rMax := fun _ => _) (fun _ => ?_) hd).2.2 hb hK
    rw [List.map_map]
    show (s.pop.map fun c => c).Perm _
    simp
  | StochasticUniversal =>
    obtain ⟨s', hs'⟩ := sus_total o fit (u0 := e.u0) hd hb hK (fun i => (he.u i).2)
    simp only [runSelect, hs']; simp
  | EliteReserved => exact absurd rfl hm.2.1
  | RunTimeSelectMethod => exact absurd rfl hm.2.2

/-- C35, negation for Truncation: as soon as `K` individuals are strictly better than the old best, the
old best is erased and then read. -/
theorem truncation_use_after_erase (o : FitnessOption) (fit : γ → α) (e : SelectEnv γ α) (K : Nat)
    (s : SOState γ) (hd : DistinctNodes s.pop) (old : γ)
    (hold : deref s.pop s.best = .ok old)
    (hbetter : ∃ B : List (Cell γ), B.Subperm s.pop ∧ K ≤ B.length ∧
      ∀ c ∈ B, Better o (fit c.2) (fit old)) :
    runSelect o fit .Truncation e K s = .ub := by
  obtain ⟨B, hB, hBl, hBb⟩ := hbetter
  have hoc := deref_ok hold
  show selectTruncation o fit e.sort K s = .ub
  set S := e.sort.run (geneItCompare o fit) s.pop with hS
  have hp : S.Perm s.pop := e.sort.perm _ _
  have hsorted : S.Pairwise fun a b => ¬ Better o (fit b.2) (fit a.2) :=
    geneItCompare_sorted o fit e.sort s.pop
  obtain ⟨hperm, heq⟩ := selectTruncation_eq o fit e.sort (K := K) hd
  rw [← hS] at hperm
  have hbad : ((s.best, old) : Cell γ) ∉ S.take K := by
    intro hmem
    -- all better ones are among the first `K`, and so is the old best
    have hsplit : S = S.take K ++ S.drop K := (List.take_append_drop K S).symm
    rw [hsplit, List.pairwise_append] at hsorted
    have hin : ∀ c ∈ s.pop, Better o (fit c.2) (fit old) → c ∈ S.take K := by
      intro c hc hcb
      have hcS := hp.mem_iff.2 hc
      rw [hsplit, List.mem_append] at hcS
      rcases hcS with h | h
      · exact h
      · exact absurd hcb (hsorted.2.2 _ hmem c h)
    have hBn : B.Nodup := by
      obtain ⟨l, hl, hs⟩ := hB
      exact hl.nodup_iff.1 ((List.Nodup.of_map _ hd).sublist hs)
    have hcons : (((s.best, old) : Cell γ) :: B).Nodup := by
      rw [List.nodup_cons]
      exact ⟨fun h => better_irrefl _ _ (hBb _ h), hBn⟩
    have hsub : (((s.best, old) : Cell γ) :: B).Subperm (S.take K) := by
      apply hcons.subperm
      intro c hc
      rcases List.mem_cons.1 hc with rfl | hc
      · exact hmem
      · exact hin c (hB.subset hc) (hBb c hc)
    have h1 := hsub.length_le
    have h2 := List.length_take_le K S
    simp only [List.length_cons] at h1
    omega
  have hub : deref (s.pop.filter fun c => !((S.drop K).map (·.1)).contains c.1) s.best = .ub := by
    rw [deref_ub]
    intro h
    obtain ⟨c, hc, hcb⟩ := List.mem_map.1 h
    have hcp := (List.mem_filter.1 hc).1
    have : c = (s.best, old) := List.inj_on_of_nodup_map hd hcp hoc hcb
    rw [this] at hc
    exact hbad (hperm.mem_iff.1 hc)
  match hk : S.take K with
  | [] => simp only [selectTruncation, ← hS, hk]
  | b :: l =>
    obtain ⟨-, -, he⟩ := heq b l hk
    rw [he]
    simp only [updateFail1]
    rw [hub]; rfl

/-- C35: whenever Truncation or EliteReserved return at all, the old best survived. -/
theorem elitist_keeps_old_best (o : FitnessOption) (fit : γ → α) (m : SelectMethod)
    (hm : m = .Truncation ∨ m = .EliteReserved) (e : SelectEnv γ α) (K : Nat) (s s' : SOState γ)
    (hd : DistinctNodes s.pop) (h : runSelect o fit m e K s = .ok s') :
    s.best ∈ s'.pop.map (·.1) := by
  rcases hm with rfl | rfl
  · exact (truncation_spec o fit e.sort hd h).2.2.1
  · exact (elite_spec o fit hd h).2.1

/-! ## C33, one generation -/

/-- C33: after Truncation or EliteReserved selection (at least one elite), the reported best is beaten
by nobody of the population *before* selection. -/
theorem elitist_step (o : FitnessOption) (fit : γ → α) (m : SelectMethod)
    (hm : m = .Truncation ∨ m = .EliteReserved) (e : SelectEnv γ α) (he : 1 ≤ e.eliteNum)
    (K : Nat) (s s' : SOState γ) (hd : DistinctNodes s.pop)
    (h : runSelect o fit m e K s = .ok s') :
    ∃ g, deref s'.pop s'.best = .ok g ∧ ∀ c ∈ s.pop, ¬ Better o (fit c.2) (fit g) := by
  rcases hm with rfl | rfl
  · obtain ⟨hs, -, -, ⟨c, hcb, hc, hu⟩, -⟩ := truncation_spec o fit e.sort hd h
    exact ⟨c.2, by rw [← hcb]; exact deref_of_mem hs.distinct hc, hu.2⟩
  · obtain ⟨hs, -, -, -, hall⟩ := elite_spec o fit hd h
    obtain ⟨c, hcb, hc, -⟩ := hs.best
    exact ⟨c.2, by rw [← hcb]; exact deref_of_mem hs.distinct hc, (hall he c hcb hc).2⟩

end

/-! ## Non-vacuity of C30–C33, C35, C36 -/

/-- A concrete configuration with the default parameters and concrete draws. -/
def demoEnv (γ : Type) : SelectEnv γ ℚ where
  sort := insertionSorter
  shuffle := id
  order := id
  ds _ := { u := 1 / 2, hit := fun _ => true }
  fuel := 10
  tournamentSize := 2
  idxB n _ _ := n - 1
  big := 10 ^ 100
  worst := 1 / 10
  best := 9 / 10
  base := 4 / 5
  exp x := 1 + x ^ 2
  strength := 10
  u0 := 1 / 2
  u _ := 1 / 2
  eliteNum := 1

theorem demoEnv_valid (γ : Type) : ValidEnv (demoEnv γ) where
  shuffle _ := List.Perm.refl _
  order _ := List.Perm.refl _
  tournamentSize := by simp [demoEnv]
  idxB n k j h := by simp only [demoEnv] at *; omega
  u0 := by norm_num [demoEnv]
  u _ := by norm_num [demoEnv]

/-- Five individuals (address, fitness); the old best is the one at address 0. -/
def demoState : SOState ℚ :=
  { pop := [(0, 3), (1, 5), (2, 1), (3, 4), (4, 2)], best := 0, fail := 7 }

/-- The hypotheses about the population hold … -/
example : DistinctNodes demoState.pop ∧ demoState.best ∈ demoState.pop.map (·.1) ∧
    (∃ a ∈ demoState.pop, ∃ b ∈ demoState.pop, id a.2 ≠ id b.2) :=
  ⟨by decide +kernel, by decide +kernel, (0, 3), by decide +kernel, (1, 5), by decide +kernel,
    by norm_num⟩

/-- … and every one of the ten methods returns, with three of five individuals (minimising) and a
reported best that none of them beats. -/
example : [SelectMethod.RouletteWheel, .Tournament, .Truncation, .MonteCarlo, .Probability, .LinearRank,
    .ExponentialRank, .Boltzmann, .StochasticUniversal, .EliteReserved].all (fun m =>
    (runSelect .lessBetter id m (demoEnv ℚ) 3 demoState).satisfies fun r =>
      r.pop.length == 3 && r.pop.all (fun c => decide (¬ (c.2 < 1)))) = true := by decide +kernel

/-- C35: the use after erase happens for concrete, small inputs: `K = 1` and a better newcomer … -/
example : runSelect .lessBetter id .Truncation (demoEnv ℚ) 1
    { pop := [(0, 3), (1, 2)], best := 0, fail := 0 } = .ub :=
  truncation_use_after_erase .lessBetter id (demoEnv ℚ) 1 _ (by decide +kernel) 3 (by decide +kernel)
    ⟨[(1, 2)], by decide +kernel, by decide, by simp [Better]; norm_num⟩

/-- … and EliteReserved, the default method, when the old best is the one the roulette eliminates. -/
theorem elite_use_after_erase :
    (match runSelect .lessBetter id .EliteReserved (demoEnv ℚ) 1
      { pop := [(0, 3), (1, 2)], best := 0, fail := 0 } with
     | .ub => true | _ => false) = true := by decide +kernel

/-- C30: SUS keeps everybody when all are equal. -/
example : (runSelect .lessBetter id .StochasticUniversal (demoEnv ℚ) 1
    { pop := [(0, 3), (1, 3), (2, 3)], best := 0, fail := 0 }).satisfies (fun r => r.pop.length == 3)
    = true := by decide +kernel

/-! ## C37 -/

/-- C37: the selector that runs is the one that was set, and EliteReserved before any call. -/
theorem dispatch_correct :
    (∀ m cur m', setSelectMethod cur m = .ok m' → m ≠ .RunTimeSelectMethod ∧ dispatchedMethod m' = m) ∧
    (∀ m cur, m ≠ .RunTimeSelectMethod → setSelectMethod cur m = .ok m) ∧
    (∀ cur, setSelectMethod cur .RunTimeSelectMethod = .ub) ∧
    dispatchedMethod defaultSelectMethod = .EliteReserved := by
  have key : ∀ m : SelectMethod, m ≠ .RunTimeSelectMethod → dispatchedMethod m = m := by
    intro m hm
    cases m <;> first
      | exact absurd rfl hm
      | simp [dispatchedMethod, dispatchFrom, SelectMethod.ofIdx, SelectMethod.toNat]
  refine ⟨?_, ?_, fun _ => rfl, key _ (by simp [defaultSelectMethod])⟩
  · intro m cur m' h
    cases m <;> simp only [setSelectMethod, Out.ok.injEq, reduceCtorEq] at h <;>
      exact ⟨by simp, h ▸ key _ (by simp)⟩
  · intro m cur hm
    cases m <;> first | exact absurd rfl hm | rfl

/-- C37, finding: with the run-time dispatch (and with any compile-time method but Boltzmann) the
Boltzmann strength is never initialised, so Boltzmann selection chosen at run time reads an
indeterminate value unless the user sets it. -/
theorem boltzmann_strength_uninitialised (o : FitnessOption) :
    sogaInitialStrength .RunTimeSelectMethod o = none ∧
    sogaInitialStrength .Boltzmann .lessBetter = some (-10) ∧
    sogaInitialStrength .Boltzmann .greaterBetter = some 10 := by
  refine ⟨?_, ?_, ?_⟩ <;> simp [sogaInitialStrength]

end Heu
