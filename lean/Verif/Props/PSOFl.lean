import Verif.Props.PSO
import Verif.Lemmas.NSGA2Fl

/-!
# C95 – particle swarms whose fitness is a real `double`

`Props/PSO` proves what the best solution of a run is for fitness values in a linear order.  Here the
fitness is a `double`: equal-comparing but different values (`+0`, `-0`), infinities and NaN included.
-/

set_option linter.unusedSectionVars false
set_option linter.unusedSimpArgs false

namespace Heu
open Spec

/-! ### changing the fitness type along a map that preserves and reflects `<` -/

section map
variable {V F L : Type}

/-- Replace the fitness value of a point. -/
def Point.mapF (φ : F → L) (p : Point V F) : Point V L := ⟨p.position, φ p.fitness⟩
/-- Replace the fitness values of a particle. -/
def Particle.mapF (φ : F → L) (p : Particle V F) : Particle V L :=
  ⟨p.position, φ p.fitness, p.velocity, p.pBest.mapF φ⟩
/-- Replace the fitness values of a swarm. -/
def PSOState.mapF (φ : F → L) (s : PSOState V F) : PSOState V L :=
  ⟨s.swarm.map (Particle.mapF φ), s.gBest.mapF φ, s.fail⟩

/-- Map the result of a computation. -/
def mapOut {A B : Type} (g : A → B) : Out A → Out B
  | .ok a => .ok (g a)
  | .ub => .ub
  | .timeout => .timeout

theorem mapOut_ok {A B : Type} {g : A → B} {x : Out A} {b : B} :
    mapOut g x = .ok b ↔ ∃ a, x = .ok a ∧ g a = b := by
  cases x <;> simp [mapOut]

theorem mapOut_bind {A B C D : Type} (g : A → B) (h : C → D) (x : Out A) (k : A → Out C) (k' : B → Out D)
    (hk : ∀ a, k' (g a) = mapOut h (k a)) : (mapOut g x >>= k') = mapOut h (x >>= k) := by
  cases x <;> simp [mapOut, hk]

variable (φ : F → L)

theorem init_mapF (K : Nat) (init : Nat → V × V) (f : V → F) :
    psoInitializePop K init (φ ∘ f) = mapOut (PSOState.mapF φ) (psoInitializePop K init f) := by
  unfold psoInitializePop
  cases K with
  | zero => rfl
  | succ K =>
    rw [List.range_succ_eq_map]
    simp [mapOut, PSOState.mapF, Particle.mapF, Point.mapF, Function.comp_def]

theorem compute_mapF (f : V → F) (s : PSOState V F) :
    psoComputeAllFitness (φ ∘ f) (s.mapF φ) = (psoComputeAllFitness f s).mapF φ := by
  simp [psoComputeAllFitness, PSOState.mapF, Particle.mapF, Point.mapF, Function.comp_def]

theorem updatePopulation_mapF {α : Type} [Add α] [Sub α] [Mul α] [Neg α] [LT α] [DecidableLT α]
    (b : PSOBox α) (o : PSOFactors α) (rnd : Nat → α × α) (s : PSOState (List α) F) :
    updatePopulation b o rnd (s.mapF φ) = (updatePopulation b o rnd s).mapF φ := by
  simp only [updatePopulation, PSOState.mapF, PSOState.mk.injEq, and_true]
  apply List.ext_getElem
  · simp
  · intro k h1 h2
    simp only [List.getElem_mapIdx, List.getElem_map]
    rfl

variable [LT F] [DecidableLT F] [LT L] [DecidableLT L] (hφ : ∀ a b : F, a < b ↔ φ a < φ b)
include hφ

theorem psoBetter_mapF (opt : FitnessOption) (a b : F) : psoBetter opt (φ a) (φ b) = psoBetter opt a b := by
  cases opt <;> simp [psoBetter, hφ]

theorem updatePBest_mapF (opt : FitnessOption) (p : Particle V F) :
    updatePBest opt (p.mapF φ) = (updatePBest opt p).mapF φ := by
  unfold updatePBest
  have : psoBetter opt (p.mapF φ).fitness (p.mapF φ).pBest.fitness =
      psoBetter opt p.fitness p.pBest.fitness := psoBetter_mapF φ hφ opt _ _
  rw [this]
  split <;> rfl

theorem pgBestLoop_mapF (opt : FitnessOption) (n : Nat) : ∀ (i : Nat) (swarm : List (Particle V F)) (cur : Nat),
    pgBestLoop opt n i (swarm.map (Particle.mapF φ)) cur =
      ((pgBestLoop opt n i swarm cur).1.map (Particle.mapF φ), (pgBestLoop opt n i swarm cur).2) := by
  induction n with
  | zero => intro i swarm cur; rfl
  | succ n ih =>
    intro i swarm cur
    have hmod : (swarm.map (Particle.mapF φ)).modify i (updatePBest opt) =
        (swarm.modify i (updatePBest opt)).map (Particle.mapF φ) := by
      apply List.ext_getElem
      · simp
      · intro k h1 h2
        simp only [List.getElem_modify, List.getElem_map]
        split
        · rw [updatePBest_mapF φ hφ]
        · rfl
    unfold pgBestLoop
    simp only [hmod, List.getElem?_map]
    cases h1 : (swarm.modify i (updatePBest opt))[i]? with
    | none => simp
    | some p =>
      cases h2 : (swarm.modify i (updatePBest opt))[cur]? with
      | none => simp
      | some q =>
        simp only [Option.map_some]
        have : psoBetter opt (p.mapF φ).pBest.fitness (q.mapF φ).pBest.fitness =
          psoBetter opt p.pBest.fitness q.pBest.fitness := psoBetter_mapF φ hφ opt _ _
        rw [this, ih]

theorem updatePGBest_mapF (opt : FitnessOption) (s : PSOState V F) :
    updatePGBest opt (s.mapF φ) = mapOut (PSOState.mapF φ) (updatePGBest opt s) := by
  obtain ⟨swarm, g, fail⟩ := s
  cases swarm with
  | nil => rfl
  | cons p ps =>
    unfold updatePGBest
    have hl := pgBestLoop_mapF φ hφ opt (p :: ps).length 0 (p :: ps) 0
    simp only [PSOState.mapF, List.map_cons, List.length_cons, List.length_map] at hl ⊢
    rw [hl]
    simp only [List.getElem?_map]
    cases hq : (pgBestLoop opt (ps.length + 1) 0 (p :: ps) 0).1[(pgBestLoop opt (ps.length + 1) 0 (p :: ps) 0).2]? with
    | none => rfl
    | some q =>
      simp only [Option.map_some]
      have : psoBetter opt (q.mapF φ).pBest.fitness (g.mapF φ).fitness =
          psoBetter opt q.pBest.fitness g.fitness := psoBetter_mapF φ hφ opt _ _
      rw [this]
      split <;> rfl

theorem stateAfter_mapF (opt : FitnessOption) (f : V → F) (move : Nat → PSOState V F → PSOState V F)
    (move' : Nat → PSOState V L → PSOState V L) (hm : ∀ g s, move' g (s.mapF φ) = (move g s).mapF φ)
    (s : PSOState V F) (i : Nat) :
    stateAfter (psoSolver opt (φ ∘ f) move') (s.mapF φ) i =
      mapOut (PSOState.mapF φ) (stateAfter (psoSolver opt f move) s i) := by
  induction i with
  | zero =>
    simp only [stateAfter, psoSolver]
    rw [← updatePGBest_mapF φ hφ, ← compute_mapF]; rfl
  | succ i ih =>
    simp only [stateAfter]
    rw [ih]
    apply mapOut_bind
    intro t
    simp only [psoSolver]
    rw [hm, compute_mapF, updatePGBest_mapF φ hφ]

end map

/-! ### stored fitness values belong to the stored positions, whatever `<` is -/

section consistent
variable {V F : Type} [LT F] [DecidableLT F] (opt : FitnessOption) (f : V → F)

/-- Every stored fitness is that of the stored position. -/
def AllTrue (s : PSOState V F) : Prop :=
  (∀ p ∈ s.swarm, p.pBest.fitness = f p.pBest.position) ∧ s.gBest.fitness = f s.gBest.position

theorem pgBestLoop_true (n : Nat) :
    ∀ (i : Nat) (swarm : List (Particle V F)) (cur : Nat),
      (∀ p ∈ swarm, p.fitness = f p.position ∧ p.pBest.fitness = f p.pBest.position) →
      ∀ p ∈ (pgBestLoop opt n i swarm cur).1, p.fitness = f p.position ∧ p.pBest.fitness = f p.pBest.position := by
  induction n with
  | zero => intro i swarm cur h p hp; exact h p hp
  | succ n ih =>
    intro i swarm cur h
    have hm : ∀ p ∈ swarm.modify i (updatePBest opt),
        p.fitness = f p.position ∧ p.pBest.fitness = f p.pBest.position := by
      intro p hp
      obtain ⟨k, hk, hkp⟩ := List.getElem_of_mem hp
      rw [List.getElem_modify] at hkp
      have hk' : k < swarm.length := by simpa using hk
      have hmem := h _ (List.getElem_mem hk')
      split at hkp
      · subst hkp
        unfold updatePBest
        split
        · exact ⟨hmem.1, hmem.1⟩
        · exact hmem
      · subst hkp; exact hmem
    intro p hp
    unfold pgBestLoop at hp
    simp only at hp
    split at hp
    · exact ih _ _ _ hm p hp
    · exact hm p hp

theorem update_true {s t : PSOState V F} (hs : AllTrue f s)
    (h : updatePGBest opt (psoComputeAllFitness f s) = .ok t) : AllTrue f t := by
  have h0 : ∀ p ∈ (psoComputeAllFitness f s).swarm,
      p.fitness = f p.position ∧ p.pBest.fitness = f p.pBest.position := by
    intro p hp
    obtain ⟨q, hq, rfl⟩ := List.mem_map.1 hp
    exact ⟨rfl, hs.1 q hq⟩
  unfold updatePGBest at h
  split at h
  · cases h
  · have hall := pgBestLoop_true opt f (psoComputeAllFitness f s).swarm.length 0
      (psoComputeAllFitness f s).swarm 0 h0
    simp only at h
    split at h
    · cases h
    · rename_i q hq
      split at h
      · cases h
        exact ⟨fun p hp => (hall p hp).2, (hall q (List.mem_of_getElem? hq)).2⟩
      · cases h
        exact ⟨fun p hp => (hall p hp).2, hs.2⟩

theorem stateAfter_true {move : Nat → PSOState V F → PSOState V F} (hm : ∀ g, OnlyMoves (move g))
    {s : PSOState V F} (hs : AllTrue f s) :
    ∀ i t, stateAfter (psoSolver opt f move) s i = .ok t → AllTrue f t := by
  have hmove : ∀ g t, AllTrue f t → AllTrue f (move g t) := by
    intro g t ht
    refine ⟨fun p hp => ?_, by rw [(hm g).gBest]; exact ht.2⟩
    have : p.pBest ∈ t.swarm.map (·.pBest) := by
      rw [← (hm g).pBest]; exact List.mem_map_of_mem hp
    obtain ⟨q, hq, hqp⟩ := List.mem_map.1 this
    rw [← hqp]; exact ht.1 q hq
  intro i
  induction i with
  | zero => intro t h; exact update_true opt f (s := { s with fail := 0 }) hs h
  | succ i ih =>
    intro t h
    obtain ⟨u, hu, h⟩ := Out.bind_eq_ok.1 h
    exact update_true opt f (hmove _ u (ih u hu)) h

end consistent

/-- A `double` (or `float`) that is not NaN. -/
def Num (fm : Fmt) : Type := { x : Fl // x ≠ .nan }

instance (fm : Fmt) : LT (Num fm) := ⟨fun x y => x.1.lt y.1 = true⟩
instance (fm : Fmt) : DecidableLT (Num fm) := fun _ _ => inferInstanceAs (Decidable (_ = true))

section ieee
variable {fm : Fmt} {α : Type} [Add α] [Sub α] [Mul α] [Neg α] [LT α] [DecidableLT α]
  (b : PSOBox α) (o : PSOFactors α) (rnd : Nat → Nat → α × α) (opt : FitnessOption)

/-- The solver after generation `i` of a run with the default operators. -/
abbrev psoAfterG {F : Type} [LT F] [DecidableLT F] (f : List α → F) (s0 : PSOState (List α) F) (i : Nat) :
    Out (PSOState (List α) F) :=
  stateAfter (psoSolver opt f fun g => updatePopulation b o (rnd g)) s0 i

/-- C95: a PSO run with a `double` fitness function that never returns NaN (positions of any number type,
`double` included).  After every generation the run has not failed; the global best carries the fitness
of its position, a position that some particle had; and no position any particle ever had is better.
Each personal best carries the fitness of its position, and no position that particle ever had is better. -/
theorem pso_best_of_history_ieee (f : List α → Num fm) (K : Nat) (init : Nat → List α × List α)
    (s0 : PSOState (List α) (Num fm)) (h0 : psoInitializePop K init f = .ok s0) (j : Nat) :
    ∃ t, psoAfterG b o rnd opt f s0 j = .ok t ∧ t.swarm.length = K ∧
      t.gBest.fitness = f t.gBest.position ∧
      (∃ i ≤ j, ∃ u, psoAfterG b o rnd opt f s0 i = .ok u ∧
        ∃ p ∈ u.swarm, p.position = t.gBest.position) ∧
      (∀ i ≤ j, ∀ u, psoAfterG b o rnd opt f s0 i = .ok u → ∀ p ∈ u.swarm,
        ¬ Better opt (extended fm (f p.position).1) (extended fm t.gBest.fitness.1)) ∧
      (∀ (k : Nat) (q : Particle (List α) (Num fm)), t.swarm[k]? = some q →
        q.pBest.fitness = f q.pBest.position ∧
        (∃ i ≤ j, ∃ u, psoAfterG b o rnd opt f s0 i = .ok u ∧
          ∃ p, u.swarm[k]? = some p ∧ p.position = q.pBest.position) ∧
        ∀ i ≤ j, ∀ u, psoAfterG b o rnd opt f s0 i = .ok u →
          ∀ p, u.swarm[k]? = some p →
            ¬ Better opt (extended fm (f p.position).1) (extended fm q.pBest.fitness.1)) := by
  let φ : Num fm → WithBot (WithTop ℚ) := fun x => extended fm x.1
  have hφ : ∀ x y : Num fm, x < y ↔ φ x < φ y := by
    intro x y
    show x.1.lt y.1 = true ↔ _
    rw [fl_lt_iff fm]
    exact ⟨fun h => h.2.2, fun h => ⟨x.2, y.2, h⟩⟩
  have h0' : psoInitializePop K init (φ ∘ f) = .ok (s0.mapF φ) := by
    rw [init_mapF, h0]; rfl
  have hst : ∀ i, psoAfter b o rnd opt (φ ∘ f) (s0.mapF φ) i =
      mapOut (PSOState.mapF φ) (psoAfterG b o rnd opt f s0 i) := fun i =>
    stateAfter_mapF φ hφ opt f _ _ (fun g s => updatePopulation_mapF φ b o (rnd g) s) s0 i
  have htrue0 : AllTrue f s0 := by
    obtain ⟨hc, -⟩ := pso_init_consistent K init f s0 h0
    exact ⟨hc.pBest, hc.gBest⟩
  obtain ⟨t', ht', hK, hg, hex, hbest, hpart⟩ :=
    pso_best_of_history b o rnd opt (φ ∘ f) K init (s0.mapF φ) h0' j
  rw [hst] at ht'
  obtain ⟨t, ht, rfl⟩ := mapOut_ok.1 ht'
  have htr : AllTrue f t := stateAfter_true opt f
    (fun g => updatePopulation_onlyMoves b o (rnd g)) htrue0 j t ht
  have hget : ∀ (u : PSOState (List α) (Num fm)) (k : Nat) (p : Particle (List α) (Num fm)),
      u.swarm[k]? = some p → (u.mapF φ).swarm[k]? = some (p.mapF φ) := by
    intro u k p hp
    simp [PSOState.mapF, hp]
  refine ⟨t, ht, by simpa [PSOState.mapF] using hK, htr.2, ?_, ?_, ?_⟩
  · obtain ⟨i, hi, u', hu', p, hp, hpp⟩ := hex
    rw [hst] at hu'
    obtain ⟨u, hu, rfl⟩ := mapOut_ok.1 hu'
    obtain ⟨p', hp', rfl⟩ := List.mem_map.1 hp
    exact ⟨i, hi, u, hu, p', hp', hpp⟩
  · intro i hi u hu p hp
    exact hbest i hi (u.mapF φ) (by rw [hst, hu]; rfl) (p.mapF φ) (List.mem_map_of_mem hp)
  · intro k q hq
    obtain ⟨-, ⟨i, hi, u', hu', p, hp, hpp⟩, h3⟩ := hpart k (q.mapF φ) (hget t k q hq)
    refine ⟨htr.1 q (List.mem_of_getElem? hq), ?_, ?_⟩
    · rw [hst] at hu'
      obtain ⟨u, hu, rfl⟩ := mapOut_ok.1 hu'
      simp only [PSOState.mapF, List.getElem?_map, Option.map_eq_some_iff] at hp
      obtain ⟨p', hp', rfl⟩ := hp
      exact ⟨i, hi, u, hu, p', hp', hpp⟩
    · intro i hi u hu p hp
      exact h3 i hi (u.mapF φ) (by rw [hst, hu]; rfl) (p.mapF φ) (hget u k p hp)

/-- C95 (NaN): if the fitness of the first particle's starting position is NaN, the solver never finds
anything: after every generation the reported best is still that position with fitness NaN – whatever the
other particles find – and every generation counts as a failure. -/
theorem pso_nan_stuck (f : List α → Dbl fm) (K : Nat) (init : Nat → List α × List α)
    (s0 : PSOState (List α) (Dbl fm)) (h0 : psoInitializePop K init f = .ok s0)
    (hnan : (f (init 0).1).val = .nan) (j : Nat) (t : PSOState (List α) (Dbl fm))
    (ht : psoAfterG b o rnd opt f s0 j = .ok t) :
    t.gBest.position = (init 0).1 ∧ t.gBest.fitness.val = .nan ∧ t.fail = j + 1 := by
  have hstep : ∀ s s' : PSOState (List α) (Dbl fm), s.gBest.fitness.val = .nan →
      updatePGBest opt (psoComputeAllFitness f s) = .ok s' → s'.gBest = s.gBest ∧ s'.fail = s.fail + 1 := by
    intro s s' hn h
    have hb : ∀ x : Dbl fm, psoBetter opt x s.gBest.fitness = false := by
      intro x
      have h1 : ¬ s.gBest.fitness < x := by
        show ¬ s.gBest.fitness.val.lt x.val = true
        rw [hn]; simp [Fl.lt]
      have h2 : ¬ x < s.gBest.fitness := by
        show ¬ x.val.lt s.gBest.fitness.val = true
        rw [hn]; cases x.val <;> simp [Fl.lt]
      cases opt <;> simp [psoBetter, h1, h2]
    unfold updatePGBest at h
    split at h
    · cases h
    · simp only at h
      split at h
      · cases h
      · split at h
        · rename_i hc
          have := hb
          simp only [psoComputeAllFitness] at hc
          rw [this] at hc; cases hc
        · cases h; exact ⟨rfl, rfl⟩
  have hinit : s0.gBest.position = (init 0).1 ∧ s0.gBest.fitness.val = .nan := by
    unfold psoInitializePop at h0
    cases K with
    | zero => cases h0
    | succ K =>
      rw [List.range_succ_eq_map] at h0
      simp only [List.map_cons] at h0
      cases h0
      exact ⟨rfl, hnan⟩
  induction j generalizing t with
  | zero =>
    obtain ⟨h1, h2⟩ := hstep { s0 with fail := 0 } t hinit.2 ht
    rw [h1]; exact ⟨hinit.1, hinit.2, h2⟩
  | succ j ih =>
    obtain ⟨u, hu, h⟩ := Out.bind_eq_ok.1 ht
    obtain ⟨i1, i2, i3⟩ := ih u hu
    obtain ⟨h1, h2⟩ := hstep (updatePopulation b o (rnd (j + 1)) u) t i2 h
    rw [h1]
    exact ⟨i1, i2, by rw [h2]; show u.fail + 1 = _; rw [i3]⟩

end ieee

/-- Non-vacuity: three particles on the line, fitness `x` as a `double`; and with NaN at the first one. -/
def demoSwarmInit : Nat → List (Dbl binary64) × List (Dbl binary64) :=
  fun k => ([⟨.ofNat binary64 k⟩], [⟨.fin false 0⟩])

example : ∃ s0, psoInitializePop 3 demoSwarmInit
    (fun v => (⟨.ofNat binary64 v.length, by simp [Fl.ofNat]⟩ : Num binary64)) = .ok s0 := ⟨_, rfl⟩

example : (psoInitializePop 3 demoSwarmInit
      (fun v => if v = [⟨.fin false 0⟩] then (⟨.nan⟩ : Dbl binary64) else v.getD 0 ⟨.nan⟩) >>= fun s0 =>
      psoAfterG demoBoxFl demoFactorsFl (fun _ _ => (⟨.fin false 0⟩, ⟨.fin false 0⟩)) .lessBetter
        (fun v => if v = [⟨.fin false 0⟩] then (⟨.nan⟩ : Dbl binary64) else v.getD 0 ⟨.nan⟩) s0 4).satisfies
    (fun t => decide (t.gBest.fitness.val = .nan ∧ t.fail = 5)) = true := by decide +kernel

end Heu
