import Verif.Props.Session
import Verif.Props.PSO
import Verif.Props.AOS

/-!
# C109, C111: repeated runs of the particle swarm and of the atomic orbital search
-/

set_option linter.unusedSectionVars false
set_option linter.unusedVariables false

namespace Heu
open Spec

/-! ## Particle swarm -/

section
variable {α F : Type} [Add α] [Sub α] [Mul α] [Neg α] [LT α] [DecidableLT α] [LinearOrder F]
variable (opt : FitnessOption)

theorem psoSession_snoc (x : PSOObj α F) (cs : List (PSOCall α F)) (c : PSOCall α F) :
    psoSession opt x (cs ++ [c]) = psoSession opt x cs >>= fun y => psoCall opt y c := by
  induction cs generalizing x with
  | nil =>
    show (psoCall opt x c >>= fun y => Out.ok y) = psoCall opt x c
    cases psoCall opt x c <;> rfl
  | cons d cs ih =>
    show (psoCall opt x d >>= fun y => psoSession opt y (cs ++ [c])) = _
    show _ = (psoCall opt x d >>= fun y => psoSession opt y cs) >>= _
    cases psoCall opt x d with
    | ok y => exact ih y
    | ub => rfl
    | timeout => rfl

theorem psoUnchanged_snoc {cs : List (PSOCall α F)} {c : PSOCall α F} (hc : ¬ PSOCall.IsInit c)
    (h : PSOFitnessUnchanged (cs ++ [c])) : PSOFitnessUnchanged cs := by
  intro b f a hcs
  obtain ⟨d, hd, hdi⟩ := h b f (a ++ [c]) (by rw [hcs]; simp)
  rcases List.mem_append.1 hd with hd | hd
  · exact ⟨d, hd, hdi⟩
  · rw [List.mem_singleton] at hd
    subst hd
    exact absurd hdi hc

theorem psoSize_snoc (cs : List (PSOCall α F)) (c : PSOCall α F) :
    psoPopulationSize (cs ++ [c]) = match c with | .setOption K' _ _ => K' | _ => psoPopulationSize cs := by
  unfold psoPopulationSize
  rw [List.foldl_append]
  cases c <;> rfl

theorem psoCount_fst (cs : List (PSOCall α F)) : ∀ (p : Nat × Nat),
    (cs.foldl (fun p c => match c with
      | .setOption K' _ _ => (K', p.2)
      | .setFitness _ => p
      | .initializePop _ => (p.1, p.1)
      | .run _ _ _ => p) p).1 =
    cs.foldl (fun K c => match c with | .setOption K' _ _ => K' | _ => K) p.1 := by
  induction cs with
  | nil => intro p; rfl
  | cons c cs ih =>
    intro p
    rw [List.foldl_cons, List.foldl_cons, ih]
    cases c <;> rfl

theorem psoCount_snoc (cs : List (PSOCall α F)) (c : PSOCall α F) :
    psoCount (cs ++ [c]) = match c with
      | .initializePop _ => psoPopulationSize cs
      | _ => psoCount cs := by
  have h := psoCount_fst cs (200, 0)
  unfold psoCount psoPopulationSize
  rw [List.foldl_append]
  cases c with
  | setOption K G F => rfl
  | setFitness f => rfl
  | initializePop i => exact h
  | run b o rnd => rfl

theorem pso_run_total (f : List α → F) (b : PSOBox α) (o : PSOFactors α) (rnd : Nat → Nat → α × α)
    (maxGen maxFail : Nat) (s : PSOState (List α) F) (hs : s.swarm ≠ []) :
    ∃ r, psoRun opt f (fun g => updatePopulation b o (rnd g)) maxGen maxFail (maxGen + 1) s = .ok r := by
  rw [psoRun_eq]
  refine gaLoop_total _ (fun t : PSOState (List α) F => t.swarm ≠ []) ?_ (by omega) (by omega) hs
  intro g t ht
  have ht' : (psoComputeAllFitness f t).swarm ≠ [] := by simpa [psoComputeAllFitness] using ht
  obtain ⟨u, hu, hsw, -⟩ := updatePGBest_spec opt (psoComputeAllFitness f t) ht'
  refine ⟨u, hu, ⟨_, rfl⟩, ?_⟩
  have hl := onlyMoves_length (updatePopulation_onlyMoves (F := F) b o (rnd (g + 1))) u
  show (updatePopulation b o (rnd (g + 1)) u).swarm ≠ []
  rw [← List.length_pos_iff, hl, hsw, List.length_map]
  exact List.length_pos_iff.2 ht'

theorem pso_run_length (f : List α → F) (b : PSOBox α) (o : PSOFactors α) (rnd : Nat → Nat → α × α)
    (s : PSOState (List α) F) (hs : s.swarm ≠ []) (i : Nat) : ∀ (t : PSOState (List α) F),
    psoAfter b o rnd opt f s i = .ok t → t.swarm.length = s.swarm.length := by
  have hgen : ∀ u t : PSOState (List α) F, u.swarm ≠ [] → updatePGBest opt (psoComputeAllFitness f u) = .ok t →
      t.swarm.length = u.swarm.length := by
    intro u t hu h
    have hu' : (psoComputeAllFitness f u).swarm ≠ [] := by simpa [psoComputeAllFitness] using hu
    obtain ⟨t', ht', hsw, -⟩ := updatePGBest_spec opt (psoComputeAllFitness f u) hu'
    rw [ht'] at h; cases h
    rw [hsw]; simp [psoComputeAllFitness]
  induction i with
  | zero => intro t ht; exact hgen { s with fail := 0 } t hs ht
  | succ i ih =>
    intro t ht
    obtain ⟨u, hu, h⟩ := Out.bind_eq_ok.1 ht
    have hl := ih u hu
    have hm := onlyMoves_length (updatePopulation_onlyMoves (F := F) b o (rnd (i + 1))) u
    have hne : (updatePopulation b o (rnd (i + 1)) u).swarm ≠ [] := by
      rw [← List.length_pos_iff, hm, hl]; exact List.length_pos_iff.2 hs
    rw [hgen _ t hne h, hm, hl]

theorem pso_run_keeps (f : List α → F) (b : PSOBox α) (o : PSOFactors α) (rnd : Nat → Nat → α × α)
    (maxGen maxFail : Nat) (s : PSOState (List α) F) (r : RunResult (PSOState (List α) F) F)
    (hr : psoRun opt f (fun g => updatePopulation b o (rnd g)) maxGen maxFail (maxGen + 1) s = .ok r)
    (hs : s.swarm ≠ []) :
    r.state.swarm.length = s.swarm.length ∧ (Consistent f s → Consistent f r.state) := by
  rw [psoRun_eq] at hr
  obtain ⟨-, hst, -⟩ := run_record _ _ _ _ _ _ hr
  refine ⟨pso_run_length opt f b o rnd s hs _ _ hst, fun hc => ?_⟩
  obtain ⟨t, ht, htc, -⟩ := pso_step opt f (fun g => updatePopulation b o (rnd g))
    (fun g => updatePopulation_onlyMoves b o (rnd g)) hc r.generation
  rw [hst] at ht; cases ht
  exact htc

theorem pso_run_empty (f : List α → F) (b : PSOBox α) (o : PSOFactors α) (rnd : Nat → Nat → α × α)
    (maxGen maxFail : Nat) (s : PSOState (List α) F) (hs : s.swarm = []) :
    psoRun opt f (fun g => updatePopulation b o (rnd g)) maxGen maxFail (maxGen + 1) s = .ub := by
  unfold psoRun
  simp only [psoLoop, psoComputeAllFitness, hs, List.map_nil]
  rfl

/-- What is true of a swarm after any history of calls that returned. -/
structure PSOReachable (cs : List (PSOCall α F)) (x : PSOObj α F) : Prop where
  K : x.K = psoPopulationSize cs
  count : x.st.swarm.length = psoCount cs
  init : x.st.swarm ≠ [] ↔ ∃ c ∈ cs, PSOCall.IsInit c
  cache : PSOFitnessUnchanged cs → x.st.swarm ≠ [] → Consistent x.f x.st

/-- `populationSize` is always positive. -/
def PSOSizes (cs : List (PSOCall α F)) : Prop := ∀ K G F, PSOCall.setOption K G F ∈ cs → 1 ≤ K

theorem psoSize_pos {cs : List (PSOCall α F)} (h : PSOSizes cs) : 1 ≤ psoPopulationSize cs := by
  induction cs using List.reverseRecOn with
  | nil => show 1 ≤ 200; omega
  | append_singleton cs c ih =>
    have hi := ih (fun K G F hm => h K G F (List.mem_append_left _ hm))
    rw [psoSize_snoc]
    cases c with
    | setOption K G F => exact h K G F (by simp)
    | _ => exact hi

theorem initBeforeRuns_snoc {cs : List (PSOCall α F)} {c : PSOCall α F} :
    InitBeforeRuns (cs ++ [c]) ↔ InitBeforeRuns cs ∧
      ∀ b o rnd, c = .run b o rnd → ∃ d ∈ cs, PSOCall.IsInit d := by
  constructor
  · intro h
    refine ⟨fun b' b o rnd a hcs => h b' b o rnd (a ++ [c]) (by rw [hcs]; simp), ?_⟩
    rintro b o rnd rfl
    exact h cs b o rnd [] rfl
  · rintro ⟨h1, h2⟩ b' b o rnd a hcs
    rcases List.eq_nil_or_concat a with rfl | ⟨a', d, rfl⟩
    · obtain ⟨h, h'⟩ := List.append_inj' hcs rfl
      subst h
      exact h2 b o rnd (by simpa using h')
    · rw [List.concat_eq_append, ← List.cons_append, ← List.append_assoc] at hcs
      obtain ⟨h, -⟩ := List.append_inj' hcs rfl
      exact h1 b' b o rnd a' h

theorem pso_session_cases (f : List α → F) (garbage : Point (List α) F × Nat × Nat)
    (cs : List (PSOCall α F)) (hz : PSOSizes cs) :
    (InitBeforeRuns cs → ∃ x, psoSession opt (.new f garbage) cs = .ok x ∧ PSOReachable cs x) ∧
    (¬ InitBeforeRuns cs → psoSession opt (.new f garbage) cs = .ub) := by
  induction cs using List.reverseRecOn with
  | nil =>
    refine ⟨fun _ => ⟨_, rfl, rfl, rfl, ?_, ?_⟩, fun h => absurd ?_ h⟩
    · simp [PSOObj.new]
    · intro _ h; exact absurd rfl h
    · intro b' b o rnd a h; simp at h
  | append_singleton cs c ih =>
    have hz' : PSOSizes cs := fun K G F hm => hz K G F (List.mem_append_left _ hm)
    obtain ⟨ih1, ih2⟩ := ih hz'
    rw [psoSession_snoc, initBeforeRuns_snoc]
    by_cases hI : InitBeforeRuns cs
    · obtain ⟨x, hx, hrx⟩ := ih1 hI
      rw [hx, Out.ok_bind]
      have hpos := psoSize_pos hz'
      cases c with
      | setOption K G L =>
        have hni : ¬ PSOCall.IsInit (PSOCall.setOption K G L : PSOCall α F) := by rintro ⟨i, h⟩; cases h
        refine ⟨fun _ => ⟨_, rfl, ?_, ?_, ?_, ?_⟩, fun h => absurd ⟨hI, by intro b o rnd h; cases h⟩ h⟩
        · rw [psoSize_snoc]
        · rw [psoCount_snoc]; exact hrx.count
        · refine hrx.init.trans ⟨?_, ?_⟩
          · rintro ⟨d, hd, h⟩; exact ⟨d, List.mem_append_left _ hd, h⟩
          · rintro ⟨d, hd, h⟩
            rcases List.mem_append.1 hd with hd | hd
            · exact ⟨d, hd, h⟩
            · rw [List.mem_singleton] at hd; subst hd; exact absurd h hni
        · intro hu hne; exact hrx.cache (psoUnchanged_snoc hni hu) hne
      | setFitness g =>
        have hni : ¬ PSOCall.IsInit (PSOCall.setFitness g) := by rintro ⟨i, h⟩; cases h
        refine ⟨fun _ => ⟨_, rfl, ?_, ?_, ?_, ?_⟩, fun h => absurd ⟨hI, by intro b o rnd h; cases h⟩ h⟩
        · rw [psoSize_snoc]; exact hrx.K
        · rw [psoCount_snoc]; exact hrx.count
        · refine hrx.init.trans ⟨?_, ?_⟩
          · rintro ⟨d, hd, h⟩; exact ⟨d, List.mem_append_left _ hd, h⟩
          · rintro ⟨d, hd, h⟩
            rcases List.mem_append.1 hd with hd | hd
            · exact ⟨d, hd, h⟩
            · rw [List.mem_singleton] at hd; subst hd; exact absurd h hni
        · intro hu
          obtain ⟨d, hd, -⟩ := hu cs g [] rfl
          cases hd
      | initializePop init =>
        obtain ⟨K, hK⟩ : ∃ K, x.K = K + 1 := ⟨x.K - 1, by rw [hrx.K]; omega⟩
        obtain ⟨s, hs⟩ : ∃ s, psoInitializePop x.K init x.f = .ok s := by
          rw [hK]; unfold psoInitializePop
          simp only [List.range_succ_eq_map, List.map_cons]
          exact ⟨_, rfl⟩
        obtain ⟨hc, hl, -⟩ := pso_init_consistent x.K init x.f s hs
        have hcall : psoCall opt x (.initializePop init) = .ok { x with st := s, generation := 0 } := by
          show (psoInitializePop x.K init x.f >>= _) = _
          rw [hs]; rfl
        refine ⟨fun _ => ⟨_, hcall, ?_, ?_, ?_, ?_⟩, fun h => absurd ⟨hI, by intro b o rnd h; cases h⟩ h⟩
        · rw [psoSize_snoc]; exact hrx.K
        · rw [psoCount_snoc, ← hrx.K]; exact hl
        · exact ⟨fun _ => ⟨_, by simp, ⟨init, rfl⟩⟩, fun _ => hc.nonempty⟩
        · intro _ _; exact hc
      | run b o rnd =>
        have hni : ¬ PSOCall.IsInit (PSOCall.run b o rnd : PSOCall α F) := by rintro ⟨i, h⟩; cases h
        refine ⟨fun hR => ?_, fun hR => ?_⟩
        · have hne := hrx.init.2 (hR.2 b o rnd rfl)
          obtain ⟨r, hr⟩ := pso_run_total opt x.f b o rnd x.maxGen x.maxFail x.st hne
          obtain ⟨hl, hc⟩ := pso_run_keeps opt x.f b o rnd x.maxGen x.maxFail x.st r hr hne
          have hcall : psoCall opt x (.run b o rnd) =
              .ok { x with st := r.state, generation := r.generation, record := r.record } := by
            show (psoRun opt x.f _ x.maxGen x.maxFail (x.maxGen + 1) x.st >>= _) = _
            rw [hr]; rfl
          refine ⟨_, hcall, ?_, ?_, ?_, ?_⟩
          · rw [psoSize_snoc]; exact hrx.K
          · rw [psoCount_snoc]; exact hl.trans hrx.count
          · refine ⟨fun _ => ?_, fun _ => ?_⟩
            · obtain ⟨d, hd, h⟩ := hR.2 b o rnd rfl
              exact ⟨d, List.mem_append_left _ hd, h⟩
            · show r.state.swarm ≠ []
              rw [← List.length_pos_iff, hl]; exact List.length_pos_iff.2 hne
          · intro hu _; exact hc (hrx.cache (psoUnchanged_snoc hni hu) hne)
        · have hno : ¬ ∃ d ∈ cs, PSOCall.IsInit d := fun h => hR ⟨hI, fun _ _ _ _ => h⟩
          have hemp : x.st.swarm = [] := by
            by_contra h; exact hno (hrx.init.1 h)
          show (psoRun opt x.f _ x.maxGen x.maxFail (x.maxGen + 1) x.st >>= _) = _
          rw [pso_run_empty opt x.f b o rnd _ _ _ hemp]; rfl
    · rw [ih2 hI]
      exact ⟨fun h => absurd h.1 hI, fun _ => rfl⟩

/-- **C109**, particle swarm: any sequence of calls with positive population sizes either returns or has
undefined behaviour, and it has undefined behaviour exactly when some `run` is not preceded by an
`initializePop`.  The swarm has the population size that was set at the last `initializePop` (a later
`setOption` does not change it). -/
theorem pso_session (f : List α → F) (garbage : Point (List α) F × Nat × Nat) (cs : List (PSOCall α F))
    (hz : PSOSizes cs) :
    (InitBeforeRuns cs ↔ ∃ x, psoSession opt (.new f garbage) cs = .ok x) ∧
    (¬ InitBeforeRuns cs ↔ psoSession opt (.new f garbage) cs = .ub) ∧
    ∀ x, psoSession opt (.new f garbage) cs = .ok x → x.st.swarm.length = psoCount cs := by
  obtain ⟨h1, h2⟩ := pso_session_cases opt f garbage cs hz
  by_cases hI : InitBeforeRuns cs
  · obtain ⟨x, hx, hr⟩ := h1 hI
    refine ⟨⟨fun _ => ⟨x, hx⟩, fun _ => hI⟩, ⟨fun h => absurd hI h, fun h => ?_⟩, ?_⟩
    · rw [hx] at h; cases h
    · intro y hy; rw [hx] at hy; cases hy; exact hr.count
  · have hub := h2 hI
    refine ⟨⟨fun h => absurd h hI, ?_⟩, ⟨fun _ => hub, fun _ => hI⟩, ?_⟩
    · rintro ⟨x, hx⟩; rw [hub] at hx; cases hx
    · intro x hx; rw [hub] at hx; cases hx

/-- **C109**, particle swarm: let any history end with a `run`.  The counters and the record describe this
last run only; if the fitness function was not changed since the last `initializePop`, the reported best
fitness is the true fitness of the reported position, it is the last record entry, every particle carries its
true fitness and nobody is at a better position; and no entry of the record is worse than the best fitness
that was reported before the run, so calling `run` again never loses the best. -/
theorem pso_session_run (f : List α → F) (garbage : Point (List α) F × Nat × Nat) (cs : List (PSOCall α F))
    (hz : PSOSizes cs) (b : PSOBox α) (o : PSOFactors α) (rnd : Nat → Nat → α × α) (x z : PSOObj α F)
    (hx : psoSession opt (.new f garbage) cs = .ok x) (hz' : psoCall opt x (.run b o rnd) = .ok z) :
    z.record.length = z.generation + 1 ∧ z.generation ≤ z.maxGen ∧
    (z.generation < z.maxGen → 0 < z.maxFail ∧ z.maxFail < z.st.fail) ∧
    z.st.swarm.length = x.st.swarm.length ∧
    (PSOFitnessUnchanged cs →
      z.st.gBest.fitness = z.f z.st.gBest.position ∧
      z.record.getLast? = some z.st.gBest.fitness ∧
      (∀ p ∈ z.st.swarm, p.fitness = z.f p.position ∧ ¬ Better opt (z.f p.position) z.st.gBest.fitness) ∧
      ∀ c ∈ z.record, ¬ Better opt x.st.gBest.fitness c) := by
  have hI : InitBeforeRuns cs := (pso_session opt f garbage cs hz).1.2 ⟨x, hx⟩
  obtain ⟨x', hx', hrx⟩ := (pso_session_cases opt f garbage cs hz).1 hI
  rw [hx] at hx'; cases hx'
  by_cases hemp : x.st.swarm = []
  · exfalso
    change (psoRun opt x.f _ x.maxGen x.maxFail (x.maxGen + 1) x.st >>= _) = _ at hz'
    rw [pso_run_empty opt x.f b o rnd _ _ _ hemp] at hz'; cases hz'
  obtain ⟨r, hr, hzr⟩ := Out.bind_eq_ok.1 hz'
  cases hzr
  obtain ⟨hl, -⟩ := pso_run_keeps opt x.f b o rnd x.maxGen x.maxFail x.st r hr hemp
  rw [psoRun_eq] at hr
  obtain ⟨a1, a2, -, a4⟩ := run_stops _ _ _ _ _ _ hr
  obtain ⟨b1, b2, b3⟩ := run_record _ _ _ _ _ _ hr
  refine ⟨b1, a1, a2, hl, fun hu => ?_⟩
  have hc := hrx.cache hu hemp
  obtain ⟨t, ht, htc, -, hall, -⟩ := pso_step opt x.f (fun g => updatePopulation b o (rnd g))
    (fun g => updatePopulation_onlyMoves b o (rnd g)) hc r.generation
  rw [b2] at ht; cases ht
  refine ⟨htc.gBest, ?_, ?_, ?_⟩
  · obtain ⟨t, ht, hb⟩ := b3 r.generation (by omega)
    rw [b2] at ht; cases ht
    have hb' : r.state.gBest.fitness = r.record[r.generation] := by simpa [psoSolver] using hb
    show r.record.getLast? = some r.state.gBest.fitness
    rw [List.getLast?_eq_getElem?, b1, hb']
    exact List.getElem?_eq_getElem (by omega)
  · intro p hp
    obtain ⟨h1, h2, h3⟩ := hall p hp
    exact ⟨h1, nb_trans opt h2 h3⟩
  · intro c hcm
    obtain ⟨i, hi, rfl⟩ := List.getElem_of_mem hcm
    obtain ⟨t, ht, hb⟩ := b3 i hi
    have hb' : t.gBest.fitness = r.record[i] := by simpa [psoSolver] using hb
    show ¬ Better opt x.st.gBest.fitness r.record[i]
    rw [← hb']
    obtain ⟨t', ht', -, -, -, -, -, -, h, -⟩ := pso_step opt x.f (fun g => updatePopulation b o (rnd g))
      (fun g => updatePopulation_onlyMoves b o (rnd g)) hc i
    rw [ht] at ht'; cases ht'
    exact h

/-- **C108**, particle swarm: if the fitness function is changed without `initializePop` and the new function is
nowhere better than the old best value, every later `run` reports the old best: its position with the value of
the *old* function. -/
theorem pso_stale_fitness (f f' : List α → F) (x z : PSOObj α F) (hc : Consistent f x.st)
    (hp : ∀ p ∈ x.st.swarm, ¬ Better opt p.pBest.fitness x.st.gBest.fitness)
    (hf' : ∀ v, ¬ Better opt (f' v) x.st.gBest.fitness) (b : PSOBox α) (o : PSOFactors α)
    (rnd : Nat → Nat → α × α) (h : psoSession opt x [.setFitness f', .run b o rnd] = .ok z) :
    z.f = f' ∧ z.st.gBest = x.st.gBest ∧ z.st.gBest.fitness = f z.st.gBest.position ∧
    ∀ c ∈ z.record, c = f x.st.gBest.position := by
  change (psoRun opt f' _ x.maxGen x.maxFail (x.maxGen + 1) x.st >>= fun r => _) >>= _ = _ at h
  obtain ⟨y, hy, hyz⟩ := Out.bind_eq_ok.1 h
  cases hyz
  obtain ⟨r, hr, hrz⟩ := Out.bind_eq_ok.1 hy
  cases hrz
  rw [psoRun_eq] at hr
  obtain ⟨b1, b2, b3⟩ := run_record _ _ _ _ _ _ hr
  have hgen : ∀ u t : PSOState (List α) F, u.swarm ≠ [] → u.gBest = x.st.gBest →
      (∀ p ∈ u.swarm, ¬ Better opt p.pBest.fitness x.st.gBest.fitness) →
      updatePGBest opt (psoComputeAllFitness f' u) = .ok t →
      t.swarm ≠ [] ∧ t.gBest = x.st.gBest ∧
      ∀ p ∈ t.swarm, ¬ Better opt p.pBest.fitness x.st.gBest.fitness := by
    intro u t hu hg hpu h
    have hu' : (psoComputeAllFitness f' u).swarm ≠ [] := by simpa [psoComputeAllFitness] using hu
    obtain ⟨t', ht', hsw, -, -, hcase⟩ := updatePGBest_spec opt (psoComputeAllFitness f' u) hu'
    rw [ht'] at h; cases h
    have hall : ∀ p ∈ t.swarm, ¬ Better opt p.pBest.fitness x.st.gBest.fitness := by
      intro p hpm
      rw [hsw] at hpm
      obtain ⟨q, hq, rfl⟩ := List.mem_map.1 hpm
      obtain ⟨q0, hq0, rfl⟩ := List.mem_map.1 hq
      obtain ⟨-, -, -, -, -, h6⟩ := updatePBest_spec opt { q0 with fitness := f' q0.position }
      rcases h6 with h6 | h6
      · rw [h6]; exact hpu q0 hq0
      · rw [h6]; exact hf' _
    refine ⟨by rw [hsw]; simpa using hu', ?_, hall⟩
    rcases hcase with ⟨h1, -⟩ | ⟨h1, -, p, hpm, h2⟩
    · rw [h1]; exact hg
    · exfalso
      rw [← h2] at h1
      apply hall p hpm
      have : (psoComputeAllFitness f' u).gBest = x.st.gBest := hg
      rw [this] at h1; exact h1
  have key : ∀ (i : Nat) (t : PSOState (List α) F), psoAfter b o rnd opt f' x.st i = .ok t →
      t.swarm ≠ [] ∧ t.gBest = x.st.gBest ∧
      ∀ p ∈ t.swarm, ¬ Better opt p.pBest.fitness x.st.gBest.fitness := by
    intro i
    induction i with
    | zero => intro t ht; exact hgen { x.st with fail := 0 } t hc.nonempty rfl hp ht
    | succ i ih =>
      intro t ht
      obtain ⟨u, hu, h⟩ := Out.bind_eq_ok.1 ht
      obtain ⟨h1, h2, h3⟩ := ih u hu
      have hm := updatePopulation_onlyMoves (F := F) b o (rnd (i + 1))
      refine hgen (updatePopulation b o (rnd (i + 1)) u) t ?_ ?_ ?_ h
      · rw [← List.length_pos_iff, onlyMoves_length hm u]; exact List.length_pos_iff.2 h1
      · rw [hm.gBest]; exact h2
      · intro p hpm
        have : p.pBest ∈ u.swarm.map (·.pBest) := by rw [← hm.pBest]; exact List.mem_map_of_mem hpm
        obtain ⟨q, hq, hqp⟩ := List.mem_map.1 this
        rw [← hqp]; exact h3 q hq
  have hfin := key _ _ b2
  refine ⟨rfl, hfin.2.1, ?_, ?_⟩
  · show r.state.gBest.fitness = _
    rw [hfin.2.1]; exact hc.gBest
  · intro c hcm
    obtain ⟨i, hi, rfl⟩ := List.getElem_of_mem hcm
    obtain ⟨t, ht, hb⟩ := b3 i hi
    have hb' : t.gBest.fitness = r.record[i] := by simpa [psoSolver] using hb
    show r.record[i] = _
    rw [← hb', (key i t ht).2.1]; exact hc.gBest

end

/-! ## Atomic orbital search -/

section
variable {α : Type} [Field α] [LinearOrder α] [IsStrictOrderedRing α] [FloorSemiring α]
variable (impl : AOSImpl) (opt : FitnessOption) (o : AOSOption) (b : Box α) (f : List α → α)

/-- **C111** fails.  A second `run()` of an atomic orbital search without `initializePop` in between does not
search: whatever the draws, it makes a single evaluation, generates no electron (the electrons are those the
first run left), leaves `generation()` as it was and appends one more copy of the last entry to the record of
the first run, which is not cleared.  (If it has undefined behaviour, that is because the best electron was
erased, C69; it always ends.) -/
theorem aos_second_run_partial (env env' : Nat → AOSEnv α) (fuel fuel' : Nat) (s0 : AOSState α)
    (hs : AOSReady f s0) (r : RunResult (AOSState α) α)
    (hr : aosRun impl opt o b f env fuel s0 = .ok r) :
    aosRunAgain impl opt o b f env' (fuel' + 1) r ≠ .timeout ∧
    ∀ r', aosRunAgain impl opt o b f env' (fuel' + 1) r = .ok r' →
      r'.generation = r.generation ∧ r'.state.electrons = r.state.electrons ∧
      (∃ e, r.record.getLast? = some e ∧ r'.record = r.record ++ [e]) ∧
      r'.state.early = r.state.early + 1 := by
  obtain ⟨h1, h2, -, h4, h5, t, ht, hsel⟩ := aos_run_result impl opt o b f env fuel s0 r hr
  have hta := aosEval_after hs _ t ht
  obtain ⟨hu1, hu2, hu3, -, -, -⟩ := select_ok hsel
  have hd : DistinctNodes r.state.electrons := by rw [hu1]; exact distinct_filter hta.distinct _
  have hcomp : ∀ c ∈ r.state.electrons, c.2.computed = true ∧ c.2.fitness = f c.2.var := by
    intro c hc; rw [hu1] at hc; exact hta.computed c (kept_sub c hc)
  have hcc : CacheCorrect f r.state.electrons := fun c hc _ => (hcomp c hc).2
  have hlen : r.state.electrons.length ≤ o.electronNum := by
    rw [hu1, kept_length hta.distinct]; exact Nat.min_le_left _ _
  -- the evaluation
  have hev : ∀ w, aosEvaluate opt f r.state = .ok w → w.electrons = r.state.electrons ∧
      w.early = r.state.early + 1 ∧
      ∀ g, deref w.electrons w.best = .ok g → r.record.getLast? = some g.fitness := by
    intro w hw
    obtain ⟨e1, -, -, ⟨c, hcb, hcu⟩, ⟨prev, bst, e3, e4, e5⟩, -⟩ := aosEvaluate_ok hw hd hcc
    have hel : w.electrons = r.state.electrons := by
      rw [e1, computeAllFitness_id fun c hc => (hcomp c hc).1]
    obtain ⟨g0, hg1, hg2, hg3⟩ := hta.deref
    have hpm := deref_ok e3
    rw [hel, hu1, hu2] at hpm
    have hprev : prev = g0 := by
      have := deref_of_mem hta.distinct (kept_sub _ hpm)
      rw [hg1] at this; cases this; rfl
    have hbm := deref_ok e4
    rw [hel] at hbm
    have hb1 := hg3 _ (kept_sub _ (by rw [hu1] at hbm; exact hbm))
    have hbst : bst = c.2 := by
      have hc' : (w.best, c.2) ∈ w.electrons := by rw [← hcb]; exact hcu.1
      have h6 := deref_of_mem (by rw [hel]; exact hd) hc'
      rw [e4] at h6; cases h6; rfl
    have hb2 : ¬ Better opt g0.fitness bst.fitness := by
      rw [hbst]
      have := hcu.2 (t.best, prev) (by rw [hel, hu1]; exact hpm)
      rw [hprev] at this
      exact this
    have heq : g0.fitness = bst.fitness := by
      cases opt <;> simp only [Better, not_lt] at hb1 hb2
      · exact le_antisymm hb1 hb2
      · exact le_antisymm hb2 hb1
    refine ⟨hel, ?_, ?_⟩
    · rw [e5, hprev, if_pos heq]
    · intro g hg
      rw [e4] at hg; cases hg
      have hrl : r.generation < r.record.length := by omega
      obtain ⟨t', g', ht', hg', hge⟩ := h5 r.generation _ (List.getElem?_eq_getElem hrl)
      rw [ht] at ht'; cases ht'
      rw [hg1] at hg'; cases hg'
      rw [List.getLast?_eq_getElem?, h4, ← heq, hge]
      exact List.getElem?_eq_getElem (by omega)
  unfold aosRunAgain
  simp only [aosLoop]
  cases he : aosEvaluate opt f r.state with
  | ub => exact ⟨by simp, fun r' h => by cases h⟩
  | timeout => exact absurd he aosEvaluate_no_timeout
  | ok w =>
    obtain ⟨w1, w2, w3⟩ := hev w he
    rw [Out.ok_bind]
    cases hg : deref w.electrons w.best with
    | ub => exact ⟨by simp, fun r' h => by cases h⟩
    | timeout => exact absurd hg deref_no_timeout
    | ok g =>
      rw [Out.ok_bind]
      cases hsl : selectAndMakeLayers opt o (env' r.generation).sort (env' r.generation).layerNum
          (env' r.generation).gauss w with
      | ub => exact ⟨by simp, fun r' h => by cases h⟩
      | timeout => exact absurd hsl select_no_timeout
      | ok u =>
        rw [Out.ok_bind]
        obtain ⟨v1, -, v3, -, -, -⟩ := select_ok hsl
        have hstop : r.generation ≥ o.maxGeneration ∨ u.early ≥ o.maxEarlyStop := by
          rcases h2 with h | h
          · exact Or.inl (by omega)
          · right; rw [v3, w2]; omega
        rw [if_pos hstop]
        refine ⟨by simp, fun r' h => ?_⟩
        cases h
        refine ⟨rfl, ?_, ⟨g.fitness, w3 g hg, rfl⟩, ?_⟩
        · show u.electrons = _
          have hdw : DistinctNodes w.electrons := by rw [w1]; exact hd
          have hl := kept_length (opt := opt) (o := o) (sort := (env' r.generation).sort) hdw
          rw [v1, ← w1]
          have hsub : (keptElectrons opt o (env' r.generation).sort w).Sublist w.electrons :=
            List.filter_sublist
          refine hsub.eq_of_length ?_
          rw [hl, w1]; exact Nat.min_eq_right hlen
        · show u.early = _
          rw [v3, w2]

end

/-! ## Concrete sessions -/

/-- The dispatch chain as a table, for the evaluation of the examples. -/
theorem dispatched_table :
    dispatchedMethod = fun m => if m = .RunTimeSelectMethod then .EliteReserved else m := by
  funext m
  cases m <;> simp [dispatchedMethod, dispatchFrom, SelectMethod.ofIdx, SelectMethod.toNat]

def demoInitCall (x : ℚ) : SOGACall ℚ ℚ := .initializePop (fun i => x + i) ⟨0, 999, true⟩
def demoRunCall : SOGACall ℚ ℚ :=
  .run (fun _ => demoEnv (Gene ℚ ℚ)) (fun _ => { demoVary with cxSel := fun _ => false }) 5

/-- Two runs, the second after a change of the options and of the method, the population growing from three to
four in between. -/
def demoHistory : List (SOGACall ℚ ℚ) :=
  [.setOption 3 2 0, .setSelectMethod .Truncation, demoInitCall 4, demoRunCall,
    .setFitness (fun x => x ^ 2 + 1), .setOption 4 1 1, demoInitCall 2, .setSelectMethod .EliteReserved]

/-- Non-vacuity of `soga_session`: the draws are legal, the fitness function was set before the last
`initializePop` … -/
example : SOGAValid demoHistory ∧ SOGAFitnessUnchanged demoHistory := by
  refine ⟨?_, ?_⟩
  · intro e v fuel h g
    simp only [demoHistory, demoInitCall, demoRunCall, List.mem_cons, List.not_mem_nil, or_false, reduceCtorEq,
      false_or, or_self, SOGACall.run.injEq] at h
    rw [h.1]; exact demoEnv_valid _
  · intro before f after h
    have hlen := congrArg List.length h
    simp only [demoHistory, List.length_cons, List.length_nil, List.length_append] at hlen
    have h4 : before.length = 4 := by
      have hg := congrArg (fun l => l[before.length]?) h
      simp only [List.getElem?_append_right (le_refl _), Nat.sub_self, List.getElem?_cons_zero] at hg
      have hb : before.length < 8 := by omega
      generalize before.length = n at hg hb
      interval_cases n <;> simp [demoHistory, demoInitCall, demoRunCall] at hg <;> rfl
    have hd := congrArg (List.drop 5) h
    have e1 : (before ++ SOGACall.setFitness f :: after).drop 5 = after := by
      rw [show 5 = before.length + 1 by omega, ← List.drop_drop, List.drop_left]; rfl
    rw [e1] at hd
    exact ⟨demoInitCall 2, by rw [← hd]; simp [demoHistory], ⟨_, _, rfl⟩⟩

/-- … and the run returns. -/
example : (sogaSession .lessBetter (.new (fun x : ℚ => x ^ 2) (77, 78, 79)) (demoHistory ++ [demoRunCall])).satisfies
    (fun x => x.generation == 1 && x.record == [5, 5] && x.bestFitness == .ok 5 && x.result == .ok 2
      && x.st.pop.length == 4) = true := by
  simp only [demoHistory, List.cons_append, List.nil_append, sogaSession, demoInitCall, demoRunCall, sogaCall,
    dispatched_table]
  decide +kernel

/-- Non-vacuity of `soga_second_run`: run, change the options, run again. -/
example : (sogaSession .lessBetter (.new (fun x : ℚ => x ^ 2) (77, 78, 79))
    [.setOption 3 0 0, demoInitCall 4, demoRunCall, .setSelectMethod .Truncation, .setOption 3 2 0,
      demoRunCall]).satisfies
    (fun x => x.generation == 2 && x.record == [16, 16, 16]) = true := by
  simp only [sogaSession, demoInitCall, demoRunCall, sogaCall, dispatched_table]
  decide +kernel

/-- **C108** fails without `initializePop`: after `setfFun` a second run reports 16, the value of the old
function `x²` at the result 4, although the function in force, `x² + 100`, has the value 116 there. -/
theorem soga_stale_fitness_happens :
    (sogaSession .lessBetter (.new (fun x : ℚ => x ^ 2) (77, 78, 79))
      [.setOption 3 0 0, demoInitCall 4, demoRunCall, .setFitness (fun x => x ^ 2 + 100), demoRunCall]).satisfies
      (fun x => x.result == .ok 4 && x.bestFitness == .ok 16 && x.f 4 == 116 && x.record == [16]) = true := by
  simp only [sogaSession, demoInitCall, demoRunCall, sogaCall, dispatched_table]
  decide +kernel

/-- The objective vector is the pair of variables; NSGA-II with insertion sort; two children per couple. -/
def demoMORun (kids : (Fin 2 → ℚ) × (Fin 2 → ℚ)) : MOCall (Fin 2 → ℚ) 2 ℚ :=
  .run (fun K _ fit => nsga2Select .lessBetter K (1 / 10000000000 : ℚ) fit insertionSorter
      (fun _ => insertionSorter) insertionSorter)
    (fun _ => ⟨fun _ _ _ => kids, fun _ => true, id, fun _ x => x, fun _ => false, 0⟩)
def demoMOInit (pts : List (Fin 2 → ℚ)) : MOCall (Fin 2 → ℚ) 2 ℚ :=
  .initializePop (fun i => pts.getD i 0) ⟨0, ![99, 99], true⟩

/-- Initialise, run, shrink the population, run again without initialising. -/
def demoMOHistory : List (MOCall (Fin 2 → ℚ) 2 ℚ) :=
  [.setOption 3 1 0, demoMOInit [![1, 2], ![2, 1], ![3, 3]], demoMORun (![4, 4], ![5, 5]), .setOption 2 2 0,
    demoMORun (![0, 9], ![7, 7])]

/-- Non-vacuity of `nsga2_session` and `nsga2_session_run`. -/
example : NSGA2Calls .lessBetter (1 / 10000000000 : ℚ) demoMOHistory ∧ MOSizes demoMOHistory ∧
    MOFitnessUnchanged demoMOHistory ∧ moPopulationSize demoMOHistory = 2 := by
  refine ⟨?_, ?_, ?_, rfl⟩
  · intro sel v h
    refine ⟨fun _ => ⟨insertionSorter, fun _ => insertionSorter, insertionSorter⟩, ?_⟩
    simp only [demoMOHistory, demoMOInit, demoMORun, List.mem_cons, List.not_mem_nil, or_false, reduceCtorEq,
      false_or, MOCall.run.injEq] at h
    rcases h with h | h <;> exact h.1
  · intro K G F h
    simp only [demoMOHistory, demoMOInit, demoMORun, List.mem_cons, List.not_mem_nil, or_false, reduceCtorEq,
      false_or, MOCall.setOption.injEq] at h
    rcases h with ⟨rfl, -⟩ | ⟨rfl, -⟩ <;> omega
  · intro before f after h
    have : MOCall.setFitness f ∈ demoMOHistory := by rw [h]; simp
    simp [demoMOHistory, demoMOInit, demoMORun] at this

example : (moSession .lessBetter (.new (fun v : Fin 2 → ℚ => v) (5, 6)) demoMOHistory).satisfies (fun x =>
    decide (x.generation = 2 ∧ x.record.length = 3 ∧ x.st.pop.length = 2 ∧ x.st.pf.card = 2)) = true := by
  decide +kernel

/-- **C110** fails in this direction: raising `populationSize` without `initializePop` makes the next `run`
undefined behaviour. -/
theorem nsga2_grown_population_ub :
    moSession .lessBetter (.new (fun v : Fin 2 → ℚ => v) (5, 6))
      [.setOption 2 0 0, demoMOInit [![1, 2], ![2, 1]], demoMORun (![4, 4], ![5, 5]), .setOption 3 0 0,
        demoMORun (![4, 4], ![5, 5])] = .ub := by
  refine ((nsga2_session .lessBetter (1 / 10000000000 : ℚ) _ _ _ ?_ ?_).2.1).1 ?_
  · intro sel v h
    refine ⟨fun _ => ⟨insertionSorter, fun _ => insertionSorter, insertionSorter⟩, ?_⟩
    simp only [demoMOInit, demoMORun, List.mem_cons, List.not_mem_nil, or_false, reduceCtorEq,
      false_or, MOCall.run.injEq] at h
    rcases h with h | h <;> exact h.1
  · intro K G F h
    simp only [demoMOInit, demoMORun, List.mem_cons, List.not_mem_nil, or_false, reduceCtorEq,
      false_or, MOCall.setOption.injEq] at h
    rcases h with ⟨rfl, -⟩ | ⟨rfl, -⟩ <;> omega
  · intro h
    have := h [.setOption 2 0 0, demoMOInit [![1, 2], ![2, 1]], demoMORun (![4, 4], ![5, 5]), .setOption 3 0 0]
      _ _ [] rfl
    revert this
    show ¬ (3 ≤ 2)
    omega

def demoPSORun : PSOCall ℚ ℚ := .run demoBox ⟨1, 1, 1⟩ fun _ _ => (1 / 2, 1)
def demoPSOHistory : List (PSOCall ℚ ℚ) :=
  [.setOption 2 1 0, .initializePop (fun k => ([if k = 0 then -2 else (-1 : ℚ)], [0])), demoPSORun,
    .setOption 5 3 0]

/-- Non-vacuity of `pso_session` and `pso_session_run`: a second run continues and finds something better, the
population size 5 has no effect. -/
example : PSOSizes demoPSOHistory ∧ PSOFitnessUnchanged demoPSOHistory := by
  refine ⟨?_, ?_⟩
  · intro K G F h
    simp only [demoPSOHistory, demoPSORun, List.mem_cons, List.not_mem_nil, or_false, reduceCtorEq,
      false_or, PSOCall.setOption.injEq] at h
    rcases h with ⟨rfl, -⟩ | ⟨rfl, -⟩ <;> omega
  · intro before f after h
    have : PSOCall.setFitness f ∈ demoPSOHistory := by rw [h]; simp
    simp [demoPSOHistory, demoPSORun] at this

example : ((psoSession .lessBetter (.new demoF (⟨[7], 7⟩, 8, 9)) demoPSOHistory).satisfies fun x =>
      x.record == [4, 4] && x.generation == 1) = true ∧
    ((psoSession .lessBetter (.new demoF (⟨[7], 7⟩, 8, 9)) (demoPSOHistory ++ [demoPSORun])).satisfies fun x =>
      x.record == [4, 1, 0, 0] && x.generation == 3 && x.st.swarm.length == 2 && x.K == 5) = true := by
  decide +kernel

/-- The swarm reports stale values too: the function in force is the constant 100, the reported best is 4. -/
theorem pso_stale_fitness_happens :
    ((psoSession .lessBetter (.new demoF (⟨[7], 7⟩, 8, 9))
      (demoPSOHistory ++ [.setFitness fun _ => 100, demoPSORun])).satisfies fun x =>
      x.record == [4, 4, 4, 4] && x.f x.st.gBest.position == 100) = true := by
  decide +kernel

/-- Non-vacuity of `aos_second_run_partial`: the second run appends a copy of the last entry. -/
example : ((aosInitializePop demoAOSOption demoAOSInit 55) >>= fun s =>
      aosRun .eigen .greaterBetter demoAOSOption demoAOSBox (fun v => v.getD 0 0 * v.getD 0 0 + 1)
        (fun _ => demoAOSEnv insertionSorter) 4 s >>= fun r =>
      aosRunAgain .eigen .greaterBetter demoAOSOption demoAOSBox (fun v => v.getD 0 0 * v.getD 0 0 + 1)
        (fun _ => demoAOSEnv insertionSorter) 4 r >>= fun r' =>
      .ok (r, r')).satisfies
      (fun p => p.1.generation == 3 && p.2.generation == 3 && p.1.record.length == 4 &&
        p.2.record == p.1.record ++ [p.1.record.getD 3 0] && p.2.state.electrons == p.1.state.electrons) = true := by
  decide +kernel

end Heu
