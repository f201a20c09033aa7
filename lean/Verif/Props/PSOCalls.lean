import Verif.Spec.PSOCalls
import Verif.Props.PSOOwn

/-!
# C145: the calls of the user's functions by a particle swarm

Every particle is evaluated once by `initializePop` and once more in every generation; the reported best is the best of
all values the fitness function returned.
-/

set_option linter.unusedVariables false
set_option linter.unusedSectionVars false
set_option linter.unusedSimpArgs false

namespace Heu
open Spec

section
variable {V F ω : Type}

theorem swarmValues_append (a b : List (SwarmCall V F)) : swarmValues (a ++ b) = swarmValues a ++ swarmValues b := by
  simp [swarmValues]

/-! ## The log does not change anything -/

theorem swarmIniCalls_forget (u : SwarmFns V F ω) : ∀ (ps : List (Particle V F)) (w : ω) (l : List (SwarmCall V F)),
    (swarmIniCalls (swarmLogged u) ps (w, l)).1 = (swarmIniCalls u ps w).1 ∧
    (swarmIniCalls (swarmLogged u) ps (w, l)).2.1 = (swarmIniCalls u ps w).2
  | [], w, l => ⟨rfl, rfl⟩
  | p :: ps, w, l => by
    obtain ⟨h1, h2⟩ := swarmIniCalls_forget u ps
      (u.fit (u.ini (p.position, p.velocity) w).1.1 p.fitness (u.ini (p.position, p.velocity) w).2).2
      (l ++ [.ini (p.position, p.velocity) (u.ini (p.position, p.velocity) w).1] ++
        [.fit (u.ini (p.position, p.velocity) w).1.1
          (u.fit (u.ini (p.position, p.velocity) w).1.1 p.fitness (u.ini (p.position, p.velocity) w).2).1])
    constructor
    · show _ :: _ = _ :: _
      congr 1
    · exact h2

theorem swarmEvalCalls_forget (u : SwarmFns V F ω) : ∀ (is : List Nat) (sw : List (Particle V F)) (w : ω)
    (l : List (SwarmCall V F)),
    (swarmEvalCalls (swarmLogged u) is sw (w, l)).bind (fun r => .ok (r.1, r.2.1)) = swarmEvalCalls u is sw w
  | [], sw, w, l => rfl
  | i :: is, sw, w, l => by
    rw [swarmEvalCalls, swarmEvalCalls]
    cases sw[i]? with
    | none => rfl
    | some p => exact swarmEvalCalls_forget u is _ _ _

theorem swarmMove_forget (h : SwarmHost V F ω) (g : V) : ∀ (ps : List (Particle V F)) (w : ω) (l : List (SwarmCall V F)),
    swarmMove (swarmUnaware h) g ps (w, l) = ((swarmMove h g ps w).1, ((swarmMove h g ps w).2, l))
  | [], w, l => rfl
  | p :: ps, w, l => by
    simp only [swarmMove]
    rw [show (swarmUnaware h).move g p (w, l) = ((h.move g p w).1, ((h.move g p w).2, l)) from rfl,
      swarmMove_forget h g ps (h.move g p w).2 l]

theorem swarmLoop_forget [LT F] [DecidableLT F] (opt : FitnessOption) (u : SwarmFns V F ω) (h : SwarmHost V F ω)
    (maxGen maxFail : Nat) : ∀ (fuel gen : Nat) (s : PSOState V F) (w : ω) (l : List (SwarmCall V F)) (record : List F),
    (swarmLoop opt (swarmLogged u) (swarmUnaware h) maxGen maxFail fuel gen s (w, l) record).bind
      (fun r => .ok (swarmForget r)) = swarmLoop opt u h maxGen maxFail fuel gen s w record
  | 0, _, _, _, _, _ => rfl
  | fuel + 1, gen, s, w, l, record => by
    rw [swarmLoop, swarmLoop]
    have h1 := swarmEvalCalls_forget u (h.order (List.range s.swarm.length)) s.swarm w l
    have e1 : swarmEvaluate (swarmLogged u) (swarmUnaware h) s.swarm (w, l) =
      swarmEvalCalls (swarmLogged u) (h.order (List.range s.swarm.length)) s.swarm (w, l) := rfl
    have e2 : swarmEvaluate u h s.swarm w = swarmEvalCalls u (h.order (List.range s.swarm.length)) s.swarm w := rfl
    rw [e1, e2, ← h1]
    cases swarmEvalCalls (swarmLogged u) (h.order (List.range s.swarm.length)) s.swarm (w, l) with
    | ub => rfl
    | timeout => rfl
    | ok e =>
      obtain ⟨sw, w1, l1⟩ := e
      show Out.bind (updatePGBest opt { s with swarm := sw } >>= _) _ = updatePGBest opt { s with swarm := sw } >>= _
      cases updatePGBest opt { s with swarm := sw } with
      | ub => rfl
      | timeout => rfl
      | ok t =>
        show Out.bind (if gen + 1 > maxGen then _ else if maxFail > 0 ∧ t.fail > maxFail then _ else _) _ =
          (if gen + 1 > maxGen then _ else if maxFail > 0 ∧ t.fail > maxFail then _ else _)
        split
        · rfl
        · split
          · rfl
          · simp only
            rw [swarmMove_forget]
            exact swarmLoop_forget opt u h maxGen maxFail fuel (gen + 1) _ _ _ _

/-- C145: writing the log changes nothing. -/
theorem pso_log_transparent [LT F] [DecidableLT F] (opt : FitnessOption) (u : SwarmFns V F ω) (h : SwarmHost V F ω)
    (maxGen maxFail : Nat) (s : PSOState V F) (w : ω) (l : List (SwarmCall V F)) :
    (swarmRun opt (swarmLogged u) (swarmUnaware h) maxGen maxFail s (w, l)).bind (fun r => .ok (swarmForget r)) =
      swarmRun opt u h maxGen maxFail s w :=
  swarmLoop_forget opt u h maxGen maxFail _ _ _ _ _ _

/-! ## One evaluation -/

/-- What the evaluation of the particles with the given numbers does. -/
structure SwarmEvaluated (sw sw' : List (Particle V F)) (is : List Nat) (fs : List (SwarmCall V F)) : Prop where
  fits : ∀ e ∈ fs, e.isFit
  length : fs.length = is.length
  args : (swarmValues fs).map (fun p => some p.1) = is.map fun i => sw[i]?.map (·.position)
  same : sw'.map (fun p => (p.position, p.velocity, p.pBest)) = sw.map fun p => (p.position, p.velocity, p.pBest)
  rest : ∀ i, i ∉ is → sw'[i]? = sw[i]?
  value : ∀ i ∈ is, ∀ p, sw'[i]? = some p → (p.position, p.fitness) ∈ swarmValues fs
  stored : ∀ v ∈ swarmValues fs, ∃ p ∈ sw', p.position = v.1 ∧ p.fitness = v.2

theorem swarmEvalCalls_spec (u : SwarmFns V F ω) : ∀ (is : List Nat) (sw : List (Particle V F)) (w : ω)
    (l : List (SwarmCall V F)), is.Nodup → (∀ i ∈ is, i < sw.length) →
    ∃ sw' w' fs, swarmEvalCalls (swarmLogged u) is sw (w, l) = .ok (sw', (w', l ++ fs)) ∧ SwarmEvaluated sw sw' is fs
  | [], sw, w, l, _, _ =>
    ⟨sw, w, [], by simp [swarmEvalCalls], ⟨by simp, rfl, by simp [swarmValues], rfl, fun _ _ => rfl, by simp,
      by simp [swarmValues]⟩⟩
  | i :: is, sw, w, l, hn, hi => by
    obtain ⟨hni, hn'⟩ := List.nodup_cons.1 hn
    have hil : i < sw.length := hi i (by simp)
    set p := sw[i] with hp
    have hpi : sw[i]? = some p := List.getElem?_eq_getElem hil
    set y := (u.fit p.position p.fitness w).1 with hy
    set sw1 := sw.set i { p with fitness := y } with hsw1
    have hlen1 : sw1.length = sw.length := by simp [hsw1]
    obtain ⟨sw', w', fs, hrun, hs⟩ := swarmEvalCalls_spec u is sw1 (u.fit p.position p.fitness w).2
      (l ++ [.fit p.position y]) hn' (fun j hj => by rw [hlen1]; exact hi j (by simp [hj]))
    have hval : swarmValues (SwarmCall.fit p.position y :: fs) = (p.position, y) :: swarmValues fs := by
      simp [swarmValues, SwarmCall.valued]
    have h1i : sw1[i]? = some { p with fitness := y } := by
      rw [hsw1, List.getElem?_set_self hil]
    have h1j : ∀ j, j ≠ i → sw1[j]? = sw[j]? := fun j hj => by
      rw [hsw1, List.getElem?_set_ne (Ne.symm hj)]
    refine ⟨sw', w', .fit p.position y :: fs, ?_, ?_⟩
    · rw [swarmEvalCalls, hpi]
      rw [show l ++ SwarmCall.fit p.position y :: fs = (l ++ [.fit p.position y]) ++ fs by simp]
      exact hrun
    · refine ⟨?_, by simp [hs.length], ?_, ?_, ?_, ?_, ?_⟩
      · intro e he
        rcases List.mem_cons.1 he with rfl | he
        · rfl
        · exact hs.fits e he
      · rw [hval]
        simp only [List.map_cons]
        rw [hs.args, hpi]
        congr 1
        apply List.map_congr_left
        intro j hj
        rw [h1j j (fun h => hni (h ▸ hj))]
      · rw [hs.same, hsw1, List.map_set]
        refine (List.ext_getElem? fun j => ?_)
        by_cases hj : j = i
        · subst hj
          rw [List.getElem?_set_self (by simpa using hil), List.getElem?_map, hpi]
          rfl
        · rw [List.getElem?_set_ne (Ne.symm hj)]
      · intro j hj
        simp only [List.mem_cons, not_or] at hj
        rw [hs.rest j hj.2, h1j j hj.1]
      · intro j hj q hq
        rw [hval]
        rcases List.mem_cons.1 hj with rfl | hj
        · rw [hs.rest j hni, h1i] at hq
          have := Option.some.inj hq
          subst this
          simp
        · exact List.mem_cons_of_mem _ (hs.value j hj q hq)
      · intro v hv
        rw [hval] at hv
        rcases List.mem_cons.1 hv with rfl | hv
        · exact ⟨_, List.mem_of_getElem? ((hs.rest i hni).trans h1i), rfl, rfl⟩
        · exact hs.stored v hv

/-- One evaluation of the whole swarm: one call for every particle. -/
theorem swarmEvaluate_spec (u : SwarmFns V F ω) (h : SwarmHost V F ω) (ho : ∀ l, (h.order l).Perm l)
    (sw : List (Particle V F)) (w : ω) (l : List (SwarmCall V F)) :
    ∃ sw' w' fs, swarmEvaluate (swarmLogged u) (swarmUnaware h) sw (w, l) = .ok (sw', (w', l ++ fs)) ∧
      (∀ e ∈ fs, e.isFit) ∧ fs.length = sw.length ∧
      ((swarmValues fs).map (·.1)).Perm (sw.map (·.position)) ∧
      sw'.map (fun p => (p.position, p.velocity, p.pBest)) = sw.map (fun p => (p.position, p.velocity, p.pBest)) ∧
      (∀ p ∈ sw', (p.position, p.fitness) ∈ swarmValues fs) ∧
      (∀ v ∈ swarmValues fs, ∃ p ∈ sw', p.position = v.1 ∧ p.fitness = v.2) ∧
      ((∀ l, h.order l = l) → (swarmValues fs).map (·.1) = sw.map (·.position)) := by
  have hp := ho (List.range sw.length)
  obtain ⟨sw', w', fs, hrun, hs⟩ := swarmEvalCalls_spec u (h.order (List.range sw.length)) sw w l
    (hp.nodup_iff.2 List.nodup_range) (fun i hi => List.mem_range.1 (hp.mem_iff.1 hi))
  have hlen' : sw'.length = sw.length := by
    have := congrArg List.length hs.same
    simpa using this
  have key : (List.range sw.length).map (fun i => sw[i]?.map (·.position)) = (sw.map (·.position)).map some := by
    apply List.ext_getElem?
    intro i
    by_cases hi : i < sw.length
    · simp [List.getElem?_map, List.getElem?_range, hi]
    · simp [List.getElem?_map, hi]
  refine ⟨sw', w', fs, hrun, hs.fits, by rw [hs.length, hp.length_eq, List.length_range], ?_, hs.same, ?_, hs.stored,
    ?_⟩
  · refine (List.map_perm_map_iff (Option.some_injective _)).1 ?_
    rw [← key, List.map_map]
    show ((swarmValues fs).map (fun p => some p.1)).Perm _
    rw [hs.args]
    exact hp.map _
  · intro p hpm
    obtain ⟨i, hi, rfl⟩ := List.getElem_of_mem hpm
    exact hs.value i (hp.mem_iff.2 (List.mem_range.2 (by omega))) _ (List.getElem?_eq_getElem hi)
  · intro hid
    refine (List.map_injective_iff.2 (Option.some_injective _)) ?_
    rw [← key, List.map_map]
    show (swarmValues fs).map (fun p => some p.1) = _
    rw [hs.args, hid]

/-! ## Initialisation -/

theorem swarmIniCalls_spec (u : SwarmFns V F ω) : ∀ (ps : List (Particle V F)) (w : ω) (l : List (SwarmCall V F)),
    ∃ sw w' es, swarmIniCalls (swarmLogged u) ps (w, l) = (sw, (w', l ++ es)) ∧ sw.length = ps.length ∧
      es.countP SwarmCall.isIni = ps.length ∧ es.countP SwarmCall.isFit = ps.length ∧
      swarmValues es = sw.map (fun p => (p.position, p.fitness)) ∧
      ∀ p ∈ sw, p.pBest = ⟨p.position, p.fitness⟩
  | [], w, l => ⟨[], w, [], by simp [swarmIniCalls], rfl, rfl, rfl, rfl, by simp⟩
  | p :: ps, w, l => by
    set a := u.ini (p.position, p.velocity) w with ha
    set r := u.fit a.1.1 p.fitness a.2 with hr
    obtain ⟨sw, w', es, h1, h2, h3, h4, h5, h6⟩ := swarmIniCalls_spec u ps r.2
      (l ++ [.ini (p.position, p.velocity) a.1] ++ [.fit a.1.1 r.1])
    refine ⟨{ position := a.1.1, fitness := r.1, velocity := a.1.2, pBest := ⟨a.1.1, r.1⟩ } :: sw, w',
      .ini (p.position, p.velocity) a.1 :: .fit a.1.1 r.1 :: es, ?_, by simp [h2], ?_, ?_, ?_, ?_⟩
    · simp only [swarmIniCalls]
      rw [show (swarmLogged u).ini (p.position, p.velocity) (w, l) =
          (a.1, (a.2, l ++ [.ini (p.position, p.velocity) a.1])) from rfl]
      rw [show (swarmLogged u).fit a.1.1 p.fitness (a.2, l ++ [.ini (p.position, p.velocity) a.1]) =
          (r.1, (r.2, l ++ [.ini (p.position, p.velocity) a.1] ++ [.fit a.1.1 r.1])) from rfl, h1]
      simp
    · simp [List.countP_cons, SwarmCall.isIni, h3]
    · simp [List.countP_cons, SwarmCall.isFit, h4]
    · simp only [swarmValues, List.flatMap_cons, SwarmCall.valued, List.nil_append, List.map_cons]
      rw [← h5]; rfl
    · intro q hq
      rcases List.mem_cons.1 hq with rfl | hq
      · rfl
      · exact h6 q hq

/-- C145: `initializePop` calls the initialiser and the fitness function once for each of the `populationSize` particles
(`populationSize = 0` is undefined); every particle has the position and the value of these calls as its best. -/
theorem pso_init_calls (u : SwarmFns V F ω) (K : Nat) (blank : Particle V F) (old : List (Particle V F)) (w : ω)
    (l : List (SwarmCall V F)) :
    (K = 0 → swarmInitialize (swarmLogged u) K blank old (w, l) = .ub) ∧
    (0 < K → ∃ s w' es, swarmInitialize (swarmLogged u) K blank old (w, l) = .ok (s, (w', l ++ es)) ∧
      s.swarm.length = K ∧ es.countP SwarmCall.isIni = K ∧ es.countP SwarmCall.isFit = K ∧
      swarmValues es = s.swarm.map (fun p => (p.position, p.fitness)) ∧
      (∀ p ∈ s.swarm, p.pBest = ⟨p.position, p.fitness⟩) ∧ ∃ p ∈ s.swarm, s.gBest = p.pBest) := by
  have hlen : (old.take K ++ List.replicate (K - old.length) blank).length = K := by
    rw [List.length_append, List.length_take, List.length_replicate]; omega
  obtain ⟨sw, w', es, h1, h2, h3, h4, h5, h6⟩ := swarmIniCalls_spec u
    (old.take K ++ List.replicate (K - old.length) blank) w l
  rw [hlen] at h2 h3 h4
  constructor
  · intro hK
    have : sw = [] := List.length_eq_zero_iff.1 (h2.trans hK)
    subst this
    unfold swarmInitialize
    simp only [h1]
  · intro hK
    cases sw with
    | nil => simp at h2; omega
    | cons p ps =>
      refine ⟨{ swarm := p :: ps, gBest := ⟨p.position, p.fitness⟩, fail := 0 }, w', es, ?_, h2, h3, h4, h5, h6, p,
        by simp, (h6 p (by simp)).symm⟩
      unfold swarmInitialize
      simp only [h1]

/-! ## Runs -/

theorem swarmMove_keeps (h : SwarmHost V F ω) (hm : FairSwarm h) (g : V) : ∀ (ps : List (Particle V F)) (w : ω),
    (swarmMove h g ps w).1.map (fun p => (p.pBest, p.fitness)) = ps.map fun p => (p.pBest, p.fitness)
  | [], w => rfl
  | p :: ps, w => by
    simp only [swarmMove, List.map_cons, swarmMove_keeps h hm g ps, (hm.move g p w).1, (hm.move g p w).2]

variable [LinearOrder F]

/-- What holds between generations: the bests are values from the log, and no value is better than all of them. -/
structure SwarmInv (opt : FitnessOption) (s : PSOState V F) (vals : List (V × F)) : Prop where
  pBests : ∀ p ∈ s.swarm, (p.pBest.position, p.pBest.fitness) ∈ vals
  gBest : (s.gBest.position, s.gBest.fitness) ∈ vals
  cover : ∀ v ∈ vals, ¬ Better opt v.2 s.gBest.fitness ∨ ∃ p ∈ s.swarm, ¬ Better opt v.2 p.pBest.fitness

theorem updatePBest_not_worse (opt : FitnessOption) (p : Particle V F) :
    ¬ Better opt p.fitness (updatePBest opt p).pBest.fitness ∧
    ¬ Better opt p.pBest.fitness (updatePBest opt p).pBest.fitness := by
  unfold updatePBest
  split
  · rename_i h
    rw [psoBetter_iff] at h
    exact ⟨nb_refl opt _, nb_of_better opt h⟩
  · rename_i h
    rw [psoBetter_iff] at h
    exact ⟨h, nb_refl opt _⟩

theorem swarmLoop_log (opt : FitnessOption) (u : SwarmFns V F ω) (h : SwarmHost V F ω) (hh : FairSwarm h)
    (maxGen maxFail : Nat) : ∀ (fuel gen : Nat) (s : PSOState V F) (w : ω) (l : List (SwarmCall V F)) (record : List F)
    (r : SwarmResult V F (ω × List (SwarmCall V F))),
    swarmLoop opt (swarmLogged u) (swarmUnaware h) maxGen maxFail fuel gen s (w, l) record = .ok r →
    ∃ (blocks : List (List (SwarmCall V F))) (recs : List F),
      r.world.2 = l ++ blocks.flatten ∧ blocks.length = recs.length ∧ r.record = record ++ recs ∧
      gen + recs.length = r.generation + 1 ∧ r.record.getLast? = some r.state.gBest.fitness ∧
      (∀ b ∈ blocks, (∀ e ∈ b, e.isFit) ∧ b.length = s.swarm.length) ∧
      r.state.swarm.length = s.swarm.length ∧
      (∃ b, blocks.head? = some b ∧ ((swarmValues b).map (·.1)).Perm (s.swarm.map (·.position))) ∧
      (∃ b, blocks.getLast? = some b ∧ ∀ p ∈ r.state.swarm, (p.position, p.fitness) ∈ swarmValues b) ∧
      (SwarmInv opt s (swarmValues l) →
        (∀ (j : Nat) (y : F), recs[j]? = some y → IsBestOf opt (swarmValues (l ++ (blocks.take (j + 1)).flatten)) y) ∧
        SwarmInv opt r.state (swarmValues r.world.2))
  | 0, gen, s, w, l, record, r, hr => by cases hr
  | fuel + 1, gen, s, w, l, record, r, hr => by
    rw [swarmLoop] at hr
    obtain ⟨sw, w1, fs, e1, e2, e3, e4, e5, e6, e7, -⟩ := swarmEvaluate_spec u h hh.order s.swarm w l
    rw [e1] at hr
    simp only [Out.ok_bind] at hr
    have hlen : sw.length = s.swarm.length := by
      have := congrArg List.length e5
      simpa using this
    cases hu : updatePGBest opt { s with swarm := sw } with
    | ub => rw [hu] at hr; cases hr
    | timeout => rw [hu] at hr; cases hr
    | ok t =>
      rw [hu] at hr
      simp only [Out.ok_bind] at hr
      have hne : sw ≠ [] := fun hn => by
        rw [updatePGBest_nil opt _ hn] at hu; cases hu
      obtain ⟨t', ht', hsw, hall, hnw, horig⟩ := updatePGBest_spec opt { s with swarm := sw } hne
      have htt : t' = t := Out.ok.inj (ht'.symm.trans hu)
      subst htt
      simp only at hsw hnw horig
      have htl : t'.swarm.length = s.swarm.length := by rw [hsw, List.length_map, hlen]
      have hval : swarmValues (l ++ fs) = swarmValues l ++ swarmValues fs := swarmValues_append _ _
      have hlast : ∀ p ∈ t'.swarm, (p.position, p.fitness) ∈ swarmValues fs := by
        intro p hp
        rw [hsw] at hp
        obtain ⟨q, hq, rfl⟩ := List.mem_map.1 hp
        obtain ⟨h1, h2, h3, -⟩ := updatePBest_cases opt q
        have := e6 q hq
        unfold updatePBest
        split <;> exact this
      -- the invariant after the update
      have hinv : SwarmInv opt s (swarmValues l) →
          SwarmInv opt t' (swarmValues (l ++ fs)) ∧ IsBestOf opt (swarmValues (l ++ fs)) t'.gBest.fitness := by
        intro hi
        have hpb : ∀ p ∈ sw, (p.pBest.position, p.pBest.fitness) ∈ swarmValues l := by
          intro p hp
          have : (p.position, p.velocity, p.pBest) ∈ s.swarm.map fun p => (p.position, p.velocity, p.pBest) := by
            rw [← e5]; exact List.mem_map.2 ⟨p, hp, rfl⟩
          obtain ⟨q, hq, hqe⟩ := List.mem_map.1 this
          simp only [Prod.mk.injEq] at hqe
          rw [← hqe.2.2]
          exact hi.pBests q hq
        have hp' : ∀ p ∈ t'.swarm, (p.pBest.position, p.pBest.fitness) ∈ swarmValues (l ++ fs) := by
          intro p hp
          rw [hsw] at hp
          obtain ⟨q, hq, rfl⟩ := List.mem_map.1 hp
          rw [hval]
          obtain ⟨-, -, -, hc | hc⟩ := updatePBest_cases opt q
          · rw [hc]; exact List.mem_append_left _ (hpb q hq)
          · rw [hc]; exact List.mem_append_right _ (e6 q hq)
        have hg' : (t'.gBest.position, t'.gBest.fitness) ∈ swarmValues (l ++ fs) := by
          rcases horig with ⟨hg, -⟩ | ⟨-, -, p, hp, hg⟩
          · rw [hg, hval]; exact List.mem_append_left _ hi.gBest
          · rw [← hg]; exact hp' p hp
        have hbest : ∀ v ∈ swarmValues (l ++ fs), ¬ Better opt v.2 t'.gBest.fitness := by
          intro v hv
          rw [hval] at hv
          have hpg : ∀ q ∈ sw, ¬ Better opt (updatePBest opt q).pBest.fitness t'.gBest.fitness := fun q hq =>
            hall _ (by rw [hsw]; exact List.mem_map_of_mem hq)
          rcases List.mem_append.1 hv with h1 | h1
          · rcases hi.cover v h1 with h2 | ⟨p, hp, h2⟩
            · exact nb_trans opt h2 hnw
            · have : (p.position, p.velocity, p.pBest) ∈ sw.map fun p => (p.position, p.velocity, p.pBest) := by
                rw [e5]; exact List.mem_map.2 ⟨p, hp, rfl⟩
              obtain ⟨q, hq, hqe⟩ := List.mem_map.1 this
              simp only [Prod.mk.injEq] at hqe
              rw [← hqe.2.2] at h2
              exact nb_trans opt (nb_trans opt h2 (updatePBest_not_worse opt q).2) (hpg q hq)
          · obtain ⟨q, hq, -, hqf⟩ := e7 v h1
            rw [← hqf]
            exact nb_trans opt (updatePBest_not_worse opt q).1 (hpg q hq)
        exact ⟨⟨hp', hg', fun v hv => Or.inl (hbest v hv)⟩, ⟨_, hg'⟩, hbest⟩
      have hstop : r = ⟨t', gen, record ++ [t'.gBest.fitness], (w1, l ++ fs)⟩ →
          ∃ (blocks : List (List (SwarmCall V F))) (recs : List F),
            r.world.2 = l ++ blocks.flatten ∧ blocks.length = recs.length ∧ r.record = record ++ recs ∧
            gen + recs.length = r.generation + 1 ∧ r.record.getLast? = some r.state.gBest.fitness ∧
            (∀ b ∈ blocks, (∀ e ∈ b, e.isFit) ∧ b.length = s.swarm.length) ∧
            r.state.swarm.length = s.swarm.length ∧
            (∃ b, blocks.head? = some b ∧ ((swarmValues b).map (·.1)).Perm (s.swarm.map (·.position))) ∧
            (∃ b, blocks.getLast? = some b ∧ ∀ p ∈ r.state.swarm, (p.position, p.fitness) ∈ swarmValues b) ∧
            (SwarmInv opt s (swarmValues l) →
              (∀ (j : Nat) (y : F), recs[j]? = some y →
                IsBestOf opt (swarmValues (l ++ (blocks.take (j + 1)).flatten)) y) ∧
              SwarmInv opt r.state (swarmValues r.world.2)) := by
        rintro rfl
        refine ⟨[fs], [t'.gBest.fitness], by simp, rfl, rfl, rfl, by simp, ?_, htl, ⟨fs, rfl, e4⟩,
          ⟨fs, rfl, hlast⟩, ?_⟩
        · intro b hb
          simp only [List.mem_singleton] at hb
          subst hb
          exact ⟨e2, e3⟩
        · intro hi
          obtain ⟨i1, i2⟩ := hinv hi
          refine ⟨?_, i1⟩
          intro j y hy
          cases j with
          | zero =>
            have := Option.some.inj hy
            subst this
            simpa using i2
          | succ j => simp at hy
      split at hr
      · exact hstop (Out.ok.inj hr).symm
      · split at hr
        · exact hstop (Out.ok.inj hr).symm
        · rw [swarmMove_forget] at hr
          simp only at hr
          set m := swarmMove h t'.gBest.position t'.swarm w1 with hmdef
          have hkeep := swarmMove_keeps h hh t'.gBest.position t'.swarm w1
          rw [← hmdef] at hkeep
          have hml : m.1.length = s.swarm.length := by
            have := congrArg List.length hkeep
            simp only [List.length_map] at this
            omega
          obtain ⟨blocks, recs, r1, r2, r3, r4, r5, r6, r7, -, ⟨bl, rl, rm⟩, r8⟩ := swarmLoop_log opt u h hh maxGen maxFail fuel
            (gen + 1) { t' with swarm := m.1 } m.2 (l ++ fs) (record ++ [t'.gBest.fitness]) r hr
          refine ⟨fs :: blocks, t'.gBest.fitness :: recs, ?_, by simp [r2], ?_, ?_, r5, ?_, ?_, ⟨fs, rfl, e4⟩,
            ⟨bl, by rw [List.getLast?_cons, rl]; rfl, rm⟩, ?_⟩
          · rw [r1]; simp
          · rw [r3]; simp
          · rw [List.length_cons]; omega
          · intro b hb
            rcases List.mem_cons.1 hb with rfl | hb
            · exact ⟨e2, e3⟩
            · obtain ⟨b1, b2⟩ := r6 b hb
              exact ⟨b1, b2.trans hml⟩
          · exact r7.trans hml
          · intro hi
            obtain ⟨i1, i2⟩ := hinv hi
            have hi3 : SwarmInv opt { t' with swarm := m.1 } (swarmValues (l ++ fs)) := by
              refine ⟨?_, i1.gBest, ?_⟩
              · intro p hp
                have : (p.pBest, p.fitness) ∈ t'.swarm.map fun p => (p.pBest, p.fitness) := by
                  rw [← hkeep]; exact List.mem_map.2 ⟨p, hp, rfl⟩
                obtain ⟨q, hq, hqe⟩ := List.mem_map.1 this
                simp only [Prod.mk.injEq] at hqe
                rw [← hqe.1]
                exact i1.pBests q hq
              · intro v hv
                exact Or.inl (i2.2 v hv)
            obtain ⟨j1, j2⟩ := r8 hi3
            refine ⟨?_, j2⟩
            intro j y hy
            cases j with
            | zero =>
              have := Option.some.inj hy
              subst this
              simpa using i2
            | succ j =>
              have := j1 j y hy
              simpa [List.append_assoc] using this

/-- With a particle, a run ends, within the given number of generations. -/
theorem swarmLoop_ok (opt : FitnessOption) (u : SwarmFns V F ω) (h : SwarmHost V F ω) (hh : FairSwarm h)
    (maxGen maxFail : Nat) : ∀ (fuel gen : Nat) (s : PSOState V F) (w : ω) (l : List (SwarmCall V F)) (record : List F),
    s.swarm ≠ [] → gen ≤ maxGen → maxGen + 1 ≤ gen + fuel →
    ∃ r, swarmLoop opt (swarmLogged u) (swarmUnaware h) maxGen maxFail fuel gen s (w, l) record = .ok r ∧
      r.generation ≤ maxGen
  | 0, gen, s, w, l, record, hs, hg, hf => by omega
  | fuel + 1, gen, s, w, l, record, hs, hg, hf => by
    rw [swarmLoop]
    obtain ⟨sw, w1, fs, e1, e2, e3, e4, e5, e6, e7, -⟩ := swarmEvaluate_spec u h hh.order s.swarm w l
    rw [e1]
    simp only [Out.ok_bind]
    have hlen : sw.length = s.swarm.length := by
      have := congrArg List.length e5
      simpa using this
    have hne : sw ≠ [] := fun hn => hs (List.length_eq_zero_iff.1 (by rw [← hlen, hn]; rfl))
    obtain ⟨t, ht, hsw, -⟩ := updatePGBest_spec opt { s with swarm := sw } hne
    rw [ht]
    simp only [Out.ok_bind]
    split
    · exact ⟨_, rfl, hg⟩
    · split
      · exact ⟨_, rfl, hg⟩
      · rw [swarmMove_forget]
        simp only
        have hkeep := congrArg List.length (swarmMove_keeps h hh t.gBest.position t.swarm w1)
        simp only [List.length_map] at hkeep
        refine swarmLoop_ok opt u h hh maxGen maxFail fuel (gen + 1) _ _ _ _ ?_ (by omega) (by omega)
        intro hn
        simp only at hn
        rw [hn, hsw, List.length_map] at hkeep
        exact hne (List.length_eq_zero_iff.1 hkeep.symm)

/-- C145: the calls of a run of a swarm with at least one particle (with none it is undefined): it ends; each of its
`generation() + 1` rounds calls the fitness function once for every particle and nothing else; the first round is about
the positions at the start, the last one about the positions at the end, whose fitness is what the calls returned. -/
theorem pso_run_calls (opt : FitnessOption) (u : SwarmFns V F ω) (h : SwarmHost V F ω) (hh : FairSwarm h)
    (maxGen maxFail : Nat) (s : PSOState V F) (w : ω) (l : List (SwarmCall V F)) :
    (s.swarm = [] → swarmRun opt (swarmLogged u) (swarmUnaware h) maxGen maxFail s (w, l) = .ub) ∧
    (s.swarm ≠ [] → ∃ r, swarmRun opt (swarmLogged u) (swarmUnaware h) maxGen maxFail s (w, l) = .ok r ∧
      r.generation ≤ maxGen ∧ r.record.length = r.generation + 1 ∧
      r.record.getLast? = some r.state.gBest.fitness ∧ r.state.swarm.length = s.swarm.length ∧
      ∃ blocks : List (List (SwarmCall V F)), r.world.2 = l ++ blocks.flatten ∧ blocks.length = r.generation + 1 ∧
        (∀ b ∈ blocks, (∀ e ∈ b, e.isFit) ∧ b.length = s.swarm.length) ∧
        (∃ b, blocks.head? = some b ∧ ((swarmValues b).map (·.1)).Perm (s.swarm.map (·.position))) ∧
        (∃ b, blocks.getLast? = some b ∧ ∀ p ∈ r.state.swarm, (p.position, p.fitness) ∈ swarmValues b)) := by
  constructor
  · intro hs
    unfold swarmRun
    rw [swarmLoop]
    obtain ⟨sw, w1, fs, e1, e2, e3, e4, e5, -⟩ := swarmEvaluate_spec u h hh.order s.swarm w l
    simp only [e1, Out.ok_bind]
    have hlen : sw = [] := by
      have := congrArg List.length e5
      rw [hs] at this
      simpa using this
    rw [updatePGBest_nil opt _ hlen]
    rfl
  · intro hs
    obtain ⟨r, hr, hg⟩ := swarmLoop_ok opt u h hh maxGen maxFail (maxGen + 1) 0 { s with fail := 0 } w l [] hs
      (Nat.zero_le _) (by omega)
    obtain ⟨blocks, recs, r1, r2, r3, r4, r5, r6, r7, r8, r9, -⟩ := swarmLoop_log opt u h hh maxGen maxFail _ _ _ _ _ _ _ hr
    have r3' : r.record = recs := by simpa using r3
    exact ⟨r, hr, hg, by rw [r3']; omega, r5, r7, blocks, r1, by omega, r6, r8, r9⟩

/-- C145: the number of calls: with `populationSize` particles, `initializePop` evaluates each once and a run evaluates
each `generation() + 1` times; the initialiser is never called in a run. -/
theorem pso_run_counts (opt : FitnessOption) (u : SwarmFns V F ω) (h : SwarmHost V F ω) (hh : FairSwarm h)
    (maxGen maxFail K : Nat) (hK : 0 < K) (blank : Particle V F) (old : List (Particle V F)) (w : ω)
    (l : List (SwarmCall V F)) :
    ∃ s w' es r es', swarmInitialize (swarmLogged u) K blank old (w, l) = .ok (s, (w', l ++ es)) ∧
      swarmRun opt (swarmLogged u) (swarmUnaware h) maxGen maxFail s (w', l ++ es) = .ok r ∧
      r.world.2 = l ++ es ++ es' ∧
      es.countP SwarmCall.isIni = K ∧ es.countP SwarmCall.isFit = K ∧
      es'.countP SwarmCall.isIni = 0 ∧ es'.countP SwarmCall.isFit = K * (r.generation + 1) ∧
      r.generation ≤ maxGen := by
  obtain ⟨s, w', es, h1, h2, h3, h4, h5, h6, -⟩ := (pso_init_calls u K blank old w l).2 hK
  have hs : s.swarm ≠ [] := fun hn => by rw [hn] at h2; simp at h2; omega
  obtain ⟨r, hr, hg, -, -, -, blocks, b1, b2, b3, -⟩ := (pso_run_calls opt u h hh maxGen maxFail s w' (l ++ es)).2 hs
  have key : ∀ (bs : List (List (SwarmCall V F))), (∀ b ∈ bs, (∀ e ∈ b, e.isFit) ∧ b.length = s.swarm.length) →
      bs.flatten.countP SwarmCall.isIni = 0 ∧ bs.flatten.countP SwarmCall.isFit = K * bs.length := by
    intro bs
    induction bs with
    | nil => intro _; exact ⟨rfl, rfl⟩
    | cons b bs ih =>
      intro hb
      obtain ⟨i1, i2⟩ := ih (fun c hc => hb c (List.mem_cons_of_mem _ hc))
      obtain ⟨j1, j2⟩ := hb b (by simp)
      rw [List.flatten_cons, List.countP_append, List.countP_append, i1, i2]
      constructor
      · rw [Nat.add_zero, List.countP_eq_zero]
        intro e he
        have := j1 e he
        cases e <;> simp_all [SwarmCall.isFit, SwarmCall.isIni]
      · rw [List.countP_eq_length.2 j1, j2, h2, List.length_cons]
        ring
  obtain ⟨k1, k2⟩ := key blocks b3
  exact ⟨s, w', es, r, blocks.flatten, h1, hr, b1, h3, h4, k1, by rw [k2, b2], hg⟩

theorem swarmRuns_inv (opt : FitnessOption) (u : SwarmFns V F ω) (h : SwarmHost V F ω) (hh : FairSwarm h) :
    ∀ (os : List (Nat × Nat)) (s : PSOState V F) (w : ω) (l : List (SwarmCall V F)),
      s.swarm ≠ [] → SwarmInv opt s (swarmValues l) →
      ∃ s' w' l', swarmRuns opt (swarmLogged u) (swarmUnaware h) os (s, (w, l)) = .ok (s', (w', l ++ l')) ∧
        SwarmInv opt s' (swarmValues (l ++ l')) ∧ (os ≠ [] → IsBestOf opt (swarmValues (l ++ l')) s'.gBest.fitness)
  | [], s, w, l, hs, hi => ⟨s, w, [], by simp [swarmRuns], by simpa using hi, fun h => absurd rfl h⟩
  | o :: os, s, w, l, hs, hi => by
    obtain ⟨r, hr, hg⟩ := swarmLoop_ok opt u h hh o.1 o.2 (o.1 + 1) 0 { s with fail := 0 } w l [] hs
      (Nat.zero_le _) (by omega)
    obtain ⟨blocks, recs, r1, r2, r3, r4, r5, r6, r7, r8, r9, r10⟩ := swarmLoop_log opt u h hh o.1 o.2 _ _ _ _ _ _ _ hr
    obtain ⟨j1, j2⟩ := r10 ⟨hi.pBests, hi.gBest, hi.cover⟩
    have hb : IsBestOf opt (swarmValues r.world.2) r.state.gBest.fitness := by
      have r3' : r.record = recs := by simpa using r3
      rw [r3'] at r5
      have hne : recs ≠ [] := fun hn => by rw [hn] at r5; cases r5
      rw [List.getLast?_eq_getElem?] at r5
      have := j1 _ _ r5
      have hl : recs.length - 1 + 1 = recs.length := Nat.sub_add_cancel (List.length_pos_iff.2 hne)
      rw [hl, ← r2, List.take_length, ← r1] at this
      exact this
    have hs' : r.state.swarm ≠ [] := fun hn => by
      rw [hn] at r7
      exact hs (List.length_eq_zero_iff.1 r7.symm)
    obtain ⟨s', w', l', t1, t2, t3⟩ := swarmRuns_inv opt u h hh os r.state r.world.1 r.world.2 hs' j2
    refine ⟨s', w', blocks.flatten ++ l', ?_, ?_, ?_⟩
    · rw [swarmRuns]
      have : swarmRun opt (swarmLogged u) (swarmUnaware h) o.1 o.2 s (w, l) = .ok r := hr
      simp only [this]
      show swarmRuns opt (swarmLogged u) (swarmUnaware h) os (r.state, (r.world.1, r.world.2)) = _
      rw [t1, r1, List.append_assoc]
    · rw [← List.append_assoc, ← r1]; exact t2
    · intro _
      rw [← List.append_assoc, ← r1]
      cases os with
      | nil =>
        have e := Out.ok.inj t1
        simp only [Prod.mk.injEq] at e
        obtain ⟨e1, e2, e3⟩ := e
        rw [← e1, ← e3]
        exact hb
      | cons o' os' => exact t3 (by simp)

/-- C145: after `initializePop` and a run, the `j`-th entry of the record is a best one among all values the fitness
function had returned by the end of round `j`, counting those of `initializePop`; so the final best is a best of all
values ever returned, with the position for which it was returned – also when the fitness function is noisy. -/
theorem pso_best_of_all_calls (opt : FitnessOption) (u : SwarmFns V F ω) (h : SwarmHost V F ω) (hh : FairSwarm h)
    (maxGen maxFail K : Nat) (blank : Particle V F) (old : List (Particle V F)) (w : ω)
    (s : PSOState V F) (w' : ω × List (SwarmCall V F))
    (hi : swarmInitialize (swarmLogged u) K blank old (w, []) = .ok (s, w'))
    (r : SwarmResult V F (ω × List (SwarmCall V F)))
    (hr : swarmRun opt (swarmLogged u) (swarmUnaware h) maxGen maxFail s w' = .ok r) :
    (∃ blocks : List (List (SwarmCall V F)), r.world.2 = w'.2 ++ blocks.flatten ∧
      blocks.length = r.record.length ∧
      ∀ (j : Nat) (y : F), r.record[j]? = some y →
        IsBestOf opt (swarmValues (w'.2 ++ (blocks.take (j + 1)).flatten)) y) ∧
    (r.state.gBest.position, r.state.gBest.fitness) ∈ swarmValues r.world.2 ∧
    IsBestOf opt (swarmValues r.world.2) r.state.gBest.fitness := by
  have hK : 0 < K := by
    rcases Nat.eq_zero_or_pos K with h0 | h0
    · rw [(pso_init_calls u K blank old w []).1 h0] at hi; cases hi
    · exact h0
  obtain ⟨s1, w1, es, h1, h2, h3, h4, h5, h6, h7⟩ := (pso_init_calls u K blank old w []).2 hK
  have he := Out.ok.inj (h1.symm.trans hi)
  simp only [Prod.mk.injEq, List.nil_append] at he
  obtain ⟨rfl, rfl⟩ := he
  have hinv : SwarmInv opt s1 (swarmValues es) := by
    have hp : ∀ p ∈ s1.swarm, (p.pBest.position, p.pBest.fitness) ∈ swarmValues es := by
      intro p hp
      rw [h5, h6 p hp]
      exact List.mem_map.2 ⟨p, hp, rfl⟩
    refine ⟨hp, ?_, ?_⟩
    · obtain ⟨p, hpm, hpe⟩ := h7
      rw [hpe]
      exact hp p hpm
    · intro v hv
      rw [h5] at hv
      obtain ⟨p, hpm, rfl⟩ := List.mem_map.1 hv
      refine .inr ⟨p, hpm, ?_⟩
      rw [h6 p hpm]
      exact nb_refl opt _
  obtain ⟨blocks, recs, r1, r2, r3, r4, r5, r6, r7, r8, r9, r10⟩ := swarmLoop_log opt u h hh maxGen maxFail _ _ _ _ _ _ _ hr
  obtain ⟨j1, j2⟩ := r10 ⟨hinv.pBests, hinv.gBest, hinv.cover⟩
  have r3' : r.record = recs := by simpa using r3
  refine ⟨⟨blocks, r1, by rw [r3']; exact r2, fun j y hy => j1 j y (r3' ▸ hy)⟩, j2.gBest, ?_⟩
  rw [r3'] at r5
  have hne : recs ≠ [] := fun hn => by rw [hn] at r5; cases r5
  rw [List.getLast?_eq_getElem?] at r5
  have := j1 _ _ r5
  have hl : recs.length - 1 + 1 = recs.length := Nat.sub_add_cancel (List.length_pos_iff.2 hne)
  rw [hl, ← r2, List.take_length] at this
  have r1' : r.world.2 = es ++ blocks.flatten := r1
  rw [r1']
  exact this

/-- C145: the same over any number of runs after one `initializePop`, with any limits: no run is undefined, and at the
end the best is a best of all values ever returned. -/
theorem pso_best_over_runs (opt : FitnessOption) (u : SwarmFns V F ω) (h : SwarmHost V F ω) (hh : FairSwarm h)
    (os : List (Nat × Nat)) (hos : os ≠ []) (K : Nat) (hK : 0 < K) (blank : Particle V F) (old : List (Particle V F))
    (w : ω) :
    ∃ s w' es s' w'' log, swarmInitialize (swarmLogged u) K blank old (w, []) = .ok (s, (w', es)) ∧
      swarmRuns opt (swarmLogged u) (swarmUnaware h) os (s, (w', es)) = .ok (s', (w'', log)) ∧
      (s'.gBest.position, s'.gBest.fitness) ∈ swarmValues log ∧
      IsBestOf opt (swarmValues log) s'.gBest.fitness := by
  obtain ⟨s1, w1, es, h1, h2, h3, h4, h5, h6, h7⟩ := (pso_init_calls u K blank old w []).2 hK
  have hs : s1.swarm ≠ [] := fun hn => by rw [hn] at h2; simp at h2; omega
  have hinv : SwarmInv opt s1 (swarmValues es) := by
    have hp : ∀ p ∈ s1.swarm, (p.pBest.position, p.pBest.fitness) ∈ swarmValues es := by
      intro p hp
      rw [h5, h6 p hp]
      exact List.mem_map.2 ⟨p, hp, rfl⟩
    refine ⟨hp, ?_, ?_⟩
    · obtain ⟨p, hpm, hpe⟩ := h7
      rw [hpe]
      exact hp p hpm
    · intro v hv
      rw [h5] at hv
      obtain ⟨p, hpm, rfl⟩ := List.mem_map.1 hv
      refine .inr ⟨p, hpm, ?_⟩
      rw [h6 p hpm]
      exact nb_refl opt _
  obtain ⟨s', w'', l', t1, t2, t3⟩ := swarmRuns_inv opt u h hh os s1 w1 es hs hinv
  exact ⟨s1, w1, es, s', w'', es ++ l', by simpa using h1, t1, t2.gBest, t3 hos⟩

end

/-! ## The library's own moves, and the other model -/

/-- The moves of the library satisfy what is assumed, for every box, factors and generator. -/
theorem swarmHost_fair {α F ω : Type} [Add α] [Sub α] [Mul α] [Neg α] [LT α] [DecidableLT α] (b : PSOBox α)
    (o : PSOFactors α) (rnd : ω → α × ω) (order : List Nat → List Nat) (ho : ∀ l, (order l).Perm l) :
    FairSwarm (swarmHost (F := F) b o rnd order) :=
  ⟨ho, fun _ _ _ => ⟨rfl, rfl⟩⟩

section pure
variable {V F ω : Type}

theorem swarmEvalCalls_pure (u : SwarmFns V F ω) (f : V → F) (hf : ∀ v y w, u.fit v y w = (f v, w)) :
    ∀ (is : List Nat) (sw : List (Particle V F)) (w : ω), is.Nodup → (∀ i ∈ is, i < sw.length) →
      ∃ sw', swarmEvalCalls u is sw w = .ok (sw', w) ∧ sw'.length = sw.length ∧
        ∀ (i : Nat) (p : Particle V F), sw[i]? = some p →
          sw'[i]? = some (if i ∈ is then { p with fitness := f p.position } else p)
  | [], sw, w, _, _ => ⟨sw, rfl, rfl, fun i p hp => by simpa using hp⟩
  | i :: is, sw, w, hn, hi => by
    obtain ⟨hni, hn'⟩ := List.nodup_cons.1 hn
    have hil : i < sw.length := hi i (by simp)
    have hpi : sw[i]? = some sw[i] := List.getElem?_eq_getElem hil
    obtain ⟨sw', h1, h2, h3⟩ := swarmEvalCalls_pure u f hf is (sw.set i { sw[i] with fitness := f sw[i].position }) w hn'
      (fun j hj => by rw [List.length_set]; exact hi j (by simp [hj]))
    refine ⟨sw', ?_, by rw [h2, List.length_set], ?_⟩
    · rw [swarmEvalCalls, hpi]
      simp only [hf]
      exact h1
    · intro j p hp
      by_cases hj : j = i
      · subst hj
        have := h3 j _ (List.getElem?_set_self hil)
        rw [this, if_neg hni, if_pos (by simp)]
        have : sw[j] = p := Option.some.inj (hpi.symm.trans hp)
        rw [this]
      · have := h3 j p (by rw [List.getElem?_set_ne (Ne.symm hj)]; exact hp)
        rw [this]
        simp [hj]

/-- C145: with a fitness function without side effects, in whatever order the particles are evaluated, the evaluation is
that of the model used elsewhere (`Heu.psoComputeAllFitness`). -/
theorem swarm_evaluate_agrees (u : SwarmFns V F ω) (h : SwarmHost V F ω) (ho : ∀ l, (h.order l).Perm l) (f : V → F)
    (hf : ∀ v y w, u.fit v y w = (f v, w)) (s : PSOState V F) (w : ω) :
    swarmEvaluate u h s.swarm w = .ok ((psoComputeAllFitness f s).swarm, w) := by
  have hp := ho (List.range s.swarm.length)
  obtain ⟨sw', h1, h2, h3⟩ := swarmEvalCalls_pure u f hf (h.order (List.range s.swarm.length)) s.swarm w
    (hp.nodup_iff.2 List.nodup_range) (fun i hi => List.mem_range.1 (hp.mem_iff.1 hi))
  unfold swarmEvaluate
  rw [h1]
  congr 2
  apply List.ext_getElem?
  intro i
  by_cases hi : i < s.swarm.length
  · rw [h3 i _ (List.getElem?_eq_getElem hi), if_pos (hp.mem_iff.2 (List.mem_range.2 hi))]
    simp [psoComputeAllFitness, List.getElem?_map, hi]
  · rw [List.getElem?_eq_none (by omega), List.getElem?_eq_none (by simp [psoComputeAllFitness]; omega)]

end pure

/-! ## Examples -/

/-- A noisy fitness function: the `n`-th call adds `n % 3`. -/
def noisySwarm : SwarmFns (List ℚ) ℚ Nat where
  ini v w := (([(w : ℚ) - 3], [0]), w + 1)
  fit v _ w := ((v.getD 0 0) ^ 2 + (w % 3 : Nat), w + 1)

/-- The library's moves in `[-5, 5]`, evaluated in reverse order. -/
def noisySwarmHost : SwarmHost (List ℚ) ℚ Nat :=
  swarmHost { dim := 1, posMin := fun _ => -5, posMax := fun _ => 5, velocityMax := fun _ => 2 } { inertia := 1, learnP := 1, learnG := 1 }
    (fun w => ((1 : ℚ) / (w % 2 + 1 : Nat), w + 1)) List.reverse

example : FairSwarm noisySwarmHost := swarmHost_fair _ _ _ _ fun l => l.reverse_perm

/-- A whole run with three particles: three values at the start and nine more. -/
example : ((swarmInitialize (swarmLogged noisySwarm) 3 ⟨[], 0, [], ⟨[], 0⟩⟩ [] (0, [])).bind fun s =>
      (swarmRun .lessBetter (swarmLogged noisySwarm) (swarmUnaware noisySwarmHost) 2 0 s.1 s.2)).satisfies
    (fun r => r.generation == 2 && r.record.length == 3 && r.world.2.countP SwarmCall.isIni == 3 &&
      r.world.2.countP SwarmCall.isFit == 12) = true := by decide +kernel

/-- Two calls for the same position give different values. -/
example : (noisySwarm.fit [2] 0 0).1 ≠ (noisySwarm.fit [2] 0 1).1 := by decide +kernel

end Heu
