import Verif.Lemmas.Session
import Verif.Props.MORun
import Verif.Props.AOSStep

/-!
# C108–C111: sequences of API calls

The solver is an object whose public functions may be called in any order and any number of times; the draws,
options, functions and environments of every call are arbitrary.
-/

set_option linter.unusedSectionVars false
set_option linter.unusedVariables false

namespace Heu
open Spec

/-! ## Single-objective solver -/

section
variable {V α : Type} [Field α] [LinearOrder α] [IsStrictOrderedRing α] (opt : FitnessOption)

theorem sogaSession_snoc (x : SOGAObj V α) (cs : List (SOGACall V α)) (c : SOGACall V α) :
    sogaSession opt x (cs ++ [c]) = sogaSession opt x cs >>= fun y => sogaCall opt y c := by
  induction cs generalizing x with
  | nil =>
    show (sogaCall opt x c >>= fun y => Out.ok y) = sogaCall opt x c
    cases sogaCall opt x c <;> rfl
  | cons d cs ih =>
    show (sogaCall opt x d >>= fun y => sogaSession opt y (cs ++ [c])) = _
    show _ = (sogaCall opt x d >>= fun y => sogaSession opt y cs) >>= _
    cases sogaCall opt x d with
    | ok y => exact ih y
    | ub => rfl
    | timeout => rfl

theorem unchanged_snoc {cs : List (SOGACall V α)} {c : SOGACall V α} (hc : ¬ SOGACall.IsInit c)
    (h : SOGAFitnessUnchanged (cs ++ [c])) : SOGAFitnessUnchanged cs := by
  intro b f a hcs
  obtain ⟨d, hd, hdi⟩ := h b f (a ++ [c]) (by rw [hcs]; simp)
  rcases List.mem_append.1 hd with hd | hd
  · exact ⟨d, hd, hdi⟩
  · rw [List.mem_singleton] at hd
    subst hd
    exact absurd hdi hc

/-- What is true of a solver object after any history of calls. -/
structure SOGAReachable (cs : List (SOGACall V α)) (x : SOGAObj V α) : Prop where
  distinct : DistinctNodes x.st.pop
  best : x.st.pop ≠ [] → x.st.best ∈ x.st.pop.map (·.1)
  cache : SOGAFitnessUnchanged cs → CacheCorrect x.f x.st.pop
  init : x.st.pop ≠ [] → ∃ c ∈ cs, SOGACall.IsInit c

/-- The draws of all runs of the history are possible ones. -/
def SOGAValid (cs : List (SOGACall V α)) : Prop :=
  ∀ e v fuel, SOGACall.run e v fuel ∈ cs → ∀ g, ValidEnv (e g)

theorem soga_reachable (f : V → α) (garbage : Addr × Nat × Nat) (cs : List (SOGACall V α))
    (hv : SOGAValid cs) (x : SOGAObj V α) (h : sogaSession opt (.new f garbage) cs = .ok x) :
    SOGAReachable cs x := by
  induction cs using List.reverseRecOn generalizing x with
  | nil =>
    cases h
    refine ⟨List.nodup_nil, fun h => absurd rfl h, (fun _ c hc => by cases hc), fun h => absurd rfl h⟩
  | append_singleton cs c ih =>
    rw [sogaSession_snoc, Out.bind_eq_ok] at h
    obtain ⟨y, hy, hc⟩ := h
    have hi := ih (fun e v fuel hm => hv e v fuel (List.mem_append_left _ hm)) y hy
    have hinit : y.st.pop ≠ [] → ∃ d ∈ cs ++ [c], SOGACall.IsInit d := fun hne => by
      obtain ⟨d, hd, hdi⟩ := hi.init hne
      exact ⟨d, List.mem_append_left _ hd, hdi⟩
    cases c with
    | setOption K G F =>
      cases hc
      exact ⟨hi.distinct, hi.best, fun hu => hi.cache (unchanged_snoc (by rintro ⟨_, _, h⟩; cases h) hu), hinit⟩
    | setFitness g =>
      cases hc
      refine ⟨hi.distinct, hi.best, fun hu => ?_, hinit⟩
      obtain ⟨d, hd, -⟩ := hu cs g [] rfl
      cases hd
    | setSelectMethod m =>
      simp only [sogaCall, Out.bind_eq_ok, Out.ok.injEq] at hc
      obtain ⟨m', -, rfl⟩ := hc
      exact ⟨hi.distinct, hi.best, fun hu => hi.cache (unchanged_snoc (by rintro ⟨_, _, h⟩; cases h) hu), hinit⟩
    | initializePop init blank =>
      obtain ⟨r1, r2, r3, -⟩ := reinit_spec y.K init blank y.st.pop hi.distinct
      simp only [sogaCall, Out.ok.injEq] at hc
      subst hc
      refine ⟨r1, fun hne => ?_, fun _ => cacheCorrect_uncomputed r3,
        fun _ => ⟨_, by simp, init, blank, rfl⟩⟩
      dsimp only at hne ⊢
      cases hp : reinitializePop y.K init blank y.st.pop with
      | nil => exact absurd hp hne
      | cons d l => simp
    | run e v fuel =>
      simp only [sogaCall, Out.bind_eq_ok, Out.ok.injEq] at hc
      obtain ⟨r, hr, rfl⟩ := hc
      have he : ∀ g, ValidEnv (e g) := hv e v fuel (by simp)
      obtain ⟨-, h2, -⟩ := run_record _ _ _ _ _ r hr
      have hs := sound_after opt y.f _ y.K e v he hi.distinct _ h2
      have hne := run_needs_population opt y.f _ y.K e v he hi.distinct hr
      refine ⟨hs.distinct, fun _ => hs.best, fun hu => ?_, fun _ => hinit hne⟩
      have hr' := after_ready opt y.f _ y.K e v he
        ⟨hi.distinct, hi.best hne, hi.cache (unchanged_snoc (by rintro ⟨_, _, h⟩; cases h) hu)⟩ _ h2
      exact hr'.1.cache

/-- **C108**.  Let any sequence of `setOption`, `setSelectMethod`, `setfFun`/`setArgs`, `initializePop` and
`run` calls on a new solver end with a `run` that returns.  Then the population had been initialised; the
counters and the record describe this last run only (`generation()` at most `maxGenerations`, below it only
after more than `maxFailTimes` failures, one record entry per evaluation); `result()` is a live individual; and
if the fitness function was not changed since the last `initializePop`, every individual carries its true
fitness, the reported best fitness and the last record entry are the true fitness of `result()`, and nobody in
the population is better. -/
theorem soga_session (f : V → α) (garbage : Addr × Nat × Nat) (cs : List (SOGACall V α)) (hv : SOGAValid cs)
    (e : Nat → SelectEnv (Gene V α) α) (he : ∀ g, ValidEnv (e g)) (v : Nat → VaryEnv V α) (fuel : Nat)
    (x : SOGAObj V α) (h : sogaSession opt (.new f garbage) (cs ++ [.run e v fuel]) = .ok x) :
    (∃ c ∈ cs, SOGACall.IsInit c) ∧
    x.record.length = x.generation + 1 ∧ x.generation ≤ x.maxGen ∧
    (x.generation < x.maxGen → 0 < x.maxFail ∧ x.maxFail < x.st.fail) ∧
    ∃ res, x.result = .ok res ∧
      (SOGAFitnessUnchanged cs →
        (∀ c ∈ x.st.pop, c.2.fitness = x.f c.2.var) ∧
        x.bestFitness = .ok (x.f res) ∧ x.record.getLast? = some (x.f res) ∧
        ∀ c ∈ x.st.pop, ¬ Better opt (x.f c.2.var) (x.f res)) := by
  rw [sogaSession_snoc, Out.bind_eq_ok] at h
  obtain ⟨y, hy, hc⟩ := h
  have hi := soga_reachable opt f garbage cs hv y hy
  simp only [sogaCall, Out.bind_eq_ok, Out.ok.injEq] at hc
  obtain ⟨r, hr, rfl⟩ := hc
  have hne := run_needs_population opt y.f _ y.K e v he hi.distinct hr
  obtain ⟨h1, h2, -⟩ := run_record _ _ _ _ _ r hr
  obtain ⟨s1, s2, -, -⟩ := run_stops _ _ _ _ _ r hr
  have hs := sound_after opt y.f _ y.K e v he hi.distinct _ h2
  obtain ⟨c, hcm, hcb⟩ := List.mem_map.1 hs.best
  have hder : deref r.state.pop r.state.best = .ok c.2 := by
    rw [← hcb]; exact deref_of_mem hs.distinct hcm
  refine ⟨hi.init hne, h1, s1, fun hlt => s2 hlt, c.2.var, ?_, ?_⟩
  · show (deref r.state.pop r.state.best >>= fun g => Out.ok g.var) = _
    rw [hder]; rfl
  · intro hu
    obtain ⟨a1, g, hg, a2, a3, a4⟩ := soga_run_consistent opt y.f _ y.K e v he y.st
      ⟨hi.distinct, hi.best hne, hi.cache hu⟩ _ _ _ r hr
    rw [hder] at hg
    cases hg
    refine ⟨a1, ?_, a3, a4⟩
    show (deref r.state.pop r.state.best >>= fun g => Out.ok g.fitness) = _
    rw [hder, Out.ok_bind, a2]

/-- **C108**: `run` on a solver whose population was never initialised does not return. -/
theorem soga_run_without_init (f : V → α) (garbage : Addr × Nat × Nat) (cs : List (SOGACall V α))
    (hv : SOGAValid cs) (hno : ∀ c ∈ cs, ¬ SOGACall.IsInit c)
    (e : Nat → SelectEnv (Gene V α) α) (he : ∀ g, ValidEnv (e g)) (v : Nat → VaryEnv V α) (fuel : Nat)
    (x : SOGAObj V α) : sogaSession opt (.new f garbage) (cs ++ [.run e v fuel]) ≠ .ok x := by
  intro h
  obtain ⟨⟨c, hc, hci⟩, -⟩ := soga_session opt f garbage cs hv e he v fuel x h
  exact hno c hc hci

/-- **C108**: after any history, `initializePop` leaves `populationSize` individuals with the initialiser's
variables, none of them counted as evaluated, and (if there are any) `result()` is the first of them. -/
theorem soga_initializePop (f : V → α) (garbage : Addr × Nat × Nat) (cs : List (SOGACall V α))
    (hv : SOGAValid cs) (init : Nat → V) (blank : Gene V α) (x : SOGAObj V α)
    (h : sogaSession opt (.new f garbage) (cs ++ [.initializePop init blank]) = .ok x) :
    x.st.pop.map (·.2.var) = (List.range x.K).map init ∧ (∀ c ∈ x.st.pop, c.2.computed = false) ∧
    (0 < x.K → x.result = .ok (init 0)) := by
  rw [sogaSession_snoc, Out.bind_eq_ok] at h
  obtain ⟨y, hy, hc⟩ := h
  have hi := soga_reachable opt f garbage cs hv y hy
  obtain ⟨r1, r2, r3, r4⟩ := reinit_spec y.K init blank y.st.pop hi.distinct
  simp only [sogaCall, Out.ok.injEq] at hc
  subst hc
  refine ⟨r4, r3, fun hK => ?_⟩
  unfold SOGAObj.result
  dsimp only at hK ⊢
  cases hp : reinitializePop y.K init blank y.st.pop with
  | nil => rw [hp] at r2; simp at r2; omega
  | cons d l =>
    rw [hp] at r1 r4
    dsimp only
    rw [deref_of_mem r1 (List.mem_cons_self ..), Out.ok_bind]
    obtain ⟨k, hk⟩ : ∃ k, y.K = k + 1 := ⟨y.K - 1, by omega⟩
    rw [hk, List.range_succ_eq_map] at r4
    simp only [List.map_cons, List.cons.injEq] at r4
    rw [r4.1]

/-! ### Repeated runs -/

/-- These calls neither run nor initialise nor change the fitness function. -/
def OnlySettings (cs : List (SOGACall V α)) : Prop :=
  ∀ c ∈ cs, (∃ K G F, c = .setOption K G F) ∨ ∃ m, c = .setSelectMethod m

theorem settings_keep {cs : List (SOGACall V α)} (hs : OnlySettings cs) (x y : SOGAObj V α)
    (h : sogaSession opt x cs = .ok y) : y.st = x.st ∧ y.f = x.f := by
  induction cs generalizing x with
  | nil => cases h; exact ⟨rfl, rfl⟩
  | cons c cs ih =>
    have h' : (sogaCall opt x c >>= fun y => sogaSession opt y cs) = .ok y := h
    rw [Out.bind_eq_ok] at h'
    obtain ⟨z, hz, h'⟩ := h'
    obtain ⟨a, b⟩ := ih (fun d hd => hs d (List.mem_cons_of_mem _ hd)) z h'
    rcases hs c (List.mem_cons_self ..) with ⟨K, G, F, rfl⟩ | ⟨m, rfl⟩
    · cases hz; exact ⟨a, b⟩
    · simp only [sogaCall, Out.bind_eq_ok, Out.ok.injEq] at hz
      obtain ⟨m', -, rfl⟩ := hz
      exact ⟨a, b⟩

/-- **C109**, genetic algorithms: calling `run` again continues from the current population, and with an
elitist method nothing is lost: after a `run`, any change of options or method and a second `run` with
Truncation or EliteReserved, no entry of the new record is worse than the best fitness reported before. -/
theorem soga_second_run (f : V → α) (garbage : Addr × Nat × Nat) (cs : List (SOGACall V α)) (hv : SOGAValid cs)
    (hu : SOGAFitnessUnchanged cs)
    (e e' : Nat → SelectEnv (Gene V α) α) (he : ∀ g, ValidEnv (e g)) (he' : ∀ g, ValidEnv (e' g))
    (hel : ∀ g, 1 ≤ (e' g).eliteNum) (v v' : Nat → VaryEnv V α) (fuel fuel' : Nat)
    (mid : List (SOGACall V α)) (hmid : OnlySettings mid) (x y z : SOGAObj V α)
    (h : sogaSession opt (.new f garbage) (cs ++ [.run e v fuel]) = .ok x)
    (hx : sogaSession opt x mid = .ok y) (hy : sogaCall opt y (.run e' v' fuel') = .ok z)
    (hm : y.method = .Truncation ∨ y.method = .EliteReserved) (b : α) (hb : x.bestFitness = .ok b) :
    ∀ c ∈ z.record, ¬ Better opt b c := by
  obtain ⟨hst, hf⟩ := settings_keep opt hmid x y hx
  have hr1 := soga_reachable opt f garbage (cs ++ [.run e v fuel])
    (by intro e0 v0 f0 hm0; rcases List.mem_append.1 hm0 with h0 | h0
        · exact hv e0 v0 f0 h0
        · rw [List.mem_singleton] at h0; cases h0; exact he) x h
  obtain ⟨-, -, -, -, res, hres, hall⟩ := soga_session opt f garbage cs hv e he v fuel x h
  obtain ⟨htrue, hbest, -⟩ := hall hu
  have hub : SOGAFitnessUnchanged (cs ++ [.run e v fuel]) := by
    intro b0 f0 a0 heq
    rcases List.append_eq_append_iff.1 heq with ⟨as, h1, h2⟩ | ⟨bs, h1, h2⟩
    · exfalso
      cases as with
      | nil => simp at h2
      | cons d ds => simp at h2
    · cases bs with
      | nil => simp at h2
      | cons d ds =>
        simp only [List.cons_append, List.cons.injEq] at h2
        obtain ⟨rfl, h2⟩ := h2
        obtain ⟨c, hc, hci⟩ := hu b0 f0 ds h1
        exact ⟨c, by rw [h2]; exact List.mem_append_left _ hc, hci⟩
  simp only [sogaCall, Out.bind_eq_ok, Out.ok.injEq] at hy
  obtain ⟨r, hr, rfl⟩ := hy
  have hready : Ready y.f y.st := by
    rw [hst, hf]
    have hne : x.st.pop ≠ [] := by
      intro h0
      unfold SOGAObj.result at hres
      rw [h0] at hres
      simp [deref] at hres
    exact ⟨hr1.distinct, hr1.best hne, hr1.cache hub⟩
  have hm' : dispatchedMethod y.method = .Truncation ∨ dispatchedMethod y.method = .EliteReserved := by
    rcases hm with h | h <;> rw [h]
    · exact Or.inl (dispatch_correct.1 .Truncation .Truncation _ rfl).2
    · exact Or.inr (dispatch_correct.1 .EliteReserved .EliteReserved _ rfl).2
  obtain ⟨b0, hb0, hstart⟩ := elitist_record_start opt y.f _ y.K e' v' hel hm' y.st hready _ _ _ r hr
  have hmono := elitist_record_monotone opt y.f _ y.K e' v' he' hel hm' y.st hready _ _ _ r hr
  intro c hc
  obtain ⟨i, hi, rfl⟩ := List.mem_iff_getElem.1 hc
  obtain ⟨hl0, hb0'⟩ := List.getElem?_eq_some_iff.1 hb0
  have hmi := hmono 0 i (Nat.zero_le _) hi
  rw [hb0'] at hmi
  refine not_better_trans ?_ hmi
  rw [hbest] at hb
  cases hb
  obtain ⟨g, hg, hgv⟩ : ∃ g, deref x.st.pop x.st.best = .ok g ∧ g.var = res := by
    unfold SOGAObj.result at hres
    rw [Out.bind_eq_ok] at hres
    obtain ⟨g, h1, h2⟩ := hres
    exact ⟨g, h1, by simpa using h2⟩
  have := hstart (x.st.best, g) (by rw [hst]; exact deref_ok hg)
  rw [hf] at this
  rw [← hgv]
  exact this

/-- **C108**, the missing part: if the fitness function (or the arguments it depends on) is changed between
two runs without `initializePop`, everybody who was evaluated before keeps the value of the old function, and
a run with `maxGenerations = 0` reports only old values. -/
theorem soga_stale_fitness (f f' : V → α) (x z : SOGAObj V α) (hd : DistinctNodes x.st.pop)
    (hold : ∀ c ∈ x.st.pop, c.2.computed = true ∧ c.2.fitness = f c.2.var) (hG : x.maxGen = 0)
    (e : Nat → SelectEnv (Gene V α) α) (he : ∀ g, ValidEnv (e g)) (v : Nat → VaryEnv V α) (fuel : Nat)
    (h : sogaSession opt x [.setFitness f', .run e v fuel] = .ok z) :
    z.f = f' ∧ (∀ c ∈ z.st.pop, c.2.fitness = f c.2.var) ∧
    ∃ res, z.result = .ok res ∧ z.bestFitness = .ok (f res) ∧ z.record = [f res] := by
  have h' : (gaRun (sogaSolver opt f' (dispatchedMethod x.method) x.K e v) x.maxGen x.maxFail fuel x.st >>=
      fun r => Out.ok { x with f := f', st := r.state, generation := r.generation, record := r.record }) = .ok z := by
    simp only [sogaSession, sogaCall, Out.ok_bind, Out.bind_eq_ok, Out.ok.injEq] at h ⊢
    obtain ⟨y, ⟨r, hr, rfl⟩, h⟩ := h
    exact ⟨r, hr, h⟩
  rw [Out.bind_eq_ok] at h'
  obtain ⟨r, hr, hz⟩ := h'
  simp only [Out.ok.injEq] at hz
  have hgen : r.generation = 0 := by
    obtain ⟨s1, -⟩ := run_stops _ _ _ _ _ r hr
    omega
  obtain ⟨h1, h2, h3⟩ := run_record _ _ _ _ _ r hr
  obtain ⟨t, ht, hb⟩ := h3 0 (by omega)
  rw [hgen] at h2
  rw [h2] at ht
  cases ht
  have hpop : computeAllFitness f' x.st.pop = x.st.pop := by
    unfold computeAllFitness
    conv_rhs => rw [← List.map_id x.st.pop]
    apply List.map_congr_left
    intro c hc
    simp [evalGene, (hold c hc).1]
  have hsel : runSelect opt Gene.fitness (dispatchedMethod x.method) (e 1) x.K
      { pop := computeAllFitness f' x.st.pop, best := x.st.best, fail := 0 } = .ok r.state := h2
  rw [hpop] at hsel
  have hsp := runSelect_spec opt Gene.fitness _ (e 1) (he 1) x.K
    { pop := x.st.pop, best := x.st.best, fail := 0 } r.state hd hsel
  have hfin : ∀ c ∈ r.state.pop, c.2.fitness = f c.2.var := by
    intro c hc
    obtain ⟨d, hdm, hde⟩ := hsp.noInvention c hc
    rw [← hde]; exact (hold d hdm).2
  obtain ⟨c, hcb, hcm, -⟩ := hsp.best
  have hder : deref r.state.pop r.state.best = .ok c.2 := by
    rw [← hcb]; exact deref_of_mem hsp.distinct hcm
  have hb' : (deref r.state.pop r.state.best >>= fun g => Out.ok g.fitness) = .ok r.record[0] := hb
  rw [hder, Out.ok_bind] at hb'
  simp only [Out.ok.injEq] at hb'
  subst hz
  refine ⟨rfl, hfin, c.2.var, ?_, ?_, ?_⟩
  · show (deref r.state.pop r.state.best >>= fun g => Out.ok g.var) = _
    rw [hder]; rfl
  · show (deref r.state.pop r.state.best >>= fun g => Out.ok g.fitness) = _
    rw [hder, Out.ok_bind, hfin c hcm]
  · show r.record = _
    have hl : r.record.length = 1 := by omega
    obtain ⟨a, ha⟩ := List.length_eq_one_iff.1 hl
    simp only [ha, List.getElem_cons_zero] at hb'
    rw [ha, ← hb', hfin c hcm]

end

/-! ## Multi-objective solvers -/

section
variable {V α : Type} {m : Nat} [Field α] [LinearOrder α] [IsStrictOrderedRing α] (opt : FitnessOption)

theorem moSession_snoc (x : MOObj V m α) (cs : List (MOCall V m α)) (c : MOCall V m α) :
    moSession opt x (cs ++ [c]) = moSession opt x cs >>= fun y => moCall opt y c := by
  induction cs generalizing x with
  | nil =>
    show (moCall opt x c >>= fun y => Out.ok y) = moCall opt x c
    cases moCall opt x c <;> rfl
  | cons d cs ih =>
    show (moCall opt x d >>= fun y => moSession opt y (cs ++ [c])) = _
    show _ = (moCall opt x d >>= fun y => moSession opt y cs) >>= _
    cases moCall opt x d with
    | ok y => exact ih y
    | ub => rfl
    | timeout => rfl

theorem moUnchanged_snoc {cs : List (MOCall V m α)} {c : MOCall V m α} (hc : ¬ MOCall.IsInit c)
    (h : MOFitnessUnchanged (cs ++ [c])) : MOFitnessUnchanged cs := by
  intro b f a hcs
  obtain ⟨d, hd, hdi⟩ := h b f (a ++ [c]) (by rw [hcs]; simp)
  rcases List.mem_append.1 hd with hd | hd
  · exact ⟨d, hd, hdi⟩
  · rw [List.mem_singleton] at hd
    subst hd
    exact absurd hdi hc

/-- What is true of a multi-objective solver after any history of calls that returned. -/
structure MOReachable (cs : List (MOCall V m α)) (x : MOObj V m α) : Prop where
  K : x.K = moPopulationSize cs
  count : x.st.pop.length = moCount cs
  distinct : DistinctNodes x.st.pop
  front : ∀ a ∈ x.st.pf, a ∈ x.st.pop.map (·.1)
  cache : MOFitnessUnchanged cs → CacheCorrect x.f x.st.pop

/-- Every run of the history uses a selection that meets the specification and needs `K` candidates. -/
def MOValid (cs : List (MOCall V m α)) : Prop :=
  ∀ sel v, MOCall.run sel v ∈ cs → ∀ K, 1 ≤ K → K < 2 ^ 32 →
    ∀ g, GoodSelection opt K (sel K g) ∧ ShortIsUB K (sel K g)

/-- `populationSize` is always positive (and fits 32 bits). -/
def MOSizes (cs : List (MOCall V m α)) : Prop :=
  ∀ K G F, MOCall.setOption K G F ∈ cs → 1 ≤ K ∧ K < 2 ^ 32

theorem count_fst (cs : List (MOCall V m α)) : ∀ (p : Nat × Nat),
    (cs.foldl (fun p c => match c with
      | .setOption K' _ _ => (K', p.2)
      | .setFitness _ => p
      | .initializePop _ _ => (p.1, p.1)
      | .run _ _ => (p.1, p.1)) p).1 =
    cs.foldl (fun K c => match c with | .setOption K' _ _ => K' | _ => K) p.1 := by
  induction cs with
  | nil => intro p; rfl
  | cons c cs ih => intro p; rw [List.foldl_cons, List.foldl_cons, ih]; cases c <;> rfl

theorem moSize_snoc (cs : List (MOCall V m α)) (c : MOCall V m α) :
    moPopulationSize (cs ++ [c]) = match c with | .setOption K' _ _ => K' | _ => moPopulationSize cs := by
  unfold moPopulationSize; rw [List.foldl_append]; rfl

theorem moCount_snoc (cs : List (MOCall V m α)) (c : MOCall V m α) :
    moCount (cs ++ [c]) = match c with
      | .setOption _ _ _ => moCount cs
      | .setFitness _ => moCount cs
      | .initializePop _ _ => moPopulationSize cs
      | .run _ _ => moPopulationSize cs := by
  have h := count_fst cs (100, 0)
  unfold moCount moPopulationSize
  rw [List.foldl_append]
  cases c with
  | setOption K G F => rfl
  | setFitness f => rfl
  | initializePop i b => exact h
  | run sel v => exact h

theorem moSize_pos {cs : List (MOCall V m α)} (h : MOSizes cs) :
    1 ≤ moPopulationSize cs ∧ moPopulationSize cs < 2 ^ 32 := by
  induction cs using List.reverseRecOn with
  | nil => exact ⟨by show 1 ≤ 100; omega, by show 100 < 2 ^ 32; norm_num⟩
  | append_singleton cs c ih =>
    have hi := ih (fun K G F hm => h K G F (List.mem_append_left _ hm))
    rw [moSize_snoc]
    cases c with
    | setOption K G F => exact h K G F (by simp)
    | _ => exact hi

theorem mo_session_cases (f : V → Fin m → α) (garbage : Nat × Nat) (cs : List (MOCall V m α))
    (hv : MOValid opt cs) (hz : MOSizes cs) :
    (RoomForRuns cs → ∃ x, moSession opt (.new f garbage) cs = .ok x ∧ MOReachable cs x) ∧
    (¬ RoomForRuns cs → moSession opt (.new f garbage) cs = .ub) := by
  induction cs using List.reverseRecOn with
  | nil =>
    refine ⟨fun _ => ⟨_, rfl, rfl, rfl, List.nodup_nil, ?_, ?_⟩, fun h => absurd ?_ h⟩
    · intro a ha; simp [MOObj.new] at ha
    · intro _ c hc; cases hc
    · intro b s v a h; simp at h
  | append_singleton cs c ih =>
    have hz' : MOSizes cs := fun K G F hm => hz K G F (List.mem_append_left _ hm)
    obtain ⟨ih1, ih2⟩ := ih (fun sel v hm => hv sel v (List.mem_append_left _ hm)) hz'
    have hroom : RoomForRuns (cs ++ [c]) ↔ RoomForRuns cs ∧
        ((∃ sel v, c = .run sel v) → moPopulationSize cs ≤ moCount cs) := by
      constructor
      · intro h
        refine ⟨fun b s v a hcs => h b s v (a ++ [c]) (by rw [hcs]; simp), ?_⟩
        rintro ⟨s, v, rfl⟩
        exact h cs s v [] rfl
      · rintro ⟨h1, h2⟩ b s v a hcs
        rcases List.append_eq_append_iff.1 hcs with ⟨as, e1, e2⟩ | ⟨bs, e1, e2⟩
        · cases as with
          | nil =>
            simp only [List.nil_append, List.cons.injEq] at e2
            rw [e1, List.append_nil]
            exact h2 ⟨s, v, e2.1⟩
          | cons d ds => simp at e2
        · cases bs with
          | nil =>
            simp only [List.nil_append, List.cons.injEq] at e2
            rw [List.append_nil] at e1
            rw [← e1]
            exact h2 ⟨s, v, e2.1.symm⟩
          | cons d ds =>
            simp only [List.cons_append, List.cons.injEq] at e2
            obtain ⟨rfl, -⟩ := e2
            exact h1 b s v ds e1
    rw [moSession_snoc]
    refine ⟨fun hr => ?_, fun hr => ?_⟩
    · obtain ⟨hr1, hr2⟩ := hroom.1 hr
      obtain ⟨y, hy, hi⟩ := ih1 hr1
      rw [hy, Out.ok_bind]
      cases c with
      | setOption K G F =>
        refine ⟨_, rfl, ?_, ?_, hi.distinct, hi.front, fun hu => hi.cache (moUnchanged_snoc (by rintro ⟨_, _, h⟩; cases h) hu)⟩
        · rw [moSize_snoc]
        · rw [moCount_snoc]; exact hi.count
      | setFitness g =>
        refine ⟨_, rfl, ?_, ?_, hi.distinct, hi.front, fun hu => ?_⟩
        · rw [moSize_snoc]; exact hi.K
        · rw [moCount_snoc]; exact hi.count
        · obtain ⟨d, hd, -⟩ := hu cs g [] rfl
          cases hd
      | initializePop init blank =>
        obtain ⟨r1, r2, r3, -⟩ := reinit_spec y.K init blank y.st.pop hi.distinct
        refine ⟨_, rfl, ?_, ?_, r1, ?_, fun _ => cacheCorrect_uncomputed r3⟩
        · rw [moSize_snoc]; exact hi.K
        · rw [moCount_snoc]; exact r2.trans hi.K
        · intro a ha; simp at ha
      | run sel v =>
        have hK := moSize_pos hz'
        have hgood := hv sel v (by simp) y.K (by rw [hi.K]; exact hK.1) (by rw [hi.K]; exact hK.2)
        have hlen : y.K ≤ y.st.pop.length := by rw [hi.K, hi.count]; exact hr2 ⟨sel, v, rfl⟩
        have hK1 : 1 ≤ y.K := by rw [hi.K]; exact hK.1
        obtain ⟨r, hrr, hsel⟩ := moSound_run opt y.f y.K (sel y.K) v hK1 (fun g => (hgood g).1)
          (s := y.st) ⟨hi.distinct, hlen⟩ y.maxGen y.maxFail
        refine ⟨{ y with st := r.state, generation := r.generation, record := r.record },
          by simp only [moCall, hrr, Out.ok_bind], ?_, ?_, hsel.distinct, hsel.front, fun hu => ?_⟩
        · rw [moSize_snoc]; exact hi.K
        · rw [moCount_snoc]; exact hsel.size.trans hi.K
        · have hc := hi.cache (moUnchanged_snoc (by rintro ⟨_, _, h⟩; cases h) hu)
          obtain ⟨-, h2, -⟩ := run_record _ _ _ _ _ r hrr
          obtain ⟨t, c, ht, -, hc1, hc2, -, hst, -⟩ :=
            mo_after opt y.f y.K (sel y.K) v hK1 (fun g => (hgood g).1) ⟨hi.distinct, hc, hlen⟩ r.generation
          rw [h2] at ht
          cases ht
          exact (moStep_ready opt y.f y.K hc1 hc2 hst).1.cache
    · by_cases hr1 : RoomForRuns cs
      · obtain ⟨y, hy, hi⟩ := ih1 hr1
        have hnr : ¬ ((∃ sel v, c = .run sel v) → moPopulationSize cs ≤ moCount cs) :=
          fun h => hr (hroom.2 ⟨hr1, h⟩)
        simp only [not_forall] at hnr
        obtain ⟨⟨sel, v, rfl⟩, hlt⟩ := hnr
        have hK := moSize_pos hz'
        have hgood := hv sel v (by simp) y.K (by rw [hi.K]; exact hK.1) (by rw [hi.K]; exact hK.2)
        have hlen : y.st.pop.length < y.K := by rw [hi.K, hi.count]; omega
        rw [hy, Out.ok_bind]
        show (gaRun (moSolver opt y.f (sel y.K) v) y.maxGen y.maxFail (y.maxGen + 1) y.st >>= _) = _
        rw [short_run opt y.f y.K (sel y.K) v (hgood 1).2 hlen]
        rfl
      · rw [ih2 hr1]; rfl

/-- All runs of the history are runs of NSGA-II. -/
def NSGA2Calls (eps : α) (cs : List (MOCall V m α)) : Prop :=
  ∀ sel v, MOCall.run sel v ∈ cs → ∃ e : Nat → NSGA2Env m,
    sel = fun K g fit => nsga2Select opt K eps fit (e g).sortD (e g).sortF (e g).sortC

theorem nsga2Calls_valid {eps : α} {cs : List (MOCall V m α)} (h : NSGA2Calls opt eps cs) : MOValid opt cs := by
  intro sel v hm K hK hK' g
  obtain ⟨e, rfl⟩ := h sel v hm
  exact ⟨good_nsga2 opt K eps (e g), short_nsga2 opt K eps (e g)⟩

/-- All runs of the history are runs of NSGA-III with legal draws; the fuel of the niching loop is not a
restriction. -/
def NSGA3Calls (tiny : α) (refs : List (Fin m → α)) (cs : List (MOCall V m α)) : Prop :=
  ∀ sel v, MOCall.run sel v ∈ cs → ∃ (e : Nat → NSGA3Env α) (fuel : Nat → Nat),
    (∀ g, (e g).Legal) ∧ (∀ n, n + refs.length ≤ fuel n) ∧
    sel = fun K g fit pop =>
      nsga3SelectFull K fit (e g).sortD tiny refs (e g).order (e g).ds (fuel pop.length) pop

theorem nsga3Calls_valid {tiny : α} (ht : 0 ≤ tiny) {refs : List (Fin m → α)} (hrefs : refs ≠ [])
    (hw : ∀ w ∈ refs, ∃ i, w i ≠ 0) {cs : List (MOCall V m α)} (h : NSGA3Calls tiny refs cs) :
    MOValid .lessBetter cs := by
  intro sel v hm K hK hK' g
  obtain ⟨e, fuel, he, hf, rfl⟩ := h sel v hm
  exact ⟨good_nsga3 K hK' tiny ht refs hrefs hw (e g) (he g) fuel hf, short_nsga3 K tiny refs (e g) fuel⟩

theorem moFront_defined {s : MOState V m α} (hd : DistinctNodes s.pop) (hf : ∀ a ∈ s.pf, a ∈ s.pop.map (·.1))
    (order : Finset Addr → List Addr) (hord : ∀ S a, a ∈ order S ↔ a ∈ S) :
    ∃ front, paretoFront order s = .ok front := by
  unfold paretoFront
  have : ∀ l : List Addr, (∀ a ∈ l, a ∈ s.pop.map (·.1)) →
      ∃ front, (l.mapM fun a => deref s.pop a >>= fun g => Out.ok g.fitness) = .ok front := by
    intro l
    induction l with
    | nil => intro _; exact ⟨[], rfl⟩
    | cons a l ih =>
      intro h
      obtain ⟨c, hc, hca⟩ := List.mem_map.1 (h a (by simp))
      obtain ⟨fr, hfr⟩ := ih (fun x hx => h x (by simp [hx]))
      refine ⟨c.2.fitness :: fr, ?_⟩
      rw [List.mapM_cons, ← hca, deref_of_mem hd hc, Out.ok_bind, Out.ok_bind, hfr]
      rfl
  exact this _ (fun a ha => hf a ((hord _ _).1 ha))

theorem mo_session_main (f : V → Fin m → α) (garbage : Nat × Nat) (cs : List (MOCall V m α))
    (hv : MOValid opt cs) (hz : MOSizes cs) :
    (RoomForRuns cs ↔ ∃ x, moSession opt (.new f garbage) cs = .ok x) ∧
    (¬ RoomForRuns cs ↔ moSession opt (.new f garbage) cs = .ub) ∧
    ∀ x, moSession opt (.new f garbage) cs = .ok x →
      x.st.pop.length = moCount cs ∧
      (∀ order, (∀ S a, a ∈ order S ↔ a ∈ S) → ∃ front, paretoFront order x.st = .ok front) := by
  obtain ⟨h1, h2⟩ := mo_session_cases opt f garbage cs hv hz
  refine ⟨⟨fun h => ?_, fun ⟨x, hx⟩ => ?_⟩, ⟨h2, fun h hr => ?_⟩, fun x hx => ?_⟩
  · obtain ⟨x, hx, -⟩ := h1 h; exact ⟨x, hx⟩
  · by_contra hn; rw [h2 hn] at hx; cases hx
  · obtain ⟨x, hx, -⟩ := h1 hr; rw [hx] at h; cases h
  · have hr : RoomForRuns cs := by
      by_contra hn; rw [h2 hn] at hx; cases hx
    obtain ⟨y, hy, hi⟩ := h1 hr
    rw [hx] at hy
    cases hy
    exact ⟨hi.count, fun order hord => moFront_defined hi.distinct hi.front order hord⟩

theorem mo_session_run (f : V → Fin m → α) (garbage : Nat × Nat) (cs : List (MOCall V m α))
    (sel : Nat → Nat → (Addr → Fin m → α) → List Addr → Out (SelectResult Addr)) (v : Nat → MOVary V m α)
    (hv : MOValid opt (cs ++ [.run sel v])) (hz : MOSizes cs) (hu : MOFitnessUnchanged cs) (x : MOObj V m α)
    (hx : moSession opt (.new f garbage) (cs ++ [.run sel v]) = .ok x)
    (order : Finset Addr → List Addr) (hord : ∀ S, (order S).Nodup ∧ ∀ a, a ∈ order S ↔ a ∈ S) :
    x.generation = x.maxGen ∧ x.record.length = x.maxGen + 1 ∧ x.st.pop.length = x.K ∧
    (∀ c ∈ x.st.pop, c.2.fitness = x.f c.2.var) ∧
    ∃ front, paretoFront order x.st = .ok front ∧
      IsFrontOf opt x.f (x.st.pop.map fun c => c.2.var) front := by
  have hv' : MOValid opt cs := fun s w hm => hv s w (List.mem_append_left _ hm)
  obtain ⟨h1, h2⟩ := mo_session_cases opt f garbage cs hv' hz
  rw [moSession_snoc, Out.bind_eq_ok] at hx
  obtain ⟨y, hy, hx⟩ := hx
  have hr : RoomForRuns cs := by
    by_contra hn; rw [h2 hn] at hy; cases hy
  obtain ⟨y', hy', hi⟩ := h1 hr
  rw [hy] at hy'
  cases hy'
  have hK := moSize_pos hz
  have hgood := hv sel v (by simp) y.K (by rw [hi.K]; exact hK.1) (by rw [hi.K]; exact hK.2)
  have hK1 : 1 ≤ y.K := by rw [hi.K]; exact hK.1
  simp only [moCall, Out.bind_eq_ok, Out.ok.injEq] at hx
  obtain ⟨r, hrr, rfl⟩ := hx
  have hlen : y.K ≤ y.st.pop.length := by
    by_contra hlt
    rw [short_run opt y.f y.K (sel y.K) v (hgood 1).2 (by omega)] at hrr
    cases hrr
  obtain ⟨r', hr', a1, a2, a3, a4, -⟩ := mo_run opt y.f y.K (sel y.K) v hK1 (fun g => (hgood g).1) y.st
    ⟨hi.distinct, hi.cache hu, hlen⟩ y.maxGen y.maxFail order hord
  rw [hrr] at hr'
  cases hr'
  obtain ⟨b1, -, -⟩ := run_record _ _ _ _ _ r hrr
  exact ⟨a1, b1.trans (by rw [a1]), a2, a3, a4⟩

/-- **C110**, NSGA-II: any sequence of calls with positive population sizes either returns or has undefined
behaviour, and it has undefined behaviour exactly when some `run` comes at a moment when the population is
smaller than `populationSize` (never initialised, or `populationSize` raised by `setOption` without
`initializePop`).  Whenever it returns, the population has the size of the last `initializePop` or `run` and
`paretoFront` dereferences no dangling pointer, whatever the history. -/
theorem nsga2_session (eps : α) (f : V → Fin m → α) (garbage : Nat × Nat) (cs : List (MOCall V m α))
    (hv : NSGA2Calls opt eps cs) (hz : MOSizes cs) :
    (RoomForRuns cs ↔ ∃ x, moSession opt (.new f garbage) cs = .ok x) ∧
    (¬ RoomForRuns cs ↔ moSession opt (.new f garbage) cs = .ub) ∧
    ∀ x, moSession opt (.new f garbage) cs = .ok x →
      x.st.pop.length = moCount cs ∧
      (∀ order, (∀ S a, a ∈ order S ↔ a ∈ S) → ∃ front, paretoFront order x.st = .ok front) :=
  mo_session_main opt f garbage cs (nsga2Calls_valid opt hv) hz

/-- **C110**, NSGA-III. -/
theorem nsga3_session (tiny : α) (ht : 0 ≤ tiny) (refs : List (Fin m → α)) (hrefs : refs ≠ [])
    (hw : ∀ w ∈ refs, ∃ i, w i ≠ 0) (f : V → Fin m → α) (garbage : Nat × Nat) (cs : List (MOCall V m α))
    (hv : NSGA3Calls tiny refs cs) (hz : MOSizes cs) :
    (RoomForRuns cs ↔ ∃ x, moSession .lessBetter (.new f garbage) cs = .ok x) ∧
    (¬ RoomForRuns cs ↔ moSession .lessBetter (.new f garbage) cs = .ub) ∧
    ∀ x, moSession .lessBetter (.new f garbage) cs = .ok x →
      x.st.pop.length = moCount cs ∧
      (∀ order, (∀ S a, a ∈ order S ↔ a ∈ S) → ∃ front, paretoFront order x.st = .ok front) :=
  mo_session_main .lessBetter f garbage cs (nsga3Calls_valid ht hrefs hw hv) hz

/-- **C110**, NSGA-II: after any history that ends with a returning `run` and in which the fitness function was
not changed since the last `initializePop`, everybody carries its true fitness, exactly `populationSize`
individuals are left, the run made `maxGenerations` generations, the record is that of the last run, and
`paretoFront` lists exactly the non-dominated ones. -/
theorem nsga2_session_run (eps : α) (f : V → Fin m → α) (garbage : Nat × Nat) (cs : List (MOCall V m α))
    (sel : Nat → Nat → (Addr → Fin m → α) → List Addr → Out (SelectResult Addr)) (v : Nat → MOVary V m α)
    (hv : NSGA2Calls opt eps (cs ++ [.run sel v])) (hz : MOSizes cs) (hu : MOFitnessUnchanged cs) (x : MOObj V m α)
    (hx : moSession opt (.new f garbage) (cs ++ [.run sel v]) = .ok x)
    (order : Finset Addr → List Addr) (hord : ∀ S, (order S).Nodup ∧ ∀ a, a ∈ order S ↔ a ∈ S) :
    x.generation = x.maxGen ∧ x.record.length = x.maxGen + 1 ∧ x.st.pop.length = x.K ∧
    (∀ c ∈ x.st.pop, c.2.fitness = x.f c.2.var) ∧
    ∃ front, paretoFront order x.st = .ok front ∧
      IsFrontOf opt x.f (x.st.pop.map fun c => c.2.var) front :=
  mo_session_run opt f garbage cs sel v (nsga2Calls_valid opt hv) hz hu x hx order hord

/-- **C110**, NSGA-III. -/
theorem nsga3_session_run (tiny : α) (ht : 0 ≤ tiny) (refs : List (Fin m → α)) (hrefs : refs ≠ [])
    (hw : ∀ w ∈ refs, ∃ i, w i ≠ 0) (f : V → Fin m → α) (garbage : Nat × Nat) (cs : List (MOCall V m α))
    (sel : Nat → Nat → (Addr → Fin m → α) → List Addr → Out (SelectResult Addr)) (v : Nat → MOVary V m α)
    (hv : NSGA3Calls tiny refs (cs ++ [.run sel v])) (hz : MOSizes cs) (hu : MOFitnessUnchanged cs)
    (x : MOObj V m α) (hx : moSession .lessBetter (.new f garbage) (cs ++ [.run sel v]) = .ok x)
    (order : Finset Addr → List Addr) (hord : ∀ S, (order S).Nodup ∧ ∀ a, a ∈ order S ↔ a ∈ S) :
    x.generation = x.maxGen ∧ x.record.length = x.maxGen + 1 ∧ x.st.pop.length = x.K ∧
    (∀ c ∈ x.st.pop, c.2.fitness = x.f c.2.var) ∧
    ∃ front, paretoFront order x.st = .ok front ∧
      IsFrontOf .lessBetter x.f (x.st.pop.map fun c => c.2.var) front :=
  mo_session_run .lessBetter f garbage cs sel v (nsga3Calls_valid ht hrefs hw hv) hz hu x hx order hord

/-- **C110**: between `initializePop` and the next `run` the reported front is empty. -/
theorem mo_front_after_init (x : MOObj V m α) (init : Nat → V) (blank : Gene V (Fin m → α))
    (order : Finset Addr → List Addr) (hord : ∀ S a, a ∈ order S ↔ a ∈ S) :
    ∃ y, moCall opt x (.initializePop init blank) = .ok y ∧ paretoFront order y.st = .ok [] := by
  refine ⟨_, rfl, ?_⟩
  have : order ∅ = [] := by
    rw [List.eq_nil_iff_forall_not_mem]
    intro a ha
    rw [hord] at ha
    simp at ha
  unfold paretoFront
  dsimp only
  rw [this]
  rfl

end

end Heu
