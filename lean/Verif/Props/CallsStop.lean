import Verif.Props.Calls

/-!
# C157: when a run of a genetic solver stops

For every solver, every selection and user functions that may do anything: a run ends after `maxGenerations`, or in the
first generation in which the fail counter exceeds a positive `maxFailTimes`; the record has one entry for each
generation, and the generations before do not depend on the limits.
-/

set_option linter.unusedVariables false

namespace Heu
open Spec

section
variable {κ V F ω τ R : Type}

/-- A fail counter of `n` ends a run: there is a limit, and it is exceeded. -/
def FailsOut (maxFail n : Nat) : Prop := 0 < maxFail ∧ maxFail < n

theorem evalCalls_not_timeout (u : UserFns V F ω) : ∀ (as : List Addr) (pop : Pop (Gene V F)) (w : ω),
    evalCalls u as pop w ≠ .timeout
  | [], _, _ => by simp [evalCalls]
  | a :: as, pop, w => by
    rw [evalCalls]
    rcases deref_ok_or_ub pop a with ⟨g, hg⟩ | hu
    · rw [hg, Out.ok_bind]; exact evalCalls_not_timeout u as _ _
    · rw [hu]; intro h; cases h

variable [LE κ] [DecidableLE κ]

theorem callsLoop_stop (u : UserFns V F ω) (h : GAHost κ V F ω τ R) (o : GALimits κ) :
    ∀ (fuel gen : Nat) (pop : Pop (Gene V F)) (t : τ) (w : ω) (record : List R) (r : CallsResult V F ω τ R),
      fuel + gen = o.maxGen + 1 → record.length = gen → callsLoop u h o fuel gen pop t w record = .ok r →
      gen ≤ r.generation ∧ r.generation ≤ o.maxGen ∧ r.record.length = r.generation + 1 ∧ record <+: r.record ∧
      (r.generation = o.maxGen ∨ FailsOut o.maxFail (h.failTimes r.rest)) ∧
      (∃ b, r.record.getLast? = some b ∧ h.bestFitness r.pop r.rest = .ok b) ∧
      ∀ j, gen ≤ j → j < r.generation → ∃ r',
        callsLoop u h { o with maxGen := j } (j + 1 - gen) gen pop t w record = .ok r' ∧ r'.generation = j ∧
        ¬ FailsOut o.maxFail (h.failTimes r'.rest) ∧ r'.record = r.record.take (j + 1)
  | 0, gen, pop, t, w, record, r, hf, hl, hr => by cases hr
  | fuel + 1, gen, pop, t, w, record, r, hf, hl, hr => by
    rw [callsLoop] at hr
    obtain ⟨e, he, hr⟩ := Out.bind_eq_ok.1 hr
    obtain ⟨s, hs, hr⟩ := Out.bind_eq_ok.1 hr
    obtain ⟨b, hb, hr⟩ := Out.bind_eq_ok.1 hr
    by_cases h1 : gen + 1 > o.maxGen
    · rw [if_pos h1] at hr
      have := Out.ok.inj hr
      subst this
      refine ⟨le_refl _, by simp; omega, by simp [hl], by simp, .inl (by simp; omega), ⟨b, by simp, hb⟩, ?_⟩
      intro j h2 h3
      simp only at h3
      omega
    rw [if_neg h1] at hr
    by_cases h2 : o.maxFail > 0 ∧ h.failTimes s.1.2 > o.maxFail
    · rw [if_pos h2] at hr
      have := Out.ok.inj hr
      subst this
      refine ⟨le_refl _, by simp; omega, by simp [hl], by simp, .inr ⟨h2.1, h2.2⟩, ⟨b, by simp, hb⟩, ?_⟩
      intro j h2 h3
      simp only at h3
      omega
    rw [if_neg h2] at hr
    obtain ⟨a1, a2, a3, a4, a5, a6, a7⟩ := callsLoop_stop u h o fuel (gen + 1) _ _ _ _ r (by omega) (by simp [hl]) hr
    refine ⟨by omega, a2, a3, (List.prefix_append _ _).trans a4, a5, a6, ?_⟩
    intro j hj1 hj2
    rcases Nat.eq_or_lt_of_le hj1 with hj | hj
    · subst hj
      refine ⟨⟨s.1.1, s.1.2, gen, record ++ [b], s.2⟩, ?_, rfl, h2, ?_⟩
      · rw [show gen + 1 - gen = 0 + 1 by omega, callsLoop, he, Out.ok_bind, hs, Out.ok_bind, hb, Out.ok_bind,
          if_pos (Nat.lt_succ_self gen)]
      · have := List.prefix_iff_eq_take.1 a4
        rw [this]
        simp [hl]
    · obtain ⟨r', b1, b2, b3, b4⟩ := a7 j (by omega) hj2
      refine ⟨r', ?_, b2, b3, b4⟩
      rw [show j + 1 - gen = (j + 1 - (gen + 1)) + 1 by omega, callsLoop, he, Out.ok_bind, hs, Out.ok_bind, hb,
        Out.ok_bind, if_neg (show ¬ gen + 1 > j by omega)]
      show (if o.maxFail > 0 ∧ h.failTimes s.1.2 > o.maxFail then _ else _) = _
      rw [if_neg h2]
      exact b1

/-- C157: a run that ends normally has made at most `maxGenerations` generations; it ended because it had made them all
or because the fail counter exceeded a positive `maxFailTimes`; the record has one entry for the start and one for each
generation, the last of them for the population that is left; and nothing stopped it before: limited to a smaller number `j` of generations
it does all `j`, with a fail counter within the limit, and its record is a prefix. -/
theorem ga_run_stops (u : UserFns V F ω) (h : GAHost κ V F ω τ R) (o : GALimits κ) (pop : Pop (Gene V F)) (t : τ) (w : ω)
    (r : CallsResult V F ω τ R) (hr : callsRun u h o pop t w = .ok r) :
    r.generation ≤ o.maxGen ∧ r.record.length = r.generation + 1 ∧
    (r.generation = o.maxGen ∨ FailsOut o.maxFail (h.failTimes r.rest)) ∧
    (∃ b, r.record.getLast? = some b ∧ h.bestFitness r.pop r.rest = .ok b) ∧
    ∀ j, j < r.generation → ∃ r', callsRun u h { o with maxGen := j } pop t w = .ok r' ∧ r'.generation = j ∧
      ¬ FailsOut o.maxFail (h.failTimes r'.rest) ∧ r'.record = r.record.take (j + 1) := by
  obtain ⟨-, a2, a3, -, a5, a6, a7⟩ := callsLoop_stop u h o (o.maxGen + 1) 0 pop _ w [] r rfl rfl hr
  exact ⟨a2, a3, a5, a6, fun j hj => a7 j (Nat.zero_le _) hj⟩

theorem callsLoop_terminates (u : UserFns V F ω) (h : GAHost κ V F ω τ R) (o : GALimits κ)
    (hsel : ∀ pop t w, h.select pop t w ≠ .timeout) (hbf : ∀ pop t, h.bestFitness pop t ≠ .timeout) :
    ∀ (fuel gen : Nat) (pop : Pop (Gene V F)) (t : τ) (w : ω) (record : List R), fuel + gen = o.maxGen →
      callsLoop u h o (fuel + 1) gen pop t w record ≠ .timeout := by
  intro fuel
  induction fuel with
  | zero =>
    intro gen pop t w record hf
    rw [callsLoop]
    have h1 := evalCalls_not_timeout u (h.order (evalTasks pop)) pop w
    unfold evaluateCalls
    cases he : evalCalls u (h.order (evalTasks pop)) pop w with
    | timeout => exact absurd he h1
    | ub => intro h; cases h
    | ok e =>
      rw [Out.ok_bind]
      cases hs : h.select e.1 t e.2 with
      | timeout => exact absurd hs (hsel _ _ _)
      | ub => intro h; cases h
      | ok s =>
        rw [Out.ok_bind]
        cases hb : h.bestFitness s.1.1 s.1.2 with
        | timeout => exact absurd hb (hbf _ _)
        | ub => intro h; cases h
        | ok b =>
          rw [Out.ok_bind, if_pos (by omega)]
          intro h; cases h
  | succ fuel ih =>
    intro gen pop t w record hf
    rw [callsLoop]
    have h1 := evalCalls_not_timeout u (h.order (evalTasks pop)) pop w
    unfold evaluateCalls
    cases he : evalCalls u (h.order (evalTasks pop)) pop w with
    | timeout => exact absurd he h1
    | ub => intro h; cases h
    | ok e =>
      rw [Out.ok_bind]
      cases hs : h.select e.1 t e.2 with
      | timeout => exact absurd hs (hsel _ _ _)
      | ub => intro h; cases h
      | ok s =>
        rw [Out.ok_bind]
        cases hb : h.bestFitness s.1.1 s.1.2 with
        | timeout => exact absurd hb (hbf _ _)
        | ub => intro h; cases h
        | ok b =>
          rw [Out.ok_bind, if_neg (by omega)]
          split
          · intro h; cases h
          · exact ih (gen + 1) _ _ _ _ (by omega)

/-- C157: a run ends: if no selection and no `bestFitness()` loops for ever, nor does the run, whatever the user's
functions do to the state of the program. -/
theorem ga_run_terminates (u : UserFns V F ω) (h : GAHost κ V F ω τ R) (o : GALimits κ)
    (hsel : ∀ pop t w, h.select pop t w ≠ .timeout) (hbf : ∀ pop t, h.bestFitness pop t ≠ .timeout)
    (pop : Pop (Gene V F)) (t : τ) (w : ω) : callsRun u h o pop t w ≠ .timeout :=
  callsLoop_terminates u h o hsel hbf o.maxGen 0 pop _ w [] rfl

end

section soga
variable {κ V α ω : Type} [Field α] [LinearOrder α] [IsStrictOrderedRing α] [LE κ] [DecidableLE κ]

/-- C157: for the single-objective solver, with all ten selection methods: the counter is `_failTimes`, which a run sets
to zero first, so neither its value before nor the best individual of an earlier run has an influence on when it ends. -/
theorem soga_run_stops (opt : FitnessOption) (m : SelectMethod) (K : Nat) (env : ω → SelectEnv (Gene V α) α)
    (next : ω → ω) (rnd : ω → κ × ω) (shuffle : List (Cell (Gene V α)) → ω → List (Cell (Gene V α)) × ω)
    (order : List Addr → List Addr) (junk : α) (u : UserFns V α ω) (o : GALimits κ) (pop : Pop (Gene V α)) (a : Addr)
    (n : Nat) (w : ω) (r : CallsResult V α ω (Addr × Nat) α)
    (hr : callsRun u (sogaHost opt m K env next rnd shuffle order junk) o pop (a, n) w = .ok r) :
    (∀ n', callsRun u (sogaHost opt m K env next rnd shuffle order junk) o pop (a, n') w = .ok r) ∧
    (r.generation = o.maxGen ∨ r.generation < o.maxGen ∧ FailsOut o.maxFail r.rest.2) ∧
    (∃ g, deref r.pop r.rest.1 = .ok g ∧ r.record.getLast? = some g.fitness) ∧
    ∀ j, j < r.generation → ∃ r', callsRun u (sogaHost opt m K env next rnd shuffle order junk)
      { o with maxGen := j } pop (a, n) w = .ok r' ∧ r'.generation = j ∧ ¬ FailsOut o.maxFail r'.rest.2 ∧
        r'.record = r.record.take (j + 1) := by
  obtain ⟨a1, a2, a3, ⟨b, a4, a5⟩, a6⟩ := ga_run_stops u _ o pop (a, n) w r hr
  refine ⟨fun n' => hr, ?_, ?_, a6⟩
  · rcases Nat.eq_or_lt_of_le a1 with h | h
    · exact .inl h
    · exact .inr ⟨h, a3.resolve_left (by omega)⟩
  · obtain ⟨g, hg, hb⟩ := Out.bind_eq_ok.1 a5
    exact ⟨g, hg, by rw [a4, ← Out.ok.inj hb]⟩

end soga

/-! ## Examples -/

/-- Nothing ever gets better: the fitness function returns 1 for everybody. -/
def flatFns : UserFns ℚ ℚ Nat where
  ini _ w := (4 + w, w + 1)
  fit _ _ w := (1, w + 1)
  cross p q w := ((p + q, p - 3), w + 1)
  muta v w := (v + 1, w + 1)

/-- With `maxFailTimes = 2` it gives up in generation 2 or 3 of 9, although the counter was at 7 before the run … -/
example : (callsRun flatFns noisyHost ⟨9, 2, 1, 0⟩ (initializeCalls flatFns 3 ⟨0, 0, false⟩ [] 0).1 (1, 7)
      (initializeCalls flatFns 3 ⟨0, 0, false⟩ [] 0).2).satisfies
    (fun r => r.generation < 5 && r.generation != 0 && r.rest.2 == 3 && r.record.length == r.generation + 1) = true := by
  decide +kernel

/-- … and without a limit it makes all its generations. -/
example : (callsRun flatFns noisyHost ⟨4, 0, 1, 0⟩ (initializeCalls flatFns 3 ⟨0, 0, false⟩ [] 0).1 (1, 7)
      (initializeCalls flatFns 3 ⟨0, 0, false⟩ [] 0).2).satisfies
    (fun r => r.generation == 4 && r.record.length == 5) = true := by
  decide +kernel

/-- A selection that never loops for ever. -/
def neverLoops : GAHost ℚ ℚ ℚ Nat Nat ℚ where
  rnd w := ((w % 3 : Nat), w + 1)
  shuffle l w := (l, w)
  select pop t w := .ok ((pop, t + 1), w + 1)
  bestFitness pop _ := .ok ((pop.map fun c => c.2.fitness).foldl min 0)
  failTimes t := t
  resetFail _ := 0
  order := id
  junk := 0

example (o : GALimits ℚ) (pop : Pop (Gene ℚ ℚ)) (t w : Nat) : callsRun flatFns neverLoops o pop t w ≠ .timeout :=
  ga_run_terminates flatFns neverLoops o (fun _ _ _ h => by cases h) (fun _ _ h => by cases h) pop t w

end Heu
