import Verif.Props.Session2

/-!
# The settings in force are the ones set last (C113)
-/

namespace Heu
open Spec
set_option linter.unusedSimpArgs false
set_option linter.unusedVariables false

theorem lastSet_cons {C T : Type} (get : C → Option T) (c : C) (cs : List C) (i : T) :
    lastSet get (c :: cs) i = lastSet get cs ((get c).getD i) := by
  unfold lastSet
  rw [List.filterMap_cons]
  cases get c with
  | none => rfl
  | some t =>
    simp only [Option.getD_some]
    cases h : cs.filterMap get with
    | nil => rfl
    | cons a l => simp [List.getLast?_cons_cons, List.getLast?_cons]

section soga
variable {V α : Type} [Field α] [LinearOrder α] [IsStrictOrderedRing α] {opt : FitnessOption}

theorem soga_settings_from (cs : List (SOGACall V α)) (x y : SOGAObj V α)
    (h : sogaSession opt x cs = .ok y) :
    (y.K, y.maxGen, y.maxFail) = lastSet SOGACall.option? cs (x.K, x.maxGen, x.maxFail) ∧
    y.f = lastSet SOGACall.fitness? cs x.f ∧ y.method = lastSet SOGACall.method? cs x.method := by
  induction cs generalizing x with
  | nil =>
    simp only [sogaSession, Out.ok.injEq] at h
    subst h
    exact ⟨rfl, rfl, rfl⟩
  | cons c cs ih =>
    simp only [sogaSession] at h
    rw [Out.bind_eq_ok] at h
    obtain ⟨z, hz, h⟩ := h
    obtain ⟨h1, h2, h3⟩ := ih z h
    rw [h1, h2, h3, lastSet_cons, lastSet_cons, lastSet_cons]
    cases c with
    | setOption K G F =>
      simp only [sogaCall, Out.ok.injEq] at hz; subst hz
      simp [SOGACall.option?, SOGACall.fitness?, SOGACall.method?]
    | setFitness f =>
      simp only [sogaCall, Out.ok.injEq] at hz; subst hz
      simp [SOGACall.option?, SOGACall.fitness?, SOGACall.method?]
    | setSelectMethod m =>
      simp only [sogaCall] at hz
      rw [Out.bind_eq_ok] at hz
      obtain ⟨m', hm, hz⟩ := hz
      simp only [Out.ok.injEq] at hz; subst hz
      have : m' = m := by cases m <;> simp_all [setSelectMethod]
      subst this
      simp [SOGACall.option?, SOGACall.fitness?, SOGACall.method?]
    | initializePop init blank =>
      simp only [sogaCall, Out.ok.injEq] at hz; subst hz
      simp [SOGACall.option?, SOGACall.fitness?, SOGACall.method?]
    | run e v fuel =>
      simp only [sogaCall] at hz
      rw [Out.bind_eq_ok] at hz
      obtain ⟨r, hr, hz⟩ := hz
      simp only [Out.ok.injEq] at hz; subst hz
      simp [SOGACall.option?, SOGACall.fitness?, SOGACall.method?]

/-- **C113**, genetic algorithms: after any history of calls the options, the fitness function and the
selection method are those given last, or 100 / 300 / 50, the constructor's function and EliteReserved if
they were never given; no other call (in particular neither `initializePop` nor `run`) changes them. -/
theorem soga_settings (f : V → α) (garbage : Addr × Nat × Nat) (cs : List (SOGACall V α))
    (x : SOGAObj V α) (h : sogaSession opt (.new f garbage) cs = .ok x) :
    (x.K, x.maxGen, x.maxFail) = lastSet SOGACall.option? cs (100, 300, 50) ∧
    x.f = lastSet SOGACall.fitness? cs f ∧
    x.method = lastSet SOGACall.method? cs .EliteReserved :=
  soga_settings_from cs _ x h

/-- **C113**: the settings last given are the ones a following `run` obeys: with the number of
generations and the population size given last. -/
theorem soga_run_obeys (f : V → α) (garbage : Addr × Nat × Nat) (cs : List (SOGACall V α))
    (hv : SOGAValid cs) (e : Nat → SelectEnv (Gene V α) α) (he : ∀ g, ValidEnv (e g))
    (v : Nat → VaryEnv V α) (fuel : Nat) (x : SOGAObj V α)
    (h : sogaSession opt (.new f garbage) (cs ++ [.run e v fuel]) = .ok x) :
    x.generation ≤ (lastSet SOGACall.option? cs (100, 300, 50)).2.1 ∧
    (x.generation < (lastSet SOGACall.option? cs (100, 300, 50)).2.1 →
      0 < (lastSet SOGACall.option? cs (100, 300, 50)).2.2 ∧
      (lastSet SOGACall.option? cs (100, 300, 50)).2.2 < x.st.fail) := by
  obtain ⟨-, -, h1, h2, -⟩ := soga_session opt f garbage cs hv e he v fuel x h
  have h3 := (soga_settings f garbage _ x h).1
  have h4 : lastSet SOGACall.option? (cs ++ [.run e v fuel]) (100, 300, 50) =
      lastSet SOGACall.option? cs (100, 300, 50) := by
    unfold lastSet
    simp [List.filterMap_append, SOGACall.option?]
  rw [h4] at h3
  rw [← h3]
  exact ⟨h1, h2⟩

end soga

section mo
variable {V α : Type} {m : Nat} [Zero α] [LinearOrder α] {opt : FitnessOption}

/-- **C113**, multi-objective solvers. -/
theorem mo_settings (f : V → Fin m → α) (garbage : Nat × Nat) (cs : List (MOCall V m α))
    (x : MOObj V m α) (h : moSession opt (.new f garbage) cs = .ok x) :
    (x.K, x.maxGen, x.maxFail) = lastSet MOCall.option? cs (100, 300, 50) ∧
    x.f = lastSet MOCall.fitness? cs f := by
  have key : ∀ (cs : List (MOCall V m α)) (x y : MOObj V m α), moSession opt x cs = .ok y →
      (y.K, y.maxGen, y.maxFail) = lastSet MOCall.option? cs (x.K, x.maxGen, x.maxFail) ∧
      y.f = lastSet MOCall.fitness? cs x.f := by
    intro cs
    induction cs with
    | nil =>
      intro x y h
      simp only [moSession, Out.ok.injEq] at h
      subst h
      exact ⟨rfl, rfl⟩
    | cons c cs ih =>
      intro x y h
      simp only [moSession] at h
      rw [Out.bind_eq_ok] at h
      obtain ⟨z, hz, h⟩ := h
      obtain ⟨h1, h2⟩ := ih z y h
      rw [h1, h2, lastSet_cons, lastSet_cons]
      cases c with
      | run sel v =>
        simp only [moCall] at hz
        rw [Out.bind_eq_ok] at hz
        obtain ⟨r, hr, hz⟩ := hz
        simp only [Out.ok.injEq] at hz; subst hz
        simp [MOCall.option?, MOCall.fitness?]
      | _ =>
        simp only [moCall, Out.ok.injEq] at hz; subst hz
        simp [MOCall.option?, MOCall.fitness?]
  exact key cs _ x h

end mo

section pso
variable {α F : Type} [Add α] [Sub α] [Mul α] [Neg α] [LT α] [DecidableLT α] [LT F] [DecidableLT F]
  {opt : FitnessOption}

/-- **C113**, particle swarms. -/
theorem pso_settings (f : List α → F) (garbage : Point (List α) F × Nat × Nat)
    (cs : List (PSOCall α F)) (x : PSOObj α F) (h : psoSession opt (.new f garbage) cs = .ok x) :
    (x.K, x.maxGen, x.maxFail) = lastSet PSOCall.option? cs (200, 300, 100) ∧
    x.f = lastSet PSOCall.fitness? cs f := by
  have key : ∀ (cs : List (PSOCall α F)) (x y : PSOObj α F), psoSession opt x cs = .ok y →
      (y.K, y.maxGen, y.maxFail) = lastSet PSOCall.option? cs (x.K, x.maxGen, x.maxFail) ∧
      y.f = lastSet PSOCall.fitness? cs x.f := by
    intro cs
    induction cs with
    | nil =>
      intro x y h
      simp only [psoSession, Out.ok.injEq] at h
      subst h
      exact ⟨rfl, rfl⟩
    | cons c cs ih =>
      intro x y h
      simp only [psoSession] at h
      rw [Out.bind_eq_ok] at h
      obtain ⟨z, hz, h⟩ := h
      obtain ⟨h1, h2⟩ := ih z y h
      rw [h1, h2, lastSet_cons, lastSet_cons]
      cases c with
      | run b o rnd =>
        simp only [psoCall] at hz
        rw [Out.bind_eq_ok] at hz
        obtain ⟨r, hr, hz⟩ := hz
        simp only [Out.ok.injEq] at hz; subst hz
        simp [PSOCall.option?, PSOCall.fitness?]
      | initializePop init =>
        simp only [psoCall] at hz
        rw [Out.bind_eq_ok] at hz
        obtain ⟨r, hr, hz⟩ := hz
        simp only [Out.ok.injEq] at hz; subst hz
        simp [PSOCall.option?, PSOCall.fitness?]
      | _ =>
        simp only [psoCall, Out.ok.injEq] at hz; subst hz
        simp [PSOCall.option?, PSOCall.fitness?]
  exact key cs _ x h

end pso

/-- The hypotheses are met: a history with two `setOption` calls that returns. -/
example : (sogaSession .lessBetter (.new (fun x : ℚ => x ^ 2) (77, 78, 79))
      [.setOption 7 9 9, .setSelectMethod .Tournament, .setOption 3 0 0, demoInitCall 4]).satisfies
      (fun x => x.K == 3 && x.maxGen == 0 && x.maxFail == 0) = true := by
  decide +kernel

example : lastSet SOGACall.option?
      [.setOption 7 9 9, .setSelectMethod .Tournament, .setOption 3 0 0, demoInitCall 4] (100, 300, 50) =
    (3, 0, 0) := by
  decide +kernel

end Heu
