import Verif.Props.GAFull

/-! # C131: histories of calls on a genetic solver object (continued) -/

set_option linter.unusedSectionVars false
set_option linter.unusedVariables false
set_option linter.unusedSimpArgs false

namespace Heu
open Spec

section mo
variable {κ A Ω V α : Type} {m : Nat} [Field α] [LinearOrder α] [IsStrictOrderedRing α]
variable [CommRing κ] [LinearOrder κ] [IsStrictOrderedRing κ]
variable (opt : FitnessOption) (cap : Nat)

/-- **C131**, several objectives.  A history of calls with legal arguments, in which every `initializePop` finds an
initialiser and every `run` finds the other three functions (and a mutation probability that is not negative), either
returns or is undefined, and it is undefined exactly if some `run` finds fewer than `populationSize` individuals.
After it, there are as many individuals as `populationSize` was at the last `initializePop` or `run`, and
`paretoFront` reads no dangling pointer. -/
theorem moFull_defined (p q : κ) (arg : A) (fail gen : Nat) (cs : List (MOFullCall κ A Ω V m α))
    (hl : MOFullLegal opt cs) (hp : MOFullPrepared true cap p q cs) :
    (MOFullRoom p q cs ↔ ∃ x, moFullSession true opt cap (.new p q arg fail gen) cs = .ok x) ∧
    (¬ MOFullRoom p q cs ↔ moFullSession true opt cap (.new p q arg fail gen) cs = .ub) ∧
    ∀ x, moFullSession true opt cap (.new p q arg fail gen) cs = .ok x →
      x.st.pop.length = moFullCount cs ∧
      (∀ order, (∀ S a, a ∈ order S ↔ a ∈ S) → ∃ front, paretoFront order x.st = .ok front) := by
  obtain ⟨h1, h2⟩ := moFull_cases opt cap p q arg fail gen cs hl hp
  refine ⟨⟨fun h => ?_, fun h => ?_⟩, ⟨h2, fun h hr => ?_⟩, fun x hx => ?_⟩
  · obtain ⟨x, hx, -⟩ := h1 h; exact ⟨x, hx⟩
  · by_contra hr
    obtain ⟨x, hx⟩ := h
    rw [h2 hr] at hx; cases hx
  · obtain ⟨x, hx, -⟩ := h1 hr
    rw [h] at hx; cases hx
  · have hr : MOFullRoom p q cs := by
      by_contra hr
      rw [h2 hr] at hx; cases hx
    obtain ⟨y, hy, hi⟩ := h1 hr
    have : x = y := Out.ok.inj (hx.symm.trans hy)
    subst this
    exact ⟨hi.count, fun order hord => moFront_defined hi.distinct hi.front order hord⟩

/-- **C131**, several objectives: after any history that ends with a returning `run`, and in which neither fitness
function nor arguments were changed since the last `initializePop`, there was a fitness function; the run made
`maxGenerations` generations, recorded once per evaluation, and left `populationSize` individuals; everybody carries
the value of the fitness function given last at the arguments given last; and `paretoFront` lists exactly the
non-dominated ones. -/
theorem moFull_session_run (p q : κ) (arg : A) (fail gen : Nat) (cs : List (MOFullCall κ A Ω V m α))
    (sel : Nat → Nat → (Addr → Fin m → α) → List Addr → Out (SelectResult Addr))
    (d : Nat → VaryDraw κ Ω V (Fin m → α)) (hl : MOFullLegal opt (cs ++ [.run sel d]))
    (hk : MOFullFitnessKept cs) (x : MOFull κ A Ω V m α)
    (hx : moFullSession true opt cap (.new p q arg fail gen) (cs ++ [.run sel d]) = .ok x)
    (order : Finset Addr → List Addr) (hord : ∀ S, (order S).Nodup ∧ ∀ a, a ∈ order S ↔ a ∈ S) :
    ∃ f a, lastSet (fun c => (MOFullCall.set? c).bind GASetter.fFun?) cs none = some f ∧
      a = lastSet (fun c => (MOFullCall.set? c).bind GASetter.arg?) cs arg ∧
      x.core.generation = x.core.maxGen ∧ x.core.record.length = x.core.maxGen + 1 ∧
      x.st.pop.length = x.core.K ∧ (∀ c ∈ x.st.pop, c.2.fitness = f a c.2.var) ∧
      ∃ front, paretoFront order x.st = .ok front ∧
        IsFrontOf opt (f a) (x.st.pop.map fun c => c.2.var) front := by
  have hset := moFull_settings opt cap true p q arg fail gen _ x hx
  have hx' := hx
  rw [moFull_snoc, Out.bind_eq_ok] at hx'
  obtain ⟨x0, hx0, hc⟩ := hx'
  have hl' := MOFullLegal.left opt hl
  have hset0 := moFull_settings opt cap true p q arg fail gen _ x0 hx0
  have hfn : lastSet (fun c => (MOFullCall.set? c).bind GASetter.fFun?) cs none ≠ none := by
    intro hf
    rw [moFull_run_needs_fitness opt cap true p q arg fail gen cs sel d hl hk hf x0 hx0] at hx
    cases hx
  obtain ⟨f, hf⟩ := Option.ne_none_iff_exists'.1 hfn
  obtain ⟨cs', y0, hy0, hm0, hF⟩ := moFull_simulates opt cap (fun _ => 0) p q arg fail gen cs hl' x0 hx0
  obtain ⟨y, hy1, hm⟩ := moFull_run_refines opt cap hm0 sel d hc
  have hy := moSession_snoc (opt := opt) (.new (fun _ => 0) (fail, gen)) cs'
    (.run sel (fun g => pureVary x0.core (d g)))
  rw [hy0, Out.ok_bind, hy1] at hy
  have hv : MOValid opt (cs' ++ [.run sel (fun g => pureVary x0.core (d g))]) := by
    intro s v hm' K h1 h2 g
    rcases List.mem_append.1 hm' with h | h
    · exact moMirror_valid opt hF hl' s v h K h1 h2 g
    · have h' := List.mem_singleton.1 h
      cases h'
      exact hl.select sel d (by simp) K h1 h2 g
  obtain ⟨g1, g2, g3, g4, front, g5, g6⟩ := mo_session_run opt (fun _ => 0) _ cs' sel _ hv
    (moMirror_sizes hF) (moMirror_kept hF hk) y hy order hord
  have hfx : x.core.fFun = some f := by
    have h6 := hset.fFun
    rw [lastSet_snoc_bind] at h6
    rw [h6]; exact hf
  have hax : x.core.arg = lastSet (fun c => (MOFullCall.set? c).bind GASetter.arg?) cs arg := by
    have h6 := hset.arg
    rw [lastSet_snoc_bind] at h6
    exact h6
  have hyf := hm.f f hfx
  rw [hyf] at g4 g6
  rw [hm.st] at g3 g4 g5 g6
  rw [hm.generation, hm.maxGen] at g1
  rw [hm.record, hm.maxGen] at g2
  rw [hm.K] at g3
  exact ⟨f, x.core.arg, hf, hax, g1, g2, g3, g4, front, g5, g6⟩

/-- The first evaluation and selection of a run with enough individuals. -/
theorem mo_first_generation {x : MOFull κ A Ω V m α} (hK : 1 ≤ x.core.K) (hf : x.core.fFun ≠ none)
    (sel : Nat → Nat → (Addr → Fin m → α) → List Addr → Out (SelectResult Addr))
    (hg : GoodSelection opt x.core.K (sel x.core.K 1))
    (hd : DistinctNodes x.st.pop) (hlen : x.core.K ≤ x.st.pop.length)
    (d : Nat → VaryDraw κ Ω V (Fin m → α)) (rec : Bool) (hG : 1 ≤ x.core.maxGen) :
    ∃ t record, MOSelected x.core.K t ∧
      gaOpsLoop rec (x.ops opt cap sel d) x.core.maxGen x.core.maxFail (x.core.maxGen + 1) 0
        { x.st with fail := 0 } [] =
      ((x.ops opt cap sel d).crossover 1 t >>= fun u => (x.ops opt cap sel d).mutate 1 u >>= fun v =>
        gaOpsLoop rec (x.ops opt cap sel d) x.core.maxGen x.core.maxFail x.core.maxGen 1 v record) := by
  obtain ⟨f, hf'⟩ := Option.ne_none_iff_exists'.1 hf
  obtain ⟨t0, ht0⟩ := core_evaluate_ok hf x.st.pop
  have ht0' := core_evaluate (f := f x.core.arg) (fun g hg => by rw [hf'] at hg; cases hg; rfl) ht0
  have h1 : (x.ops opt cap sel d).evaluate { x.st with fail := 0 } = .ok { x.st with fail := 0, pop := t0 } := by
    simp only [MOFull.ops, ht0, Out.ok_bind]
  have hsound : MOSound x.core.K { x.st with fail := 0, pop := t0 } := by
    refine ⟨?_, ?_⟩
    · show DistinctNodes t0
      rw [ht0']; unfold DistinctNodes; rw [distinct_computeAllFitness]; exact hd
    · show _ ≤ t0.length
      rw [ht0']; simpa [computeAllFitness] using hlen
  obtain ⟨t, ht, hst⟩ := moSelect_sound hK hg hsound
  have h2 : (x.ops opt cap sel d).select (0 + 1) { x.st with fail := 0, pop := t0 } = .ok t := ht
  have hfail : t.fail = 0 := by
    simp only [moSelect, Out.bind_eq_ok] at ht
    obtain ⟨r, -, htt⟩ := ht
    rw [← Out.ok.inj htt]
  have hne : (t.pop.map fun c => c.2.fitness) ≠ [] := by
    intro h
    have : t.pop.length = 0 := by simpa using congrArg List.length h
    have := hst.size
    omega
  obtain ⟨b, hb, -⟩ := bestFitness_ideal opt _ hne
  have h3 : (x.ops opt cap sel d).bestFitness t = .ok b := hb
  refine ⟨t, if rec then [b] else [], hst, ?_⟩
  conv_lhs => unfold gaOpsLoop
  rw [h1, Out.ok_bind, h2, Out.ok_bind]
  have hnot : ¬ (x.core.maxFail > 0 ∧ (x.ops opt cap sel d).failTimes t > x.core.maxFail) := by
    show ¬ (x.core.maxFail > 0 ∧ t.fail > x.core.maxFail)
    rw [hfail]; omega
  cases rec with
  | true =>
    simp only [if_true, h3, Out.ok_bind, List.nil_append]
    rw [if_neg (by omega), if_neg hnot]
  | false =>
    simp only [Bool.false_eq_true, if_false, Out.ok_bind]
    rw [if_neg (by omega), if_neg hnot]

/-- **C131**: with a crossover probability of (at least) 1, at least two individuals and at least one generation,
`run` without a crossover function calls a null pointer. -/
theorem moFull_run_needs_crossover (rec : Bool) (x : MOFull κ A Ω V m α) (hK : 2 ≤ x.core.K)
    (hG : 1 ≤ x.core.maxGen) (hf : x.core.fFun ≠ none) (hcf : x.core.cFun = none)
    (sel : Nat → Nat → (Addr → Fin m → α) → List Addr → Out (SelectResult Addr))
    (hg : GoodSelection opt x.core.K (sel x.core.K 1))
    (hd : DistinctNodes x.st.pop) (hlen : x.core.K ≤ x.st.pop.length)
    (d : Nat → VaryDraw κ Ω V (Fin m → α)) (hp : VaryDraw.Legal (d 1)) (hu : ∀ a, (d 1).cxU a < 1)
    (hprob : 1 ≤ x.core.cxProb) :
    moFullCall rec opt cap x (.run sel d) = .ub := by
  obtain ⟨t, record, hst, hloop⟩ := mo_first_generation opt cap (by omega) hf sel hg hd hlen d rec hG
  simp only [moFullCall]
  split
  · rw [hloop]
    have : (x.ops opt cap sel d).crossover 1 t = .ub := by
      simp only [MOFull.ops, GACore.crossover]
      rw [if_neg, hcf]
      · rfl
      · rw [(hp _).length_eq, List.filter_eq_self.2]
        · rw [hst.size]; omega
        · intro c _
          simpa using (hu c.1).le.trans hprob
    rw [this]; rfl
  · rfl

/-- **C131**: with a mutation probability of (at least) 1 and at least one generation, `run` without a mutation
function calls a null pointer. -/
theorem moFull_run_needs_mutation (rec : Bool) (x : MOFull κ A Ω V m α) (hK : 1 ≤ x.core.K)
    (hG : 1 ≤ x.core.maxGen) (hf : x.core.fFun ≠ none) (hmf : x.core.mFun = none)
    (sel : Nat → Nat → (Addr → Fin m → α) → List Addr → Out (SelectResult Addr))
    (hg : GoodSelection opt x.core.K (sel x.core.K 1))
    (hd : DistinctNodes x.st.pop) (hlen : x.core.K ≤ x.st.pop.length)
    (d : Nat → VaryDraw κ Ω V (Fin m → α)) (hu : ∀ a, (d 1).muU a < 1)
    (hprob : 1 ≤ x.core.muProb) :
    moFullCall rec opt cap x (.run sel d) = .ub := by
  obtain ⟨t, record, hst, hloop⟩ := mo_first_generation opt cap hK hf sel hg hd hlen d rec hG
  simp only [moFullCall]
  split
  · rw [hloop]
    cases hcr : (x.ops opt cap sel d).crossover 1 t with
    | ub => rfl
    | timeout =>
      simp only [MOFull.ops, GACore.crossover] at hcr
      split at hcr
      · cases hcr
      · cases hcf : x.core.cFun with
        | none => rw [hcf] at hcr; cases hcr
        | some f => rw [hcf] at hcr; cases hcr
    | ok u =>
      rw [Out.ok_bind]
      simp only [MOFull.ops, Out.bind_eq_ok] at hcr
      obtain ⟨pop, hpop, hu'⟩ := hcr
      have hpop' := core_crossover hpop
      have hu'' := Out.ok.inj hu'
      have hne : u.pop ≠ [] := by
        obtain ⟨⟨new, hnew, -⟩, -⟩ := crossoverLoop_appends (pureVary x.core (d 1)).junk (pureVary x.core (d 1)).cx 0
          ((let q := (pureVary x.core (d 1)).cxShuffle (t.pop.filter fun c => (pureVary x.core (d 1)).cxSel c.1)
            if q.length % 2 = 1 then q.dropLast else q).reverse) t.pop
        have he : u.pop = t.pop ++ new := by
          rw [← hu'', ← hnew]; exact hpop'
        intro h
        rw [h] at he
        have h0 : t.pop.length = 0 := by
          have := congrArg List.length he
          rw [List.length_append, List.length_nil] at this
          omega
        have := hst.size
        omega
      have : (x.ops opt cap sel d).mutate 1 u = .ub := by
        simp only [MOFull.ops, GACore.mutate]
        split
        · rw [if_neg, hmf]
          · rfl
          · obtain ⟨c, l, hcl⟩ := List.exists_cons_of_ne_nil hne
            rw [hcl]
            have : (d 1).muU c.1 ≤ x.core.muProb := (hu c.1).le.trans hprob
            simp [this]
        · rfl
      rw [this]; rfl
  · rfl

/-- **C131**: a negative mutation probability does not mean "never": as soon as `2 * populationSize * mutateProb` is
-1 or less, the number of pointers to reserve is converted from a negative double to `size_t` in the first generation,
which is undefined. -/
theorem moFull_negative_mutateProb (rec : Bool) (x : MOFull κ A Ω V m α) (hK : 1 ≤ x.core.K)
    (hG : 1 ≤ x.core.maxGen) (hf : x.core.fFun ≠ none)
    (sel : Nat → Nat → (Addr → Fin m → α) → List Addr → Out (SelectResult Addr))
    (hg : GoodSelection opt x.core.K (sel x.core.K 1))
    (hd : DistinctNodes x.st.pop) (hlen : x.core.K ≤ x.st.pop.length)
    (d : Nat → VaryDraw κ Ω V (Fin m → α)) (hprob : 2 * (x.core.K : κ) * x.core.muProb ≤ -1) :
    moFullCall rec opt cap x (.run sel d) = .ub := by
  obtain ⟨t, record, hst, hloop⟩ := mo_first_generation opt cap hK hf sel hg hd hlen d rec hG
  simp only [moFullCall]
  split
  · rw [hloop]
    cases hcr : (x.ops opt cap sel d).crossover 1 t with
    | ub => rfl
    | timeout =>
      simp only [MOFull.ops, GACore.crossover] at hcr
      split at hcr
      · cases hcr
      · cases hcf : x.core.cFun with
        | none => rw [hcf] at hcr; cases hcr
        | some f => rw [hcf] at hcr; cases hcr
    | ok u =>
      rw [Out.ok_bind]
      simp only [MOFull.ops, Out.bind_eq_ok] at hcr
      obtain ⟨pop, hpop, hu'⟩ := hcr
      have hpop' := core_crossover hpop
      have hu'' := Out.ok.inj hu'
      have hlen2 : x.core.K ≤ u.pop.length := by
        obtain ⟨⟨new, hnew, -⟩, -⟩ := crossoverLoop_appends (pureVary x.core (d 1)).junk (pureVary x.core (d 1)).cx 0
          ((let q := (pureVary x.core (d 1)).cxShuffle (t.pop.filter fun c => (pureVary x.core (d 1)).cxSel c.1)
            if q.length % 2 = 1 then q.dropLast else q).reverse) t.pop
        have he : u.pop = t.pop ++ new := by
          rw [← hu'', ← hnew]; exact hpop'
        rw [he, List.length_append, hst.size]; omega
      have hK0 : (0 : κ) < (x.core.K : κ) := by exact_mod_cast hK
      have hneg : x.core.muProb < 0 := by
        by_contra hcon
        have : 0 ≤ 2 * (x.core.K : κ) * x.core.muProb := by
          have := mul_nonneg hK0.le (not_lt.1 hcon)
          linarith
        linarith
      have hle : (x.core.K : κ) ≤ (u.pop.length : κ) := by exact_mod_cast hlen2
      have := mul_le_mul_of_nonpos_right hle hneg.le
      have : (x.ops opt cap sel d).mutate 1 u = .ub := by
        simp only [MOFull.ops, GACore.mutate]
        rw [if_neg]
        · rfl
        · rintro ⟨h1, -⟩
          linarith
      rw [this]; rfl
  · rfl

end mo

end Heu
