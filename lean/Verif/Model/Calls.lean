import Verif.Model.SOGA
import Verif.Model.Session
import Verif.Model.MORun

/-!
# A run of a genetic solver as a sequence of calls of the user's functions

In the other models of the genetic solvers the fitness function is a function of the variables.  Here all four user
functions may have side effects and may depend on them: they act on a state of the rest of the program (`ω`: global
variables, counters, files, measurement noise, the random generator, which they share with the solver).  This is the
code of `Genetic/GABase.hpp` lines 120-127 and 171-317, in the order in which it makes the calls.  The pointers to the
user functions are not null here (`Heu.GACore` has that case).
-/

namespace Heu

/-- The four functions of the user (`Genetic/GAAbstract.hpp` lines 53-60), as transformers of the state of the rest of
the program.  The initialiser gets what is in the variable before, the fitness function what is in the fitness before;
what the children of crossover and mutation contain before is part of the state. -/
structure UserFns (V F ω : Type) where
  ini : V → ω → V × ω
  fit : V → F → ω → F × ω
  cross : V → V → ω → (V × V) × ω
  muta : V → ω → V × ω

/-- What the main loop uses besides: the random generator `randD()` and `std::shuffle` (`Genetic/GABase.hpp` lines 268,
273 and 307), selection, `bestFitness()` and `_failTimes` of the concrete solver (`τ` are its other members), the order
in which the loop of lines 226-233 calls the fitness function for its tasks (without OpenMP that of the list, lines
236-242), the fitness in a new node. -/
structure GAHost (κ V F ω τ R : Type) where
  rnd : ω → κ × ω
  shuffle : List (Cell (Gene V F)) → ω → List (Cell (Gene V F)) × ω
  select : Pop (Gene V F) → τ → ω → Out ((Pop (Gene V F) × τ) × ω)
  bestFitness : Pop (Gene V F) → τ → Out R
  failTimes : τ → Nat
  resetFail : τ → τ
  order : List Addr → List Addr
  junk : F

section
variable {κ V F ω τ R : Type}

/-- The loop of `initializePop`, `Genetic/GABase.hpp` lines 122-126. -/
def iniCalls (u : UserFns V F ω) : Pop (Gene V F) → ω → Pop (Gene V F) × ω
  | [], w => ([], w)
  | c :: cs, w =>
    let r := u.ini c.2.var w
    let rest := iniCalls u cs r.2
    ((c.1, { c.2 with var := r.1, computed := false }) :: rest.1, rest.2)

/-- `initializePop`, `Genetic/GABase.hpp` lines 120-127. -/
def initializeCalls (u : UserFns V F ω) (K : Nat) (blank : Gene V F) (pop : Pop (Gene V F)) (w : ω) :
    Pop (Gene V F) × ω := iniCalls u (resizePop K blank pop) w

/-- The loop of `__impl_computeAllFitness`, `Genetic/GABase.hpp` lines 226-233 (236-242), over the nodes at the given
addresses.  With OpenMP the calls are taken to happen one after the other. -/
def evalCalls (u : UserFns V F ω) : List Addr → Pop (Gene V F) → ω → Out (Pop (Gene V F) × ω)
  | [], pop, w => .ok (pop, w)
  | a :: as, pop, w => do
    let g ← deref pop a
    let r := u.fit g.var g.fitness w
    evalCalls u as
      (pop.map fun c => if c.1 = a then (c.1, { c.2 with fitness := r.1, computed := true }) else c) r.2

/-- `__impl_computeAllFitness`, `Genetic/GABase.hpp` lines 213-243: the tasks are the nodes that are not computed. -/
def evaluateCalls (u : UserFns V F ω) (h : GAHost κ V F ω τ R) (pop : Pop (Gene V F)) (w : ω) :
    Out (Pop (Gene V F) × ω) := evalCalls u (h.order (evalTasks pop)) pop w

/-- The nodes whose draw `randD()` is at most `p`, `Genetic/GABase.hpp` lines 267-271 and 306-310. -/
def drawn [LE κ] [DecidableLE κ] (h : GAHost κ V F ω τ R) (p : κ) :
    Pop (Gene V F) → ω → List (Cell (Gene V F)) × ω
  | [], w => ([], w)
  | c :: cs, w =>
    let x := h.rnd w
    let rest := drawn h p cs x.2
    (if x.1 ≤ p then c :: rest.1 else rest.1, rest.2)

/-- The `while` loop of `__impl_crossover`, `Genetic/GABase.hpp` lines 278-296; the queue is reversed, because it is
consumed from its back. -/
def crossCalls (u : UserFns V F ω) (junk : F) :
    List (Cell (Gene V F)) → Pop (Gene V F) → ω → Pop (Gene V F) × ω
  | a :: b :: queue, pop, w =>
    let r := u.cross a.2.var b.2.var w
    crossCalls u junk queue
      (emplaceBack (emplaceBack pop { var := r.1.1, fitness := junk, computed := false })
        { var := r.1.2, fitness := junk, computed := false }) r.2
  | _, pop, w => (pop, w)

/-- `__impl_crossover`, `Genetic/GABase.hpp` lines 262-297. -/
def crossoverCalls [LE κ] [DecidableLE κ] (u : UserFns V F ω) (h : GAHost κ V F ω τ R) (p : κ)
    (pop : Pop (Gene V F)) (w : ω) : Pop (Gene V F) × ω :=
  let d := drawn h p pop w
  let q := h.shuffle d.1 d.2
  crossCalls u h.junk (if q.1.length % 2 = 1 then q.1.dropLast else q.1).reverse pop q.2

/-- The second loop of `__impl_mutate`, `Genetic/GABase.hpp` lines 311-316. -/
def mutCalls (u : UserFns V F ω) (junk : F) :
    List (Cell (Gene V F)) → Pop (Gene V F) → ω → Pop (Gene V F) × ω
  | c :: cs, pop, w =>
    let r := u.muta c.2.var w
    mutCalls u junk cs (emplaceBack pop { var := r.1, fitness := junk, computed := false }) r.2
  | [], pop, w => (pop, w)

/-- `__impl_mutate`, `Genetic/GABase.hpp` lines 303-317 (the reservation of line 305 is in `Heu.GACore.mutate`). -/
def mutateCalls [LE κ] [DecidableLE κ] (u : UserFns V F ω) (h : GAHost κ V F ω τ R) (p : κ)
    (pop : Pop (Gene V F)) (w : ω) : Pop (Gene V F) × ω :=
  let d := drawn h p pop w
  mutCalls u h.junk d.1 pop d.2

/-- What a run leaves: population, other members, `generation()`, `record()` and the state of the rest of the program.
(`Genetic/GABase.hpp` lines 141, 151-155 and 413.) -/
structure CallsResult (V F ω τ R : Type) where
  pop : Pop (Gene V F)
  rest : τ
  generation : Nat
  record : List R
  world : ω

/-- The options a run reads, `Genetic/GAOption.hpp` lines 57-83. -/
structure GALimits (κ : Type) where
  maxGen : Nat
  maxFail : Nat
  cxProb : κ
  muProb : κ

/-- The `while (true)` loop of `__impl_run`, `Genetic/GABase.hpp` lines 175-204, with fuel. -/
def callsLoop [LE κ] [DecidableLE κ] (u : UserFns V F ω) (h : GAHost κ V F ω τ R) (o : GALimits κ) :
    Nat → Nat → Pop (Gene V F) → τ → ω → List R → Out (CallsResult V F ω τ R)
  | 0, _, _, _, _, _ => .timeout
  | fuel + 1, gen, pop, t, w, record => do
    let e ← evaluateCalls u h pop w
    let s ← h.select e.1 t e.2
    let b ← h.bestFitness s.1.1 s.1.2
    if gen + 1 > o.maxGen then .ok ⟨s.1.1, s.1.2, gen, record ++ [b], s.2⟩
    else if o.maxFail > 0 ∧ h.failTimes s.1.2 > o.maxFail then .ok ⟨s.1.1, s.1.2, gen, record ++ [b], s.2⟩
    else
      let c := crossoverCalls u h o.cxProb s.1.1 s.2
      let m := mutateCalls u h o.muProb c.1 c.2
      callsLoop u h o fuel (gen + 1) m.1 s.1.2 m.2 (record ++ [b])

/-- `__impl_run`, `Genetic/GABase.hpp` lines 171-205. -/
def callsRun [LE κ] [DecidableLE κ] (u : UserFns V F ω) (h : GAHost κ V F ω τ R) (o : GALimits κ)
    (pop : Pop (Gene V F)) (t : τ) (w : ω) : Out (CallsResult V F ω τ R) :=
  callsLoop u h o (o.maxGen + 1) 0 pop (h.resetFail t) w []

end

/-- The single-objective solver: selection method `m` of `Genetic/SOGASelecters.hpp` (lines 916-927) with draws `env w`,
after which the rest of the program is in state `next w`; the other members are `_bestGene` and `_failTimes`
(`Genetic/SOGA.hpp` line 168, `Genetic/GABase.hpp` line 155); `bestFitness()` is `Genetic/SOGA.hpp` line 149. -/
def sogaHost {κ V α ω : Type} [Field α] [LinearOrder α] (opt : FitnessOption) (m : SelectMethod) (K : Nat)
    (env : ω → SelectEnv (Gene V α) α) (next : ω → ω) (rnd : ω → κ × ω)
    (shuffle : List (Cell (Gene V α)) → ω → List (Cell (Gene V α)) × ω) (order : List Addr → List Addr) (junk : α) :
    GAHost κ V α ω (Addr × Nat) α where
  rnd := rnd
  shuffle := shuffle
  select pop t w := do
    let s ← runSelect opt Gene.fitness m (env w) K { pop := pop, best := t.1, fail := t.2 }
    .ok ((s.pop, (s.best, s.fail)), next w)
  bestFitness pop t := deref pop t.1 >>= fun g => .ok g.fitness
  failTimes t := t.2
  resetFail t := (t.1, 0)
  order := order
  junk := junk

end Heu
