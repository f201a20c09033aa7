import Verif.Model.MORun
import Verif.Model.AOS
import Verif.Model.PSO

/-!
# Solver objects and sequences of API calls

The other model files describe `run()` on a freshly initialised solver.  Here a solver is an object: its
options, its fitness function, its population and the results of the last run persist between calls, and the
user may call the public functions in any order and any number of times.
-/

namespace Heu

section
variable {V F : Type}

/-- `_population.resize(K)` (`std::list`, called in `Genetic/GABase.hpp` line 121): surplus nodes are erased
from the end, missing nodes are appended; the nodes that stay keep their contents.  `blank` is a default
constructed gene. -/
def resizePop (K : Nat) (blank : Gene V F) (pop : Pop (Gene V F)) : Pop (Gene V F) :=
  (List.replicate (K - pop.length) blank).foldl emplaceBack (pop.take K)

/-- `initializePop` on any population, `Genetic/GABase.hpp` lines 120-127: the list is resized and every
node gets new variables and is marked as not computed (its old fitness value stays in memory).
Simplification: the user's initialiser is a function of the position, it does not look at the old
variables. -/
def reinitializePop (K : Nat) (init : Nat → V) (blank : Gene V F) (pop : Pop (Gene V F)) :
    Pop (Gene V F) :=
  (resizePop K blank pop).zipIdx.map fun p => (p.1.1, { p.1.2 with var := init p.2, computed := false })

end

section soga
variable {V α : Type} [Field α] [LinearOrder α]

/-- A `SOGA` object with run-time selection method: `_option` (three of its fields; the two probabilities
only influence the draws), the fitness function, `_selectMethod`, population / best gene / failure counter,
`_generation` and `_record` (`Genetic/GABase.hpp` lines 151-155 and 421, `Genetic/SOGA.hpp` line 168,
`Genetic/SOGASelecters.hpp` line 966). -/
structure SOGAObj (V α : Type) where
  K : Nat
  maxGen : Nat
  maxFail : Nat
  f : V → α
  method : SelectMethod
  st : SOState (Gene V α)
  generation : Nat
  record : List α

/-- A newly constructed object (`Genetic/GAOption.hpp` lines 45-51 for the defaults,
`Genetic/SOGASelecters.hpp` line 940): no individuals; `_bestGene` is a singular iterator, `_generation`
and `_failTimes` are indeterminate (`garbage`). -/
def SOGAObj.new (f : V → α) (garbage : Addr × Nat × Nat) : SOGAObj V α :=
  { K := 100, maxGen := 300, maxFail := 50, f := f, method := defaultSelectMethod
    st := { pop := [], best := garbage.1, fail := garbage.2.1 }, generation := garbage.2.2, record := [] }

/-- The public calls that change the object: `setOption` (`Genetic/GABase.hpp` line 104), `setfFun` or
`setArgs` (both change the fitness function, `Genetic/GAAbstract.hpp` lines 33 and 108), `setSelectMethod`
(`Genetic/SOGASelecters.hpp` lines 944-963), `initializePop` and `run`.  A call carries its random draws. -/
inductive SOGACall (V α : Type) where
  | setOption (K maxGen maxFail : Nat)
  | setFitness (f : V → α)
  | setSelectMethod (m : SelectMethod)
  | initializePop (init : Nat → V) (blank : Gene V α)
  | run (e : Nat → SelectEnv (Gene V α) α) (v : Nat → VaryEnv V α) (fuel : Nat)

/-- One call.  `initializePop` is `Genetic/SOGA.hpp` lines 161-164 (`begin()` of an empty list is `end()`,
here an address that is not in the list); `run` is `Genetic/GABase.hpp` lines 171-205 with the selector
chosen by `Genetic/SOGASelecters.hpp` lines 968-972. -/
def sogaCall (opt : FitnessOption) (x : SOGAObj V α) : SOGACall V α → Out (SOGAObj V α)
  | .setOption K G F => .ok { x with K := K, maxGen := G, maxFail := F }
  | .setFitness f => .ok { x with f := f }
  | .setSelectMethod m => do
    let m' ← setSelectMethod x.method m
    .ok { x with method := m' }
  | .initializePop init blank =>
    let pop := reinitializePop x.K init blank x.st.pop
    let first := match pop with
      | [] => freshAddr pop
      | c :: _ => c.1
    .ok { x with st := { x.st with pop := pop, best := first } }
  | .run e v fuel => do
    let r ← gaRun (sogaSolver opt x.f (dispatchedMethod x.method) x.K e v) x.maxGen x.maxFail fuel x.st
    .ok { x with st := r.state, generation := r.generation, record := r.record }

/-- A sequence of public calls, in order (`Genetic/GABase.hpp` lines 99-205; glue). -/
def sogaSession (opt : FitnessOption) (x : SOGAObj V α) : List (SOGACall V α) → Out (SOGAObj V α)
  | [] => .ok x
  | c :: cs => sogaCall opt x c >>= fun y => sogaSession opt y cs

/-- `result()`, `Genetic/SOGA.hpp` line 156: dereferences `_bestGene`. -/
def SOGAObj.result (x : SOGAObj V α) : Out V := deref x.st.pop x.st.best >>= fun g => .ok g.var

/-- `bestFitness()`, `Genetic/SOGA.hpp` line 149: the fitness stored in `*_bestGene`. -/
def SOGAObj.bestFitness (x : SOGAObj V α) : Out α :=
  deref x.st.pop x.st.best >>= fun g => .ok g.fitness

end soga

section mo
variable {V α : Type} {m : Nat} [Zero α] [LinearOrder α]

/-- A multi-objective solver object (`NSGA2` or `NSGA3`): `populationSize` and `maxGenerations`, the fitness
function, population and front, `_generation` and `_record` (`Genetic/GABase.hpp` lines 151-155 and 421,
`Genetic/MOGAAbstract.hpp` line 148). -/
structure MOObj (V : Type) (m : Nat) (α : Type) where
  K : Nat
  maxGen : Nat
  maxFail : Nat
  f : V → Fin m → α
  st : MOState V m α
  generation : Nat
  record : List (Fin m → α)

/-- A newly constructed object (`Genetic/GAOption.hpp` lines 45-51): no individuals, no front; `_generation` and `_failTimes` are
indeterminate (`garbage`). -/
def MOObj.new (f : V → Fin m → α) (garbage : Nat × Nat) : MOObj V m α :=
  { K := 100, maxGen := 300, maxFail := 50, f := f
    st := { pop := [], pf := ∅, fail := garbage.1 }, generation := garbage.2, record := [] }

/-- The public calls that change the object (as `SOGACall`); a run carries the crossover and mutation draws and the
selection algorithm with its draws, given the population size.
(`Genetic/GABase.hpp` lines 104 and 120-205, `Genetic/GAAbstract.hpp` lines 33 and 108.) -/
inductive MOCall (V : Type) (m : Nat) (α : Type) where
  | setOption (K maxGen maxFail : Nat)
  | setFitness (f : V → Fin m → α)
  | initializePop (init : Nat → V) (blank : Gene V (Fin m → α))
  | run (sel : Nat → Nat → (Addr → Fin m → α) → List Addr → Out (SelectResult Addr)) (v : Nat → MOVary V m α)

/-- One call.  `initializePop` is `Genetic/MOGAAbstract.hpp` lines 119-123, `run` is `Genetic/GABase.hpp` lines
171-205 (fuel `maxGenerations + 1` is never too little). -/
def moCall (opt : FitnessOption) (x : MOObj V m α) : MOCall V m α → Out (MOObj V m α)
  | .setOption K G F => .ok { x with K := K, maxGen := G, maxFail := F }
  | .setFitness f => .ok { x with f := f }
  | .initializePop init blank =>
    .ok { x with st := { x.st with pop := reinitializePop x.K init blank x.st.pop, pf := ∅ } }
  | .run sel v => do
    let r ← gaRun (moSolver opt x.f (sel x.K) v) x.maxGen x.maxFail (x.maxGen + 1) x.st
    .ok { x with st := r.state, generation := r.generation, record := r.record }

/-- A sequence of public calls, in order (`Genetic/GABase.hpp` lines 99-205; glue). -/
def moSession (opt : FitnessOption) (x : MOObj V m α) : List (MOCall V m α) → Out (MOObj V m α)
  | [] => .ok x
  | c :: cs => moCall opt x c >>= fun y => moSession opt y cs

end mo

section pso
variable {α F : Type} [Add α] [Sub α] [Mul α] [Neg α] [LT α] [DecidableLT α] [LT F] [DecidableLT F]

/-- A PSO solver object: `_option` (`populationSize`, `maxGeneration`, `maxFailTimes`), the fitness function,
swarm / global best / failure counter, `_generation` and `_record` (`PSO/PSOAbstrcat.hpp` lines 196-222 and
418). -/
structure PSOObj (α F : Type) where
  K : Nat
  maxGen : Nat
  maxFail : Nat
  f : List α → F
  st : PSOState (List α) F
  generation : Nat
  record : List F

/-- A newly constructed object (`PSO/PSOOption.hpp` lines 38-45 for the defaults): no particles; the global
best, `_failTimes` and `_generation` are indeterminate (`garbage`). -/
def PSOObj.new (f : List α → F) (garbage : Point (List α) F × Nat × Nat) : PSOObj α F :=
  { K := 200, maxGen := 300, maxFail := 100, f := f
    st := { swarm := [], gBest := garbage.1, fail := garbage.2.1 }, generation := garbage.2.2, record := [] }

/-- The public calls that change the object (`PSO/PSOAbstrcat.hpp` lines 101 and 178, `PSO/PSO.hpp` line 119 for
`run`); the box and the factors in force and the random draws are arguments of `run`. -/
inductive PSOCall (α F : Type) where
  | setOption (K maxGen maxFail : Nat)
  | setFitness (f : List α → F)
  | initializePop (init : Nat → List α × List α)
  | run (b : PSOBox α) (o : PSOFactors α) (rnd : Nat → Nat → α × α)

/-- One call.  `initializePop` is `PSO/PSOAbstrcat.hpp` lines 178-192: after the `resize` every particle is
overwritten, so nothing of the old swarm remains, and `_generation` and `_failTimes` become 0; the record is not
touched.  `run` is lines 233-267 (fuel `maxGeneration + 1` is never too little). -/
def psoCall (opt : FitnessOption) (x : PSOObj α F) : PSOCall α F → Out (PSOObj α F)
  | .setOption K G F => .ok { x with K := K, maxGen := G, maxFail := F }
  | .setFitness f => .ok { x with f := f }
  | .initializePop init => do
    let s ← psoInitializePop x.K init x.f
    .ok { x with st := s, generation := 0 }
  | .run b o rnd => do
    let r ← psoRun opt x.f (fun g => updatePopulation b o (rnd g)) x.maxGen x.maxFail (x.maxGen + 1) x.st
    .ok { x with st := r.state, generation := r.generation, record := r.record }

/-- A sequence of public calls, in order (`PSO/PSOAbstrcat.hpp` lines 95-267; glue). -/
def psoSession (opt : FitnessOption) (x : PSOObj α F) : List (PSOCall α F) → Out (PSOObj α F)
  | [] => .ok x
  | c :: cs => psoCall opt x c >>= fun y => psoSession opt y cs

end pso

section aos
variable {α : Type} [Field α] [LinearOrder α] [FloorSemiring α]

/-- A second `run()` of an AOS solver, `AOSBase.hpp` lines 105-125: `_generation`, `_earlyStopCounter` and
the record are members that only `initializePop` (lines 66-67 and 148-152) resets, so the loop starts with the
values the previous run left. -/
def aosRunAgain (impl : AOSImpl) (opt : FitnessOption) (o : AOSOption) (b : Box α) (f : List α → α)
    (env : Nat → AOSEnv α) (fuel : Nat) (r : RunResult (AOSState α) α) :
    Out (RunResult (AOSState α) α) :=
  aosLoop impl opt o b f env fuel r.generation r.state r.record

end aos

end Heu
