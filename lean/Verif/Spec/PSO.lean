import Verif.Model.PSO
import Verif.Spec.Box
import Verif.Spec.GARun
import Verif.Spec.Pareto
import Mathlib.Algebra.Order.Group.Abs

/-!
# Specification vocabulary for particle swarms
-/

namespace Heu.Spec

variable {V F : Type}

/-- A PSO solver as an instance of the generic loop "evaluate, update bests, record, move"
(`PSOAbstrcat.hpp` lines 239-265); `psoRun_eq` proves that `psoRun` is this loop.  `stateAfter` of this
solver is the state after the `i`-th update of the bests. -/
def psoSolver [LT F] [DecidableLT F] (opt : FitnessOption) (f : V → F)
    (move : Nat → PSOState V F → PSOState V F) : GASolver (PSOState V F) F where
  computeAllFitness := psoComputeAllFitness f
  select _ s := updatePGBest opt s
  crossover _ s := s
  mutate g s := move g s
  bestFitness s := .ok s.gBest.fitness
  failTimes s := s.fail
  resetFailTimes s := { s with fail := 0 }

/-- Stored fitness values belong to the stored positions. -/
structure Consistent (f : V → F) (s : PSOState V F) : Prop where
  nonempty : s.swarm ≠ []
  pBest : ∀ p ∈ s.swarm, p.pBest.fitness = f p.pBest.position
  gBest : s.gBest.fitness = f s.gBest.position

/-- Moving only changes positions and velocities. -/
structure OnlyMoves (move : PSOState V F → PSOState V F) : Prop where
  gBest : ∀ s, (move s).gBest = s.gBest
  fail : ∀ s, (move s).fail = s.fail
  pBest : ∀ s, (move s).swarm.map (·.pBest) = s.swarm.map (·.pBest)

/-- The vector has `dim` entries, and the `i`-th entry satisfies `ok i`. -/
def EntriesOk {α : Type} (dim : Nat) (ok : Nat → α → Prop) (v : List α) : Prop :=
  v.length = dim ∧ ∀ (i : Nat) (x : α), v[i]? = some x → ok i x

/-- All positions of the state (of the particles, their bests and the global best) satisfy `posOk`
entrywise and all velocities `velOk`. -/
structure InBounds {α F : Type} (dim : Nat) (posOk velOk : Nat → α → Prop)
    (s : PSOState (List α) F) : Prop where
  position : ∀ p ∈ s.swarm, EntriesOk dim posOk p.position
  velocity : ∀ p ∈ s.swarm, EntriesOk dim velOk p.velocity
  pBest : ∀ p ∈ s.swarm, EntriesOk dim posOk p.pBest.position
  gBest : EntriesOk dim posOk s.gBest.position

/-- A legal PSO box. -/
def LegalBox {α : Type} [Zero α] [LE α] [LT α] (b : PSOBox α) : Prop :=
  ∀ i, i < b.dim → b.posMin i ≤ b.posMax i ∧ 0 < b.velocityMax i

end Heu.Spec
