import Verif.Model.GA
import Verif.Model.SOGA
import Verif.Model.NSGA
import Verif.Model.NSGA3Full
import Verif.Model.RefPoints

/-!
# Whole runs of the multi-objective solvers `NSGA2` and `NSGA3`

The main loop is `gaRun` (`Genetic/GABase.hpp` lines 171-205); here it is given the selections of
`Genetic/NSGA2.hpp` and `Genetic/NSGA3Abstract.hpp`.  Individuals are list nodes; pointers to them are
addresses, and `_pfGenes` is a set of addresses that may dangle.
-/

namespace Heu

section
variable {V α : Type} {m : Nat}

/-- The state of a multi-objective solver: `_population` and `_failTimes` (`Genetic/GABase.hpp` lines
151-155) and `_pfGenes` (`Genetic/MOGAAbstract.hpp` line 148). -/
structure MOState (V : Type) (m : Nat) (α : Type) where
  pop : Pop (Gene V (Fin m → α))
  pf : Finset Addr
  fail : Nat

/-- `it->fitness` for a node of the population (0 for addresses outside: the selections only ask for
nodes they got from the population, `Genetic/NSGA2.hpp` lines 192-195). -/
def fitAt [Zero α] (pop : Pop (Gene V (Fin m → α))) (a : Addr) : Fin m → α :=
  match pop.find? (fun c => c.1 == a) with
  | some c => c.2.fitness
  | none => 0

/-- What `__impl_select` of the solver does to population and front: the selection `sel` works on the
addresses of the nodes and reads their fitness; nodes that were not selected are erased from the list,
`Genetic/NSGA2.hpp` lines 181-278 and `Genetic/NSGA3Abstract.hpp` lines 117-233.  Neither function touches
`_failTimes`. -/
def moSelect [Zero α] (sel : (Addr → Fin m → α) → List Addr → Out (SelectResult Addr))
    (s : MOState V m α) : Out (MOState V m α) := do
  let r ← sel (fitAt s.pop) (s.pop.map (·.1))
  .ok { s with pop := s.pop.filter (fun c => c.1 ∈ r.population), pf := r.pf }

/-- `MOGAAbstract::initializePop`, `Genetic/MOGAAbstract.hpp` lines 119-123 (with `NSGABase`, lines
67-71): the front is cleared. -/
def moInit (K : Nat) (init : Nat → V) (junk : Fin m → α) : MOState V m α :=
  { pop := initializePop K init junk, pf := ∅, fail := 0 }

/-- The draws and user functions of crossover and mutation in one generation, as `VaryEnv`.
(`Genetic/GABase.hpp` lines 262-317.) -/
abbrev MOVary (V : Type) (m : Nat) (α : Type) := VaryEnv V (Fin m → α)

/-- A multi-objective solver as an instance of the main loop (`Genetic/GABase.hpp` lines 171-205); `sel gen`
is the selection with the draws of generation `gen`, `v gen` the draws of crossover and mutation. -/
def moSolver [Zero α] [LinearOrder α] (o : FitnessOption) (f : V → Fin m → α)
    (sel : Nat → (Addr → Fin m → α) → List Addr → Out (SelectResult Addr))
    (v : Nat → MOVary V m α) : GASolver (MOState V m α) (Fin m → α) where
  computeAllFitness s := { s with pop := computeAllFitness f s.pop }
  select gen s := moSelect (sel gen) s
  crossover gen s :=
    { s with pop := crossover (v gen).junk (v gen).cx (v gen).cxSel (v gen).cxShuffle s.pop }
  mutate gen s := { s with pop := mutate (v gen).junk (v gen).mu (v gen).muSel s.pop }
  bestFitness s := moBestFitness o (s.pop.map fun c => c.2.fitness)
  failTimes s := s.fail
  resetFailTimes s := { s with fail := 0 }

/-- `paretoFront(front)`, `Genetic/MOGAAbstract.hpp` lines 84-91: the fitness of every member of `_pfGenes`
is read through its pointer; `order` is the iteration order of the hash set. -/
def paretoFront (order : Finset Addr → List Addr) (s : MOState V m α) : Out (List (Fin m → α)) :=
  (order s.pf).mapM fun a => deref s.pop a >>= fun g => .ok g.fitness

end

section
variable {V α : Type} {m : Nat} [Field α] [LinearOrder α]

/-- The behaviour of `std::sort` in one selection of NSGA-II (see `nsga2Select`).
(`Genetic/NSGABase.hpp` line 137, `Genetic/NSGA2.hpp` lines 228 and 249.) -/
structure NSGA2Env (m : Nat) where
  sortD : Sorter Addr
  sortF : Fin m → Sorter Addr
  sortC : Sorter Addr

/-- The solver `NSGA2`, `Genetic/NSGA2.hpp` lines 181-278 in the loop of `Genetic/GABase.hpp` lines
171-205. -/
def nsga2Solver (o : FitnessOption) (K : Nat) (eps : α) (f : V → Fin m → α) (e : Nat → NSGA2Env m)
    (v : Nat → MOVary V m α) : GASolver (MOState V m α) (Fin m → α) :=
  moSolver o f (fun gen fit => nsga2Select o K eps fit (e gen).sortD (e gen).sortF (e gen).sortC) v

/-- Everything random or unspecified in one selection of NSGA-III (see `nsga3SelectFull`).
(`Genetic/NSGABase.hpp` line 137, `Genetic/NSGA3Abstract.hpp` lines 187-204 and 392-460.) -/
structure NSGA3Env (α : Type) where
  sortD : Sorter Addr
  order : Finset Addr → List Addr
  ds : Nat → NicheDraw α Addr

/-- The solver `NSGA3`, `Genetic/NSGA3Abstract.hpp` lines 117-233 in the loop of `Genetic/GABase.hpp` lines
171-205; always minimising. -/
noncomputable def nsga3Solver (K : Nat) (tiny : α) (refs : List (Fin m → α)) (f : V → Fin m → α)
    (e : Nat → NSGA3Env α) (v : Nat → MOVary V m α) (fuel : Nat → Nat) :
    GASolver (MOState V m α) (Fin m → α) :=
  moSolver .lessBetter f (fun gen fit pop =>
    nsga3SelectFull K fit (e gen).sortD tiny refs (e gen).order (e gen).ds (fuel pop.length) pop) v

end

end Heu
