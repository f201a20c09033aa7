import Verif.Model.MORun
import Verif.Model.NSGA3Fl

/-!
# Whole runs of `NSGA2` and `NSGA3` on real `double`s

The loop of `Genetic/GABase.hpp` lines 171-205 with the selections of `Model/NSGA2Fl` and `Model/NSGA3Fl`: every
fitness value is an IEEE datum, NaN and infinities included.
-/

namespace Heu

/-- The value `fitAt` gives for nodes the selection never asks for (`Genetic/NSGA2.hpp` lines 192-195). -/
instance : Zero Fl := ⟨.fin false 0⟩

/-- A multi-objective solver with an arbitrary `bestFitness`; otherwise as `moSolver`
(`Genetic/GABase.hpp` lines 171-205). -/
def moSolverBy {V α : Type} {m : Nat} [Zero α] (best : List (Fin m → α) → Out (Fin m → α)) (f : V → Fin m → α)
    (sel : Nat → (Addr → Fin m → α) → List Addr → Out (SelectResult Addr))
    (v : Nat → MOVary V m α) : GASolver (MOState V m α) (Fin m → α) where
  computeAllFitness s := { s with pop := computeAllFitness f s.pop }
  select gen s := moSelect (sel gen) s
  crossover gen s :=
    { s with pop := crossover (v gen).junk (v gen).cx (v gen).cxSel (v gen).cxShuffle s.pop }
  mutate gen s := { s with pop := mutate (v gen).junk (v gen).mu (v gen).muSel s.pop }
  bestFitness s := best (s.pop.map fun c => c.2.fitness)
  failTimes s := s.fail
  resetFailTimes s := { s with fail := 0 }

/-- `bestFitness`, `Genetic/MOGAAbstract.hpp` lines 135-145, over `double`s; `pick` is what Eigen's `max` (or `min`,
when minimising) does with two coefficients.  `front()` of an empty population is undefined behaviour. -/
def moBestFitnessFl {m : Nat} (pick : Fl → Fl → Fl) : List (Fin m → Fl) → Out (Fin m → Fl)
  | [] => .ub
  | g :: gs => .ok ((g :: gs).foldl (fun best f => fun i => pick (best i) (f i)) g)

/-- The solver `NSGA2`, `Genetic/NSGA2.hpp` lines 181-278 in the loop of `Genetic/GABase.hpp` lines 171-205, on
`double`s of format `F`; `eps` is the `1e-10` of `Genetic/NSGA2.hpp` line 239. -/
def nsga2SolverFl {V : Type} {m : Nat} (F : Fmt) (o : FitnessOption) (K : Nat) (eps : Fl) (pick : Fl → Fl → Fl)
    (f : V → Fin m → Fl) (e : Nat → NSGA2Env m) (v : Nat → MOVary V m Fl) :
    GASolver (MOState V m Fl) (Fin m → Fl) :=
  moSolverBy (moBestFitnessFl pick) f
    (fun gen fit => nsga2SelectFl F o K eps fit (e gen).sortD (e gen).sortF (e gen).sortC) v

/-- The solver `NSGA3`, `Genetic/NSGA3Abstract.hpp` lines 117-233 in the loop of `Genetic/GABase.hpp` lines 171-205, on
`double`s of format `F`; always minimising. -/
def nsga3SolverFl {V : Type} {m : Nat} (F : Fmt) (E : Geometry m) (K : Nat) (tiny : Fl) (refs : List (Fin m → Fl))
    (f : V → Fin m → Fl) (e : Nat → NSGA3Env Fl) (v : Nat → MOVary V m Fl) (fuel : Nat → Nat) :
    GASolver (MOState V m Fl) (Fin m → Fl) :=
  moSolverBy (moBestFitnessFl E.min) f (fun gen fit pop =>
    nsga3SelectFl F E K fit (e gen).sortD tiny refs (e gen).order (e gen).ds (fuel pop.length) pop) v

end Heu
