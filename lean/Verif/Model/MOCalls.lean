import Verif.Model.Calls
import Verif.Model.MORunFl

/-!
# The multi-objective solvers with user functions that have side effects

The loop of `Model/Calls` (`Genetic/GABase.hpp` lines 120-127 and 171-317) with the selections of NSGA-II and NSGA-III,
over an ordered field and over real `double`s.
-/

namespace Heu

/-- A multi-objective solver with selection `sel w` (the draws of the generator in state `w`), after which the rest of
the program is in state `next w`; the other members are `_pfGenes` (`Genetic/MOGAAbstract.hpp` line 148) and
`_failTimes` (`Genetic/GABase.hpp` line 155), which no selection touches; `best` is `bestFitness()` of
`Genetic/MOGAAbstract.hpp` lines 135-145. -/
def moHostBy {κ V α ω : Type} {m : Nat} [Zero α] (best : List (Fin m → α) → Out (Fin m → α))
    (sel : ω → (Addr → Fin m → α) → List Addr → Out (SelectResult Addr)) (next : ω → ω) (rnd : ω → κ × ω)
    (shuffle : List (Cell (Gene V (Fin m → α))) → ω → List (Cell (Gene V (Fin m → α))) × ω)
    (order : List Addr → List Addr) (junk : Fin m → α) :
    GAHost κ V (Fin m → α) ω (Finset Addr × Nat) (Fin m → α) where
  rnd := rnd
  shuffle := shuffle
  select pop t w := do
    let s ← moSelect (sel w) { pop := pop, pf := t.1, fail := t.2 }
    .ok ((s.pop, (s.pf, s.fail)), next w)
  bestFitness pop _ := best (pop.map fun c => c.2.fitness)
  failTimes t := t.2
  resetFail t := (t.1, 0)
  order := order
  junk := junk

/-- What the host of a genetic solver does besides selection: generator, shuffling, order of the evaluation tasks,
fitness in a new node (`Genetic/GABase.hpp` lines 226-233, 268, 273 and 307). -/
structure Rest (κ V F ω : Type) where
  next : ω → ω
  rnd : ω → κ × ω
  shuffle : List (Cell (Gene V F)) → ω → List (Cell (Gene V F)) × ω
  order : List Addr → List Addr
  junk : F

/-- The solver `NSGA2`, `Genetic/NSGA2.hpp` lines 181-278. -/
def nsga2Host {κ V α ω : Type} {m : Nat} [Field α] [LinearOrder α] (o : FitnessOption) (K : Nat) (eps : α)
    (e : ω → NSGA2Env m) (R : Rest κ V (Fin m → α) ω) : GAHost κ V (Fin m → α) ω (Finset Addr × Nat) (Fin m → α) :=
  moHostBy (moBestFitness o) (fun w fit => nsga2Select o K eps fit (e w).sortD (e w).sortF (e w).sortC)
    R.next R.rnd R.shuffle R.order R.junk

/-- The solver `NSGA3`, `Genetic/NSGA3Abstract.hpp` lines 117-233; always minimising. -/
noncomputable def nsga3Host {κ V α ω : Type} {m : Nat} [Field α] [LinearOrder α] (K : Nat) (tiny : α)
    (refs : List (Fin m → α)) (e : ω → NSGA3Env α) (fuel : Nat → Nat) (R : Rest κ V (Fin m → α) ω) :
    GAHost κ V (Fin m → α) ω (Finset Addr × Nat) (Fin m → α) :=
  moHostBy (moBestFitness .lessBetter)
    (fun w fit pop => nsga3SelectFull K fit (e w).sortD tiny refs (e w).order (e w).ds (fuel pop.length) pop)
    R.next R.rnd R.shuffle R.order R.junk

/-- `NSGA2` on real `double`s, `Genetic/NSGA2.hpp` lines 181-278. -/
def nsga2HostFl {κ V ω : Type} {m : Nat} (F : Fmt) (o : FitnessOption) (K : Nat) (eps : Fl) (pick : Fl → Fl → Fl)
    (e : ω → NSGA2Env m) (R : Rest κ V (Fin m → Fl) ω) : GAHost κ V (Fin m → Fl) ω (Finset Addr × Nat) (Fin m → Fl) :=
  moHostBy (moBestFitnessFl pick) (fun w fit => nsga2SelectFl F o K eps fit (e w).sortD (e w).sortF (e w).sortC)
    R.next R.rnd R.shuffle R.order R.junk

/-- `NSGA3` on real `double`s, `Genetic/NSGA3Abstract.hpp` lines 117-233. -/
def nsga3HostFl {κ V ω : Type} {m : Nat} (F : Fmt) (E : Geometry m) (K : Nat) (tiny : Fl) (refs : List (Fin m → Fl))
    (e : ω → NSGA3Env Fl) (fuel : Nat → Nat) (R : Rest κ V (Fin m → Fl) ω) :
    GAHost κ V (Fin m → Fl) ω (Finset Addr × Nat) (Fin m → Fl) :=
  moHostBy (moBestFitnessFl E.min)
    (fun w fit pop => nsga3SelectFl F E K fit (e w).sortD tiny refs (e w).order (e w).ds (fuel pop.length) pop)
    R.next R.rnd R.shuffle R.order R.junk

end Heu
