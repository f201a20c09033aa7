import Verif.Model.MOCalls
import Verif.Model.SOGAFl

/-!
# The single-objective solver on real `double`s, with user functions that have side effects

The loop of `Model/Calls` (`Genetic/GABase.hpp` lines 120-127 and 171-317) with the selections of `Model/SOGAFl`.
-/

namespace Heu

/-- `SOGA` with fitness type `double` (or `float`): selection method `m` of `Genetic/SOGASelecters.hpp` (lines 916-927)
with draws `env w` and `std::pow` `pow`, after which the rest of the program is in state `R.next w`; the other members
are `_bestGene` and `_failTimes` (`Genetic/SOGA.hpp` line 168, `Genetic/GABase.hpp` line 155); `bestFitness()` is
`Genetic/SOGA.hpp` line 149. -/
def sogaHostFl {κ V ω : Type} [DecidableEq V] (F : Fmt) (opt : FitnessOption) (m : SelectMethod) (K : Nat)
    (env : ω → SelectEnv (Gene V (Dbl F)) (Dbl F)) (pow : Dbl F → Nat → Dbl F) (R : Rest κ V (Dbl F) ω) :
    GAHost κ V (Dbl F) ω (Addr × Nat) (Dbl F) where
  rnd := R.rnd
  shuffle := R.shuffle
  select pop t w := do
    let s ← runSelectFl opt Gene.fitness m (env w) pow K { pop := pop, best := t.1, fail := t.2 }
    .ok ((s.pop, (s.best, s.fail)), R.next w)
  bestFitness pop t := deref pop t.1 >>= fun g => .ok g.fitness
  failTimes t := t.2
  resetFail t := (t.1, 0)
  order := R.order
  junk := R.junk

end Heu
