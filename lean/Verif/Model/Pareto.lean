import Verif.Model.Basic
import Mathlib.Order.Defs.LinearOrder
import Mathlib.Data.List.FinRange

/-!
# Model of `HeuristicFlow/src/EAGlobal/Pareto.hpp`
-/

namespace Heu

variable {α : Type*} [LinearOrder α] {m : Nat}

/-- `Pareto::isStrongDominate`, `EAGlobal/Pareto.hpp` lines 59-70: Eigen's coefficient-wise
comparison followed by `.all()` / `.any()`.
Simplification: `double` is an arbitrary linear order (no NaN). -/
def isStrongDominate (o : FitnessOption) (A B : Fin m → α) : Bool :=
  let isNotWorse := match o with
    | .greaterBetter => (List.finRange m).all fun i => decide (A i ≥ B i)
    | .lessBetter => (List.finRange m).all fun i => decide (A i ≤ B i)
  let isBetter := match o with
    | .greaterBetter => (List.finRange m).any fun i => decide (A i > B i)
    | .lessBetter => (List.finRange m).any fun i => decide (A i < B i)
  isNotWorse && isBetter

end Heu
