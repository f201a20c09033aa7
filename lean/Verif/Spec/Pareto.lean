import Verif.Model.Basic
import Mathlib.Order.Defs.LinearOrder

/-!
# Specification of Pareto dominance (independent of the model)
-/

namespace Heu.Spec

variable {α : Type*} [LinearOrder α] {m : Nat}

/-- `a` is strictly better than `b` in direction `o`. -/
def Better (o : FitnessOption) (a b : α) : Prop :=
  match o with
  | .lessBetter => a < b
  | .greaterBetter => b < a

/-- Textbook dominance: `A` is nowhere worse than `B` and somewhere strictly better. -/
def Dominates (o : FitnessOption) (A B : Fin m → α) : Prop :=
  (∀ i, ¬ Better o (B i) (A i)) ∧ ∃ i, Better o (A i) (B i)

end Heu.Spec
