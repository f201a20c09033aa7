import Verif.Spec.PSOCalls
import Verif.Spec.NSGA2Fl

/-!
# Specification: a best one among `double`s some of which are NaN
-/

namespace Heu.Spec

/-- `y` is not NaN, it is one of the values, and no value that is not NaN is better. -/
structure IsBestNumber (F : Fmt) (opt : FitnessOption) {V : Type} (vals : List (V × Dbl F)) (y : Dbl F) : Prop where
  value : y.val ≠ .nan
  mem : ∃ x, (x, y) ∈ vals
  best : ∀ v ∈ vals, v.2.val ≠ .nan → ¬ Better opt (extended F v.2.val) (extended F y.val)

end Heu.Spec
