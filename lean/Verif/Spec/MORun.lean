import Verif.Spec.GARun
import Verif.Spec.Pareto
import Mathlib.Logic.Basic

/-!
# Specification vocabulary for whole multi-objective runs
-/

namespace Heu.Spec

open Classical in
/-- `front` lists the objective vectors of the non-dominated ones among `xs`, once for each of them, in some
order. -/
def IsFrontOf {V α : Type} [LinearOrder α] {m : Nat} (o : FitnessOption) (f : V → Fin m → α) (xs : List V)
    (front : List (Fin m → α)) : Prop :=
  front.Perm ((xs.filter fun x => ∀ z ∈ xs, ¬ Dominates o (f z) (f x)).map f)

/-- The candidates of the `i`-th selection of an unbounded run (counted from 0): the survivors of the
selection before, with all children and mutants, evaluated. -/
def candidatesAt {σ R : Type} (S : GASolver σ R) (s : σ) : Nat → Out σ
  | 0 => .ok (S.computeAllFitness (S.resetFailTimes s))
  | i + 1 => stateAfter S s i >>= fun t => .ok (S.computeAllFitness (S.mutate (i + 1) (S.crossover (i + 1) t)))

end Heu.Spec
