import Verif.Spec.Pareto
import Verif.Model.GA

/-!
# Specification of single-objective selection (independent of the selection models)
-/

namespace Heu.Spec

variable {γ α : Type} [LinearOrder α]

/-- `c` is a member of the population that no member beats. -/
def Unbeaten (o : FitnessOption) (fit : γ → α) (pop : Pop γ) (c : Cell γ) : Prop :=
  c ∈ pop ∧ ∀ c' ∈ pop, ¬ Better o (fit c'.2) (fit c.2)

/-- All nodes of a list have different addresses. -/
def DistinctNodes (pop : Pop γ) : Prop := (pop.map (·.1)).Nodup

instance (pop : Pop γ) : Decidable (DistinctNodes pop) := inferInstanceAs (Decidable (List.Nodup _))

/-- Number of generations at the end of the history in which the best was not strictly better than the
best of the generation before.  `b₀` is the reference before the first generation. -/
def trailingFails (o : FitnessOption) [∀ a b : α, Decidable (Better o a b)] : α → List α → Nat
  | _, [] => 0
  | b₀, bs => go b₀ bs 0
where
  go : α → List α → Nat → Nat
  | _, [], n => n
  | prev, b :: bs, n => go b bs (if Better o b prev then 0 else n + 1)

end Heu.Spec
