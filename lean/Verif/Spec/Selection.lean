import Verif.Spec.Pareto
import Mathlib.Algebra.BigOperators.Fin
import Mathlib.Algebra.Order.Field.Basic
import Mathlib.Algebra.Order.AddGroupWithTop

/-!
# Specifications for multi-objective selection (independent of the models)
-/

namespace Heu.Spec

variable {α : Type} {G : Type} {m : Nat}

/-- `x` is not dominated by anybody in `pop`. -/
def NonDominated [LinearOrder α] (o : FitnessOption) (fit : G → Fin m → α) (pop : List G) (x : G) :
    Prop := ∀ y ∈ pop, ¬ Dominates o (fit y) (fit x)

/-- `n` is the number of members of `pop` that dominate `x`. -/
def DominatorCount [LinearOrder α] (o : FitnessOption) (fit : G → Fin m → α) (pop : List G)
    (x : G) (n : Nat) : Prop :=
  ∃ ds : List G, ds.Sublist pop ∧ (∀ y ∈ ds, Dominates o (fit y) (fit x)) ∧
    ds.length = n ∧
    ∀ ds' : List G, ds'.Sublist pop → (∀ y ∈ ds', Dominates o (fit y) (fit x)) → ds'.length ≤ n

/-- Contribution `t` of one objective `f` to the crowding of `g`, in an arrangement `arr` of the
population by that objective: infinite at both ends, otherwise the distance between the two
neighbours relative to the total range. -/
structure IsCongestionTerm [Field α] [LinearOrder α] (f : G → α) (eps : α) (arr : List G) (g : G)
    (t : WithTop α) : Prop where
  ends : arr.head? = some g ∨ arr.getLast? = some g → t = ⊤
  inner : ∀ (i : Nat) (p q a z : G), arr[i]? = some p → arr[i + 1]? = some g →
    arr[i + 2]? = some q → arr.head? = some a → arr.getLast? = some z →
    t = ((|f p - f q| / (|f a - f z| + eps) : α) : WithTop α)

/-- `cong` is a crowding measure of the population: a sum of one term per objective, each taken in
an arrangement of the population in ascending order of that objective. -/
def IsCongestion [Field α] [LinearOrder α] (fit : G → Fin m → α) (eps : α) (pop : List G)
    (cong : G → WithTop α) : Prop :=
  ∃ (arr : Fin m → List G) (t : Fin m → G → WithTop α),
    (∀ j, (arr j).Perm pop ∧ (arr j).Pairwise (fun a b => fit a j ≤ fit b j)) ∧
    (∀ j, ∀ g ∈ pop, IsCongestionTerm (fun x => fit x j) eps (arr j) g (t j g)) ∧
    ∀ g ∈ pop, cong g = ∑ j, t j g

end Heu.Spec
