import Mathlib.Data.Fintype.Basic
import Mathlib.Algebra.BigOperators.Group.Finset.Basic
import Mathlib.Algebra.Field.Defs

/-!
# Specification: the Das-Dennis simplex lattice and distances to lines
-/

namespace Heu.Spec

/-- A lattice point of precision `p`: coordinates are multiples of `1/p`, given by natural numerators
with sum `p`. -/
def IsLatticePoint {α : Type} [Field α] {m : Nat} (p : Nat) (v : Fin m → α) : Prop :=
  ∃ c : Fin m → Nat, ∑ i, c i = p ∧ ∀ i, v i = (c i : α) / (p : α)

/-- squared Euclidean distance -/
def sqDist {α : Type} [Field α] {m : Nat} (a b : Fin m → α) : α := ∑ i, (a i - b i) ^ 2

end Heu.Spec
