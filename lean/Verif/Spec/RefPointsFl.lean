import Verif.Spec.IEEE
import Mathlib.Algebra.BigOperators.Group.Finset.Basic
import Mathlib.Data.Fintype.Basic

/-!
# Specification vocabulary for reference points in `double` arithmetic
-/

namespace Heu.Spec

variable {m : Nat}

/-- The point `v` of `double`s stands for the lattice point `k * (c 0 / p, c 1 / p, …)`: every coordinate is a
finite number between 0 and `k`, at most `e` away. -/
def NearPoint (F : Fmt) (e k : ℚ) (p : Nat) (c : Fin m → Nat) (v : Fin m → Fl) : Prop :=
  ∀ i, (v i).Finite F ∧ 0 ≤ (v i).number F ∧ (v i).number F ≤ k ∧ |(v i).number F - k * (c i / p)| ≤ e

/-- The list `pts` has exactly one point for every lattice point of precision `p` (scaled by `k`), up to an error of
`e` per coordinate. -/
def NearLattice (F : Fmt) (e k : ℚ) (p : Nat) (pts : List (Fin m → Fl)) : Prop :=
  ∃ cs : List (Fin m → Nat), cs.Nodup ∧ (∀ c, c ∈ cs ↔ ∑ i, c i = p) ∧ List.Forall₂ (NearPoint F e k p) cs pts

end Heu.Spec
