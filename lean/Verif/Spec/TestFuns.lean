import Mathlib.Data.Real.Basic
import Mathlib.Analysis.SpecialFunctions.Trigonometric.Basic

/-!
# Specification vocabulary for the test functions (independent of the model)
-/

namespace Heu.Spec

/-- `f` has the global minimum `v`, and attains it at `(x0, y0)` and nowhere else. -/
def UniqueMinimum (f : ℝ → ℝ → ℝ) (x0 y0 v : ℝ) : Prop :=
  f x0 y0 = v ∧ ∀ x y, v ≤ f x y ∧ (f x y = v → x = x0 ∧ y = y0)

/-- `x0` is in the set `S`, and `f` is at least `v = f x0` on `S` (any number of variables). -/
def MinimumOn {X : Type} (S : X → Prop) (f : X → ℝ) (x0 : X) (v : ℝ) : Prop :=
  S x0 ∧ f x0 = v ∧ ∀ x, S x → v ≤ f x

/-- Textbook dominance for minimisation, on vectors of objective values given as lists: nowhere
larger, and not the same vector. -/
def DominatesL (a b : List ℝ) : Prop := List.Forall₂ (· ≤ ·) a b ∧ a ≠ b

/-- Every variable is in `[0, 1]` and there are `n` of them. -/
def UnitCube (n : Nat) (x : List ℝ) : Prop := x.length = n ∧ ∀ t ∈ x, 0 ≤ t ∧ t ≤ 1

/-- `x` is a Pareto-optimal point of the minimisation problem `eval` on the set `S`: it is in `S`,
and no point of `S` has objective values that dominate those of `x`. -/
def ParetoOptimal {X : Type} (eval : X → Option (List ℝ)) (S : X → Prop) (x : X) : Prop :=
  S x ∧ ∃ r, eval x = some r ∧ ¬ ∃ x' r', S x' ∧ eval x' = some r' ∧ DominatesL r' r

/-- Hölder's table as documented: `-|sin x · cos y · exp |1 - √(x² + y²) / π||`. -/
noncomputable def holderTable (x y : ℝ) : ℝ :=
  -abs (Real.sin x * Real.cos y * Real.exp (abs (1 - Real.sqrt (x ^ 2 + y ^ 2) / Real.pi)))

end Heu.Spec
