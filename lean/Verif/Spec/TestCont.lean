import Verif.Model.TestCont

/-!
# What a caller of the multi-objective test functions relies on

The vocabulary of C134 and of the second part of C77, stated without the helpers of the model.
-/

namespace Heu.Spec
open TestFuns

/-- The result objects of a call are good: the objectives and nothing else. -/
def Delivers {n : Nat} (r : Out (List ℝ)) (values : Fin n → ℝ) : Prop := r = .ok (List.ofFn values)

/-- Kursawe's problem for any number of variables, as documented: the first objective is
`-10 * Σ_{i < n-1} exp(-0.2 * sqrt(x_i² + x_{i+1}²))`, the second `Σ_i (|x_i|^0.8 + 5 sin(x_i³))`. -/
noncomputable def kursawe (x : List ℝ) : Fin 2 → ℝ :=
  ![((x.zip x.tail).map fun p => -10 * Real.exp (-0.2 * Real.sqrt (p.1 ^ 2 + p.2 ^ 2))).sum,
    (x.map fun t => abs t ^ (0.8 : ℝ) + 5 * Real.sin (t ^ 3)).sum]

end Heu.Spec
