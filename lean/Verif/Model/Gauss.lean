import Mathlib.Analysis.SpecialFunctions.Exp
import Mathlib.Analysis.SpecialFunctions.Sqrt
import Mathlib.Analysis.Real.Pi.Bounds

/-!
# The Gaussian curve and the weights of the layers of atomic orbital search, over the reals
-/

namespace Heu

/-- `gaussianCurve`, `HeuristicFlow/src/Global/HeuMaths.hpp` lines 211-216. -/
noncomputable def gaussianCurve (x mu sigma : ℝ) : ℝ :=
  1 / (sigma * Real.sqrt (2 * Real.pi)) * Real.exp (-(x - mu) ^ 2 / (2 * sigma ^ 2))

/-- `floatNumOfEachLayer[idx]`, `HeuristicFlow/src/AOS/AOS.hpp` lines 96-98. -/
noncomputable def layerWeight (k idx : Nat) : ℝ := gaussianCurve ((idx : ℝ) + 1) 0 ((k : ℝ) / 6)

end Heu
