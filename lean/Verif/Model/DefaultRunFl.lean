import Verif.Model.BoxFl
import Verif.Model.Calls

/-!
# The library's own operators for real variables as the functions of a genetic solver, on IEEE data

`Genetic/Miscellaneous4GA.hpp`: initialiser, crossover and mutation for a continuous box, with the draws taken from the
state of the rest of the program, as in `Heu.UserFns`.
-/

namespace Heu

/-- One call of a library crossover, with its draws: `cFunNd`/`cFunXd` with the ratio (`Genetic/Miscellaneous4GA.hpp`
lines 35-45, 62-69 and 395-405), `cFunSwapNs`/`cFunSwapXs` with the position (lines 71-85, 422), `cFunRandNs`/
`cFunRandXs` with the probability and two draws per entry (lines 431-450). -/
inductive RealCx (F : Fmt) where
  | arith (r : Dbl F)
  | swap (idx : Nat)
  | exchange (p : ℚ) (u w : Nat → ℚ)

/-- The call itself, `Genetic/Miscellaneous4GA.hpp` lines 35-85 and 431-440. -/
def RealCx.run {F : Fmt} : RealCx F → List (Dbl F) → List (Dbl F) → Out (List (Dbl F) × List (Dbl F))
  | .arith r, p, q => cFunNdFl F r p q
  | .swap idx, p, q => cFunSwapNs p q idx
  | .exchange r u w, p, q => cFunRandNs r u w p q

/-- Where the draws of the operators come from: the uniform draws of an initialisation, the crossover with its draws,
the coordinate `randIdx(size)` and the factor `randD(-1, 1)` of a mutation (`EAGlobal/BoxConstraint.hpp` lines 38-51 and
627-635, `Genetic/Miscellaneous4GA.hpp` lines 35-85), each with the state afterwards. -/
structure RealDraws (F : Fmt) (ω : Type) where
  ini : ω → (Nat → Fl) × ω
  cx : ω → RealCx F × ω
  muta : ω → (Nat × Dbl F) × ω

/-- The functions of a solver that uses the library's operators with the box `b` and step widths `delta`: `iFun`
(`Genetic/Miscellaneous4GA.hpp` lines 181-185), a crossover, `mFun` (lines 299-306: a copy, then `applyDelta`), and any
fitness function.  A call that is undefined returns its arguments here; the theorems show that it does not happen. -/
def defaultRealFns {Y ω : Type} (F : Fmt) (b : Box (Dbl F)) (delta : Nat → Dbl F) (D : RealDraws F ω)
    (fit : List (Dbl F) → Y → ω → Y × ω) : UserFns (List (Dbl F)) Y ω where
  ini _ s := ((initializeFl F ⟨b.dim, fun i => (b.min i).val, fun i => (b.max i).val⟩ (D.ini s).1).map Dbl.mk, (D.ini s).2)
  fit := fit
  cross p q s := (match (D.cx s).1.run p q with | .ok c => c | _ => (p, q), (D.cx s).2)
  muta v s := (match applyDeltaContFl F b delta v (D.muta s).1.1 (D.muta s).1.2 with | .ok c => c | _ => v, (D.muta s).2)

end Heu
