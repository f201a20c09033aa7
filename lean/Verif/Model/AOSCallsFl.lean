import Verif.Model.AOSCalls
import Verif.Model.AOSFl

/-!
# A run of the atomic orbital search on `double`s as a sequence of calls of the user's functions

`Heu.aosCallsLoop` with selection and layers on IEEE data.
-/

namespace Heu

/-- The loop of `__impl_run`, `AOS/AOSBase.hpp` lines 105-125, with fuel, on IEEE data.  `env w` are the draws of one
iteration when the rest of the program, with the generator, is in state `w`, and `after w` its state after these draws. -/
def aosCallsLoopFl {ω : Type} {F : Fmt} (impl : AOSImpl) (opt : FitnessOption) (o : AOSOption) (b : Box (Dbl F))
    (u : UserFns (List (Dbl F)) (Dbl F) ω) (order : List Addr → List Addr) (env : ω → AOSEnvFl F) (after : ω → ω) :
    Nat → Nat → AOSState (Dbl F) → ω → List (Dbl F) → Out (AOSCallsResult (Dbl F) ω)
  | 0, _, _, _, _ => .timeout
  | fuel + 1, gen, s, w, record => do
    let e ← aosEvaluateCalls u order s w
    let s ← computeAtomBSBELE opt e.1
    let bst ← deref s.electrons s.best
    let s ← selectAndMakeLayersFl opt o (env e.2).sort (env e.2).layerNum (env e.2).gauss (env e.2).total s
    if gen ≥ o.maxGeneration ∨ s.early ≥ o.maxEarlyStop then .ok ⟨s, gen, record ++ [bst.fitness], after e.2⟩
    else
      let s ← aosChildren impl opt b (env e.2).toAOSEnv s
      aosCallsLoopFl impl opt o b u order env after fuel (gen + 1) s (after e.2) (record ++ [bst.fitness])

end Heu
