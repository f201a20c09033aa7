import Verif.Model.AOS
import Verif.Model.Calls

/-!
# A run of the atomic orbital search as a sequence of calls of the user's functions

As in `Model/Calls`: the initialiser and the fitness function of the user may have side effects and depend on them.  The
pointers are not null here (`Heu.AOSFull`, `Heu.AOSOwn` have that case), `cross` and `muta` of `Heu.UserFns` are not
used.
-/

namespace Heu

section
variable {α ω : Type}

/-- `initializePop`, `AOS/AOSBase.hpp` lines 46-76: the list is emptied, filled with new electrons (`blank`), each
initialised and marked as not computed. -/
def aosInitializeCalls (u : UserFns (List α) α ω) (o : AOSOption) (blank : Gene (List α) α) (w : ω) :
    Out (AOSState α × ω) :=
  if o.maxLayerNum ≤ o.electronNum then
    let r := initializeCalls u o.electronNum blank [] w
    match r.1 with
    | [] => .ub
    | c :: _ =>
      .ok ({ electrons := r.1, layers := [], bindingState := [], bindingEnergy := blank.fitness, best := c.1,
             early := 0 }, r.2)
  else .ub

/-- What a run leaves, `AOS/AOSBoxed.hpp` lines 91-98 and `AOS/AOSBase.hpp` line 154. -/
structure AOSCallsResult (α ω : Type) where
  state : AOSState α
  generation : Nat
  record : List α
  world : ω

/-- `__impl_computeFitness`, `AOS/AOSBoxed.hpp` lines 100-132: the electrons that are not computed, in the order in
which the parallel loop does them. -/
def aosEvaluateCalls (u : UserFns (List α) α ω) (order : List Addr → List Addr) (s : AOSState α) (w : ω) :
    Out (AOSState α × ω) := do
  let e ← evalCalls u (order (evalTasks s.electrons)) s.electrons w
  .ok ({ s with electrons := e.1 }, e.2)

/-- The loop of `__impl_run`, `AOS/AOSBase.hpp` lines 105-125, with fuel.  `env w` are the draws of one iteration when
the rest of the program, with the generator, is in state `w`, and `after w` its state after these draws. -/
def aosCallsLoop [Field α] [LinearOrder α] [FloorSemiring α] (impl : AOSImpl) (opt : FitnessOption) (o : AOSOption)
    (b : Box α) (u : UserFns (List α) α ω) (order : List Addr → List Addr) (env : ω → AOSEnv α) (after : ω → ω) :
    Nat → Nat → AOSState α → ω → List α → Out (AOSCallsResult α ω)
  | 0, _, _, _, _ => .timeout
  | fuel + 1, gen, s, w, record => do
    let e ← aosEvaluateCalls u order s w
    let s ← computeAtomBSBELE opt e.1
    let bst ← deref s.electrons s.best
    let s ← selectAndMakeLayers opt o (env e.2).sort (env e.2).layerNum (env e.2).gauss s
    if gen ≥ o.maxGeneration ∨ s.early ≥ o.maxEarlyStop then .ok ⟨s, gen, record ++ [bst.fitness], after e.2⟩
    else
      let s ← aosChildren impl opt b (env e.2) s
      aosCallsLoop impl opt o b u order env after fuel (gen + 1) s (after e.2) (record ++ [bst.fitness])

end

end Heu
