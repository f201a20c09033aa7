import Verif.Model.PSOFull
import Verif.Spec.PSO
import Verif.Spec.Session

/-!
# Specification: histories of calls on a PSO object
-/

namespace Heu.Spec

section
variable {A α F : Type}

/-- What a call gives for the options. -/
def psoGiveOption : PSOFullCall A α F → Option (Nat × Nat × Nat)
  | .setOption K G L _ => some (K, G, L)
  | _ => none
/-- What a call gives for the factors. -/
def psoGiveFactors : PSOFullCall A α F → Option (PSOFactors α)
  | .setOption _ _ _ o => some o
  | _ => none
/-- What a call gives for the fitness function (`none`: the null pointer). -/
def psoGiveFun : PSOFullCall A α F → Option (Option (A → List α → F))
  | .setfFun f => some f
  | _ => none
/-- What a call gives for the argument of the fitness function. -/
def psoGiveArg : PSOFullCall A α F → Option A
  | .setArgs a => some a
  | _ => none
/-- What a call gives for the number of dimensions. -/
def psoGiveDim : PSOFullCall A α F → Option (Option Int)
  | .setDimensions d => some (some d)
  | _ => none
/-- What a call gives for the lower bound of the positions. -/
def psoGiveMin : PSOFullCall A α F → Option (Option α)
  | .setRange mn _ | .setPVRange mn _ _ | .writePosMin mn => some (some mn)
  | _ => none
/-- What a call gives for the upper bound of the positions. -/
def psoGiveMax : PSOFullCall A α F → Option (Option α)
  | .setRange _ mx | .setPVRange _ mx _ | .writePosMax mx => some (some mx)
  | _ => none
/-- What a call gives for the limit of the velocities. -/
def psoGiveVel : PSOFullCall A α F → Option (Option α)
  | .setMaxVelocity v | .setPVRange _ _ v | .writeMaxVelocity v => some (some v)
  | _ => none

/-- This call is `initializePop`. -/
def PSOFullCall.IsInit (c : PSOFullCall A α F) : Prop := ∃ u, c = .initializePop u

/-- This call touches neither the box nor the swarm's size: it sets options, function or argument, or runs. -/
def PSOFullCall.KeepsBox : PSOFullCall A α F → Prop
  | .setOption _ _ _ _ | .setfFun _ | .setArgs _ | .run _ => True
  | _ => False

/-- This call changes neither the fitness function nor its argument and does not initialise: it sets options or
the box, or runs. -/
def PSOFullCall.KeepsFitness : PSOFullCall A α F → Prop
  | .setfFun _ | .setArgs _ | .initializePop _ => False
  | _ => True

/-- Nothing is assigned through the references `posMin()`, `posMax()`, `maxVelocity()`. -/
def PSOOnlySetters (cs : List (PSOFullCall A α F)) : Prop :=
  ∀ c ∈ cs, ∀ x, c ≠ .writePosMin x ∧ c ≠ .writePosMax x ∧ c ≠ .writeMaxVelocity x

/-- What must hold for a call to be allowed after the calls `before`: bounds in order and positive limits and
sizes; `initializePop` needs a positive population size, the number of dimensions, both bounds and a fitness
function; `run` needs a preceding `initializePop`, a fitness function, and, if it may make at least one
generation, a velocity limit. -/
def PSOAllowed [Zero α] [LT α] (dim0 : Option Int) (before : List (PSOFullCall A α F)) :
    PSOFullCall A α F → Prop
  | .setDimensions d => 0 < d
  | .setRange mn mx => mn < mx
  | .setMaxVelocity v => 0 < v
  | .setPVRange mn mx v => mn < mx ∧ 0 < v
  | .initializePop _ =>
    1 ≤ (lastSet psoGiveOption before (200, 300, 100)).1 ∧ lastSet psoGiveDim before dim0 ≠ none ∧
    lastSet psoGiveMin before none ≠ none ∧ lastSet psoGiveMax before none ≠ none ∧
    lastSet psoGiveFun before none ≠ none
  | .run _ =>
    (∃ c ∈ before, PSOFullCall.IsInit c) ∧ lastSet psoGiveFun before none ≠ none ∧
    ((lastSet psoGiveOption before (200, 300, 100)).2.1 = 0 ∨ lastSet psoGiveVel before none ≠ none)
  | _ => True

/-- Every call of the history is allowed after the calls before it. -/
def PSOProper [Zero α] [LT α] (dim0 : Option Int) (cs : List (PSOFullCall A α F)) : Prop :=
  ∀ (before : List (PSOFullCall A α F)) c after, cs = before ++ c :: after → PSOAllowed dim0 before c

end

end Heu.Spec
