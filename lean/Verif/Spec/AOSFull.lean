import Verif.Model.AOSFull
import Verif.Spec.AOS
import Verif.Spec.BoxConfig

/-!
# Specification: histories of calls on an AOS object
-/

namespace Heu.Spec

section
variable {A α : Type}

/-- The options of a new solver. -/
def aosDefaultOption : AOSOption := { electronNum := 50, maxGeneration := 30, maxEarlyStop := 20, maxLayerNum := 5 }

/-- What a call gives for the options. -/
def aosGiveOption : AOSFullCall A α → Option AOSOption
  | .setOption o _ => some o
  | _ => none
/-- What a call gives for the photon rate. -/
def aosGiveRate : AOSFullCall A α → Option α
  | .setOption _ r => some r
  | _ => none
/-- What a call gives for the fitness function (`none`: the null pointer). -/
def aosGiveFun : AOSFullCall A α → Option (Option (A → List α → α))
  | .setfFun f => some f
  | _ => none
/-- What a call gives for the argument of the fitness function. -/
def aosGiveArg : AOSFullCall A α → Option A
  | .setArg a => some a
  | _ => none
/-- What a call gives for the shape of the variables. -/
def aosGiveShape : AOSFullCall A α → Option (Option (Int × Int))
  | .box c => giveShape c
  | _ => none
/-- What a call gives for the lower bound. -/
def aosGiveMin : AOSFullCall A α → Option (Option α)
  | .box c => giveMin c
  | _ => none
/-- What a call gives for the upper bound. -/
def aosGiveMax : AOSFullCall A α → Option (Option α)
  | .box c => giveMax c
  | _ => none
/-- What a call gives for the step width. -/
def aosGiveDelta : AOSFullCall A α → Option (Option α)
  | .box c => giveDelta c
  | _ => none

/-- This call is `initializePop`. -/
def AOSFullCall.IsInit (c : AOSFullCall A α) : Prop := ∃ u j, c = .initializePop u j

/-- This call is `run`. -/
def AOSFullCall.IsRun (c : AOSFullCall A α) : Prop := ∃ env, c = .run env

/-- This call changes neither range nor shape of the box and does not initialise. -/
def AOSFullCall.KeepsBox : AOSFullCall A α → Prop
  | .box (.setDelta _) | .box (.writeDelta _) => True
  | .box _ | .initializePop _ _ => False
  | _ => True

/-- This call changes neither the fitness function nor its argument and does not initialise. -/
def AOSFullCall.KeepsFitness : AOSFullCall A α → Prop
  | .setfFun _ | .setArg _ | .initializePop _ _ => False
  | _ => True

/-- Number of runs in a history. -/
def runCount : List (AOSFullCall A α) → Nat
  | [] => 0
  | .run _ :: cs => runCount cs + 1
  | _ :: cs => runCount cs

/-- What must hold for a call to be allowed after the calls `before`: documented conditions on the arguments of the
calls on the box; `initializePop` needs at least one electron, not more layers than electrons, a shape with a number
of entries that fits an `int`, and both bounds; `run` needs a preceding `initializePop`, at least one electron, and,
if it is the first one after `initializePop`, a fitness function. -/
def AOSAllowed [Zero α] [LT α] (shape0 : Option (Int × Int)) (before : List (AOSFullCall A α)) :
    AOSFullCall A α → Prop
  | .box c => AllowedSqCall c
  | .initializePop _ _ =>
    (lastSet aosGiveOption before aosDefaultOption).maxLayerNum ≤
      (lastSet aosGiveOption before aosDefaultOption).electronNum ∧
    1 ≤ (lastSet aosGiveOption before aosDefaultOption).electronNum ∧
    (∃ r c, lastSet aosGiveShape before shape0 = some (r, c) ∧ r * c ≤ 2 ^ 31 - 1) ∧
    lastSet aosGiveMin before none ≠ none ∧ lastSet aosGiveMax before none ≠ none
  | .run _ =>
    (∃ c ∈ before, AOSFullCall.IsInit c) ∧ 1 ≤ (lastSet aosGiveOption before aosDefaultOption).electronNum ∧
    ∀ b1 u j b2, before = b1 ++ .initializePop u j :: b2 → (∀ c ∈ b2, ¬ AOSFullCall.IsRun c) →
      lastSet aosGiveFun before none ≠ none
  | _ => True

/-- Every call of the history is allowed after the calls before it. -/
def AOSProper [Zero α] [LT α] (shape0 : Option (Int × Int)) (cs : List (AOSFullCall A α)) : Prop :=
  ∀ (before : List (AOSFullCall A α)) c after, cs = before ++ c :: after → AOSAllowed shape0 before c

/-- The states of a run of a solver with these settings after the `i`-th evaluation (counted from 0), if it is not
stopped before; `gen` is the number of the generation at its beginning. -/
def aosFullEval [Field α] [LinearOrder α] [FloorSemiring α] (opt : FitnessOption) (gauss : Nat → Nat → α)
    (x : AOSFull A α) (env : Nat → AOSRawEnv α) : Nat → Out (AOSState α)
  | 0 => x.evaluate opt x.st
  | i + 1 => aosFullEval opt gauss x env i >>= fun t =>
      x.select opt gauss (env (x.generation + i)) t >>= fun u =>
        x.children opt (env (x.generation + i)) u >>= x.evaluate opt

end

end Heu.Spec
