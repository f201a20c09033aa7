import Verif.Model.NSGA3Obj
import Verif.Spec.Session
import Verif.Spec.RefPoints

/-!
# Specification vocabulary for histories of calls on an NSGA-III object
-/

namespace Heu.Spec

variable {V α : Type} {d : Nat} {L : RefLayout d α}

/-- This call is `initializePop`. -/
def NSGA3Call.IsInit (c : NSGA3Call L V) : Prop := ∃ i b j s, c = .initializePop i b j s

/-- The precision given to `setReferencePointPrecision`. -/
def NSGA3Call.precision? : NSGA3Call L V → Option L.P
  | .setPrecision p => some p
  | _ => none

/-- The values given to `setOption`. -/
def NSGA3Call.option? : NSGA3Call L V → Option (Nat × Nat × Nat)
  | .setOption K G F => some (K, G, F)
  | _ => none

/-- The precision that was set last; before any call the one of a new object (`none`: indeterminate). -/
def precisionInForce (L : RefLayout d α) (cs : List (NSGA3Call L V)) : Option L.P :=
  lastSet (fun c => (NSGA3Call.precision? c).map some) cs L.initial

/-- `populationSize` after a history of calls (100 at construction). -/
def nsga3PopulationSize (cs : List (NSGA3Call L V)) : Nat :=
  (lastSet NSGA3Call.option? cs (100, 300, 50)).1

/-- Number of individuals after a history of calls that returned: `populationSize` at the last `initializePop` or
`run`. -/
def nsga3Count : List (NSGA3Call L V) → Nat := fun cs =>
  (cs.foldl (fun p c => match c with
    | .setOption K' _ _ => (K', p.2)
    | .setFitness _ => p
    | .setPrecision _ => p
    | .initializePop _ _ _ _ => (p.1, p.1)
    | .run _ _ => (p.1, p.1)) (100, 0)).2

/-- Every `initializePop` finds a precision that was set. -/
def PrecisionBeforeInit (L : RefLayout d α) (cs : List (NSGA3Call L V)) : Prop :=
  ∀ before c after, cs = before ++ c :: after → NSGA3Call.IsInit c → precisionInForce L before ≠ none

/-- At every `run` of the history the population has at least `populationSize` members. -/
def NSGA3Room (cs : List (NSGA3Call L V)) : Prop :=
  ∀ (before : List (NSGA3Call L V)) e v after, cs = before ++ .run e v :: after →
    nsga3PopulationSize before ≤ nsga3Count before

/-- The fitness function was not changed since the last `initializePop`. -/
def NSGA3FitnessUnchanged (cs : List (NSGA3Call L V)) : Prop :=
  ∀ (before : List (NSGA3Call L V)) f after, cs = before ++ .setFitness f :: after →
    ∃ c ∈ after, NSGA3Call.IsInit c

/-- No call in this part of the history is `initializePop`. -/
def NoInit (cs : List (NSGA3Call L V)) : Prop := ∀ c ∈ cs, ¬ NSGA3Call.IsInit c

/-- `pts` are exactly the Das-Dennis lattice points of precision `p`, each once. -/
def IsLattice {α : Type} [Field α] {m : Nat} (p : Nat) (pts : List (Fin m → α)) : Prop :=
  pts.Nodup ∧ ∀ v, v ∈ pts ↔ IsLatticePoint p v

/-- `pts` are the lattice of precision `i` shrunk by `c`, followed by the lattice of precision `o`. -/
def IsTwoLattices {α : Type} [Field α] {m : Nat} (c : α) (i o : Nat) (pts : List (Fin m → α)) : Prop :=
  ∃ inner outer, IsLattice i inner ∧ IsLattice o outer ∧ pts = inner.map (fun v r => v r * c) ++ outer

end Heu.Spec
