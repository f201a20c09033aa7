import Verif.Model.Session
import Verif.Spec.SOSelection

/-!
# Specification vocabulary for sequences of API calls
-/

namespace Heu.Spec

/-- This call is `initializePop`. -/
def SOGACall.IsInit {V α : Type} (c : SOGACall V α) : Prop := ∃ init blank, c = .initializePop init blank

/-- The fitness function was not changed since the last `initializePop`: behind every change in the history
there is an `initializePop`. -/
def SOGAFitnessUnchanged {V α : Type} (cs : List (SOGACall V α)) : Prop :=
  ∀ before f after, cs = before ++ .setFitness f :: after → ∃ c ∈ after, SOGACall.IsInit c

/-- This call is `initializePop`. -/
def MOCall.IsInit {V α : Type} {m : Nat} (c : MOCall V m α) : Prop :=
  ∃ init blank, c = .initializePop init blank

/-- The fitness function was not changed since the last `initializePop`. -/
def MOFitnessUnchanged {V α : Type} {m : Nat} (cs : List (MOCall V m α)) : Prop :=
  ∀ before f after, cs = before ++ .setFitness f :: after → ∃ c ∈ after, MOCall.IsInit c

/-- The option `populationSize` after a history of calls (100 at construction). -/
def moPopulationSize {V α : Type} {m : Nat} (cs : List (MOCall V m α)) : Nat :=
  cs.foldl (fun K c => match c with | .setOption K' _ _ => K' | _ => K) 100

/-- Size of the population after a history of calls in which every call returned: both `initializePop` and
`run` leave exactly `populationSize` individuals. -/
def moCount {V α : Type} {m : Nat} (cs : List (MOCall V m α)) : Nat :=
  (cs.foldl (fun p c => match c with
    | .setOption K' _ _ => (K', p.2)
    | .setFitness _ => p
    | .initializePop _ _ => (p.1, p.1)
    | .run _ _ => (p.1, p.1)) (100, 0)).2

/-- At every `run` of the history the population has at least `populationSize` members. -/
def RoomForRuns {V α : Type} {m : Nat} (cs : List (MOCall V m α)) : Prop :=
  ∀ before sel v after, cs = before ++ .run sel v :: after → moPopulationSize before ≤ moCount before

/-- This call is `initializePop`. -/
def PSOCall.IsInit {α F : Type} (c : PSOCall α F) : Prop := ∃ init, c = .initializePop init

/-- The fitness function was not changed since the last `initializePop`. -/
def PSOFitnessUnchanged {α F : Type} (cs : List (PSOCall α F)) : Prop :=
  ∀ before f after, cs = before ++ .setFitness f :: after → ∃ c ∈ after, PSOCall.IsInit c

/-- The option `populationSize` after a history of calls (200 at construction). -/
def psoPopulationSize {α F : Type} (cs : List (PSOCall α F)) : Nat :=
  cs.foldl (fun K c => match c with | .setOption K' _ _ => K' | _ => K) 200

/-- Number of particles after a history of calls: the value of `populationSize` at the last `initializePop`. -/
def psoCount {α F : Type} (cs : List (PSOCall α F)) : Nat :=
  (cs.foldl (fun p c => match c with
    | .setOption K' _ _ => (K', p.2)
    | .setFitness _ => p
    | .initializePop _ => (p.1, p.1)
    | .run _ _ _ => p) (200, 0)).2

/-- Every `run` of the history comes after an `initializePop`. -/
def InitBeforeRuns {α F : Type} (cs : List (PSOCall α F)) : Prop :=
  ∀ before b o rnd after, cs = before ++ .run b o rnd :: after → ∃ c ∈ before, PSOCall.IsInit c

end Heu.Spec

namespace Heu.Spec

/-- The values given to `setOption` (`populationSize`, maximum of generations, maximum of failures). -/
def SOGACall.option? {V α : Type} : SOGACall V α → Option (Nat × Nat × Nat)
  | .setOption K G F => some (K, G, F)
  | _ => none

/-- The function given to `setfFun` / `setArgs`. -/
def SOGACall.fitness? {V α : Type} : SOGACall V α → Option (V → α)
  | .setFitness f => some f
  | _ => none

/-- The method given to `setSelectMethod`. -/
def SOGACall.method? {V α : Type} : SOGACall V α → Option SelectMethod
  | .setSelectMethod m => some m
  | _ => none

/-- As `SOGACall.option?`. -/
def MOCall.option? {V α : Type} {m : Nat} : MOCall V m α → Option (Nat × Nat × Nat)
  | .setOption K G F => some (K, G, F)
  | _ => none

/-- As `SOGACall.fitness?`. -/
def MOCall.fitness? {V α : Type} {m : Nat} : MOCall V m α → Option (V → Fin m → α)
  | .setFitness f => some f
  | _ => none

/-- As `SOGACall.option?`. -/
def PSOCall.option? {α F : Type} : PSOCall α F → Option (Nat × Nat × Nat)
  | .setOption K G F => some (K, G, F)
  | _ => none

/-- As `SOGACall.fitness?`. -/
def PSOCall.fitness? {α F : Type} : PSOCall α F → Option (List α → F)
  | .setFitness f => some f
  | _ => none

/-- The value given last in a history of calls, or the initial one. -/
def lastSet {C T : Type} (get : C → Option T) (cs : List C) (initial : T) : T :=
  ((cs.filterMap get).getLast?).getD initial

end Heu.Spec
