import Verif.Model.PSOOwn
import Verif.Spec.PSOFull

/-!
# Specification: a PSO object with an initialiser of the user's own
-/

namespace Heu.Spec

section
variable {A Ω α F : Type}

/-- All positions and velocities of the swarm have one size. -/
def SameSizes (s : PSOState (List α) F) : Prop :=
  ∃ d : Nat, ∀ p ∈ s.swarm, p.position.length = d ∧ p.velocity.length = d

/-- The vectors of the swarm are not empty. -/
def HasEntries (s : PSOState (List α) F) : Prop := ∃ p ∈ s.swarm, p.position ≠ []

/-- What `run()` needs: particles, a fitness function, and, if it may make at least one generation, vectors of one
size and (if they are not empty) both bounds and the velocity limit. -/
def OwnRunAllowed (x : PSOOwn A Ω α F) : Prop :=
  x.obj.st.swarm ≠ [] ∧ x.obj.fFun ≠ none ∧
  (x.obj.maxGen = 0 ∨ (SameSizes x.obj.st ∧ (HasEntries x.obj.st →
    x.obj.posMin ≠ none ∧ x.obj.posMax ≠ none ∧ x.obj.maxVelocity ≠ none)))

/-- What `initializePop()` needs: a positive population size, an initialiser and a fitness function.  (Neither
bounds nor a number of dimensions.) -/
def OwnInitAllowed (x : PSOOwn A Ω α F) : Prop :=
  1 ≤ x.obj.K ∧ x.iFun ≠ none ∧ x.obj.fFun ≠ none

/-- A call that changes neither the bounds nor the fitness function nor its argument and does not initialise. -/
def PSOOwnCall.Plain : PSOOwnCall A Ω α F → Prop
  | .set (.setOption _ _ _ _) | .set (.setMaxVelocity _) | .set (.writeMaxVelocity _) | .set (.setDimensions _)
  | .setiFun _ | .run _ => True
  | _ => False

/-- This call is `run`. -/
def PSOOwnCall.IsRun (c : PSOOwnCall A Ω α F) : Prop := ∃ rnd, c = .run rnd

/-- A position within the bounds. -/
def Within [LE α] (mn mx : α) (v : List α) : Prop := ∀ y ∈ v, mn ≤ y ∧ y ≤ mx

/-- What a call gives for population size, maximum of generations and of failures. -/
def ownGiveOption : PSOOwnCall A Ω α F → Option (Nat × Nat × Nat)
  | .set (.setOption K G L _) => some (K, G, L)
  | _ => none
/-- What a call gives for the factors. -/
def ownGiveFactors : PSOOwnCall A Ω α F → Option (PSOFactors α)
  | .set (.setOption _ _ _ o) => some o
  | _ => none
/-- What a call gives for the fitness function (`none`: the null pointer). -/
def ownGiveFun : PSOOwnCall A Ω α F → Option (Option (A → List α → F))
  | .set (.setfFun f) => some f
  | _ => none
/-- What a call gives for the initialiser (`none`: the null pointer). -/
def ownGiveInit : PSOOwnCall A Ω α F → Option (Option (PSOInitFun A Ω α))
  | .setiFun f => some f
  | _ => none
/-- What a call gives for the argument of the functions. -/
def ownGiveArg : PSOOwnCall A Ω α F → Option A
  | .set (.setArgs a) => some a
  | _ => none
/-- What a call gives for the number of dimensions. -/
def ownGiveDim : PSOOwnCall A Ω α F → Option (Option Int)
  | .set (.setDimensions d) => some (some d)
  | _ => none
/-- What a call gives for the lower bound of the positions. -/
def ownGiveMin : PSOOwnCall A Ω α F → Option (Option α)
  | .set (.setRange mn _) | .set (.setPVRange mn _ _) | .set (.writePosMin mn) => some (some mn)
  | _ => none
/-- What a call gives for the upper bound of the positions. -/
def ownGiveMax : PSOOwnCall A Ω α F → Option (Option α)
  | .set (.setRange _ mx) | .set (.setPVRange _ mx _) | .set (.writePosMax mx) => some (some mx)
  | _ => none
/-- What a call gives for the limit of the velocities. -/
def ownGiveVel : PSOOwnCall A Ω α F → Option (Option α)
  | .set (.setMaxVelocity v) | .set (.setPVRange _ _ v) | .set (.writeMaxVelocity v) => some (some v)
  | _ => none

end

end Heu.Spec
