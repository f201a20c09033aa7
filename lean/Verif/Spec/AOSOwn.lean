import Verif.Model.AOSOwn
import Verif.Spec.AOSFull

/-!
# Specification: an AOS object with an initialiser of the user's own
-/

namespace Heu.Spec

section
variable {A Ω α : Type}

/-- All states have one size. -/
def OneStateSize (x : AOSOwn A Ω α) : Prop :=
  ∀ c ∈ x.obj.st.electrons, ∀ d ∈ x.obj.st.electrons, c.2.var.length = d.2.var.length

/-- What `initializePop()` needs: an initialiser, at least one electron and not more layers than electrons.  (No box,
no fitness function.) -/
def AOSOwnInitAllowed (x : AOSOwn A Ω α) : Prop :=
  x.iFun ≠ none ∧ x.obj.option.maxLayerNum ≤ x.obj.option.electronNum ∧ 1 ≤ x.obj.option.electronNum

/-- A call that changes neither the bounds nor the fitness function nor its argument and does not initialise. -/
def AOSOwnCall.Plain : AOSOwnCall A Ω α → Prop
  | .set (.setOption _ _) | .set (.box (.setDelta _)) | .set (.box (.writeDelta _)) => True
  | .set (.box (.setDimensions _ _)) => True
  | .setiFun _ | .run _ => True
  | _ => False

/-- This call is `run`. -/
def AOSOwnCall.IsRun (c : AOSOwnCall A Ω α) : Prop := ∃ env, c = .run env

/-- What a call gives for the options. -/
def aosOwnGiveOption : AOSOwnCall A Ω α → Option AOSOption
  | .set (.setOption o _) => some o
  | _ => none
/-- What a call gives for the photon rate. -/
def aosOwnGiveRate : AOSOwnCall A Ω α → Option α
  | .set (.setOption _ r) => some r
  | _ => none
/-- What a call gives for the fitness function (`none`: the null pointer). -/
def aosOwnGiveFun : AOSOwnCall A Ω α → Option (Option (A → List α → α))
  | .set (.setfFun f) => some f
  | _ => none
/-- What a call gives for the initialiser (`none`: the null pointer). -/
def aosOwnGiveInit : AOSOwnCall A Ω α → Option (Option (AOSInitFun A Ω α))
  | .setiFun f => some f
  | _ => none
/-- What a call gives for the argument of the functions. -/
def aosOwnGiveArg : AOSOwnCall A Ω α → Option A
  | .set (.setArg a) => some a
  | _ => none
/-- What a call gives for the shape of the variables. -/
def aosOwnGiveShape : AOSOwnCall A Ω α → Option (Option (Int × Int))
  | .set (.box (.setDimensions r c)) => some (some (r, c))
  | _ => none
/-- What a call gives for the lower bound. -/
def aosOwnGiveMin : AOSOwnCall A Ω α → Option (Option α)
  | .set (.box (.setRange mn _)) | .set (.box (.writeMin mn)) => some (some mn)
  | _ => none
/-- What a call gives for the upper bound. -/
def aosOwnGiveMax : AOSOwnCall A Ω α → Option (Option α)
  | .set (.box (.setRange _ mx)) | .set (.box (.writeMax mx)) => some (some mx)
  | _ => none
/-- What a call gives for the step width. -/
def aosOwnGiveDelta : AOSOwnCall A Ω α → Option (Option α)
  | .set (.box (.setDelta d)) | .set (.box (.writeDelta d)) => some (some d)
  | _ => none

end

end Heu.Spec
