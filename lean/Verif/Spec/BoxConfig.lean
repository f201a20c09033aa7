import Verif.Model.BoxConfig
import Verif.Spec.Box
import Verif.Spec.Session

/-!
# Specification: setting up boxes
-/

namespace Heu.Spec

/-- The documented condition on the arguments of a call on a square box. -/
def AllowedSqCall {α : Type} [Zero α] [LT α] : SqBoxCall α → Prop
  | .setDimensions r c => 0 < r ∧ 0 < c
  | .setRange mn mx => mn < mx
  | .setDelta d => 0 < d
  | .writeMin _ | .writeMax _ | .writeDelta _ => True

/-- What a call gives for the shape, the lower bound, the upper bound and the step width, if anything. -/
def giveShape {α : Type} : SqBoxCall α → Option (Option (Int × Int))
  | .setDimensions r c => some (some (r, c))
  | _ => none
/-- see `giveShape` -/
def giveMin {α : Type} : SqBoxCall α → Option (Option α)
  | .setRange mn _ => some (some mn)
  | .writeMin x => some (some x)
  | _ => none
/-- see `giveShape` -/
def giveMax {α : Type} : SqBoxCall α → Option (Option α)
  | .setRange _ mx => some (some mx)
  | .writeMax x => some (some x)
  | _ => none
/-- see `giveShape` -/
def giveDelta {α : Type} : SqBoxCall α → Option (Option α)
  | .setDelta d => some (some d)
  | .writeDelta d => some (some d)
  | _ => none

/-- No assignment through the references `min()`, `max()` and `delta()`. -/
def SqOnlySetters {α : Type} (cs : List (SqBoxCall α)) : Prop :=
  ∀ c ∈ cs, ∀ x, c ≠ .writeMin x ∧ c ≠ .writeMax x ∧ c ≠ .writeDelta x

/-- The shape is consistent with the number of entries. -/
def Shaped.WF {α : Type} (m : Shaped α) : Prop := m.data.length = m.rows * m.cols

/-- The condition the calls on a rectangular box assert. -/
def AllowedRectCall {α : Type} [Zero α] [LT α] : RectBoxCall α → Prop
  | .setDimensions r c _ _ _ => 0 < r ∧ 0 < c
  | .setRange mn mx => mn.data.length = mx.data.length
  | .setDelta d => ∀ x ∈ d.data, 0 < x
  | .writeMin _ | .writeMax _ | .writeDelta _ => True

/-- The call does not touch the bounds. -/
def DeltaOnly {α : Type} : RectBoxCall α → Prop
  | .setDelta _ | .writeDelta _ => True
  | _ => False

/-- The call does not touch the step widths. -/
def RangeOnly {α : Type} : RectBoxCall α → Prop
  | .setRange _ _ | .writeMin _ | .writeMax _ => True
  | _ => False

/-- Only `setRange`, `setDimensions` and `setDelta` are used. -/
def RectOnlySetters {α : Type} (cs : List (RectBoxCall α)) : Prop :=
  ∀ c ∈ cs, ∀ m, c ≠ .writeMin m ∧ c ≠ .writeMax m ∧ c ≠ .writeDelta m

/-- The documented condition on the arguments of a call on a Gaussian box. -/
def AllowedGaussCall {α : Type} [Zero α] [LT α] : GaussBoxCall α → Prop
  | .setDimensions r c => 0 < r ∧ 0 < c
  | .setSigma x => 0 < x
  | .setDelta d => 0 < d
  | _ => True

/-- What a call gives for the shape, mean, deviation and step width of a Gaussian box. -/
def giveGShape {α : Type} : GaussBoxCall α → Option (Option (Int × Int))
  | .setDimensions r c => some (some (r, c))
  | _ => none
/-- see `giveGShape` -/
def giveMu {α : Type} : GaussBoxCall α → Option (Option α)
  | .setMu x | .writeMu x => some (some x)
  | _ => none
/-- see `giveGShape` -/
def giveSigma {α : Type} : GaussBoxCall α → Option (Option α)
  | .setSigma x | .writeSigma x => some (some x)
  | _ => none
/-- see `giveGShape` -/
def giveGDelta {α : Type} : GaussBoxCall α → Option (Option α)
  | .setDelta x | .writeDelta x => some (some x)
  | _ => none

end Heu.Spec
