import Verif.Model.DefaultRunFl
import Verif.Spec.Calls
import Verif.Spec.IEEE
import Verif.Spec.Box

/-!
# Specification: how far the candidates of a run may leave the box
-/

namespace Heu.Spec

variable {F : Fmt}

/-- All entries are finite, and the `i`-th one is at most `m i` below the lower or above the upper bound. -/
def NearBox (b : Box (Dbl F)) (m : Nat → ℚ) (v : List (Dbl F)) : Prop :=
  v.length = b.dim ∧ ∀ i, ∀ h : i < v.length, v[i].val.Finite F ∧
    Fl.number F (b.min i).val - m i ≤ Fl.number F v[i].val ∧ Fl.number F v[i].val ≤ Fl.number F (b.max i).val + m i

/-- The larger absolute value of the two bounds of coordinate `i`. -/
def boxSize (b : Box (Dbl F)) (i : Nat) : ℚ := max |Fl.number F (b.min i).val| |Fl.number F (b.max i).val|

/-- The margin after `g` generations.  With the rounding unit `ε = 2^-(mb+1)` (`2^-53` for `double`) and
`τ = 2^mb / 2^one` the smallest normal number (`2^-1022` for `double`): `((1 + 4 ε)^g - 1) · (size + 2 τ)`. -/
def drift (b : Box (Dbl F)) (g i : Nat) : ℚ :=
  ((1 + 4 / 2 ^ (F.mb + 1)) ^ g - 1) * (boxSize b i + 2 ^ (F.mb + 1) / 2 ^ (F.one + 1))

/-- Finite bounds, the lower one not above the upper one, and the width does not overflow. -/
def SaneBox (b : Box (Dbl F)) : Prop := ∀ i, i < b.dim → (b.min i).val.Finite F ∧ (b.max i).val.Finite F ∧
  b.min i ≤ b.max i ∧ ((b.max i).val.sub F (b.min i).val).Finite F

/-- The draws are what the generator delivers: uniform draws in `[0, 1)`, a ratio strictly between 0 and 1, a coordinate
of the box, a finite factor. -/
structure LegalDraws {ω : Type} (b : Box (Dbl F)) (D : RealDraws F ω) : Prop where
  ini : ∀ s i, ((D.ini s).1 i).Finite F ∧ (Fl.ofNat F 0).le ((D.ini s).1 i) = true ∧
    ((D.ini s).1 i).lt (Fl.ofNat F 1) = true
  cx : ∀ s r, (D.cx s).1 = .arith r → r.val.Finite F ∧ 0 < Fl.number F r.val ∧ Fl.number F r.val < 1
  idx : ∀ s, (D.muta s).1.1 < b.dim
  step : ∀ s, (D.muta s).1.2.val.Finite F

/-- The candidates a call sees or makes. -/
def UserCall.points {V Y : Type} : UserCall V Y → List V
  | .ini _ a => [a]
  | .fit x _ => [x]
  | .cross p q c d => [p, q, c, d]
  | .muta s d => [s, d]

/-- A call of one of the library's operators was defined, and the results are those of the operator. -/
def OperatorDefined {Y ω : Type} (b : Box (Dbl F)) (delta : Nat → Dbl F) (D : RealDraws F ω) :
    UserCall (List (Dbl F)) Y → Prop
  | .cross p q c d => ∃ s, (D.cx s).1.run p q = .ok (c, d)
  | .muta v d => ∃ s, applyDeltaContFl F b delta v (D.muta s).1.1 (D.muta s).1.2 = .ok d
  | _ => True

end Heu.Spec
