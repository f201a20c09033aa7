import Mathlib.Algebra.BigOperators.Group.List.Basic
import Mathlib.Algebra.Order.Field.Basic

/-!
# Specification of a roulette wheel without replacement

Sectors of given sizes are laid end to end; a pointer value falls into one of them.
-/

namespace Heu.Spec

variable {α β : Type} [Field α] [LinearOrder α]

/-- The pointer value `r` falls into sector `i`: it is past the end of all earlier sectors and not past
the end of sector `i`. -/
def InSector (sizes : List α) (r : α) (i : Nat) : Prop :=
  i < sizes.length ∧ r ≤ (sizes.take (i + 1)).sum ∧ ∀ j, j < i → (sizes.take (j + 1)).sum < r

/-- `WheelRun u it sectors kept left`: starting with spin number `it`, the wheel is spun repeatedly; the
pointer of spin `k` is the fraction `u k` of the total size of the sectors that are still there; the
sector that is hit is taken off the wheel.  `kept` are the sectors taken off, in order, and `left` those
on the wheel at the end. -/
inductive WheelRun (u : Nat → α) :
    Nat → List (β × α) → List (β × α) → List (β × α) → Prop
  | stop (it : Nat) (sectors : List (β × α)) : WheelRun u it sectors [] sectors
  | spin (it : Nat) (sectors : List (β × α)) (i : Nat) (hi : i < sectors.length)
      (kept left : List (β × α))
      (hit : InSector (sectors.map (·.2)) (u it * (sectors.map (·.2)).sum) i)
      (rest : WheelRun u (it + 1) (sectors.eraseIdx i) kept left) :
      WheelRun u it sectors (sectors[i] :: kept) left

end Heu.Spec
