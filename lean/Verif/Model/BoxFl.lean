import Verif.Model.Box
import Verif.Model.SOGAFl

/-!
# Box operations in floating-point arithmetic

`HeuristicFlow/src/EAGlobal/BoxConstraint.hpp` over IEEE-754 data: infinities, NaN, rounding and overflow.
`applyConstraint` (`Model/Box.lean`) only compares and is used as it stands.
-/

namespace Heu

/-- `ContinousBox::applyDelta`, `EAGlobal/BoxConstraint.hpp` lines 627-635: the entry becomes the rounded sum
of itself and the rounded product of `Scalar_t(randD(-1, 1))` (here `r`) and `delta(idx)`, then is confined. -/
def applyDeltaContFl (F : Fmt) (b : Box (Dbl F)) (delta : Nat → Dbl F) (v : List (Dbl F)) (idx : Nat)
    (r : Dbl F) : Out (List (Dbl F)) :=
  if v.length = b.dim then
    match v[idx]? with
    | none => .ub
    | some x => .ok (v.set idx (clampTo (b.min idx) (b.max idx) (x + r * delta idx)))
  else .ub

/-- `BoxBase::applyDelta`, `EAGlobal/BoxConstraint.hpp` lines 68-80, for a floating-point scalar: a rounded
step by one, then confined. -/
def applyDeltaUnitFl (F : Fmt) (b : Box (Dbl F)) (v : List (Dbl F)) (idx : Nat) (up : Bool) :
    Out (List (Dbl F)) :=
  if v.length = b.dim then
    match v[idx]? with
    | none => .ub
    | some x =>
      .ok (v.set idx (clampTo (b.min idx) (b.max idx)
        (x + if up then Dbl.nat F 1 else -Dbl.nat F 1)))
  else .ub

/-- `imp_cFunNd`, `Genetic/Miscellaneous4GA.hpp` lines 35-45 and 62-69, with rounded operations. -/
def cFunNdFl (F : Fmt) (r : Dbl F) (p1 p2 : List (Dbl F)) : Out (List (Dbl F) × List (Dbl F)) :=
  if p1.length ≤ p2.length then
    .ok (List.zipWith (fun a b => r * a + (Dbl.nat F 1 - r) * b) p1 p2,
         List.zipWith (fun a b => r * b + (Dbl.nat F 1 - r) * a) p1 p2)
  else .ub

end Heu
