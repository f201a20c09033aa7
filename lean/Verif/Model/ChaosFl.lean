import Verif.Model.Encode

/-!
# `Global/LogisticChaos.hpp` with IEEE-754 arithmetic

The exact version is in `Model/Maths.lean`; here every operation rounds.
-/

namespace Heu

/-- `operator()`, `Global/LogisticChaos.hpp` lines 64-67: `_value *= miu * (1 - _value)`. -/
def chaosStepFl (F : Fmt) (v : Fl) : Fl :=
  v.mul F ((Fl.ofNat F 4).mul F ((Fl.ofNat F 1).sub F v))

/-- The loop of `makeSequence`, `Global/LogisticChaos.hpp` lines 87-89: `dst[i] = miu*dst[i-1]*(1-dst[i-1])`
(a different association of the products). -/
def chaosFillFl (F : Fmt) : Nat → Fl → List Fl
  | 0, _ => []
  | n + 1, prev =>
    let x := ((Fl.ofNat F 4).mul F prev).mul F ((Fl.ofNat F 1).sub F prev)
    x :: chaosFillFl F n x

/-- `makeSequence(dst, L)`, `Global/LogisticChaos.hpp` lines 84-91. -/
def chaosMakeSequenceFl (F : Fmt) (v : Fl) (L : Nat) : List Fl × Fl :=
  if L = 0 then ([], v)
  else
    let d0 := chaosStepFl F v
    let dst := d0 :: chaosFillFl F (L - 1) d0
    (dst, dst.getLast (by simp [dst]))

/-- `iterate(It)`, `Global/LogisticChaos.hpp` lines 98-102. -/
def chaosIterateFl (F : Fmt) : Nat → Fl → Fl
  | 0, v => v
  | n + 1, v => chaosIterateFl F n (v.mul F ((Fl.ofNat F 4).mul F ((Fl.ofNat F 1).sub F v)))

end Heu
