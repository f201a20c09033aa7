import Verif.Model.ChaosFl
import Verif.Model.OpsSize

/-!
# Objects of the class `LogisticChaos` and the bulk random numbers

`Global/LogisticChaos.hpp` and the array versions of `randD` in `Global/Randoms.hpp`.
-/

namespace Heu

/-- The calls on an object, Global/LogisticChaos.hpp lines 64-102: `operator()`, `value()`, `makeSequence(dst, L)` and
`iterate(It)`. -/
inductive ChaosCall
  | step
  | value
  | makeSequence (L : Nat)
  | iterate (n : Nat)

/-- The default constructor, Global/LogisticChaos.hpp line 46: `_value = randD()`, here the draw `u`. -/
def chaosDefault (u : Fl) : Fl := u

/-- The constructor with a seed, Global/LogisticChaos.hpp lines 53-57: asserts `0 < seed < 1` (a failed assertion is
`ub`). -/
def chaosSeeded (F : Fmt) (seed : Fl) : Out Fl :=
  if Fl.lt (Fl.ofNat F 0) seed then
    if Fl.lt seed (Fl.ofNat F 1) then .ok seed else .ub
  else .ub

/-- One call: the new `_value` and the numbers the caller receives, Global/LogisticChaos.hpp lines 64-102. -/
def chaosCall (F : Fmt) (v : Fl) : ChaosCall → Fl × List Fl
  | .step => (chaosStepFl F v, [chaosStepFl F v])
  | .value => (v, [v])
  | .makeSequence L => ((chaosMakeSequenceFl F v L).2, (chaosMakeSequenceFl F v L).1)
  | .iterate n => (chaosIterateFl F n v, [])

/-- A history of calls on one object: final `_value` and everything received (calls of Global/LogisticChaos.hpp lines
64-102 in a row). -/
def chaosHistory (F : Fmt) : Fl → List ChaosCall → Fl × List Fl
  | v, [] => (v, [])
  | v, c :: cs =>
    let r := chaosCall F v c
    let s := chaosHistory F r.1 cs
    (s.1, r.2 ++ s.2)

/-- `randD(dst, num)` and `randD(dst, num, min, max)`, Global/Randoms.hpp lines 86-90 and 104-108: `dst` points to an
array with the contents `mem`; `draw i` is the number stored in turn `i`.  Writing behind the end is `ub`.  `num` is an
`int`: nothing happens if it is negative. -/
def randDFill {β : Type} (draw : Nat → β) (num : Int) (mem : List β) : Out (List β) :=
  (List.range num.toNat).foldlM (fun m i => writeAt m i (draw i)) mem

end Heu
