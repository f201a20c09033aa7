import Verif.Model.RefPoints
import Verif.Model.Encode

/-!
# The reference points of NSGA-III in `double` arithmetic

`Genetic/NSGA3Abstract.hpp` lines 87-93 and 472-500, `Genetic/NSGA3Base.hpp` lines 120-130 and 212-230, with one
rounding per operation.  `size_t` values converted to `double` are exact below 2^53; the theorems assume less.
-/

namespace Heu

variable (F : Fmt) {d : Nat}

/-- `pri_makeRP`, `Genetic/NSGA3Abstract.hpp` lines 472-484, in `double`s: `double(p) / precision` and
`1.0 - double(accum) / precision`.  `st.1` is `*rec`, `st.2` is `*dst`. -/
def priMakeRPFl (precision : Nat) (curDim accum : Nat)
    (st : (Fin (d + 1) → Fl) × List (Fin (d + 1) → Fl)) :
    (Fin (d + 1) → Fl) × List (Fin (d + 1) → Fl) :=
  if h : curDim + 1 ≥ d + 1 then
    let rec' := Function.update st.1 (Fin.last d)
      (Fl.sub F (Fl.ofNat F 1) (Fl.div F (Fl.ofNat F accum) (Fl.ofNat F precision)))
    (rec', st.2 ++ [rec'])
  else
    (List.range (precision + 1 - accum)).foldl
      (fun st p =>
        priMakeRPFl precision (curDim + 1) (accum + p)
          (Function.update st.1 ⟨curDim, by omega⟩ (Fl.div F (Fl.ofNat F p) (Fl.ofNat F precision)), st.2))
      st
termination_by d - curDim
decreasing_by omega

/-- `computeReferencePointPoses` and `pri_startRP`, `Genetic/NSGA3Abstract.hpp` lines 87-93 and 486-500; `junk` is
the uninitialised content of `rec`. -/
def computeReferencePointPosesFl (junk : Fin (d + 1) → Fl) (precision : Nat) : Out (List (Fin (d + 1) → Fl)) :=
  match nchooseK64 (d + 1 + precision - 1) precision with
  | .ok _ => .ok (priMakeRPFl F precision 0 0 (junk, [])).2
  | .ub => .ub
  | .timeout => .timeout

/-- `makeReferencePoses` (single layer), `Genetic/NSGA3Base.hpp` lines 120-130. -/
def makeReferencePosesFl (junk : Fin (d + 1) → Fl)
    (shuffle : List (Fin (d + 1) → Fl) → List (Fin (d + 1) → Fl)) (precision : Nat) :
    Out (List (Fin (d + 1) → Fl)) := do
  let cols ← nchooseK64 (precision + (d + 1) - 1) precision
  let rfP ← computeReferencePointPosesFl F junk precision
  copyColumns (shuffle rfP) cols

/-- `makeReferencePoses` (double layer), `Genetic/NSGA3Base.hpp` lines 212-230; `k` is the constant
`0.70710678118654752440` of line 223. -/
def makeReferencePoses2Fl (junk : Fin (d + 1) → Fl) (k : Fl) (inner outer : Nat) :
    Out (List (Fin (d + 1) → Fl)) := do
  let ci ← nchooseK64 (inner + (d + 1) - 1) inner
  let co ← nchooseK64 (outer + (d + 1) - 1) outer
  let irfP ← computeReferencePointPosesFl F junk inner
  let orfP ← computeReferencePointPosesFl F junk outer
  copyColumns (irfP.map (fun v r => Fl.mul F (v r) k) ++ orfP) ((ci + co) % 2 ^ 64)

/-- The constant `0.70710678118654752440` as the compiler converts it, `Genetic/NSGA3Base.hpp` line 223. -/
def invSqrt2Literal : Fl := .fin false (6369051672525773 * 2 ^ (binary64.one - 53))

end Heu
