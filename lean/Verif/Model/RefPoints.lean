import Verif.Model.Maths
import Mathlib.Data.Fin.Basic
import Mathlib.Logic.Function.Basic
import Mathlib.Algebra.BigOperators.Group.Finset.Basic
import Mathlib.LinearAlgebra.Matrix.NonsingularInverse

/-!
# Models of the reference points of `Genetic/NSGA3Abstract.hpp` / `NSGA3Base.hpp`, of the geometry of
NSGA-III and of `bestFitness` in `Genetic/MOGAAbstract.hpp`

Exact arithmetic over a field instead of `double`.
-/

namespace Heu

section rp
variable {α : Type} [Field α] {d : Nat}

/-- `pri_makeRP`, `Genetic/NSGA3Abstract.hpp` lines 472-484.  `st.1` is `*rec` (whose entries persist
between calls), `st.2` is `*dst`.  The number of objectives is `d + 1` (at least one). -/
def priMakeRP (precision : Nat) (curDim accum : Nat)
    (st : (Fin (d + 1) → α) × List (Fin (d + 1) → α)) :
    (Fin (d + 1) → α) × List (Fin (d + 1) → α) :=
  if h : curDim + 1 ≥ d + 1 then
    let rec' := Function.update st.1 (Fin.last d) (1 - (accum : α) / (precision : α))
    (rec', st.2 ++ [rec'])
  else
    (List.range (precision + 1 - accum)).foldl
      (fun st p =>
        priMakeRP precision (curDim + 1) (accum + p)
          (Function.update st.1 ⟨curDim, by omega⟩ ((p : α) / (precision : α)), st.2))
      st
termination_by d - curDim
decreasing_by omega

/-- `computeReferencePointPoses` and `pri_startRP`, `Genetic/NSGA3Abstract.hpp` lines 87-93 and
486-500.  `junk` is the uninitialised content of `rec`.  The `reserve` call evaluates `NchooseK`,
which can divide by zero; failure of the allocation is not modelled. -/
def computeReferencePointPoses (junk : Fin (d + 1) → α) (precision : Nat) :
    Out (List (Fin (d + 1) → α)) :=
  match nchooseK64 (d + 1 + precision - 1) precision with
  | .ok _ => .ok (priMakeRP precision 0 0 (junk, [])).2
  | .ub => .ub
  | .timeout => .timeout

/-- The copy loops `referencePoses(r, c) = rfP[c][r]`, `Genetic/NSGA3Base.hpp` lines 125-129: reading
past the end of `rfP` is undefined behaviour. -/
def copyColumns {β : Type} (src : List β) : (cols : Nat) → Out (List β)
  | 0 => .ok []
  | c + 1 => do
    let init ← copyColumns src c
    match src[c]? with
    | some x => .ok (init ++ [x])
    | none => .ub

/-- `makeReferencePoses` (single layer), `Genetic/NSGA3Base.hpp` lines 120-130, with
`referencePointCount` (lines 108-110).  The matrix is the list of its columns; `shuffle` is what
`std::shuffle` does. -/
def makeReferencePoses (junk : Fin (d + 1) → α)
    (shuffle : List (Fin (d + 1) → α) → List (Fin (d + 1) → α)) (precision : Nat) :
    Out (List (Fin (d + 1) → α)) := do
  let cols ← nchooseK64 (precision + (d + 1) - 1) precision
  let rfP ← computeReferencePointPoses junk precision
  copyColumns (shuffle rfP) cols

/-- `makeReferencePoses` (double layer), `Genetic/NSGA3Base.hpp` lines 212-230, with
`referencePointCount` (lines 203-206).  The two shuffles act on empty vectors. -/
def makeReferencePoses2 (junk : Fin (d + 1) → α) (invSqrt2 : α) (inner outer : Nat) :
    Out (List (Fin (d + 1) → α)) := do
  let ci ← nchooseK64 (inner + (d + 1) - 1) inner
  let co ← nchooseK64 (outer + (d + 1) - 1) outer
  let irfP ← computeReferencePointPoses junk inner
  let orfP ← computeReferencePointPoses junk outer
  copyColumns (irfP.map (fun v r => v r * invSqrt2) ++ orfP) ((ci + co) % 2 ^ 64)

end rp

section ideal
variable {α : Type} [LinearOrder α] {m : Nat}

/-- Loop body of `bestFitness`, `Genetic/MOGAAbstract.hpp` lines 138-142 (Eigen's componentwise
`max` / `min`). -/
def moBestStep (fOpt : FitnessOption) (best f : Fin m → α) : Fin m → α := fun i =>
  match fOpt with
  | .greaterBetter => max (best i) (f i)
  | .lessBetter => min (best i) (f i)

/-- `bestFitness`, `Genetic/MOGAAbstract.hpp` lines 135-145.  `front()` of an empty population is
undefined behaviour. -/
def moBestFitness (fOpt : FitnessOption) : List (Fin m → α) → Out (Fin m → α)
  | [] => .ub
  | g :: gs => .ok ((g :: gs).foldl (moBestStep fOpt) g)

end ideal

section geometry
variable {α : Type} [Field α] [LinearOrder α] {m : Nat}

/-- The loops of `normalize` that compute `ideal`, `Genetic/NSGA3Abstract.hpp` lines 268-294:
componentwise minimum over `selected` and `Fl`.  (`ideal` starts at `+inf`; the first point replaces
it.  Neither set matters separately.) -/
def nsga3Ideal (first : Fin m → α) (rest : List (Fin m → α)) : Fin m → α :=
  rest.foldl (fun ideal f => fun i => min (ideal i) (f i)) first

/-- The extreme point of objective `c`, `Genetic/NSGA3Abstract.hpp` lines 270-294: starts at `Fl[0]`
and is replaced by any individual that is strictly larger in objective `c`; `selected` is scanned
first, then `Fl`. -/
def nsga3Extreme (fl0 : Fin m → α) (scan : List (Fin m → α)) (c : Fin m) : Fin m → α :=
  scan.foldl (fun e f => if f c > e c then f else e) fl0

/-- `extremePoints2Intercept`, `Genetic/NSGA3Abstract.hpp` lines 506-513: `P` has the translated
extreme points as columns. -/
noncomputable def extremePoints2Intercept (P : Matrix (Fin m) (Fin m) α) : Fin m → α :=
  fun i => 1 / (Matrix.mulVec (P.transpose)⁻¹ (fun _ => 1)) i

/-- `normalize`, `Genetic/NSGA3Abstract.hpp` lines 254-312: the ideal point, the intercepts and the
translated fitness of every individual.  `selected` (in the iteration order of the hash set) and
`fl0 :: fl` hold the fitness values; `tiny` is the singularity threshold `1e-10`. -/
noncomputable def nsga3Normalize (tiny : α) (selected : List (Fin m → α)) (fl0 : Fin m → α)
    (fl : List (Fin m → α)) : (Fin m → α) × (Fin m → α) × ((Fin m → α) → Fin m → α) :=
  let scan := selected ++ fl0 :: fl
  let ideal := nsga3Ideal fl0 scan
  let P : Matrix (Fin m) (Fin m) α := fun r c => nsga3Extreme fl0 scan c r - ideal r
  let intercepts := if |P.det| ≤ tiny then fun r => P r r else extremePoints2Intercept P
  (ideal, intercepts, fun f i => (f i - ideal i) / intercepts i)

/-- The quantity `findNearest` computes for the reference point `w`, `Genetic/NSGA3Abstract.hpp`
lines 326-336: squared norm of `(w·s) w / (w·w) - s`. -/
def refDistance (w s : Fin m → α) : α :=
  ∑ i, (w i * (∑ j, w j * s j) / (∑ j, w j * w j) - s i) ^ 2

/-- `findNearest`, `Genetic/NSGA3Abstract.hpp` lines 325-340: the index of the smallest distance
(`minCoeff`, first minimum) and that distance.  An empty reference matrix is undefined behaviour. -/
def findNearest (refs : List (Fin m → α)) (s : Fin m → α) : Out (Nat × α) :=
  match refs with
  | [] => .ub
  | w :: ws =>
    let r := ws.foldl (fun (acc : Nat × α × Nat) w' =>
      if refDistance w' s < acc.2.1 then (acc.2.2, refDistance w' s, acc.2.2 + 1)
      else (acc.1, acc.2.1, acc.2.2 + 1)) (0, refDistance w s, 1)
    .ok (r.1, r.2.1)

end geometry

end Heu
