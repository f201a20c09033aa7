import Verif.Model.NSGA2Fl

/-!
# NSGA-III selection on real `double`s

`Genetic/NSGA3Abstract.hpp` lines 117-468 over IEEE-754 data (`Fl`), NaN and infinities included.  What Eigen
computes with several rounded operations in an order it does not promise (determinant, inverse, squared norms,
`min` of two arrays when an operand is NaN) enters through `Geometry`: any functions.
-/

namespace Heu

variable {G : Type} [DecidableEq G] {m : Nat}

/-- The results of Eigen's numerical routines, as arbitrary functions: `ideal.min(fitness)` per coefficient
(`Genetic/NSGA3Abstract.hpp` lines 277 and 286), `determinant()` (line 503), the intercepts computed with `inverse()`
(lines 506-513), and the squared distance of a point from the line of a reference point (lines 326-336). -/
structure Geometry (m : Nat) where
  min : Fl → Fl → Fl
  det : (Fin m → Fin m → Fl) → Fl
  intercepts : (Fin m → Fin m → Fl) → Fin m → Fl
  distance : (Fin m → Fl) → (Fin m → Fl) → Fl

/-- The loops of `normalize` that compute `ideal`, `Genetic/NSGA3Abstract.hpp` lines 268, 276-277 and 285-286:
starts at `+inf`. -/
def nsga3IdealFl (E : Geometry m) (scan : List (Fin m → Fl)) : Fin m → Fl :=
  scan.foldl (fun ideal f => fun i => E.min (ideal i) (f i)) fun _ => .inf false

/-- The extreme point of objective `c`, `Genetic/NSGA3Abstract.hpp` lines 270-292: starts at `Fl[0]` and is
replaced by any individual that is strictly larger in objective `c`. -/
def nsga3ExtremeFl (fl0 : Fin m → Fl) (scan : List (Fin m → Fl)) (c : Fin m) : Fin m → Fl :=
  scan.foldl (fun e f => if Fl.lt (e c) (f c) then f else e) fl0

section
variable (F : Fmt)

/-- `normalize`, `Genetic/NSGA3Abstract.hpp` lines 254-312, with `isSingular` (lines 502-504; `tiny` is the `double`
`1e-10`; a NaN determinant does not count as singular): the translated fitness of every individual. -/
def nsga3NormalizeFl (E : Geometry m) (tiny : Fl) (selected : List (Fin m → Fl)) (fl0 : Fin m → Fl)
    (fl : List (Fin m → Fl)) : (Fin m → Fl) → Fin m → Fl :=
  let scan := selected ++ fl0 :: fl
  let ideal := nsga3IdealFl E scan
  let P := fun r c => Fl.sub F (nsga3ExtremeFl fl0 scan c r) (ideal r)
  let intercepts := if Fl.le (E.det P).abs tiny then fun r => P r r else E.intercepts P
  fun f i => (Fl.sub F (f i) (ideal i)).div F (intercepts i)

/-- `findNearest`, `Genetic/NSGA3Abstract.hpp` lines 325-340: Eigen's `minCoeff(&minIdx)` visits the distances in
order, starts with the first and moves on if a distance is less than the best so far (so a NaN that comes first
stays, and a later NaN is never taken).  An empty reference matrix is undefined behaviour. -/
def findNearestFl (E : Geometry m) (refs : List (Fin m → Fl)) (s : Fin m → Fl) : Out (Nat × Fl) :=
  match refs with
  | [] => .ub
  | w :: ws =>
    let r := ws.foldl (fun (acc : Nat × Fl × Nat) w' =>
      if Fl.lt (E.distance w' s) acc.2.1 then (acc.2.2, E.distance w' s, acc.2.2 + 1)
      else (acc.1, acc.2.1, acc.2.2 + 1)) (0, E.distance w s, 1)
    .ok (r.1, r.2.1)

/-- `normalize`, then `associate(selected)` and `associate(*FlPtr, &Fl)`, `Genetic/NSGA3Abstract.hpp` lines
187-204, 254-312, 347-372.  (Individuals outside `selected` and `Fl` keep the values set in lines 126-127; nobody
reads them, so the same formula is used for them here.) -/
def nsga3AssociateFl (E : Geometry m) (tiny : Fl) (refs : List (Fin m → Fl)) (fit : G → Fin m → Fl)
    (order : Finset G → List G) (selected : Finset G) (Fl' : List G) : Out ((G → Nat) × (G → Fl)) :=
  match Fl', refs with
  | [], _ => .ub
  | _, [] => .ub
  | g0 :: gs, w :: ws =>
    let translated := nsga3NormalizeFl F E tiny ((order selected).map fit) (fit g0) (gs.map fit)
    let nearest := fun g => match findNearestFl E (w :: ws) (translated (fit g)) with
      | .ok p => p
      | _ => (0, .nan)
    .ok (fun g => (nearest g).1, fun g => (nearest g).2)

/-- The closest associated individual, `Genetic/NSGA3Abstract.hpp` lines 416-424. -/
def pickClosestFl (dist : G → Fl) : List (Nat × G) → Out (Nat × G)
  | [] => .ub
  | x :: xs => .ok ((x :: xs).foldl (fun mn it => if Fl.lt (dist it.2) (dist mn.2) then it else mn) x)

/-- The random pick, `Genetic/NSGA3Abstract.hpp` lines 426-437: `randD() * N <= 1` in rounded arithmetic
(`N` is a `size_t`, converted to `double`).  Falling off the end leaves `pickedGene` a singular iterator. -/
def pickRandomFl (draws : Nat → Fl) : Nat → Nat → List (Nat × G) → Out (Nat × G)
  | _, _, [] => .ub
  | k, N, it :: its =>
    if Fl.le (Fl.mul F (draws k) (Fl.ofNat F N)) (Fl.ofNat F 1) then .ok it
    else pickRandomFl draws (k + 1) (N - 1) its

/-- Body of the `while` loop of `nichePreservation`, `Genetic/NSGA3Abstract.hpp` lines 406-446.
`none` means the loop condition is false. -/
def nicheStepFl (K : Nat) (dist : G → Fl) (d : NicheDraw Fl G) (s : NicheState G) :
    Out (Option (NicheState G)) :=
  if s.selected.card < K then
    let minSet := findMinSet s.refPoints
    match minSet[d.rIdx minSet.length]? with
    | none => .ub
    | some cur =>
      let assoc := d.order (s.fl.filter fun e => e.1 == cur.1)
      if assoc ≠ [] then do
        let picked ← (if cur.2 = 0 then pickClosestFl dist assoc
          else pickRandomFl F d.draws 0 assoc.length assoc)
        .ok (some {
          selected := insert picked.2 s.selected
          fl := s.fl.erase picked
          refPoints := s.refPoints.map fun r => if r.1 = cur.1 then (r.1, r.2 + 1) else r })
      else .ok (some { s with refPoints := s.refPoints.filter fun r => r.1 != cur.1 })
  else .ok none

/-- The `while` loop of `nichePreservation` with fuel and one draw per iteration.
(`Genetic/NSGA3Abstract.hpp` lines 392-447.) -/
def nicheLoopFl (K : Nat) (dist : G → Fl) (ds : Nat → NicheDraw Fl G) :
    Nat → Nat → NicheState G → Out (NicheState G)
  | 0, it, s => match nicheStepFl F K dist (ds it) s with
    | .ok none => .ok s
    | .ok (some _) => .timeout
    | .ub => .ub
    | .timeout => .timeout
  | fuel + 1, it, s => match nicheStepFl F K dist (ds it) s with
    | .ok none => .ok s
    | .ok (some s') => nicheLoopFl K dist ds fuel (it + 1) s'
    | .ub => .ub
    | .timeout => .timeout

/-- `NSGA3Abstract::__impl_select`, `Genetic/NSGA3Abstract.hpp` lines 117-233, on IEEE data. -/
def nsga3SelectFl (E : Geometry m) (K : Nat) (fit : G → Fin m → Fl)
    (sortD : Sorter G) (tiny : Fl) (refs : List (Fin m → Fl)) (order : Finset G → List G)
    (ds : Nat → NicheDraw Fl G) (fuel : Nat)
    (pop : List G) : Out (SelectResult G) := do
  let num := calculateDominatedNum (fun a b => isStrongDominateFl .lessBetter (fit a) (fit b)) pop
  let layers := divideLayers sortD num pop
  match layers with
  | [] => .ub
  | front :: _ =>
    let PFSize := front.length
    let (selected, needRefPoint, rest) ← takeLayers K ∅ layers
    let selected ← (if needRefPoint then
      match rest with
      | [] => .ub
      | layer :: _ => do
        let (closest, dist) ← nsga3AssociateFl F E tiny refs fit order selected layer
        let s ← nicheLoopFl F K dist ds fuel 0
          { selected := selected
            fl := layer.map fun g => (closest g, g)
            refPoints := initRefPoints refs.length closest (pop.filter (· ∈ selected)) }
        .ok s.selected
      else .ok selected)
    .ok { population := pop.filter (· ∈ selected)
          pf := if PFSize ≤ K then front.toFinset else selected }

end

end Heu
