import Verif.Model.NSGA
import Verif.Model.RefPoints

/-!
# NSGA-III selection with its geometry: `Genetic/NSGA3Abstract.hpp` lines 117-372

`Model/NSGA.lean` has the selection with the association given from outside; here the association is the
one the code computes.  Exact arithmetic over a field instead of `double` (division by a zero intercept,
which is `NaN` or infinite in the code, gives 0 here).
-/

namespace Heu

variable {α : Type} {G : Type} [DecidableEq G] {m : Nat} [Field α] [LinearOrder α]

/-- `normalize`, then `associate(selected)` and `associate(*FlPtr, &Fl)`, `Genetic/NSGA3Abstract.hpp` lines
187-204, 254-312, 347-372.  `order` is the iteration order of the hash set `selected`.  Result: the fields
`closestRefPoint` and `distance`. `Fl[0]` of an empty layer and an empty reference matrix are undefined
behaviour.  (Individuals outside `selected` and `Fl` keep the values set in lines 126-127; nobody reads
them, so the same formula is used for them here.) -/
noncomputable def nsga3Associate (tiny : α) (refs : List (Fin m → α)) (fit : G → Fin m → α)
    (order : Finset G → List G) (selected : Finset G) (Fl : List G) : Out ((G → Nat) × (G → α)) :=
  match Fl, refs with
  | [], _ => .ub
  | _, [] => .ub
  | g0 :: gs, w :: ws =>
    let translated := (nsga3Normalize tiny ((order selected).map fit) (fit g0) (gs.map fit)).2.2
    let nearest := fun g => match findNearest (w :: ws) (translated (fit g)) with
      | .ok p => p
      | _ => (0, 0)
    .ok (fun g => (nearest g).1, fun g => (nearest g).2)

/-- `NSGA3Abstract::__impl_select`, `Genetic/NSGA3Abstract.hpp` lines 117-233, with `normalize` and
`associate`. -/
noncomputable def nsga3SelectFull (K : Nat) (fit : G → Fin m → α)
    (sortD : Sorter G) (tiny : α) (refs : List (Fin m → α)) (order : Finset G → List G)
    (ds : Nat → NicheDraw α G) (fuel : Nat)
    (pop : List G) : Out (SelectResult G) := do
  let num := calculateDominatedNum (fun a b => isStrongDominate .lessBetter (fit a) (fit b)) pop
  let layers := divideLayers sortD num pop
  match layers with
  | [] => .ub
  | front :: _ =>
    let PFSize := front.length
    let (selected, needRefPoint, rest) ← takeLayers K ∅ layers
    let selected ← (if needRefPoint then
      match rest with
      | [] => .ub
      | Fl :: _ => do
        let (closest, dist) ← nsga3Associate tiny refs fit order selected Fl
        let s ← nicheLoop K dist ds fuel 0
          { selected := selected
            fl := Fl.map fun g => (closest g, g)
            refPoints := initRefPoints refs.length closest (pop.filter (· ∈ selected)) }
        .ok s.selected
      else .ok selected)
    .ok { population := pop.filter (· ∈ selected)
          pf := if PFSize ≤ K then front.toFinset else selected }

end Heu
