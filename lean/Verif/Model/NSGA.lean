import Verif.Model.Pareto
import Mathlib.Data.Finset.Basic
import Mathlib.Data.Finset.Card
import Mathlib.Order.WithBot
import Mathlib.Algebra.Order.Field.Basic
import Mathlib.Algebra.Order.AddGroupWithTop

/-!
# Models of `Genetic/NSGABase.hpp`, `Genetic/NSGA2.hpp` and the selection part of
`Genetic/NSGA3Abstract.hpp`

Individuals live in a `std::list`; they are identified by their address.  Here `G` is the type of
addresses, a population is a duplicate-free `List G`, and the fields of the individuals are
functions on `G` (`fit : G → Fin m → α`, ...).
-/

namespace Heu

/-- `std::sort`: any function that, for every comparator `lt` that is a strict weak order, returns a
permutation of its input in which no later element is smaller than an earlier one.  The order of
equivalent elements is unspecified, so theorems quantify over all `Sorter`s.
(The C++ standard library; not code of the repository.)
(C++ standard library; `Genetic/NSGABase.hpp` line 137, `Genetic/NSGA2.hpp` lines 228 and 249.) -/
structure Sorter (G : Type) where
  run : (G → G → Bool) → List G → List G
  perm : ∀ lt l, (run lt l).Perm l
  sorted : ∀ (lt : G → G → Bool) (l : List G),
    (∀ a, lt a a = false) →
    (∀ a b c, lt a b = true → lt b c = true → lt a c = true) →
    (∀ a b c, lt a b = false → lt b c = false → lt a c = false) →
    (run lt l).Pairwise (fun a b => lt b a = false)

variable {α : Type} {G : Type} [DecidableEq G] {m : Nat}

/-- `NSGABase::calculateDominatedNum`, `Genetic/NSGABase.hpp` lines 105-130: for each individual
`ed`, count the other individuals `er` that dominate it.  The OpenMP branch (lines 107-117) computes
the same thing with `ed` distributed over threads; each iteration writes only its own counter. -/
def calculateDominatedNum (dom : G → G → Bool) (sortSpace : List G) : G → Nat := fun ed =>
  sortSpace.foldl (fun n er => if er = ed then n else n + (if dom er ed then 1 else 0)) 0

/-- `pfLayers.back().emplace_back(i)`, part of `Genetic/NSGABase.hpp` line 147. -/
def emplaceBackLast : List (List G) → G → List (List G)
  | [], i => [[i]]
  | [l], i => [l ++ [i]]
  | l :: ls, i => l :: emplaceBackLast ls i

/-- Loop body of `NSGABase::divideLayers`, `Genetic/NSGABase.hpp` lines 141-148.  `curDM` starts as
`size_t(-1)`, which no count equals; that value is `none` here. -/
def divideLayersStep (num : G → Nat) (s : Option Nat × List (List G)) (i : G) :
    Option Nat × List (List G) :=
  let s' := if s.1 ≠ some (num i) then (some (num i), s.2 ++ [[]]) else s
  (s'.1, emplaceBackLast s'.2 i)

/-- `NSGABase::divideLayers`, `Genetic/NSGABase.hpp` lines 136-149. -/
def divideLayers (sort : Sorter G) (num : G → Nat) (sortSpace : List G) : List (List G) :=
  ((sort.run (fun a b => decide (num a < num b)) sortSpace).foldl
    (divideLayersStep num) (none, [])).2

/-- The `while (true)` loop that takes whole layers, `Genetic/NSGA2.hpp` lines 211-227 and
`Genetic/NSGA3Abstract.hpp` lines 164-185.  Result: the selected set, whether a layer has to be cut,
and the remaining layers.  `pfLayers.front()` of an empty list is undefined behaviour. -/
def takeLayers (K : Nat) : Finset G → List (List G) → Out (Finset G × Bool × List (List G))
  | selected, layers =>
    if selected.card = K then .ok (selected, false, layers)
    else match layers with
      | [] => .ub
      | l :: ls =>
        if selected.card + l.length > K then .ok (selected, true, l :: ls)
        else takeLayers K (selected ∪ l.toFinset) ls

/-- `Genetic/NSGA2.hpp` lines 255-259: take from the sorted cut layer until the selected set is
full; running past the end of the layer is undefined behaviour. -/
def fillFrom (K : Nat) : Finset G → List G → Out (Finset G)
  | selected, l =>
    if selected.card < K then
      match l with
      | [] => .ub
      | g :: l' => fillFrom K (insert g selected) l'
    else .ok selected

section congestion

variable [Field α] [LinearOrder α]

/-- Inner loop of the congestion computation, `Genetic/NSGA2.hpp` lines 240-247: for each interior
position of the sorted space add `|f(prev) - f(next)| / scale`.  Here a window of three over the
sorted list. -/
def addInterior (fit : G → Fin m → α) (obj : Fin m) (scale : α) :
    List G → (G → WithTop α) → (G → WithTop α)
  | a :: b :: c :: rest, cong =>
    addInterior fit obj scale (b :: c :: rest)
      (Function.update cong b (cong b + ((|fit a obj - fit c obj| / scale : α) : WithTop α)))
  | _, cong => cong

/-- One objective of the congestion computation, `Genetic/NSGA2.hpp` lines 229-247.  `eps` is the
constant `1e-10`.  State: the current `sortSpace` and the `congestion` fields (`⊤` is `pinfD`). -/
def congestionStep (sort : Sorter G) (fit : G → Fin m → α) (eps : α)
    (s : List G × (G → WithTop α)) (obj : Fin m) : Out (List G × (G → WithTop α)) :=
  let sp := sort.run (fun a b => decide (fit a obj < fit b obj)) s.1
  match sp.head?, sp.getLast? with
  | some fr, some bk =>
    let scale := |fit fr obj - fit bk obj| + eps
    let cong := Function.update (Function.update s.2 fr ⊤) bk ⊤
    .ok (sp, addInterior fit obj scale sp cong)
  | _, _ => .ub

/-- All objectives, `Genetic/NSGA2.hpp` lines 230-248; `sorts` gives the behaviour of `std::sort`
at each objective. -/
def congestionAll (sorts : Fin m → Sorter G) (fit : G → Fin m → α) (eps : α) (space : List G) :
    Out (List G × (G → WithTop α)) :=
  (List.finRange m).foldlM (fun s obj => congestionStep (sorts obj) fit eps s obj)
    (space, fun _ => 0)

end congestion

/-- Result of a multi-objective selection: the surviving population and the Pareto front
(`_pfGenes`, a set of addresses).  (`Genetic/NSGA2.hpp` lines 181-278.) -/
structure SelectResult (G : Type) where
  population : List G
  pf : Finset G
  deriving DecidableEq

/-- Erasing the unselected, `Genetic/NSGA2.hpp` lines 263-268 (`std::list::erase` through the
iterators held in `sortSpace`). -/
def eraseUnselected (selected : Finset G) (space pop : List G) : List G :=
  space.foldl (fun p i => if i ∈ selected then p else p.erase i) pop

/-- `NSGA2::__impl_select`, `Genetic/NSGA2.hpp` lines 181-278. -/
def nsga2Select [Field α] [LinearOrder α] (o : FitnessOption) (K : Nat) (eps : α)
    (fit : G → Fin m → α)
    (sortD : Sorter G) (sortF : Fin m → Sorter G) (sortC : Sorter G)
    (pop : List G) : Out (SelectResult G) := do
  let num := calculateDominatedNum (fun a b => isStrongDominate o (fit a) (fit b)) pop
  let layers := divideLayers sortD num pop
  match layers with
  | [] => .ub
  | front :: _ =>
    let PFSize := front.length
    let (selected, needCongestion, rest) ← takeLayers K ∅ layers
    let sortSpace := sortD.run (fun a b => decide (num a < num b)) pop
    let (selected, sortSpace) ← (if needCongestion then
      match rest with
      | [] => .ub
      | Fl :: _ => do
        let (sp, cong) ← congestionAll sortF fit eps sortSpace
        let sel ← fillFrom K selected (sortC.run (fun a b => decide (cong b < cong a)) Fl)
        .ok (sel, sp)
      else .ok (selected, sortSpace))
    let survivors := eraseUnselected selected sortSpace pop
    .ok { population := survivors
          pf := if PFSize ≤ K then front.toFinset else selected }

section nsga3

/-- State of `nichePreservation`: `selected`, the multimap `Fl` (reference point index, individual)
and the map `refPoints` (reference point index, niche count).  (`Genetic/NSGA3Abstract.hpp` lines 392-460.) -/
structure NicheState (G : Type) where
  selected : Finset G
  fl : List (Nat × G)
  refPoints : List (Nat × Nat)

/-- One round of random draws of `nichePreservation`: `rIdx n` is the value of `randIdx(n)`,
`draws k` the k-th value of `randD()`, and `order` the iteration order of `equal_range`.
(`Genetic/NSGA3Abstract.hpp` lines 392-460.) -/
structure NicheDraw (α G : Type) where
  rIdx : Nat → Nat
  draws : Nat → α
  order : List (Nat × G) → List (Nat × G)

/-- `findMinSet`, `Genetic/NSGA3Abstract.hpp` lines 455-468. -/
def findMinSet (refPoints : List (Nat × Nat)) : List (Nat × Nat) :=
  let minNiche := refPoints.foldl (fun a i => min a i.2) 0xFFFFFFFF
  refPoints.filter fun it => it.2 == minNiche

variable [Field α] [LinearOrder α]

/-- The closest associated individual, `Genetic/NSGA3Abstract.hpp` lines 416-424 (the first one
wins ties). -/
def pickClosest (dist : G → α) : List (Nat × G) → Out (Nat × G)
  | [] => .ub
  | x :: xs => .ok ((x :: xs).foldl (fun mn it => if dist it.2 < dist mn.2 then it else mn) x)

/-- The random pick, `Genetic/NSGA3Abstract.hpp` lines 426-437: `N` counts the associated
individuals that are left.  Falling off the end leaves `pickedGene` a singular iterator, whose use
is undefined behaviour. -/
def pickRandom (draws : Nat → α) : Nat → Nat → List (Nat × G) → Out (Nat × G)
  | _, _, [] => .ub
  | k, N, it :: its => if draws k * (N : α) ≤ 1 then .ok it else pickRandom draws (k + 1) (N - 1) its

/-- Body of the `while` loop of `nichePreservation`, `Genetic/NSGA3Abstract.hpp` lines 406-446.
`none` means the loop condition is false. -/
def nicheStep (K : Nat) (dist : G → α) (d : NicheDraw α G) (s : NicheState G) :
    Out (Option (NicheState G)) :=
  if s.selected.card < K then
    let minSet := findMinSet s.refPoints
    match minSet[d.rIdx minSet.length]? with
    | none => .ub
    | some cur =>
      let assoc := d.order (s.fl.filter fun e => e.1 == cur.1)
      if assoc ≠ [] then do
        let picked ← (if cur.2 = 0 then pickClosest dist assoc
          else pickRandom d.draws 0 assoc.length assoc)
        .ok (some {
          selected := insert picked.2 s.selected
          fl := s.fl.erase picked
          refPoints := s.refPoints.map fun r => if r.1 = cur.1 then (r.1, r.2 + 1) else r })
      else .ok (some { s with refPoints := s.refPoints.filter fun r => r.1 != cur.1 })
  else .ok none

/-- The `while` loop of `nichePreservation` with fuel and one draw per iteration.
(`Genetic/NSGA3Abstract.hpp` lines 392-460.) -/
def nicheLoop (K : Nat) (dist : G → α) (ds : Nat → NicheDraw α G) :
    Nat → Nat → NicheState G → Out (NicheState G)
  | 0, it, s => match nicheStep K dist (ds it) s with
    | .ok none => .ok s
    | .ok (some _) => .timeout
    | .ub => .ub
    | .timeout => .timeout
  | fuel + 1, it, s => match nicheStep K dist (ds it) s with
    | .ok none => .ok s
    | .ok (some s') => nicheLoop K dist ds fuel (it + 1) s'
    | .ub => .ub
    | .timeout => .timeout

/-- The counting pass at the start of `nichePreservation`, `Genetic/NSGA3Abstract.hpp` lines
395-397: every selected individual increments the niche count of its reference point. -/
def initRefPoints (nRef : Nat) (closest : G → Nat) (selected : List G) : List (Nat × Nat) :=
  (List.range nRef).map fun i => (i, (selected.filter fun g => closest g == i).length)

/-- `NSGA3Abstract::__impl_select`, `Genetic/NSGA3Abstract.hpp` lines 117-233.
Simplification: the geometry (`normalize`, `findNearest`, `associate`, lines 254-372) enters through
its results only: `closest g` is the index of the reference point assigned to `g` and `dist g` the
stored distance; both may be any functions.  NSGA-III always minimises. -/
def nsga3Select (K : Nat) (fit : G → Fin m → α)
    (sortD : Sorter G) (nRef : Nat) (closest : G → Nat) (dist : G → α)
    (ds : Nat → NicheDraw α G) (fuel : Nat)
    (pop : List G) : Out (SelectResult G) := do
  let num := calculateDominatedNum (fun a b => isStrongDominate .lessBetter (fit a) (fit b)) pop
  let layers := divideLayers sortD num pop
  match layers with
  | [] => .ub
  | front :: _ =>
    let PFSize := front.length
    let (selected, needRefPoint, rest) ← takeLayers K ∅ layers
    let selected ← (if needRefPoint then
      match rest with
      | [] => .ub
      | Fl :: _ => do
        let s ← nicheLoop K dist ds fuel 0
          { selected := selected
            fl := Fl.map fun g => (closest g, g)
            refPoints := initRefPoints nRef closest (pop.filter (· ∈ selected)) }
        .ok s.selected
      else .ok selected)
    .ok { population := pop.filter (· ∈ selected)
          pf := if PFSize ≤ K then front.toFinset else selected }

end nsga3

end Heu
