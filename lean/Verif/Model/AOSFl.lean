import Verif.Model.AOS
import Verif.Model.SOGAFl

/-!
# Atomic orbital search on real `double`s

The steps of `Model/AOS` are written for any number type with the operations used; here selection, layering and
main loop of `HeuristicFlow/src/AOS/AOS.hpp` and `AOSBase.hpp` are modelled over IEEE-754 data (`Dbl`): NaN,
infinities, signed zeros, rounding and overflow included, and the plan of the layers is computed in `double` and
`int`.  `std::sort` with a comparator that is not a strict weak order on the range is undefined behaviour.  The
values of the Gaussian curve (they go through `std::exp`) and the sum computed by Eigen's vectorised reduction are
arbitrary doubles.
-/

namespace Heu

/-- Conversion of an integer to `double` (C++ language; e.g. `AOS/AOS4EigenAndStd.hpp` lines 61-62,
`AOS/AOS.hpp` line 101). -/
instance (F : Fmt) : NatCast (Dbl F) := ⟨Dbl.nat F⟩

variable {F : Fmt}

/-- `round()` followed by `cast<int>()`, `AOS/AOS.hpp` line 102: to the nearest integer, halves away from zero;
converting NaN, an infinity or a number outside the range of `int` is undefined. -/
def roundInt (x : Dbl F) : Out Int :=
  match x.val with
  | .fin s n =>
    let r : Int := (((2 * n + 2 ^ F.one) / 2 ^ (F.one + 1) : Nat) : Int)
    let r := if s then -r else r
    if -2147483648 ≤ r ∧ r ≤ 2147483647 then .ok r else .ub
  | _ => .ub

/-- Number of electrons intended for each layer, `AOS/AOS.hpp` lines 94-103; `total` is what `sum()` returns in
line 100. -/
def layerCountsFl (g : Nat → Dbl F) (total : Dbl F) (k n : Nat) : Out (List Int) :=
  (List.range k).mapM fun i => roundInt (g i / total * Dbl.nat F n)

/-- Cumulative sums in `int`, `AOS/AOS.hpp` lines 105-107; overflow is undefined. -/
def cumulateInt : Int → List Int → Out (List Int)
  | _, [] => .ok []
  | acc, c :: cs =>
    if -2147483648 ≤ acc + c ∧ acc + c ≤ 2147483647 then do
      let r ← cumulateInt (acc + c) cs
      .ok ((acc + c) :: r)
    else .ub

/-- `if (val > _electrons.size()) val = int(_electrons.size())`, `AOS/AOS.hpp` lines 109-113: the comparison is
made in `size_t`, so a negative `val` counts as huge.  (Fewer than `2^31` electrons.) -/
def clampCount (n : Nat) (val : Int) : Nat := if val < 0 ∨ (n : Int) < val then n else val.toNat

/-- The limits of the layers, `AOS/AOS.hpp` lines 105-113. -/
def layerLimitsFl (n : Nat) (counts : List Int) : Out (List Nat) := do
  let c ← cumulateInt 0 counts
  .ok (c.map (clampCount n))

/-- The loop that fills the layers, `AOS/AOS.hpp` lines 121-131, with the reservation of lines 124-126: a negative
argument is converted to a huge `size_t`, for which `reserve` throws out of a `noexcept` function (`ub`). -/
def fillLayersFl (limits : List Nat) : List Addr → Nat → Nat → List (List Addr) → Out (List (List Addr))
  | [], _, _, layers => .ok layers
  | e :: els, counted, cur, layers =>
    match limits[cur]? with
    | none => .ub
    | some lim =>
      if lim ≤ counted then
        match limits[cur + 1]? with
        | none => .ub
        | some lim' =>
          if lim ≤ lim' then fillLayersFl limits els (counted + 1) (cur + 1) (layers.modify (cur + 1) (· ++ [e]))
          else .ub
      else fillLayersFl limits els (counted + 1) cur (layers.modify cur (· ++ [e]))

/-- The layers made of the sorted electrons, `AOS/AOS.hpp` lines 115-136; `_layers.front()` and
`numOfEachLayer[0]` (line 120) of an empty array are undefined. -/
def makeLayersFl (limits : List Nat) (els : List Addr) : Out (List (List Addr)) :=
  if limits = [] then .ub
  else do
    let layers ← fillLayersFl limits els 0 0 (limits.map fun _ => [])
    popEmptyLayers layers

/-- `__impl_selectAndMakeLayers`, `AOS/AOS.hpp` lines 72-137, on IEEE data. -/
def selectAndMakeLayersFl (opt : FitnessOption) (o : AOSOption)
    (sort : Sorter (Cell (Gene (List (Dbl F)) (Dbl F)))) (k : Nat) (g : Nat → Dbl F) (total : Dbl F)
    (s : AOSState (Dbl F)) : Out (AOSState (Dbl F)) := do
  let sorted ← sortRange sort (electronCompare opt) s.electrons
  let keep := sorted.take o.electronNum
  let erased := (sorted.drop o.electronNum).map (·.1)
  let electrons := s.electrons.filter fun c => !erased.contains c.1
  let counts ← layerCountsFl g total k electrons.length
  let limits ← layerLimitsFl electrons.length counts
  let ls ← makeLayersFl limits (keep.map (·.1))
  .ok { s with electrons := electrons,
               layers := ls.map fun m => { members := m, bindingState := [], bindingEnergy := 0, bestIdx := 0 } }

/-- Everything random or unspecified of one generation: as `AOSEnv`, and the value of Eigen's `sum()`
(`AOS/AOS.hpp` line 100). -/
structure AOSEnvFl (F : Fmt) extends AOSEnv (Dbl F) where
  total : Dbl F

/-- The `while (true)` loop of `__impl_run`, `AOS/AOSBase.hpp` lines 105-125, with fuel, on IEEE data; recording
(lines 113 and 156) appends the energy of the best electron; `__impl_shouldTerminate` is lines 80-83. -/
def aosLoopFl (impl : AOSImpl) (opt : FitnessOption) (o : AOSOption) (b : Box (Dbl F)) (f : List (Dbl F) → Dbl F)
    (env : Nat → AOSEnvFl F) :
    Nat → Nat → AOSState (Dbl F) → List (Dbl F) → Out (RunResult (AOSState (Dbl F)) (Dbl F))
  | 0, _, _, _ => .timeout
  | fuel + 1, gen, s, record => do
    let s ← aosEvaluate opt f s
    let bst ← deref s.electrons s.best
    let record := record ++ [bst.fitness]
    let s ← selectAndMakeLayersFl opt o (env gen).sort (env gen).layerNum (env gen).gauss (env gen).total s
    if gen ≥ o.maxGeneration ∨ s.early ≥ o.maxEarlyStop then .ok ⟨s, gen, record⟩
    else do
      let s ← aosChildren impl opt b (env gen).toAOSEnv s
      aosLoopFl impl opt o b f env fuel (gen + 1) s record

/-- `run()` after `initializePop()`, `AOS/AOSBase.hpp` lines 105-125 (`_generation` is 0), on IEEE data. -/
def aosRunFl (impl : AOSImpl) (opt : FitnessOption) (o : AOSOption) (b : Box (Dbl F)) (f : List (Dbl F) → Dbl F)
    (env : Nat → AOSEnvFl F) (fuel : Nat) (s : AOSState (Dbl F)) :
    Out (RunResult (AOSState (Dbl F)) (Dbl F)) :=
  aosLoopFl impl opt o b f env fuel 0 s []

end Heu
