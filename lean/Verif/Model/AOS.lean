import Verif.Model.Box
import Verif.Model.GA
import Verif.Model.SOGA
import Mathlib.Algebra.Order.Floor.Defs

/-!
# Atomic orbital search

`HeuristicFlow/src/AOS/`: `AOSBase.hpp`, `AOS4EigenAndStd.hpp`, `AOS.hpp`, `AOSBoxed.hpp`,
`AOSDefaultElectron.hpp`, `AOSOption.hpp`.

The electrons are a `std::list`, so pointers to electrons are node addresses (`Model/GA.lean`); an
electron is a `Gene` (`state`, `energy`, `isComputed` are `var`, `fitness`, `computed`,
`AOSDefaultElectron.hpp` lines 28-35).  States are lists of entries.  The steps are written for any number type
with the operations used; selection and loop of this file use exact arithmetic (a field), `Model/AOSFl` has the
versions for IEEE doubles.
-/

namespace Heu

/-- `AOSBoxed::Layer`, `AOSBoxed.hpp` lines 57-68. -/
structure Layer (α : Type) where
  members : List Addr
  bindingState : List α
  bindingEnergy : α
  bestIdx : Nat
  deriving DecidableEq, Repr

/-- The solver state, `AOSBoxed.hpp` lines 91-98 (the generation counter belongs to the loop). -/
structure AOSState (α : Type) where
  electrons : Pop (Gene (List α) α)
  layers : List (Layer α)
  bindingState : List α
  bindingEnergy : α
  best : Addr
  early : Nat
  deriving DecidableEq, Repr

/-- `AOSOption`, `AOSOption.hpp` lines 29-43 (without the photon rate, which only enters the draws). -/
structure AOSOption where
  electronNum : Nat
  maxGeneration : Nat
  maxEarlyStop : Nat
  maxLayerNum : Nat

section
variable {α : Type}

/-- `isBetter`, `AOSBoxed.hpp` lines 170-176, and the comparisons in `AOS4EigenAndStd.hpp` lines 50-58. -/
def energyBetter [LT α] [DecidableLT α] (opt : FitnessOption) (a b : α) : Bool :=
  match opt with
  | .lessBetter => decide (a < b)
  | .greaterBetter => decide (b < a)

/-- `initializePop`, `AOSBase.hpp` lines 46-75; `init k` is the state given to the `k`-th electron.
Asserts `maxLayerNum ≤ electronNum` (lines 49-53); `front()` of an empty list is undefined (line 64). -/
def aosInitializePop (o : AOSOption) (init : Nat → List α) (junk : α) : Out (AOSState α) :=
  if o.maxLayerNum ≤ o.electronNum ∧ 0 < o.electronNum then
    .ok { electrons := initializePop o.electronNum init junk, layers := [], bindingState := [],
          bindingEnergy := junk, best := 0, early := 0 }
  else .ub

/-- `__impl_computeFitness`, `AOSBoxed.hpp` lines 100-132 (as for the genetic solvers: every electron that
is not computed yet). -/
def aosComputeFitness (f : List α → α) (s : AOSState α) : AOSState α :=
  { s with electrons := computeAllFitness f s.electrons }

/-- The scan for the best electron, `AOS4EigenAndStd.hpp` lines 45 and 50-58 (148-176): start with the
front, move to every strictly better one. -/
def atomScan [LT α] [DecidableLT α] (opt : FitnessOption) (cur : Cell (Gene (List α) α))
    (l : List (Cell (Gene (List α) α))) : Cell (Gene (List α) α) :=
  l.foldl (fun cur c => if energyBetter opt c.2.fitness cur.2.fitness then c else cur) cur

/-- Sum of vectors, entry by entry, starting from zeros of the size of the first one.
Used for `AOS4EigenAndStd.hpp` lines 46-62 and 150-176. -/
def sumStates [Add α] [Zero α] (dim : Nat) (l : List (List α)) : List α :=
  l.foldl (fun acc v => List.zipWith (· + ·) acc v) (List.replicate dim 0)

/-- `__impl_computeAtomBSBELE`, `AOS4EigenAndStd.hpp` lines 40-69 (Eigen) and 144-183 (std containers).  The test
`==` (lines 64 and 178) is written as `≤` both ways: the same for numbers, and right for NaN too. -/
def computeAtomBSBELE [Add α] [Div α] [Zero α] [NatCast α] [LT α] [DecidableLT α] [LE α] [DecidableLE α]
    (opt : FitnessOption) (s : AOSState α) : Out (AOSState α) :=
  match s.electrons with
  | [] => .ub
  | front :: rest => do
    let best := atomScan opt front (front :: rest)
    let n : α := ((front :: rest).length : α)
    let bs := (sumStates front.2.var.length ((front :: rest).map (·.2.var))).map (· / n)
    let be := (((front :: rest).map (·.2.fitness)).foldl (· + ·) 0) / n
    let prev ← deref s.electrons s.best
    .ok { s with bindingState := bs, bindingEnergy := be, best := best.1,
                 early := if prev.fitness ≤ best.2.fitness ∧ best.2.fitness ≤ prev.fitness then s.early + 1 else 0 }

end

/-! ## Layers -/

section layers
variable {α : Type} [Field α] [LinearOrder α] [FloorSemiring α]

/-- Number of electrons intended for each layer, `AOS.hpp` lines 94-103: the values of the Gaussian
curve (`g i` for layer `i`), divided by their sum, times the number of electrons, rounded to nearest
(halves up; all values are non-negative). -/
def layerCounts (g : Nat → α) (k n : Nat) : List Nat :=
  let sum := ((List.range k).map g).foldl (· + ·) 0
  (List.range k).map fun i => ⌊g i / sum * (n : α) + 1 / 2⌋₊

end layers

/-- Cumulative sums, `AOS.hpp` lines 105-107. -/
def cumulate : Nat → List Nat → List Nat
  | _, [] => []
  | acc, c :: cs => (acc + c) :: cumulate (acc + c) cs

/-- Cumulative sums and the clamp to the number of electrons, `AOS.hpp` lines 105-113. -/
def layerLimits (n : Nat) (counts : List Nat) : List Nat := (cumulate 0 counts).map (min · n)

/-- The loop that fills the layers, `AOS.hpp` lines 121-131.  `els` are the pointers still to be placed.
`_layers[curLayerIdx]` and `numOfEachLayer[curLayerIdx]` out of range are undefined. -/
def fillLayers (limits : List Nat) : List Addr → Nat → Nat → List (List Addr) → Out (List (List Addr))
  | [], _, _, layers => .ok layers
  | e :: els, counted, cur, layers =>
    match limits[cur]? with
    | none => .ub
    | some lim =>
      let cur := if lim ≤ counted then cur + 1 else cur
      if cur < layers.length then
        fillLayers limits els (counted + 1) cur (layers.modify cur (· ++ [e]))
      else .ub

/-- Removing empty layers at the end, `AOS.hpp` lines 133-136; `back()` of an empty vector is
undefined. -/
def popEmptyLayers (layers : List (List Addr)) : Out (List (List Addr)) :=
  match layers.reverse.dropWhile (·.isEmpty) with
  | [] => .ub
  | l => .ok l.reverse

/-- Lines 86-136 of `AOS.hpp`: the layers made of the sorted electrons.  (`AOS.hpp` lines 115-136.) -/
def makeLayers (limits : List Nat) (els : List Addr) : Out (List (List Addr)) := do
  let layers ← fillLayers limits els 0 0 (limits.map fun _ => [])
  popEmptyLayers layers

section
variable {α : Type}

/-- `electronIteratorCompareFun`, `AOS.hpp` lines 63-70. -/
def electronCompare [LT α] [DecidableLT α] (opt : FitnessOption) (a b : Cell (Gene (List α) α)) : Bool :=
  energyBetter opt a.2.fitness b.2.fitness

/-- `__impl_selectAndMakeLayers`, `AOS.hpp` lines 72-137.  `k` is the drawn number of layers, `g` the
Gaussian curve for it.  `layers.resize` leaves binding state, energy and best index of new layers
unspecified; they are written before they are read (`computeLayerBSBELE`). -/
def selectAndMakeLayers [Field α] [LinearOrder α] [FloorSemiring α] (opt : FitnessOption) (o : AOSOption) (sort : Sorter (Cell (Gene (List α) α)))
    (k : Nat) (g : Nat → α) (s : AOSState α) : Out (AOSState α) := do
  let sorted := sort.run (electronCompare opt) s.electrons
  let keep := sorted.take o.electronNum
  let erased := (sorted.drop o.electronNum).map (·.1)
  let electrons := s.electrons.filter fun c => !erased.contains c.1
  let limits := layerLimits electrons.length (layerCounts g k electrons.length)
  let ls ← makeLayers limits (keep.map (·.1))
  .ok { s with electrons := electrons,
               layers := ls.map fun m => { members := m, bindingState := [], bindingEnergy := 0, bestIdx := 0 } }

end

section
variable {α : Type}

/-- Scan of one layer in the Eigen version, `AOS4EigenAndStd.hpp` lines 77-89: compares the *pointers*
`layer.at(idx)` and `layer.at(layerBestIdx)` (here: the addresses). -/
def layerBestEigen (opt : FitnessOption) (members : List Addr) : Nat :=
  (List.range members.length).foldl (fun best idx =>
    match members[idx]?, members[best]? with
    | some a, some b =>
      if (match opt with | .lessBetter => decide (a < b) | .greaterBetter => decide (b < a)) then idx
      else best
    | _, _ => best) 0

/-- Scan of one layer in the version for std containers, `AOS4EigenAndStd.hpp` lines 194-212. -/
def layerBestStd [LT α] [DecidableLT α] (opt : FitnessOption) (energies : List α) : Nat :=
  (List.range energies.length).foldl (fun best idx =>
    match energies[idx]?, energies[best]? with
    | some a, some b => if energyBetter opt a b then idx else best
    | _, _ => best) 0

/-- Members of a layer read through the pointers.
(`*layer.at(i)` in `AOS4EigenAndStd.hpp` lines 71-94 and 185-217.) -/
def derefAll (pop : Pop (Gene (List α) α)) (l : List Addr) : Out (List (Gene (List α) α)) :=
  l.mapM (deref pop)

/-- One layer of `__impl_computeLayerBSBELE`, Eigen version, `AOS4EigenAndStd.hpp` lines 71-94.
`front()` of an empty layer is undefined. -/
def computeLayerEigen [Add α] [Div α] [NatCast α] (opt : FitnessOption) (pop : Pop (Gene (List α) α)) (l : Layer α) :
    Out (Layer α) := do
  let es ← derefAll pop l.members
  match es with
  | [] => .ub
  | e :: rest =>
    let n : α := ((e :: rest).length : α)
    .ok { members := l.members,
          bindingState := (rest.foldl (fun acc x => List.zipWith (· + ·) acc x.var) e.var).map (· / n),
          bindingEnergy := (rest.foldl (fun acc x => acc + x.fitness) e.fitness) / n,
          bestIdx := layerBestEigen opt l.members }

/-- One layer of `__impl_computeLayerBSBELE`, version for std containers, `AOS4EigenAndStd.hpp` lines
185-217: the energies of the other members are not added. -/
def computeLayerStd [Add α] [Div α] [NatCast α] [LT α] [DecidableLT α] (opt : FitnessOption) (pop : Pop (Gene (List α) α)) (l : Layer α) :
    Out (Layer α) := do
  let es ← derefAll pop l.members
  match es with
  | [] => .ub
  | e :: rest =>
    let n : α := ((e :: rest).length : α)
    .ok { members := l.members,
          bindingState := (rest.foldl (fun acc x => List.zipWith (· + ·) acc x.var) e.var).map (· / n),
          bindingEnergy := e.fitness / n,
          bestIdx := layerBestStd opt ((e :: rest).map (·.fitness)) }

/-- Which of the two versions is compiled.
(`AOS4EigenAndStd.hpp` line 33 for Eigen vectors, line 137 for std containers.) -/
inductive AOSImpl
  | eigen
  | std
  deriving DecidableEq

/-- The version that is compiled: Eigen, `AOS4EigenAndStd.hpp` lines 71-94, or std containers, lines
185-217 (chosen in `AOSBase.hpp` lines 30-42). -/
def computeLayer [Add α] [Div α] [NatCast α] [LT α] [DecidableLT α] (impl : AOSImpl) (opt : FitnessOption) (pop : Pop (Gene (List α) α)) (l : Layer α) :
    Out (Layer α) :=
  match impl with
  | .eigen => computeLayerEigen opt pop l
  | .std => computeLayerStd opt pop l

/-- `__impl_computeLayerBSBELE`, `AOS4EigenAndStd.hpp` lines 71-94 and 185-217. -/
def computeLayerBSBELE [Add α] [Div α] [NatCast α] [LT α] [DecidableLT α] (impl : AOSImpl)
    (opt : FitnessOption) (s : AOSState α) : Out (AOSState α) := do
  let ls ← s.layers.mapM (computeLayer impl opt s.electrons)
  .ok { s with layers := ls }

/-- Draws used for one new electron: whether the photon effect is applied, the three random vectors,
and the random step of the other case (`delta * Random()` or `randD(-delta, delta)` per coordinate).
(`AOS4EigenAndStd.hpp` lines 96-131 and 219-270, `AOSBase.hpp` line 92.) -/
structure AOSDraw (α : Type) where
  photon : Bool
  a : Nat → α
  b : Nat → α
  c : Nat → α
  step : Nat → α

/-- `__impl2_applyPhotonEffect`, `AOS4EigenAndStd.hpp` lines 96-121 and 219-257, before the confinement;
entrywise.  `bs` and `bx` are binding state and best state of the layer or of the atom, `q` is 1 or
`layerIdx + 1`. -/
def photonState [Add α] [Sub α] [Mul α] [Div α] (d : AOSDraw α) (q : α) (parent bx bs : List α) : List α :=
  (List.zipWith (fun (p : α × Nat) (y : α × α) =>
      p.1 + d.a p.2 * (d.b p.2 * y.1 - d.c p.2 * y.2) / q)
    parent.zipIdx (List.zip bx bs))

/-- `__impl2_applyNonPhotonEffect`, `AOS4EigenAndStd.hpp` lines 123-131 and 259-270, before the
confinement. -/
def restState [Add α] (d : AOSDraw α) (parent : List α) : List α := parent.mapIdx fun i x => x + d.step i

/-- Confinement of a new state, `AOS4EigenAndStd.hpp` lines 118-120, 128-130, 254-256, 268. -/
def confine [LT α] [DecidableLT α] (b : Box α) (v : List α) : List α := v.mapIdx fun i x => clampTo (b.min i) (b.max i) x

/-- The state of one child, `AOSBase.hpp` lines 93-98 with `AOS4EigenAndStd.hpp` lines 96-131.
(The first branch has no division; dividing by 1 changes nothing, also not in IEEE arithmetic.) -/
def childState [Add α] [Sub α] [Mul α] [Div α] [NatCast α] [LT α] [DecidableLT α] (opt : FitnessOption) (b : Box α) (d : AOSDraw α) (s : AOSState α)
    (layer : Layer α) (layerIdx : Nat) (parent : Gene (List α) α) : Out (List α) :=
  if d.photon then
    if energyBetter opt parent.fitness layer.bindingEnergy then
      match layer.members[layer.bestIdx]? with
      | none => .ub
      | some a => do
        let lb ← deref s.electrons a
        .ok (confine b (photonState d ((1 : Nat) : α) parent.var lb.var layer.bindingState))
    else do
      let ab ← deref s.electrons s.best
      .ok (confine b (photonState d ((layerIdx + 1 : Nat) : α) parent.var ab.var s.bindingState))
  else .ok (confine b (restState d parent.var))

/-- `_electrons.emplace_back()` with the new electron filled in, `AOSBase.hpp` lines 90-100.  The new node
gets an address that is neither that of a live node nor the one kept in `_atomBestPtr`, so that using
that pointer after its node was erased stays visible as undefined behaviour. -/
def addElectron (s : AOSState α) (e : Gene (List α) α) : AOSState α :=
  { s with electrons := s.electrons ++ [(max (freshAddr s.electrons) (s.best + 1), e)] }

/-- The inner loop of `__impl_updateElectrons`, `AOSBase.hpp` lines 89-101, for one layer; `n` counts the
children made so far. -/
def updateLayer [Add α] [Sub α] [Mul α] [Div α] [NatCast α] [LT α] [DecidableLT α] (opt : FitnessOption) (b : Box α) (draw : Nat → AOSDraw α) (junk : α) (layer : Layer α)
    (layerIdx : Nat) : List Addr → Nat × AOSState α → Out (Nat × AOSState α)
  | [], ns => .ok ns
  | p :: ps, (n, s) => do
    let parent ← deref s.electrons p
    let st ← childState opt b (draw n) s layer layerIdx parent
    updateLayer opt b draw junk layer layerIdx ps (n + 1, addElectron s ⟨st, junk, false⟩)

/-- `__impl_updateElectrons`, `AOSBase.hpp` lines 86-102. -/
def updateElectrons [Add α] [Sub α] [Mul α] [Div α] [NatCast α] [LT α] [DecidableLT α] (opt : FitnessOption) (b : Box α) (draw : Nat → AOSDraw α) (junk : α)
    (s : AOSState α) : Out (AOSState α) := do
  let r ← s.layers.zipIdx.foldlM (fun (ns : Nat × AOSState α) (l : Layer α × Nat) =>
    updateLayer opt b draw junk l.1 l.2 l.1.members ns) (0, s)
  .ok r.2

end

/-! ## The main loop -/

section
variable {α : Type}

/-- Everything random or unspecified of one generation.
(One iteration of the loop in `AOSBase.hpp` lines 105-125; the sort and the number of layers in `AOS.hpp`
lines 80 and 91.) -/
structure AOSEnv (α : Type) where
  sort : Sorter (Cell (Gene (List α) α))
  layerNum : Nat
  gauss : Nat → α
  draw : Nat → AOSDraw α
  junk : α

/-- First half of an iteration, `AOSBase.hpp` lines 107-111: evaluate and find the best. -/
def aosEvaluate [Add α] [Div α] [Zero α] [NatCast α] [LT α] [DecidableLT α] [LE α] [DecidableLE α] (opt : FitnessOption) (f : List α → α) (s : AOSState α) : Out (AOSState α) :=
  computeAtomBSBELE opt (aosComputeFitness f s)

/-- Second half of an iteration, `AOSBase.hpp` lines 119-121: make the children. -/
def aosChildren [Add α] [Sub α] [Mul α] [Div α] [NatCast α] [LT α] [DecidableLT α] (impl : AOSImpl) (opt : FitnessOption) (b : Box α) (e : AOSEnv α) (s : AOSState α) :
    Out (AOSState α) := do
  let s ← computeLayerBSBELE impl opt s
  updateElectrons opt b e.draw e.junk s

variable [Field α] [LinearOrder α] [FloorSemiring α]

/-- The `while (true)` loop of `__impl_run`, `AOSBase.hpp` lines 105-125, with fuel; recording
(lines 113 and 156) appends the energy of the best electron; `__impl_shouldTerminate` is lines 80-83. -/
def aosLoop (impl : AOSImpl) (opt : FitnessOption) (o : AOSOption) (b : Box α) (f : List α → α)
    (env : Nat → AOSEnv α) : Nat → Nat → AOSState α → List α → Out (RunResult (AOSState α) α)
  | 0, _, _, _ => .timeout
  | fuel + 1, gen, s, record => do
    let s ← aosEvaluate opt f s
    let bst ← deref s.electrons s.best
    let record := record ++ [bst.fitness]
    let s ← selectAndMakeLayers opt o (env gen).sort (env gen).layerNum (env gen).gauss s
    if gen ≥ o.maxGeneration ∨ s.early ≥ o.maxEarlyStop then .ok ⟨s, gen, record⟩
    else do
      let s ← aosChildren impl opt b (env gen) s
      aosLoop impl opt o b f env fuel (gen + 1) s record

/-- `run()` after `initializePop()`, `AOSBase.hpp` lines 105-125 (`_generation` is 0). -/
def aosRun (impl : AOSImpl) (opt : FitnessOption) (o : AOSOption) (b : Box α) (f : List α → α)
    (env : Nat → AOSEnv α) (fuel : Nat) (s : AOSState α) : Out (RunResult (AOSState α) α) :=
  aosLoop impl opt o b f env fuel 0 s []

end

end Heu
