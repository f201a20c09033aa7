import Verif.Model.AOS
import Verif.Model.BoxConfig

/-!
# A whole AOS object

`HeuristicFlow/src/AOS/`: a solver over an Eigen array type with a square `ContinousBox`, whose fitness function is
set at run time (`_fFun_ == nullptr`), which uses the initialisation of the box and records the fitness: all members
(some without initialiser), all setters, `initializePop()` and `run()`.  Arithmetic is exact; the weights of the
layers (values of `std::exp`) are a parameter.
-/

namespace Heu

section
variable {A α : Type}

/-- The members: `_option` (`AOS/AOSBoxed.hpp` line 96), the function pointer (`Global/FunBody.hpp` line 67, `none`
is `nullptr`), `_arg` (`AOS/AOSParameterPack.hpp` line 59), the box (`EAGlobal/BoxConstraint.hpp`), `_electrons`,
`_layers`, `_bindingState`, `_bindingEnergy`, `_atomBestPtr`, `_earlyStopCounter` (`AOS/AOSBoxed.hpp` lines 91-98),
`_generation` (line 97) and `_record` (`AOS/AOSBase.hpp` line 153). -/
structure AOSFull (A α : Type) where
  option : AOSOption
  photonRate : α
  fFun : Option (A → List α → α)
  arg : A
  box : SqBoxObj α
  st : AOSState α
  generation : Nat
  record : List α

/-- What a new object contains that no constructor sets (arbitrary): the argument, the binding energy, the pointer
to the best electron and the counters.  (Members without initialiser, `AOS/AOSBoxed.hpp` lines 94-98 and
`AOS/AOSParameterPack.hpp` line 59.) -/
structure AOSJunk (A α : Type) where
  arg : A
  bindingEnergy : α
  best : Addr
  early : Nat
  generation : Nat

/-- A newly constructed object: the options of `AOSOption()` (`AOS/AOSOption.hpp` lines 29-43; `rate0` is 0.1),
`nullptr` as fitness function (`Global/FunBody.hpp` line 60), a box with unset members except the shape `shape0`
if it is known at compile time, no electrons, no layers, an empty record. -/
def AOSFull.new (rate0 : α) (shape0 : Option (Int × Int)) (j : AOSJunk A α) : AOSFull A α :=
  { option := { electronNum := 50, maxGeneration := 30, maxEarlyStop := 20, maxLayerNum := 5 }
    photonRate := rate0, fFun := none, arg := j.arg, box := { SqBoxObj.new α with shape := shape0 }
    st := { electrons := [], layers := [], bindingState := [], bindingEnergy := j.bindingEnergy, best := j.best,
            early := j.early }
    generation := j.generation, record := [] }

/-- The random numbers for one new electron: `randD()` that is compared with the photon rate
(`AOS/AOSBase.hpp` line 92), the three vectors of the photon effect (`AOS/AOS4EigenAndStd.hpp` lines 102-104) and
the vector `Random()` (line 126). -/
structure AOSRaw (α : Type) where
  u : α
  a : Nat → α
  b : Nat → α
  c : Nat → α
  r : Nat → α

/-- What is done with them: the photon effect if `randD() >= photonRate` (`AOS/AOSBase.hpp` line 92); the step
without it is `delta() * Random()` (`AOS/AOS4EigenAndStd.hpp` lines 125-126). -/
def AOSRaw.draw [LE α] [DecidableLE α] [Mul α] (rate delta : α) (d : AOSRaw α) : AOSDraw α :=
  { photon := decide (rate ≤ d.u), a := d.a, b := d.b, c := d.c, step := fun i => delta * d.r i }

/-- Everything random or unspecified of one generation: the order `std::sort` leaves equivalent electrons in, the
`randF()` the number of layers is made of, the draws for the children, the indeterminate energy of new electrons.
(`AOS/AOS.hpp` lines 80 and 91, `AOS/AOSBase.hpp` lines 85-103.) -/
structure AOSRawEnv (α : Type) where
  sort : Sorter (Cell (Gene (List α) α))
  v : α
  draw : Nat → AOSRaw α
  junk : α

/-- The public calls that change the object; the draws are arguments of `initializePop` (electron, entry) and `run`
(generation).  Assigning through the references `option()` and `arg()` is the same as `setOption` and `setArg`.
(`AOS/AOSBoxed.hpp` lines 70-74, `Global/FunBody.hpp` line 63, `AOS/AOSParameterPack.hpp` lines 62-64,
`AOS/AOSBase.hpp` lines 46 and 146, `AOS/AOS.hpp` line 60, `EAGlobal/BoxConstraint.hpp`.) -/
inductive AOSFullCall (A α : Type) where
  | setOption (o : AOSOption) (rate : α)
  | setfFun (f : Option (A → List α → α))
  | setArg (a : A)
  | box (c : SqBoxCall α)
  | initializePop (u : Nat → Nat → α) (junk : α)
  | run (env : Nat → AOSRawEnv α)

/-- `AOSExecutor::doFitness`, `AOS/AOSBoxed.hpp` lines 134-168 with `runfFun`, `Global/FunBody.hpp` line 62: a call
through a null pointer is undefined. -/
def AOSFull.fitness (x : AOSFull A α) : Out (List α → α) := do
  let f ← readMember x.fFun
  .ok (f x.arg)

/-- `initializePop`, `AOS/AOSBase.hpp` lines 46-76 and 146-150: every electron gets its state from `initialize` of
the box (`EAGlobal/BoxConstraint.hpp` lines 38-51). -/
def AOSFull.initializePop [Field α] (x : AOSFull A α) (u : Nat → Nat → α) (junk : α) : Out (AOSFull A α) := do
  let states ← (List.range x.option.electronNum).mapM fun k => x.box.initialize (u k)
  let s ← aosInitializePop x.option (fun k => states.getD k []) junk
  .ok { x with st := s, generation := 0, record := [] }

section run
variable [Field α] [LinearOrder α] [FloorSemiring α]

/-- First part of an iteration, `AOS/AOSBase.hpp` lines 107-111.  The fitness function is called only for electrons
that are not computed yet (`AOS/AOSBoxed.hpp` lines 100-132). -/
def AOSFull.evaluate (opt : FitnessOption) (x : AOSFull A α) (s : AOSState α) : Out (AOSState α) :=
  if s.electrons.all (fun c => c.2.computed) then aosEvaluate opt (fun _ => 0) s
  else do
    let f ← x.fitness
    aosEvaluate opt f s

/-- `randIdx(1, maxLayerNum + 1)`, `AOS/AOS.hpp` line 91 with `Global/Randoms.hpp` lines 145-148. -/
def AOSFull.layerNum (x : AOSFull A α) (v : α) : Nat := ⌊(x.option.maxLayerNum : α) * v⌋₊ + 1

/-- `__impl_selectAndMakeLayers`, `AOS/AOS.hpp` lines 72-137; `gauss k` are the weights of `k` layers (lines
96-98). -/
def AOSFull.select (opt : FitnessOption) (gauss : Nat → Nat → α) (x : AOSFull A α) (e : AOSRawEnv α)
    (s : AOSState α) : Out (AOSState α) :=
  selectAndMakeLayers opt x.option e.sort (x.layerNum e.v) (gauss (x.layerNum e.v)) s

/-- Second part of an iteration, `AOS/AOSBase.hpp` lines 119-121.  There is one child for every member of a layer;
each is confined to the range of the box; `delta()` is read if one is made without photon effect (otherwise its value
does not matter).
(`AOS/AOSBase.hpp` lines 85-103, `AOS/AOS4EigenAndStd.hpp` lines 71-131; the Eigen version does not read the
dimensions.) -/
def AOSFull.children (opt : FitnessOption) (x : AOSFull A α) (e : AOSRawEnv α) (s : AOSState α) :
    Out (AOSState α) := do
  let mn ← readMember x.box.mn
  let mx ← readMember x.box.mx
  let n := (s.layers.map (·.members.length)).sum
  let delta ← if (List.range n).all (fun i => decide (x.photonRate ≤ (e.draw i).u)) then
      .ok (x.box.delta.getD 0)
    else readMember x.box.delta
  aosChildren .eigen opt ⟨0, fun _ => mn, fun _ => mx⟩
    ⟨e.sort, 0, fun _ => 0, fun i => (e.draw i).draw x.photonRate delta, e.junk⟩ s

/-- The loop of `__impl_run`, `AOS/AOSBase.hpp` lines 105-125, with fuel. -/
def AOSFull.loop (opt : FitnessOption) (gauss : Nat → Nat → α) (x : AOSFull A α) (env : Nat → AOSRawEnv α) :
    Nat → Nat → AOSState α → List α → Out (RunResult (AOSState α) α)
  | 0, _, _, _ => .timeout
  | fuel + 1, gen, s, record => do
    let s ← x.evaluate opt s
    let bst ← deref s.electrons s.best
    let record := record ++ [bst.fitness]
    let s ← x.select opt gauss (env gen) s
    if gen ≥ x.option.maxGeneration ∨ s.early ≥ x.option.maxEarlyStop then .ok ⟨s, gen, record⟩
    else do
      let s ← x.children opt (env gen) s
      AOSFull.loop opt gauss x env fuel (gen + 1) s record

/-- `run`, `AOS/AOSBase.hpp` lines 105-125: generation counter, early-stop counter and record go on from where they
are. -/
def AOSFull.run (opt : FitnessOption) (gauss : Nat → Nat → α) (x : AOSFull A α) (env : Nat → AOSRawEnv α) :
    Out (AOSFull A α) := do
  let r ← x.loop opt gauss env (x.option.maxGeneration + 1) x.generation x.st x.record
  .ok { x with st := r.state, generation := r.generation, record := r.record }

/-- One call: `setOption` (`AOS/AOSBoxed.hpp` line 74), `setfFun` (`Global/FunBody.hpp` line 63), `setArg`
(`AOS/AOSParameterPack.hpp` line 64) and the others. -/
def aosFullCall (opt : FitnessOption) (gauss : Nat → Nat → α) (x : AOSFull A α) :
    AOSFullCall A α → Out (AOSFull A α)
  | .setOption o rate => .ok { x with option := o, photonRate := rate }
  | .setfFun f => .ok { x with fFun := f }
  | .setArg a => .ok { x with arg := a }
  | .box c => do
    let b ← sqBoxCall x.box c
    .ok { x with box := b }
  | .initializePop u junk => x.initializePop u junk
  | .run env => x.run opt gauss env

/-- A sequence of public calls.  (Glue over `AOS/AOSBase.hpp` lines 46-157.) -/
def aosFullSession (opt : FitnessOption) (gauss : Nat → Nat → α) (x : AOSFull A α)
    (cs : List (AOSFullCall A α)) : Out (AOSFull A α) :=
  cs.foldlM (aosFullCall opt gauss) x

/-- `bestElectron()`, `AOS/AOSBoxed.hpp` line 76: the pointer may not be valid. -/
def AOSFull.bestElectron (x : AOSFull A α) : Out (Gene (List α) α) := deref x.st.electrons x.st.best

end run
end

end Heu
