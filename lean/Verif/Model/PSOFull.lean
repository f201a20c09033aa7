import Verif.Model.PSO
import Verif.Model.BoxConfig
import Verif.Model.SOGAFl

/-!
# A whole PSO object

`HeuristicFlow/src/PSO/`: a solver with a square box (`BoxShape::SQUARE_BOX`) over an Eigen vector type, whose
fitness function is set at run time (`_fFun_ == nullptr`) and which uses the default initialisation: all members
(some without initialiser), all setters, `initializePop()` and `run()`.

`α` is any number type with the operations used; `rd u a b` is `randD(a, b)` for the draw `u`.
(Rectangular boxes are not part of this file: `NonsquareBox4PSO::setRange` names a constant that
`array_traits` does not have, and the run-time sized rectangular boxes call a function `velocityMax()` that does
not exist, so these do not compile, `BoxWithVelocity.hpp` lines 110, 237-316.)
-/

namespace Heu

section
variable {A α F : Type}

/-- The members: `_option` (`PSO/PSOAbstrcat.hpp` line 196), the function pointer (`Global/FunBody.hpp` line 67,
`none` is `nullptr`), `_arg` (`PSO/PSOParameterPack.hpp` line 120), `_dimensions`
(`PSO/BoxWithVelocity.hpp` line 189), `_posMinS`, `_posMaxS`, `_maxVelocityS` (lines 86-88) – `none` is an
indeterminate value –, swarm, global best and failure counter, `_generation`, `_record`
(`PSO/PSOAbstrcat.hpp` lines 199-222 and 419). -/
structure PSOFull (A α F : Type) where
  K : Nat
  maxGen : Nat
  maxFail : Nat
  factors : PSOFactors α
  fFun : Option (A → List α → F)
  arg : A
  dim : Option Int
  posMin : Option α
  posMax : Option α
  maxVelocity : Option α
  st : PSOState (List α) F
  generation : Nat
  record : List F

/-- What a new object contains that no constructor sets (arbitrary): the argument, the global best, the failure
and the generation counter.  (Members without initialiser, `PSO/PSOAbstrcat.hpp` lines 199-222 and
`PSO/PSOParameterPack.hpp` line 120.) -/
structure PSOJunk (A α F : Type) where
  arg : A
  gBest : Point (List α) F
  fail : Nat
  generation : Nat

/-- A newly constructed object: the options of `PSOOption()` (`PSO/PSOOption.hpp` lines 38-45; `o0` are the three
factors 0.8, 2, 2), `nullptr` as fitness function (`Global/FunBody.hpp` line 60), no box, no particles.
`dim0` is the size at compile time (`PSO/BoxWithVelocity.hpp` line 174), `none` for run-time sized vectors. -/
def PSOFull.new (o0 : PSOFactors α) (dim0 : Option Int) (j : PSOJunk A α F) : PSOFull A α F :=
  { K := 200, maxGen := 300, maxFail := 100, factors := o0, fFun := none, arg := j.arg, dim := dim0
    posMin := none, posMax := none, maxVelocity := none
    st := { swarm := [], gBest := j.gBest, fail := j.fail }, generation := j.generation, record := [] }

/-- The public calls that change the object.  `writeX` are assignments through the references returned by
`posMin()`, `posMax()` and `maxVelocity()` (`PSO/BoxWithVelocity.hpp` lines 37, 41 and 60); the draws are
arguments of `initializePop` (particle, entry) and `run` (generation, particle).
(`PSO/PSOAbstrcat.hpp` lines 101, 178, 233; `Global/FunBody.hpp` line 63; `PSO/PSOParameterPack.hpp` line 99;
`PSO/BoxWithVelocity.hpp` lines 49-69 and 183.) -/
inductive PSOFullCall (A α F : Type) where
  | setOption (K maxGen maxFail : Nat) (o : PSOFactors α)
  | setfFun (f : Option (A → List α → F))
  | setArgs (a : A)
  | setDimensions (d : Int)
  | setRange (mn mx : α)
  | setMaxVelocity (v : α)
  | setPVRange (mn mx v : α)
  | writePosMin (x : α)
  | writePosMax (x : α)
  | writeMaxVelocity (x : α)
  | initializePop (u : Nat → Nat → α)
  | run (rnd : Nat → Nat → α × α)

/-- `setRange`, `PSO/BoxWithVelocity.hpp` lines 49-53. -/
def PSOFull.setRange [LT α] [DecidableLT α] (x : PSOFull A α F) (mn mx : α) : Out (PSOFull A α F) :=
  if mn < mx then .ok { x with posMin := some mn, posMax := some mx } else .ub

/-- `setMaxVelocity`, `PSO/BoxWithVelocity.hpp` lines 66-69. -/
def PSOFull.setMaxVelocity [LT α] [DecidableLT α] [Zero α] (x : PSOFull A α F) (v : α) :
    Out (PSOFull A α F) :=
  if 0 < v then .ok { x with maxVelocity := some v } else .ub

/-- `PSOExecutor::doFitness`, `PSO/PSOAbstrcat.hpp` lines 350-352 with `runfFun`, `Global/FunBody.hpp` line 62:
the function the stored pointer refers to, applied to the stored argument; a call through a null pointer is
undefined. -/
def PSOFull.fitness (x : PSOFull A α F) : Out (List α → F) := do
  let f ← readMember x.fFun
  .ok (f x.arg)

/-- `defaultInitialize` for square boxes, `PSO/PSOAbstrcat.hpp` lines 303-334: all of `_dimensions` (positive),
`_posMinS`, `_posMaxS` are read. -/
def PSOFull.defaultInitialize [Zero α] (rd : α → α → α → α) (x : PSOFull A α F) :
    Out ((Nat → α) → List α × List α) := do
  let d ← readMember x.dim
  let mn ← readMember x.posMin
  let mx ← readMember x.posMax
  .ok fun u => ((List.range d.toNat).map fun i => rd (u i) mn mx, (List.range d.toNat).map fun _ => 0)

/-- `initializePop`, `PSO/PSOAbstrcat.hpp` lines 178-192.  For `populationSize` 0 nothing is read, but `front()`
of the empty population is undefined. -/
def PSOFull.initializePop [Zero α] (rd : α → α → α → α) (x : PSOFull A α F) (u : Nat → Nat → α) :
    Out (PSOFull A α F) :=
  if x.K = 0 then .ub
  else do
    let init ← x.defaultInitialize rd
    let f ← x.fitness
    let s ← psoInitializePop x.K (fun k => init (u k)) f
    .ok { x with st := s, generation := 0 }

section run
variable [Add α] [Sub α] [Mul α] [Neg α] [LT α] [DecidableLT α] [LT F] [DecidableLT F]

/-- `__impl_updatePopulation`, `PSO/PSO4Eigen.hpp` lines 85-109, reading the members of the box
(`PSO/BoxWithVelocity.hpp` lines 71-83).  It is only called when there are particles, and their vectors are not
empty; the loops of the box go over the entries of the vector, so `_dimensions` is not read. -/
def PSOFull.updatePopulation (x : PSOFull A α F) (rnd : Nat → α × α) (s : PSOState (List α) F) :
    Out (PSOState (List α) F) := do
  let vm ← readMember x.maxVelocity
  let mx ← readMember x.posMax
  let mn ← readMember x.posMin
  .ok (Heu.updatePopulation ⟨0, fun _ => mn, fun _ => mx, fun _ => vm⟩ x.factors rnd s)

/-- The loop of `__impl_run`, `PSO/PSOAbstrcat.hpp` lines 239-265, with fuel. -/
def PSOFull.loop (opt : FitnessOption) (x : PSOFull A α F) (f : List α → F) (rnd : Nat → Nat → α × α) :
    Nat → Nat → PSOState (List α) F → List F → Out (RunResult (PSOState (List α) F) F)
  | 0, _, _, _ => .timeout
  | fuel + 1, gen, s, record => do
    let gen := gen + 1
    let s ← updatePGBest opt (psoComputeAllFitness f s)
    let record := record ++ [s.gBest.fitness]
    if gen > x.maxGen then .ok ⟨s, gen - 1, record⟩
    else if x.maxFail > 0 ∧ s.fail > x.maxFail then .ok ⟨s, gen - 1, record⟩
    else do
      let s ← x.updatePopulation (rnd gen) s
      PSOFull.loop opt x f rnd fuel gen s record

/-- `run`, `PSO/PSOAbstrcat.hpp` lines 233-267 (without particles the function pointer is not called, but line 61
of `PSO4Eigen.hpp` then has undefined behaviour). -/
def PSOFull.run (opt : FitnessOption) (x : PSOFull A α F) (rnd : Nat → Nat → α × α) :
    Out (PSOFull A α F) := do
  let f ← x.fitness
  let r ← PSOFull.loop opt x f rnd (x.maxGen + 1) 0 { x.st with fail := 0 } []
  .ok { x with st := r.state, generation := r.generation, record := r.record }

variable [Zero α]

/-- One call: `setOption` (`PSO/PSOAbstrcat.hpp` line 101), `setfFun` (`Global/FunBody.hpp` line 63), `setArgs`
(`PSO/PSOParameterPack.hpp` line 99), `setDimensions` (`PSO/BoxWithVelocity.hpp` lines 183-186), `setPVRange`
(lines 55-58) and the others. -/
def psoFullCall (rd : α → α → α → α) (opt : FitnessOption) (x : PSOFull A α F) :
    PSOFullCall A α F → Out (PSOFull A α F)
  | .setOption K G L o => .ok { x with K := K, maxGen := G, maxFail := L, factors := o }
  | .setfFun f => .ok { x with fFun := f }
  | .setArgs a => .ok { x with arg := a }
  | .setDimensions d => if 0 < d then .ok { x with dim := some d } else .ub
  | .setRange mn mx => x.setRange mn mx
  | .setMaxVelocity v => x.setMaxVelocity v
  | .setPVRange mn mx v => do
    let x ← x.setRange mn mx
    x.setMaxVelocity v
  | .writePosMin v => .ok { x with posMin := some v }
  | .writePosMax v => .ok { x with posMax := some v }
  | .writeMaxVelocity v => .ok { x with maxVelocity := some v }
  | .initializePop u => x.initializePop rd u
  | .run rnd => x.run opt rnd

/-- A sequence of public calls.  (Glue over `PSO/PSOAbstrcat.hpp` lines 95-267.) -/
def psoFullSession (rd : α → α → α → α) (opt : FitnessOption) (x : PSOFull A α F)
    (cs : List (PSOFullCall A α F)) : Out (PSOFull A α F) :=
  cs.foldlM (psoFullCall rd opt) x

end run
end

/-- `randD(min, max)` on doubles, `Global/Randoms.hpp` lines 100-102. -/
def randDDbl (fm : Fmt) (u mn mx : Dbl fm) : Dbl fm := ⟨randDRangeFl fm u.val mn.val mx.val⟩

end Heu
