import Verif.Model.Box
import Verif.Model.GA
import Verif.Model.SOGA
import Verif.Model.Encode

/-!
# Particle swarm optimisation

`HeuristicFlow/src/PSO/`: `PSOAbstrcat.hpp`, `PSO4Eigen.hpp`, `PSO4std.hpp`, `BoxWithVelocity.hpp`,
`PSO.hpp`.

A position or velocity (vector or matrix) is the list of its entries.  The move of a particle is written
for any number type with `+ - * <`: it is read over ordered fields (exact arithmetic) and over IEEE
numbers (`Dbl`).
-/

namespace Heu

/-- `PSOAbstract::Point`, `PSOAbstrcat.hpp` lines 73-79. -/
structure Point (V F : Type) where
  position : V
  fitness : F
  deriving DecidableEq, Repr

/-- `PSOAbstract::Particle`, `PSOAbstrcat.hpp` lines 87-93 (`Particle` extends `Point`). -/
structure Particle (V F : Type) where
  position : V
  fitness : F
  velocity : V
  pBest : Point V F
  deriving DecidableEq, Repr

/-- The solver state: `_population`, `gBest`, `_failTimes` (`PSOAbstrcat.hpp` lines 196-222). -/
structure PSOState (V F : Type) where
  swarm : List (Particle V F)
  gBest : Point V F
  fail : Nat
  deriving DecidableEq, Repr

/-! ### IEEE numbers as a number type -/

/-- A `double` (`F = binary64`) or `float` (`F = binary32`) value, with the IEEE operations of
`Model/Encode.lean`.  (C++ language.  No lines of the repository.) -/
structure Dbl (F : Fmt) where
  val : Fl
  deriving DecidableEq

instance (F : Fmt) : Add (Dbl F) := ⟨fun x y => ⟨x.val.add F y.val⟩⟩
instance (F : Fmt) : Sub (Dbl F) := ⟨fun x y => ⟨x.val.sub F y.val⟩⟩
instance (F : Fmt) : Mul (Dbl F) := ⟨fun x y => ⟨x.val.mul F y.val⟩⟩
instance (F : Fmt) : Neg (Dbl F) := ⟨fun x => ⟨x.val.neg⟩⟩
instance (F : Fmt) : LT (Dbl F) := ⟨fun x y => x.val.lt y.val = true⟩
instance (F : Fmt) : DecidableLT (Dbl F) := fun _ _ => inferInstanceAs (Decidable (_ = true))

section box
variable {α : Type}

/-- Position box and velocity bound of a PSO solver, `BoxWithVelocity.hpp` lines 86-88 (square: the
three functions are constant) and 164-166. -/
structure PSOBox (α : Type) where
  dim : Nat
  posMin : Nat → α
  posMax : Nat → α
  velocityMax : Nat → α

/-- `SquareBox4PSO::setPVRange`, `BoxWithVelocity.hpp` lines 49-53, 55-58, 66-69: asserts
`pMin < pMax` and `vMax > 0`. -/
def setPVRangeSquare [LT α] [DecidableLT α] [Zero α] (dim : Nat) (pMin pMax vMax : α) :
    Out (PSOBox α) :=
  if pMin < pMax then
    if 0 < vMax then .ok ⟨dim, fun _ => pMin, fun _ => pMax, fun _ => vMax⟩ else .ub
  else .ub

/-- `NonsquareBox4PSO::setPVRange`, `BoxWithVelocity.hpp` lines 110-125, 133-143, 145-148: the entries
are compared one by one; sizes must agree (line 112; the size of `vMax` is not compared there but by
`dimensions()`, line 328). -/
def setPVRangeRect [LT α] [DecidableLT α] [Zero α] (pMin pMax vMax : List α) : Out (PSOBox α) :=
  if pMin.length = pMax.length ∧ pMax.length = vMax.length ∧
      (List.zipWith (fun a b => decide (a < b)) pMin pMax).all id ∧
      (vMax.map (fun v => decide (0 < v))).all id then
    .ok ⟨pMin.length, fun i => pMin.getD i 0, fun i => pMax.getD i 0, fun i => vMax.getD i 0⟩
  else .ub

/-- `SquareBox4PSO::posMin()` and `posMin(int)`, `BoxWithVelocity.hpp` lines 37-39 and 45. -/
def SquareBox4PSO.posMinAt (posMinS _posMaxS : α) (_idx : Nat) : α := posMinS
/-- `SquareBox4PSO::posMax(int)`, `BoxWithVelocity.hpp` line 47: returns `_posMinS`. -/
def SquareBox4PSO.posMaxAt (posMinS _posMaxS : α) (_idx : Nat) : α := posMinS
/-- `SquareBox4PSO::posMax()`, `BoxWithVelocity.hpp` lines 41-43. -/
def SquareBox4PSO.posMax (_posMinS posMaxS : α) : α := posMaxS
/-- `SquareBox4PSO::maxVelocity(int)`, `BoxWithVelocity.hpp` line 64. -/
def SquareBox4PSO.maxVelocityAt (maxVelocityS : α) (_idx : Nat) : α := maxVelocityS

variable [LT α] [DecidableLT α]

/-- One entry of `applyConstraint4Position`, `BoxWithVelocity.hpp` lines 73-74 and 151-152: here the
bound is the *first* argument of `std::min`/`std::max`. -/
def clampPos (mn mx x : α) : α := stdMax mn (stdMin mx x)

/-- One entry of `applyConstraint4Velocity`, `BoxWithVelocity.hpp` lines 80-81 and 158-159. -/
def clampVel [Neg α] (vm x : α) : α := stdMax (stdMin x vm) (-vm)

/-- `applyConstraint4Position`, `BoxWithVelocity.hpp` lines 71-76 and 149-154. -/
def applyConstraint4Position (b : PSOBox α) (p : List α) : List α :=
  p.mapIdx fun i x => clampPos (b.posMin i) (b.posMax i) x

/-- `applyConstraint4Velocity`, `BoxWithVelocity.hpp` lines 78-83 and 156-161. -/
def applyConstraint4Velocity [Neg α] (b : PSOBox α) (v : List α) : List α :=
  v.mapIdx fun i x => clampVel (b.velocityMax i) x

end box

section swarm
variable {V F : Type}

/-- `initializePop`, `PSOAbstrcat.hpp` lines 178-192: every particle is initialised (`init k` is position
and velocity of the `k`-th), evaluated, and is its own best; `gBest` is the *first* particle.
`front()` of an empty population is undefined. -/
def psoInitializePop (K : Nat) (init : Nat → V × V) (f : V → F) : Out (PSOState V F) :=
  let swarm := (List.range K).map fun k =>
    { position := (init k).1, fitness := f (init k).1, velocity := (init k).2,
      pBest := { position := (init k).1, fitness := f (init k).1 } }
  match swarm with
  | [] => .ub
  | p :: _ => .ok { swarm := swarm, gBest := { position := p.position, fitness := p.fitness }, fail := 0 }

/-- `__impl_computeAllFitness`, `PSOAbstrcat.hpp` lines 286-300 (the loop bodies of different particles
touch different objects, so the OpenMP version computes the same). -/
def psoComputeAllFitness (f : V → F) (s : PSOState V F) : PSOState V F :=
  { s with swarm := s.swarm.map fun p => { p with fitness := f p.position } }

/-- `isBetterThan`, `PSO4Eigen.hpp` lines 48-54, `PSO4std.hpp` lines 57-63. -/
def psoBetter [LT F] [DecidableLT F] (opt : FitnessOption) (a b : F) : Bool :=
  match opt with
  | .greaterBetter => decide (b < a)
  | .lessBetter => decide (a < b)

/-- First half of the loop body of `__impl_updatePGBest`, `PSO4Eigen.hpp` lines 64-66. -/
def updatePBest [LT F] [DecidableLT F] (opt : FitnessOption) (p : Particle V F) : Particle V F :=
  if psoBetter opt p.fitness p.pBest.fitness then
    { p with pBest := { position := p.position, fitness := p.fitness } }
  else p

/-- The loop of `__impl_updatePGBest`, `PSO4Eigen.hpp` lines 63-71 (`PSO4std.hpp` lines 73-81), from
particle `i` on.  `cur` is the index of the particle whose `pBest` the pointer `curGBest` refers to; it
is read through the pointer, i.e. in the swarm as updated so far. -/
def pgBestLoop [LT F] [DecidableLT F] (opt : FitnessOption) :
    Nat → Nat → List (Particle V F) → Nat → List (Particle V F) × Nat
  | 0, _, swarm, cur => (swarm, cur)
  | n + 1, i, swarm, cur =>
    let swarm := swarm.modify i (updatePBest opt)
    match swarm[i]?, swarm[cur]? with
    | some p, some q =>
      pgBestLoop opt n (i + 1) swarm (if psoBetter opt p.pBest.fitness q.pBest.fitness then i else cur)
    | _, _ => (swarm, cur)

/-- `__impl_updatePGBest`, `PSO4Eigen.hpp` lines 60-79 (`PSO4std.hpp` lines 69-89). -/
def updatePGBest [LT F] [DecidableLT F] (opt : FitnessOption) (s : PSOState V F) :
    Out (PSOState V F) :=
  match s.swarm with
  | [] => .ub
  | _ :: _ =>
    let r := pgBestLoop opt s.swarm.length 0 s.swarm 0
    match r.1[r.2]? with
    | none => .ub
    | some q =>
      if psoBetter opt q.pBest.fitness s.gBest.fitness then
        .ok { swarm := r.1, gBest := q.pBest, fail := 0 }
      else .ok { s with swarm := r.1, fail := s.fail + 1 }

end swarm

/-- `PSOOption`, `PSOOption.hpp` lines 38-58 (factors only). -/
structure PSOFactors (α : Type) where
  inertia : α
  learnP : α
  learnG : α

section move
variable {α F : Type} [Add α] [Sub α] [Mul α] [Neg α] [LT α] [DecidableLT α]

/-- New velocity before confinement, `PSO4Eigen.hpp` lines 92-95: entrywise (all operands have the same
size; `zipWith` stops at the shortest). -/
def newVelocity (o : PSOFactors α) (lFP lFG : α) (v p pb gb : List α) : List α :=
  List.zipWith (· + ·)
    (List.zipWith (· + ·) (v.map (o.inertia * ·))
      ((List.zipWith (· - ·) pb p).map (o.learnP * lFP * ·)))
    ((List.zipWith (· - ·) gb p).map (o.learnG * lFG * ·))

/-- Loop body of `__impl_updatePopulation`, `PSO4Eigen.hpp` lines 90-107. -/
def moveParticle (b : PSOBox α) (o : PSOFactors α) (gBest : List α) (lFP lFG : α)
    (i : Particle (List α) F) : Particle (List α) F :=
  let v := applyConstraint4Velocity b
    (newVelocity o lFP lFG i.velocity i.position i.pBest.position gBest)
  { i with velocity := v,
           position := applyConstraint4Position b (List.zipWith (· + ·) i.position v) }

/-- `__impl_updatePopulation`, `PSO4Eigen.hpp` lines 85-109; `rnd k` are the two draws of particle `k`. -/
def updatePopulation (b : PSOBox α) (o : PSOFactors α) (rnd : Nat → α × α)
    (s : PSOState (List α) F) : PSOState (List α) F :=
  { s with swarm := s.swarm.mapIdx fun k p =>
      moveParticle b o s.gBest.position (rnd k).1 (rnd k).2 p }

end move

section moveStd
variable {α F : Type} [Field α] [LT α] [DecidableLT α]

/-- Confinement of one velocity entry in the version for std containers, `PSO4std.hpp` lines 107-109:
`if (abs(v) > vMax) v = sign(v) * vMax`. -/
def clampVelStd (vm x : α) : α :=
  let a := if x < 0 then -x else x
  let sg : α := if 0 < x then 1 else if x < 0 then -1 else 0
  if vm < a then sg * vm else x

/-- Confinement of one position entry in the version for std containers, `PSO4std.hpp` lines 111-112. -/
def clampPosStd (mn mx x : α) : α := stdMin (stdMax x mn) mx

/-- Loop body of `__impl_updatePopulation` for std containers, `PSO4std.hpp` lines 99-114.  (The text
refers to members `_velocityMax`, `_posMin`, `_posMax` that the box class does not have; they are read
as the box's bounds.) -/
def moveParticleStd (b : PSOBox α) (o : PSOFactors α) (gBest : List α) (rndP rndG : α)
    (i : Particle (List α) F) : Particle (List α) F :=
  let v := (newVelocity o rndP rndG i.velocity i.position i.pBest.position gBest).mapIdx
    fun k x => clampVelStd (b.velocityMax k) x
  { i with velocity := v,
           position := (List.zipWith (· + ·) i.position v).mapIdx
             fun k x => clampPosStd (b.posMin k) (b.posMax k) x }

/-- `defaultInitialize`, `PSOAbstrcat.hpp` lines 303-334: velocity 0, position drawn in the box. -/
def psoDefaultInitialize (b : PSOBox α) (u : Nat → α) : List α × List α :=
  ((List.range b.dim).map fun i => randDRange (u i) (b.posMin i) (b.posMax i),
   (List.range b.dim).map fun _ => 0)

end moveStd

/-- `defaultInitialize` in IEEE arithmetic, `PSOAbstrcat.hpp` lines 303-334. -/
def psoDefaultInitializeFl (F : Fmt) (b : PSOBox (Dbl F)) (u : Nat → Fl) :
    List (Dbl F) × List (Dbl F) :=
  ((List.range b.dim).map fun i => ⟨randDRangeFl F (u i) (b.posMin i).val (b.posMax i).val⟩,
   (List.range b.dim).map fun _ => ⟨.fin false 0⟩)

/-! ## The main loop -/

/-- The `while (true)` loop of `PSOAbstract::__impl_run`, `PSOAbstrcat.hpp` lines 239-265, with fuel.
`move g` is `__impl_updatePopulation` with the draws of generation `g`; recording appends
`bestFitness()`, `PSO.hpp` line 148 (`PSOAbstrcat.hpp` lines 427-441). -/
def psoLoop {V F : Type} [LT F] [DecidableLT F] (opt : FitnessOption) (f : V → F)
    (move : Nat → PSOState V F → PSOState V F) (maxGeneration maxFailTimes : Nat) :
    Nat → Nat → PSOState V F → List F → Out (RunResult (PSOState V F) F)
  | 0, _, _, _ => .timeout
  | fuel + 1, gen, s, record => do
    let gen := gen + 1
    let s ← updatePGBest opt (psoComputeAllFitness f s)
    let record := record ++ [s.gBest.fitness]
    if gen > maxGeneration then .ok ⟨s, gen - 1, record⟩
    else if maxFailTimes > 0 ∧ s.fail > maxFailTimes then .ok ⟨s, gen - 1, record⟩
    else psoLoop opt f move maxGeneration maxFailTimes fuel gen (move gen s) record

/-- `PSOAbstract::__impl_run`, `PSOAbstrcat.hpp` lines 233-267. -/
def psoRun {V F : Type} [LT F] [DecidableLT F] (opt : FitnessOption) (f : V → F)
    (move : Nat → PSOState V F → PSOState V F) (maxGeneration maxFailTimes fuel : Nat)
    (s : PSOState V F) : Out (RunResult (PSOState V F) F) :=
  psoLoop opt f move maxGeneration maxFailTimes fuel 0 { s with fail := 0 } []

end Heu
