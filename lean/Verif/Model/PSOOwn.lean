import Verif.Model.PSOFull

/-!
# A PSO object with an initialiser of the user's own

`HeuristicFlow/src/PSO/`: the solver of `Model/PSOFull` (square box, Eigen vectors) whose template argument
`_iFun_` is not the reserved symbol: `initializePop` then calls the user's function for every particle, with the
address of position and velocity, and nothing checks what it writes.  The vectors may therefore have any size, so
the size checks of Eigen (in the expressions of `__impl_updatePopulation`) are part of this model; the unchecked
bounds are read only if there is an entry to confine.
-/

namespace Heu

section
variable {A Ω α F : Type}

/-- An initialisation function `void (*)(Var_t*, Var_t*, const Args_t*)`, `PSO/PSOParameterPack.hpp` lines 63 and
137: what it writes to the position and the velocity it is given (`ω`: whatever else it reads, e.g. random
numbers). -/
abbrev PSOInitFun (A Ω α : Type) : Type := A → Ω → List α × List α → List α × List α

/-- The object: the members of `Model/PSOFull` and the initialisation function (`Global/FunBody.hpp` line 67;
`none` is `nullptr`; `PSO/PSOAbstrcat.hpp` lines 52-59). -/
structure PSOOwn (A Ω α F : Type) where
  obj : PSOFull A α F
  iFun : Option (PSOInitFun A Ω α)

/-- A new object; `i0` is the function given at compile time, or `none` (`nullptr`) if it is to be set at run
time (`Global/FunBody.hpp` lines 45-68). -/
def PSOOwn.new (o0 : PSOFactors α) (dim0 : Option Int) (j : PSOJunk A α F) (i0 : Option (PSOInitFun A Ω α)) :
    PSOOwn A Ω α F :=
  { obj := .new o0 dim0 j, iFun := i0 }

/-- The calls that only set something (`PSO/PSOAbstrcat.hpp` line 101; `Global/FunBody.hpp` line 63;
`PSO/PSOParameterPack.hpp` line 99; `PSO/BoxWithVelocity.hpp` lines 37-69 and 183). -/
inductive PSOSetter (A α F : Type) where
  | setOption (K maxGen maxFail : Nat) (o : PSOFactors α)
  | setfFun (f : Option (A → List α → F))
  | setArgs (a : A)
  | setDimensions (d : Int)
  | setRange (mn mx : α)
  | setMaxVelocity (v : α)
  | setPVRange (mn mx v : α)
  | writePosMin (x : α)
  | writePosMax (x : α)
  | writeMaxVelocity (x : α)

/-- The same call in `Model/PSOFull`.  (Glue, no code of its own; `PSO/PSOAbstrcat.hpp` lines 95-110.) -/
def PSOSetter.toCall : PSOSetter A α F → PSOFullCall A α F
  | .setOption K G L o => .setOption K G L o
  | .setfFun f => .setfFun f
  | .setArgs a => .setArgs a
  | .setDimensions d => .setDimensions d
  | .setRange mn mx => .setRange mn mx
  | .setMaxVelocity v => .setMaxVelocity v
  | .setPVRange mn mx v => .setPVRange mn mx v
  | .writePosMin x => .writePosMin x
  | .writePosMax x => .writePosMax x
  | .writeMaxVelocity x => .writeMaxVelocity x

/-- The public calls.  `setiFun` exists if the function was not given at compile time (`Global/FunBody.hpp` line
63); `w k` is what the initialiser reads for particle `k`; `blank` are position and velocity of a new
particle (empty for run-time sized vectors, indeterminate otherwise).
(`PSO/PSOAbstrcat.hpp` lines 178 and 233.) -/
inductive PSOOwnCall (A Ω α F : Type) where
  | set (c : PSOSetter A α F)
  | setiFun (f : Option (PSOInitFun A Ω α))
  | initializePop (w : Nat → Ω) (blank : List α × List α)
  | run (rnd : Nat → Nat → α × α)

/-- What is in the memory of particle `k` when it is initialised: `_population.resize` keeps the particles that
are there, `PSO/PSOAbstrcat.hpp` line 179. -/
def PSOOwn.before (x : PSOOwn A Ω α F) (blank : List α × List α) (k : Nat) : List α × List α :=
  match x.obj.st.swarm[k]? with
  | some p => (p.position, p.velocity)
  | none => blank

/-- `initializePop`, `PSO/PSOAbstrcat.hpp` lines 178-192, with `doInitialize`, lines 340-348 and 360-368. -/
def PSOOwn.initializePop (x : PSOOwn A Ω α F) (w : Nat → Ω) (blank : List α × List α) : Out (PSOOwn A Ω α F) :=
  if x.obj.K = 0 then .ub
  else do
    let i ← readMember x.iFun
    let f ← x.obj.fitness
    let s ← psoInitializePop x.obj.K (fun k => i x.obj.arg (w k) (x.before blank k)) f
    .ok { x with obj := { x.obj with st := s, generation := 0 } }

section run
variable [Add α] [Sub α] [Mul α] [Neg α] [LT α] [DecidableLT α]

/-- Loop body of `__impl_updatePopulation`, `PSO/PSO4Eigen.hpp` lines 90-107.  Eigen asserts that the operands of
lines 92-95 and 99 have the same size; the loops of lines 97 and 101 (`PSO/BoxWithVelocity.hpp` lines 71-83) read
the members of the box if there is at least one entry. -/
def PSOOwn.moveParticle (x : PSOFull A α F) (gBest : List α) (r : α × α) (p : Particle (List α) F) :
    Out (Particle (List α) F) :=
  if p.pBest.position.length = p.position.length ∧ gBest.length = p.position.length ∧
      p.velocity.length = p.position.length then
    if p.position.length = 0 then .ok p
    else do
      let vm ← readMember x.maxVelocity
      let mx ← readMember x.posMax
      let mn ← readMember x.posMin
      .ok (Heu.moveParticle ⟨0, fun _ => mn, fun _ => mx, fun _ => vm⟩ x.factors gBest r.1 r.2 p)
  else .ub

/-- `__impl_updatePopulation`, `PSO/PSO4Eigen.hpp` lines 85-109: the loop over the particles from number `k` on. -/
def PSOOwn.moveAll (x : PSOFull A α F) (gBest : List α) (rnd : Nat → α × α) :
    Nat → List (Particle (List α) F) → Out (List (Particle (List α) F))
  | _, [] => .ok []
  | k, p :: ps => do
    let q ← PSOOwn.moveParticle x gBest (rnd k) p
    let qs ← PSOOwn.moveAll x gBest rnd (k + 1) ps
    .ok (q :: qs)

variable [LT F] [DecidableLT F]

/-- The loop of `__impl_run`, `PSO/PSOAbstrcat.hpp` lines 239-265, with fuel. -/
def PSOOwn.loop (opt : FitnessOption) (x : PSOFull A α F) (f : List α → F) (rnd : Nat → Nat → α × α) :
    Nat → Nat → PSOState (List α) F → List F → Out (RunResult (PSOState (List α) F) F)
  | 0, _, _, _ => .timeout
  | fuel + 1, gen, s, record => do
    let gen := gen + 1
    let s ← updatePGBest opt (psoComputeAllFitness f s)
    let record := record ++ [s.gBest.fitness]
    if gen > x.maxGen then .ok ⟨s, gen - 1, record⟩
    else if x.maxFail > 0 ∧ s.fail > x.maxFail then .ok ⟨s, gen - 1, record⟩
    else do
      let sw ← PSOOwn.moveAll x s.gBest.position (rnd gen) 0 s.swarm
      PSOOwn.loop opt x f rnd fuel gen { s with swarm := sw } record

/-- `run`, `PSO/PSOAbstrcat.hpp` lines 233-267. -/
def PSOOwn.run (opt : FitnessOption) (x : PSOOwn A Ω α F) (rnd : Nat → Nat → α × α) : Out (PSOOwn A Ω α F) := do
  let f ← x.obj.fitness
  let r ← PSOOwn.loop opt x.obj f rnd (x.obj.maxGen + 1) 0 { x.obj.st with fail := 0 } []
  .ok { x with obj := { x.obj with st := r.state, generation := r.generation, record := r.record } }

variable [Zero α]

/-- One call (`PSO/PSOAbstrcat.hpp` lines 101, 178, 233; `Global/FunBody.hpp` line 63).  The setters are those of
`Model/PSOFull` (which do not draw). -/
def psoOwnCall (opt : FitnessOption) (x : PSOOwn A Ω α F) : PSOOwnCall A Ω α F → Out (PSOOwn A Ω α F)
  | .set c => do
    let y ← psoFullCall (fun u _ _ => u) opt x.obj c.toCall
    .ok { x with obj := y }
  | .setiFun f => .ok { x with iFun := f }
  | .initializePop w blank => x.initializePop w blank
  | .run rnd => x.run opt rnd

/-- A sequence of public calls.  (Glue over `PSO/PSOAbstrcat.hpp` lines 95-267.) -/
def psoOwnSession (opt : FitnessOption) (x : PSOOwn A Ω α F) (cs : List (PSOOwnCall A Ω α F)) :
    Out (PSOOwn A Ω α F) :=
  cs.foldlM (psoOwnCall opt) x

end run
end

end Heu
