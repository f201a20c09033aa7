import Verif.Model.PSO

/-!
# A run of a particle swarm as a sequence of calls of the user's functions

As in `Model/Calls`, the user's functions may have side effects and depend on them: they act on the state `ω` of the
rest of the program.  The pointers are not null here (`Heu.PSOFull`, `Heu.PSOOwn` have that case).
-/

namespace Heu

/-- The functions of the user, `PSO/PSOParameterPack.hpp` lines 63-66 (137-140), as transformers of the state of the rest
of the program; both get what is in their targets before.  The default initialiser (`PSO/PSOAbstrcat.hpp` lines 303-334)
is one of these. -/
structure SwarmFns (V F ω : Type) where
  ini : V × V → ω → (V × V) × ω
  fit : V → F → ω → F × ω

/-- What the main loop uses besides: the move of one particle, given the position of `gBest`
(`PSO/PSO4Eigen.hpp` lines 90-107), the order in which the loop of `PSO/PSOAbstrcat.hpp` lines 290-293 makes the calls
for the particles (without OpenMP that of the swarm, lines 295-297). -/
structure SwarmHost (V F ω : Type) where
  move : V → Particle V F → ω → Particle V F × ω
  order : List Nat → List Nat

section
variable {V F ω : Type}

/-- The loop of `initializePop`, `PSO/PSOAbstrcat.hpp` lines 181-187. -/
def swarmIniCalls (u : SwarmFns V F ω) : List (Particle V F) → ω → List (Particle V F) × ω
  | [], w => ([], w)
  | p :: ps, w =>
    let a := u.ini (p.position, p.velocity) w
    let r := u.fit a.1.1 p.fitness a.2
    let rest := swarmIniCalls u ps r.2
    ({ position := a.1.1, fitness := r.1, velocity := a.1.2, pBest := { position := a.1.1, fitness := r.1 } } :: rest.1,
      rest.2)

/-- `initializePop`, `PSO/PSOAbstrcat.hpp` lines 178-192; `blank` is a new particle.  `front()` of an empty swarm is
undefined. -/
def swarmInitialize (u : SwarmFns V F ω) (K : Nat) (blank : Particle V F) (old : List (Particle V F)) (w : ω) :
    Out (PSOState V F × ω) :=
  let r := swarmIniCalls u (old.take K ++ List.replicate (K - old.length) blank) w
  match r.1 with
  | [] => .ub
  | p :: _ => .ok ({ swarm := r.1, gBest := { position := p.position, fitness := p.fitness }, fail := 0 }, r.2)

/-- The loop of `__impl_computeAllFitness`, `PSO/PSOAbstrcat.hpp` lines 290-293 (295-297), over the particles with the
given numbers.  With OpenMP the calls are taken to happen one after the other. -/
def swarmEvalCalls (u : SwarmFns V F ω) : List Nat → List (Particle V F) → ω → Out (List (Particle V F) × ω)
  | [], sw, w => .ok (sw, w)
  | i :: is, sw, w =>
    match sw[i]? with
    | none => .ub
    | some p =>
      let r := u.fit p.position p.fitness w
      swarmEvalCalls u is (sw.set i { p with fitness := r.1 }) r.2

/-- `__impl_computeAllFitness`, `PSO/PSOAbstrcat.hpp` lines 286-300. -/
def swarmEvaluate (u : SwarmFns V F ω) (h : SwarmHost V F ω) (sw : List (Particle V F)) (w : ω) :
    Out (List (Particle V F) × ω) := swarmEvalCalls u (h.order (List.range sw.length)) sw w

/-- `__impl_updatePopulation`, `PSO/PSO4Eigen.hpp` lines 85-109. -/
def swarmMove (h : SwarmHost V F ω) (g : V) : List (Particle V F) → ω → List (Particle V F) × ω
  | [], w => ([], w)
  | p :: ps, w =>
    let a := h.move g p w
    let rest := swarmMove h g ps a.2
    (a.1 :: rest.1, rest.2)

/-- What a run leaves: the state, `generation()`, `record()` and the state of the rest of the program.
(`PSO/PSOAbstrcat.hpp` lines 195-210 and 233-267.) -/
structure SwarmResult (V F ω : Type) where
  state : PSOState V F
  generation : Nat
  record : List F
  world : ω

/-- The loop of `__impl_run`, `PSO/PSOAbstrcat.hpp` lines 239-265, with fuel. -/
def swarmLoop [LT F] [DecidableLT F] (opt : FitnessOption) (u : SwarmFns V F ω) (h : SwarmHost V F ω)
    (maxGen maxFail : Nat) : Nat → Nat → PSOState V F → ω → List F → Out (SwarmResult V F ω)
  | 0, _, _, _, _ => .timeout
  | fuel + 1, gen, s, w, record => do
    let e ← swarmEvaluate u h s.swarm w
    let s ← updatePGBest opt { s with swarm := e.1 }
    if gen + 1 > maxGen then .ok ⟨s, gen, record ++ [s.gBest.fitness], e.2⟩
    else if maxFail > 0 ∧ s.fail > maxFail then .ok ⟨s, gen, record ++ [s.gBest.fitness], e.2⟩
    else
      let m := swarmMove h s.gBest.position s.swarm e.2
      swarmLoop opt u h maxGen maxFail fuel (gen + 1) { s with swarm := m.1 } m.2 (record ++ [s.gBest.fitness])

/-- `__impl_run`, `PSO/PSOAbstrcat.hpp` lines 233-267. -/
def swarmRun [LT F] [DecidableLT F] (opt : FitnessOption) (u : SwarmFns V F ω) (h : SwarmHost V F ω)
    (maxGen maxFail : Nat) (s : PSOState V F) (w : ω) : Out (SwarmResult V F ω) :=
  swarmLoop opt u h maxGen maxFail (maxGen + 1) 0 { s with fail := 0 } w []

end

/-- The move of the library, `PSO/PSO4Eigen.hpp` lines 91-107: two draws of the generator for each particle, then
`Heu.moveParticle`. -/
def swarmHost {α F ω : Type} [Add α] [Sub α] [Mul α] [Neg α] [LT α] [DecidableLT α] (b : PSOBox α) (o : PSOFactors α)
    (rnd : ω → α × ω) (order : List Nat → List Nat) : SwarmHost (List α) F ω where
  move g p w := (moveParticle b o g (rnd w).1 (rnd (rnd w).2).1 p, (rnd (rnd w).2).2)
  order := order

end Heu
