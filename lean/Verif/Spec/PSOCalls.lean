import Verif.Model.PSOCalls
import Verif.Spec.Pareto

/-!
# Specification: calls of the user's functions by a particle swarm
-/

namespace Heu.Spec

/-- One call: what it got and what it returned (the initialiser works on position and velocity). -/
inductive SwarmCall (V F : Type) where
  | ini (before after : V × V)
  | fit (x : V) (y : F)
  deriving DecidableEq, Repr

section
variable {V F ω : Type}

def SwarmCall.valued : SwarmCall V F → List (V × F)
  | .fit x y => [(x, y)]
  | _ => []
def SwarmCall.isIni : SwarmCall V F → Bool | .ini _ _ => true | _ => false
def SwarmCall.isFit : SwarmCall V F → Bool | .fit _ _ => true | _ => false

/-- all values given in a piece of the log, in order -/
def swarmValues (l : List (SwarmCall V F)) : List (V × F) := l.flatMap SwarmCall.valued

/-- the user's functions, wrapped: every call is written down -/
def swarmLogged (u : SwarmFns V F ω) : SwarmFns V F (ω × List (SwarmCall V F)) where
  ini v s := ((u.ini v s.1).1, ((u.ini v s.1).2, s.2 ++ [.ini v (u.ini v s.1).1]))
  fit v f s := ((u.fit v f s.1).1, ((u.fit v f s.1).2, s.2 ++ [.fit v (u.fit v f s.1).1]))

/-- everything else neither sees nor changes the log -/
def swarmUnaware (h : SwarmHost V F ω) : SwarmHost V F (ω × List (SwarmCall V F)) where
  move g p s := ((h.move g p s.1).1, ((h.move g p s.1).2, s.2))
  order := h.order

/-- the result without the log -/
def swarmForget (r : SwarmResult V F (ω × List (SwarmCall V F))) : SwarmResult V F ω :=
  { state := r.state, generation := r.generation, record := r.record, world := r.world.1 }

/-- What is assumed of the rest: every particle is evaluated once in every generation, and a move changes position and
velocity only. -/
structure FairSwarm (h : SwarmHost V F ω) : Prop where
  order : ∀ l, (h.order l).Perm l
  move : ∀ g p w, (h.move g p w).1.pBest = p.pBest ∧ (h.move g p w).1.fitness = p.fitness

/-- `y` is one of the values and none is better. -/
def IsBestOf [LinearOrder F] (opt : FitnessOption) (vals : List (V × F)) (y : F) : Prop :=
  (∃ x, (x, y) ∈ vals) ∧ ∀ v ∈ vals, ¬ Better opt v.2 y

/-- A sequence of runs, each with its own limits. -/
def swarmRuns [LT F] [DecidableLT F] (opt : FitnessOption) (u : SwarmFns V F ω) (h : SwarmHost V F ω) :
    List (Nat × Nat) → PSOState V F × ω → Out (PSOState V F × ω)
  | [], s => .ok s
  | o :: os, s => (swarmRun opt u h o.1 o.2 s.1 s.2).bind fun r => swarmRuns opt u h os (r.state, r.world)

end

end Heu.Spec
