import Verif.Model.Calls

/-!
# Specification: calls of the user's functions during a run

A log of all calls (arguments and results), and what the log of a run has to look like.  The log is written by wrappers
around the user's functions; nothing else can see it.
-/

namespace Heu.Spec

/-- One call of a user function: what it got and what it returned. -/
inductive UserCall (V F : Type) where
  | ini (before after : V)
  | fit (x : V) (y : F)
  | cross (p q c d : V)
  | muta (s d : V)
  deriving DecidableEq, Repr

section
variable {κ V F ω τ R : Type}

/-- the candidates a call makes -/
def UserCall.created : UserCall V F → List V
  | .ini _ a => [a]
  | .fit _ _ => []
  | .cross _ _ c d => [c, d]
  | .muta _ d => [d]

/-- the candidates a call starts from -/
def UserCall.parents : UserCall V F → List V
  | .cross p q _ _ => [p, q]
  | .muta s _ => [s]
  | _ => []

/-- the value a call of the fitness function gives to a candidate -/
def UserCall.valued : UserCall V F → List (V × F)
  | .fit x y => [(x, y)]
  | _ => []

def UserCall.isIni : UserCall V F → Bool | .ini _ _ => true | _ => false
def UserCall.isFit : UserCall V F → Bool | .fit _ _ => true | _ => false
def UserCall.isCross : UserCall V F → Bool | .cross _ _ _ _ => true | _ => false
def UserCall.isMut : UserCall V F → Bool | .muta _ _ => true | _ => false

/-- all candidates made in a piece of the log, in order -/
def made (l : List (UserCall V F)) : List V := l.flatMap UserCall.created
/-- all values given in a piece of the log, in order -/
def values (l : List (UserCall V F)) : List (V × F) := l.flatMap UserCall.valued

/-- The calls of a run.  `known`: candidates with the value they got; `new`: candidates that have none yet; one entry
of the list of numbers per generation that goes on, the number of survivors of its selection.

Every generation begins with one call of the fitness function for each new candidate (`Match` says in which order) and
no other.  If the run goes on, crossover is called on candidates that have a value, at most `k / 2` times, then mutation
on these or on the children just made, at most once for each; the candidates made by these calls are the new ones. -/
inductive RunLog (Match : List V → List V → Prop) : List (V × F) → List V → List Nat → List (UserCall V F) → Prop
  | last {known new fs} : (∀ e ∈ fs, e.isFit) → Match ((values fs).map (·.1)) new → RunLog Match known new [] fs
  | step {known new fs cs ms ks rest} (k : Nat) :
      (∀ e ∈ fs, e.isFit) → Match ((values fs).map (·.1)) new →
      (∀ e ∈ cs, e.isCross) → (∀ e ∈ cs, ∀ p ∈ e.parents, p ∈ (known ++ values fs).map (·.1)) →
      2 * cs.length ≤ k →
      (∀ e ∈ ms, e.isMut) → (∀ e ∈ ms, ∀ p ∈ e.parents, p ∈ (known ++ values fs).map (·.1) ++ made cs) →
      ms.length ≤ k + 2 * cs.length →
      RunLog Match (known ++ values fs) (made cs ++ made ms) ks rest →
      RunLog Match known new (k :: ks) (fs ++ cs ++ ms ++ rest)

/-- the user's functions, wrapped: every call is written down -/
def logged (u : UserFns V F ω) : UserFns V F (ω × List (UserCall V F)) where
  ini v s := ((u.ini v s.1).1, ((u.ini v s.1).2, s.2 ++ [.ini v (u.ini v s.1).1]))
  fit v f s := ((u.fit v f s.1).1, ((u.fit v f s.1).2, s.2 ++ [.fit v (u.fit v f s.1).1]))
  cross p q s := ((u.cross p q s.1).1,
    ((u.cross p q s.1).2, s.2 ++ [.cross p q (u.cross p q s.1).1.1 (u.cross p q s.1).1.2]))
  muta v s := ((u.muta v s.1).1, ((u.muta v s.1).2, s.2 ++ [.muta v (u.muta v s.1).1]))

/-- everything else neither sees nor changes the log -/
def unaware (h : GAHost κ V F ω τ R) : GAHost κ V F (ω × List (UserCall V F)) τ R where
  rnd s := ((h.rnd s.1).1, ((h.rnd s.1).2, s.2))
  shuffle l s := ((h.shuffle l s.1).1, ((h.shuffle l s.1).2, s.2))
  select pop t s := (h.select pop t s.1).bind fun r => .ok (r.1, (r.2, s.2))
  bestFitness := h.bestFitness
  failTimes := h.failTimes
  resetFail := h.resetFail
  order := h.order
  junk := h.junk

/-- the result without the log -/
def forgetLog (r : CallsResult V F (ω × List (UserCall V F)) τ R) : CallsResult V F ω τ R :=
  { pop := r.pop, rest := r.rest, generation := r.generation, record := r.record, world := r.world.1 }

/-- The candidates of a population that have a value, and those that have none. -/
def valuedPop (pop : Pop (Gene V F)) : List (V × F) :=
  (pop.filter fun c => c.2.computed).map fun c => (c.2.var, c.2.fitness)
def unvaluedPop (pop : Pop (Gene V F)) : List V := (pop.filter fun c => !c.2.computed).map fun c => c.2.var

/-- What is assumed of the rest: shuffling permutes, the tasks are all done, each once, and selection only keeps
individuals (they may change places), in different nodes. -/
structure FairHost (h : GAHost κ V F ω τ R) : Prop where
  shuffle : ∀ l w, (h.shuffle l w).1.Perm l
  order : ∀ l, (h.order l).Perm l
  select : ∀ pop t w r, (pop.map (·.1)).Nodup → h.select pop t w = .ok r →
    (r.1.1.map (·.1)).Nodup ∧ ∀ c' ∈ r.1.1, ∃ c ∈ pop, c.2 = c'.2

end

end Heu.Spec
