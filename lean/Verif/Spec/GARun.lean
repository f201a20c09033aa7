import Verif.Model.GA

/-!
# Specification vocabulary for GA runs

`stateAfter` says, without the main loop's bookkeeping, which state the solver is in after the `i`-th
selection of an unbounded run: evaluate and select, and between two selections crossover and mutate.
-/

namespace Heu.Spec

/-- State after the `i`-th (counted from 0) selection when the run is not stopped before. -/
def stateAfter {σ R : Type} (S : GASolver σ R) (s : σ) : Nat → Out σ
  | 0 => S.select 1 (S.computeAllFitness (S.resetFailTimes s))
  | i + 1 => stateAfter S s i >>= fun t =>
      S.select (i + 2) (S.computeAllFitness (S.mutate (i + 1) (S.crossover (i + 1) t)))

/-- The user asked to stop after too many failures and this state has more. -/
def TooManyFails {σ R : Type} (S : GASolver σ R) (maxFailTimes : Nat) (s : σ) : Prop :=
  0 < maxFailTimes ∧ maxFailTimes < S.failTimes s

end Heu.Spec

namespace Heu.Spec

variable {V F : Type}

/-- A new, not yet evaluated individual. -/
def unevaluated (junk : F) (v : V) : Gene V F := { var := v, fitness := junk, computed := false }

/-- The children of a list of couples, two per couple; `cx i` is the `i`-th call of the crossover
function. -/
def offspring (junk : F) (cx : Nat → V → V → V × V) :
    Nat → List (Cell (Gene V F) × Cell (Gene V F)) → List (Gene V F)
  | _, [] => []
  | i, (a, b) :: couples =>
    unevaluated junk (cx i a.2.var b.2.var).1 :: unevaluated junk (cx i a.2.var b.2.var).2 ::
      offspring junk cx (i + 1) couples

/-- An individual marked as evaluated carries the value of the fitness function. -/
def CacheCorrect (f : V → F) (pop : Pop (Gene V F)) : Prop :=
  ∀ c ∈ pop, c.2.computed = true → c.2.fitness = f c.2.var

end Heu.Spec
