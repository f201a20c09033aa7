import Verif.Spec.NSGA2Fl
import Verif.Spec.SOSelection
import Verif.Model.SOGAFl

/-!
# Specification vocabulary for single-objective selection on IEEE data
-/

namespace Heu.Spec

variable {γ : Type}

/-- A double that is neither NaN nor infinite and whose magnitude is at most `2^e`. -/
def AtMost (F : Fmt) (e : Nat) (x : Dbl F) : Prop := x.val.Finite F ∧ |x.val.number F| ≤ 2 ^ e

/-- A result of `randD()`: a double in `[0, 1)` (and not `-0`). -/
def Uniform01 (F : Fmt) (x : Dbl F) : Prop :=
  x.val.Finite F ∧ (∃ n, x.val = .fin false n) ∧ x.val.number F < 1

/-- The worst value there is: `+inf` when minimising, `-inf` when maximising. -/
def worstPossible : FitnessOption → Fl
  | .lessBetter => .inf false
  | .greaterBetter => .inf true

/-- The best value there is. -/
def bestPossible : FitnessOption → Fl
  | .lessBetter => .inf true
  | .greaterBetter => .inf false

/-- What a selection must achieve besides the size: every survivor is a copy of a member, the reported best is
alive and no survivor beats it, and the counter of fruitless generations is reset exactly when the best got
strictly better.  The order is that of the extended rationals the doubles denote. -/
structure SelectedFl (F : Fmt) (o : FitnessOption) (fit : γ → Dbl F) (s s' : SOState γ) : Prop where
  copies : ∀ c' ∈ s'.pop, ∃ c ∈ s.pop, c.2 = c'.2
  best : ∃ c, c.1 = s'.best ∧ Unbeaten o (fun g => extended F (fit g).val) s'.pop c
  fail : ∃ new old, (s'.best, new) ∈ s'.pop ∧ (s.best, old) ∈ s.pop ∧
    (Better o (extended F (fit new).val) (extended F (fit old).val) → s'.fail = 0) ∧
    (¬ Better o (extended F (fit new).val) (extended F (fit old).val) → s'.fail = s.fail + 1)

end Heu.Spec
