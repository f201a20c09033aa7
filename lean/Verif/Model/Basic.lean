/-!
# Common vocabulary of the models

`Out` is the outcome of running a piece of C++ code in the model:

* `ok a`      – the code finished with result `a`;
* `ub`        – the code performed an operation with undefined behaviour (dereferencing the end
                iterator, `front()` of an empty container, use after erase, out-of-range access);
* `timeout`   – the loop did not finish within the given number of iterations (only used by
                fuelled models of `while` loops; termination theorems say it does not occur).
-/

universe u

namespace Heu

/-- Outcome of a piece of modelled code (see the header of this file).  Not itself C++ code.
(No lines of the repository.) -/
inductive Out (α : Type u) where
  | ok (a : α)
  | ub
  | timeout
  deriving DecidableEq, Repr

namespace Out

variable {α β : Type u}

/-- Sequencing: undefined behaviour and non-termination propagate.  (Glue; no lines of the repository.) -/
def bind : Out α → (α → Out β) → Out β
  | ok a, f => f a
  | ub, _ => ub
  | timeout, _ => timeout

instance : Monad Out where
  pure := ok
  bind := bind

@[simp] theorem pure_eq (a : α) : (pure a : Out α) = ok a := rfl
@[simp] theorem ok_bind (a : α) (f : α → Out β) : (ok a >>= f) = f a := rfl
@[simp] theorem ub_bind (f : α → Out β) : ((ub : Out α) >>= f) = ub := rfl
@[simp] theorem timeout_bind (f : α → Out β) : ((timeout : Out α) >>= f) = timeout := rfl

/-- The code finished and its result passes the test `p` (used in examples).  (Glue; no lines of the repository.) -/
def satisfies (x : Out α) (p : α → Bool) : Bool :=
  match x with
  | ok a => p a
  | _ => false

theorem bind_eq_ok {x : Out α} {f : α → Out β} {b : β} :
    (x >>= f) = ok b ↔ ∃ a, x = ok a ∧ f a = ok b := by
  cases x <;> simp

end Out

/-- `while` loop with fuel.  `step s = ok none` means the loop condition is false / `break`;
`step s = ok (some s')` is one more iteration.  (Glue; the loops it is used for cite their lines.) -/
def loopN {σ : Type u} (step : σ → Out (Option σ)) : Nat → σ → Out σ
  | 0, s => match step s with
    | .ok none => .ok s
    | .ok (some _) => .timeout
    | .ub => .ub
    | .timeout => .timeout
  | n + 1, s => match step s with
    | .ok none => .ok s
    | .ok (some s') => loopN step n s'
    | .ub => .ub
    | .timeout => .timeout

/-- Optimisation direction, `HeuristicFlow/src/Global/Enumerations.hpp` lines 67-70
(`FITNESS_LESS_BETTER`, `FITNESS_GREATER_BETTER`). -/
inductive FitnessOption where
  | lessBetter
  | greaterBetter
  deriving DecidableEq, Repr

end Heu
