import Verif.Spec.MORun
import Verif.Spec.NSGA3Fl
import Mathlib.Algebra.Order.Group.Unbundled.Abs

/-!
# Specification vocabulary for whole multi-objective runs on IEEE data
-/

namespace Heu.Spec

variable {V α : Type} {m : Nat}

/-- Nobody in `pop` is related to `x` by `D` ("dominates"). -/
def NonDominatedBy {G : Type} (D : (Fin m → α) → (Fin m → α) → Prop) (fit : G → Fin m → α) (pop : List G) (x : G) : Prop :=
  ∀ y ∈ pop, ¬ D (fit y) (fit x)

open Classical in
/-- `front` lists the objective vectors of those among `xs` nobody is related to by `D` ("dominates"), once for each
of them, in some order. -/
def IsFrontBy (D : (Fin m → α) → (Fin m → α) → Prop) (f : V → Fin m → α) (xs : List V)
    (front : List (Fin m → α)) : Prop :=
  front.Perm ((xs.filter fun x => ∀ z ∈ xs, ¬ D (f z) (f x)).map f)

/-- `best j` is a value of objective `j` somebody in `pop` has, and nobody has a better one. -/
def IsIdealFl (F : Fmt) (o : FitnessOption) (f : V → Fin m → Fl) (pop : List V) (best : Fin m → Fl) : Prop :=
  ∀ j, (∃ x ∈ pop, best j = f x j) ∧ ∀ x ∈ pop, ¬ Better o (extended F (f x j)) (extended F (best j))

/-- What `max` (`min` when minimising) does with two numbers: one of them, and not the worse one.  Nothing is said
about NaN. -/
def PicksBetter (F : Fmt) (o : FitnessOption) (pick : Fl → Fl → Fl) : Prop :=
  ∀ a b, a ≠ .nan → b ≠ .nan → (pick a b = a ∨ pick a b = b) ∧
    ¬ Better o (extended F a) (extended F (pick a b)) ∧ ¬ Better o (extended F b) (extended F (pick a b))

/-- A value NSGA-II can digest: a number below `2^1023` in absolute value. -/
def ModerateFl (y : Fin m → Fl) : Prop := ∀ j, (y j).Finite binary64 ∧ |(y j).number binary64| < 2 ^ 1023

end Heu.Spec
