import Verif.Spec.IEEE
import Verif.Spec.Pareto
import Verif.Model.NSGA2Fl
import Mathlib.Order.WithBot
import Mathlib.Data.Rat.Defs
import Mathlib.Algebra.Order.Field.Rat

/-!
# Specification vocabulary for multi-objective selection on IEEE data

Independent of the selection model: only `Fl.number` (the rational a finite datum denotes) is used.
-/

namespace Heu.Spec

variable {G : Type} {m : Nat}

/-- The extended rational a datum denotes (`⊥`/`⊤` are the infinities; NaN denotes nothing and is mapped to
0, it is excluded wherever this is used). -/
def extended (F : Fmt) : Fl → WithBot (WithTop ℚ)
  | .nan => 0
  | .inf true => ⊥
  | .inf false => ((⊤ : WithTop ℚ) : WithBot (WithTop ℚ))
  | .fin s n => (((Fl.number F (.fin s n) : ℚ) : WithTop ℚ) : WithBot (WithTop ℚ))

/-- Dominance of vectors of `double`s: no component of either is NaN, `A` is nowhere worse and somewhere
better. -/
def DominatesFl (F : Fmt) (o : FitnessOption) (A B : Fin m → Fl) : Prop :=
  (∀ i, A i ≠ .nan ∧ B i ≠ .nan) ∧
  Dominates o (fun i => extended F (A i)) (fun i => extended F (B i))

/-- Nobody in `pop` dominates `x`. -/
def NonDominatedFl (F : Fmt) (o : FitnessOption) (fit : G → Fin m → Fl) (pop : List G) (x : G) : Prop :=
  ∀ y ∈ pop, ¬ DominatesFl F o (fit y) (fit x)

/-- `n` is the number of members of `pop` that dominate `x`. -/
def DominatorCountFl (F : Fmt) (o : FitnessOption) (fit : G → Fin m → Fl) (pop : List G) (x : G) (n : Nat) :
    Prop :=
  ∃ ds : List G, ds.Sublist pop ∧ (∀ y ∈ ds, DominatesFl F o (fit y) (fit x)) ∧ ds.length = n ∧
    ∀ ds' : List G, ds'.Sublist pop → (∀ y ∈ ds', DominatesFl F o (fit y) (fit x)) → ds'.length ≤ n

/-- One objective `f` turns the crowding value `c` of `g` into `c'`, in an arrangement `arr` of the
population by that objective: infinite at both ends, otherwise the rounded distance between the two
neighbours relative to the rounded total range is added. -/
structure CongestionStepFl (F : Fmt) (f : G → Fl) (eps : Fl) (arr : List G) (g : G) (c c' : Fl) : Prop where
  ends : arr.head? = some g ∨ arr.getLast? = some g → c' = .inf false
  inner : ∀ (i : Nat) (p q a z : G), arr[i]? = some p → arr[i + 1]? = some g →
    arr[i + 2]? = some q → arr.head? = some a → arr.getLast? = some z →
    c' = c.add F (((Fl.sub F (f p) (f q)).abs).div F ((Fl.sub F (f a) (f z)).abs.add F eps))

/-- From the crowding values `c` to `c'` through a list of objectives, one after the other, each in an
arrangement of the population in which no later value is less than an earlier one. -/
inductive CrowdingSteps (F : Fmt) (fit : G → Fin m → Fl) (eps : Fl) (pop : List G) :
    List (Fin m) → (G → Fl) → (G → Fl) → Prop
  | nil (c : G → Fl) : CrowdingSteps F fit eps pop [] c c
  | cons (j : Fin m) (js : List (Fin m)) (arr : List G) (c c' c'' : G → Fl) :
      arr.Perm pop → arr.Pairwise (fun a b => Fl.lt (fit b j) (fit a j) = false) →
      (∀ g ∈ pop, CongestionStepFl F (fun x => fit x j) eps arr g (c g) (c' g)) →
      CrowdingSteps F fit eps pop js c' c'' → CrowdingSteps F fit eps pop (j :: js) c c''

/-- `cong` is a crowding measure of the population: starting from 0, one step per objective. -/
def IsCongestionFl (F : Fmt) (fit : G → Fin m → Fl) (eps : Fl) (pop : List G) (cong : G → Fl) : Prop :=
  CrowdingSteps F fit eps pop (List.finRange m) (fun _ => .fin false 0) cong

end Heu.Spec
