import Verif.Model.AOS
import Verif.Spec.Box
import Verif.Spec.GARun
import Verif.Spec.SOSelection

/-!
# Specification vocabulary for atomic orbital search
-/

namespace Heu.Spec

section
variable {α : Type} [Field α] [LinearOrder α] [FloorSemiring α]

/-- State after the `i`-th (counted from 0) evaluation of all electrons when the run is not stopped
before: between two evaluations, the electrons are selected and put into layers, and get children. -/
def aosEval (impl : AOSImpl) (opt : FitnessOption) (o : AOSOption) (b : Box α) (f : List α → α)
    (env : Nat → AOSEnv α) (s : AOSState α) : Nat → Out (AOSState α)
  | 0 => aosEvaluate opt f s
  | i + 1 => aosEval impl opt o b f env s i >>= fun t =>
      selectAndMakeLayers opt o (env i).sort (env i).layerNum (env i).gauss t >>= fun u =>
        aosChildren impl opt b (env i) u >>= aosEvaluate opt f

end

section
variable {α : Type} [LinearOrder α]

/-- The energy of an electron. -/
def energy (g : Gene (List α) α) : α := g.fitness

/-- `e` is the energy of a member of the population, and no member has a better one. -/
def BestEnergy (opt : FitnessOption) (pop : Pop (Gene (List α) α)) (e : α) : Prop :=
  (∃ c ∈ pop, c.2.fitness = e) ∧ ∀ c ∈ pop, ¬ Better opt c.2.fitness e

/-- Number of members whose energy no member beats. -/
def tiedForBest (opt : FitnessOption) [∀ a b : α, Decidable (Better opt a b)]
    (pop : Pop (Gene (List α) α)) : Nat :=
  (pop.filter fun c => decide (∀ d ∈ pop, ¬ Better opt d.2.fitness c.2.fitness)).length

end

instance {α : Type} [LinearOrder α] (o : FitnessOption) (a b : α) : Decidable (Better o a b) := by
  cases o <;> unfold Better <;> infer_instance

/-- The electrons planned for the first `j + 1` layers: the cumulative counts, at most `n`. -/
def planned (n : Nat) (counts : List Nat) (j : Nat) : Nat := min ((counts.take (j + 1)).sum) n

/-- The plan has no room for all `n` electrons: even when each layer after the `j`-th takes one electron,
some are left over, whatever `j`. -/
def PlanTooSmall (n : Nat) (counts : List Nat) : Prop :=
  ∀ j, j < counts.length → planned n counts j + (counts.length - 1 - j) < n

/-- Layers: consecutive non-empty parts of a list. -/
def ConsecutiveParts {β : Type} (parts : List (List β)) (l : List β) : Prop :=
  parts.flatten = l ∧ ∀ p ∈ parts, p ≠ []

/-- Arithmetic mean of a list. -/
def mean {α : Type} [Field α] (l : List α) : α := l.sum / (l.length : α)

/-- The vector whose entries are the means of the entries of the given vectors. -/
def IsMeanVector {α : Type} [Field α] (dim : Nat) (m : List α) (vs : List (List α)) : Prop :=
  m.length = dim ∧ ∀ i, i < dim → m.getD i 0 = mean (vs.map fun v => v.getD i 0)

/-- `y` is the point of the interval nearest to `t`. -/
def Nearest {α : Type} [Field α] [LinearOrder α] (lo hi t y : α) : Prop :=
  lo ≤ y ∧ y ≤ hi ∧ ∀ z, lo ≤ z → z ≤ hi → |y - t| ≤ |z - t|

/-- A photon moved an electron from `parent` to `child`: in each coordinate the target is the parent plus
`a * (b * best - c * mean) / k`, and the child is the point of the box nearest to the target. -/
def PhotonMove {α : Type} [Field α] [LinearOrder α] (box : Box α) (a b c : Nat → α) (k : α)
    (best mean parent child : List α) : Prop :=
  child.length = box.dim ∧ ∀ i, i < box.dim → Nearest (box.min i) (box.max i)
    (parent.getD i 0 + a i * (b i * best.getD i 0 - c i * mean.getD i 0) / k) (child.getD i 0)

end Heu.Spec
