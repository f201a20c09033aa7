import Verif.Model.Pareto
import Verif.Spec.Pareto
import Mathlib.Data.Fin.VecNotation

/-!
# C16 – Pareto dominance is a strict partial order
-/

namespace Heu

variable {α : Type*} [LinearOrder α] {m : Nat}

/-- C16: the code's test is the textbook notion of dominance. -/
theorem isStrongDominate_iff (o : FitnessOption) (A B : Fin m → α) :
    isStrongDominate o A B = true ↔ Spec.Dominates o A B := by
  cases o <;> simp [isStrongDominate, Spec.Dominates, Spec.Better]

/-- C16: nothing dominates itself. -/
theorem dominate_irrefl (o : FitnessOption) (A : Fin m → α) :
    isStrongDominate o A A = false := by
  cases o <;> simp [isStrongDominate]

/-- C16: dominance is transitive. -/
theorem dominate_trans (o : FitnessOption) (A B C : Fin m → α)
    (h₁ : isStrongDominate o A B = true) (h₂ : isStrongDominate o B C = true) :
    isStrongDominate o A C = true := by
  rw [isStrongDominate_iff] at *
  obtain ⟨n₁, i, hi⟩ := h₁
  obtain ⟨n₂, _, _⟩ := h₂
  cases o with
  | lessBetter =>
    simp only [Spec.Dominates, Spec.Better, not_lt] at *
    exact ⟨fun j => le_trans (n₁ j) (n₂ j), i, lt_of_lt_of_le hi (n₂ i)⟩
  | greaterBetter =>
    simp only [Spec.Dominates, Spec.Better, not_lt] at *
    exact ⟨fun j => le_trans (n₂ j) (n₁ j), i, lt_of_le_of_lt (n₂ i) hi⟩

/-- C16: two individuals never dominate each other. -/
theorem dominate_asymm (o : FitnessOption) (A B : Fin m → α)
    (h : isStrongDominate o A B = true) : isStrongDominate o B A = false := by
  by_contra h'
  have h' : isStrongDominate o B A = true := by simpa using h'
  have := dominate_trans o A B A h h'
  rw [dominate_irrefl] at this
  exact Bool.noConfusion this

/-- Non-vacuity: a chain of three, in both directions. -/
example : isStrongDominate (α := Nat) .lessBetter ![1, 2] ![1, 3] = true ∧
    isStrongDominate (α := Nat) .lessBetter ![1, 3] ![4, 3] = true ∧
    isStrongDominate (α := Nat) .greaterBetter ![1, 3] ![1, 2] = true ∧
    isStrongDominate (α := Nat) .greaterBetter ![1, 3] ![3, 1] = false := by decide

end Heu
