import Verif.Spec.SOSelection

namespace Heu
open Spec

variable {α : Type} [LinearOrder α] (o : FitnessOption)

theorem go_append [∀ a b : α, Decidable (Better o a b)] (p : α) (l : List α) (b : α) (n : Nat) :
    trailingFails.go o p (l ++ [b]) n =
      if Better o b ((p :: l).getLast (by simp)) then 0 else trailingFails.go o p l n + 1 := by
  induction l generalizing p n with
  | nil => rfl
  | cons x l ih =>
    simp only [List.cons_append, trailingFails.go]
    rw [ih]
    simp

theorem trailingFails_append [∀ a b : α, Decidable (Better o a b)] (p : α) (l : List α) (b q : α)
    (hq : (p :: l).getLast (by simp) = q) :
    (Better o b q → trailingFails o p (l ++ [b]) = 0) ∧
    (¬ Better o b q → trailingFails o p (l ++ [b]) = trailingFails o p l + 1) := by
  subst hq
  have e1 : ∀ l : List α, trailingFails o p l = trailingFails.go o p l 0 := by
    intro l; cases l <;> rfl
  rw [e1, e1, go_append]
  exact ⟨fun h => if_pos h, fun h => if_neg h⟩

end Heu
