import Verif.Model.GACopy

/-!
# Specification: several solver objects, copies of each other
-/

namespace Heu

/-- No objects yet. -/
def World.empty {O : Type} : World O := ⟨0, fun _ => none⟩

namespace Spec

section soga
variable {κ A Ω V α : Type}

/-- The call this event makes on object `i`, if it does. -/
def SOGAWorldCall.callOn? (i : Nat) : SOGAWorldCall κ A Ω V α → Option (SOGAFullCall κ A Ω V α)
  | .call j c => if j = i then some c else none
  | _ => none

/-- This event replaces or destroys object `i`. -/
def SOGAWorldCall.Replaces (i : Nat) (c : SOGAWorldCall κ A Ω V α) : Prop := c = .destroy i ∨ ∃ j, c = .assign i j

/-- This event replaces or destroys object `i`, or initialises or runs it. -/
def SOGAWorldCall.Touches (i : Nat) (c : SOGAWorldCall κ A Ω V α) : Prop :=
  SOGAWorldCall.Replaces i c ∨ (∃ u b, c = .call i (.initializePop u b)) ∨ ∃ e d, c = .call i (.run e d)

/-- This event erases individuals of object `i`: it destroys it, assigns another object to it, runs it, or initialises it
when `populationSize` is below the number of its individuals. -/
def SOGAWorldCall.Erases (w : World (SOGAFull κ A Ω V α)) (i : Nat) (c : SOGAWorldCall κ A Ω V α) : Prop :=
  c = .destroy i ∨ (∃ j, j ≠ i ∧ c = .assign i j) ∨ (∃ e d, c = .call i (.run e d)) ∨
    ∃ u b x, c = .call i (.initializePop u b) ∧ w.objs i = some x ∧ x.obj.core.K < x.obj.st.pop.length

end soga

section mo
variable {κ A Ω V α : Type} {m : Nat}

/-- The call this event makes on object `i`, if it does. -/
def MOWorldCall.callOn? (i : Nat) : MOWorldCall κ A Ω V m α → Option (MOFullCall κ A Ω V m α)
  | .call j c => if j = i then some c else none
  | _ => none

/-- This event replaces or destroys object `i`. -/
def MOWorldCall.Replaces (i : Nat) (c : MOWorldCall κ A Ω V m α) : Prop := c = .destroy i ∨ ∃ j, c = .assign i j

/-- This event replaces or destroys object `i`, or initialises or runs it. -/
def MOWorldCall.Touches (i : Nat) (c : MOWorldCall κ A Ω V m α) : Prop :=
  MOWorldCall.Replaces i c ∨ (∃ u b, c = .call i (.initializePop u b)) ∨ ∃ e d, c = .call i (.run e d)

/-- This event erases individuals of object `i`: it destroys it, assigns another object to it, runs it, or initialises it
when `populationSize` is below the number of its individuals. -/
def MOWorldCall.Erases (w : World (MOFull κ A Ω V m α)) (i : Nat) (c : MOWorldCall κ A Ω V m α) : Prop :=
  c = .destroy i ∨ (∃ j, j ≠ i ∧ c = .assign i j) ∨ (∃ e d, c = .call i (.run e d)) ∨
    ∃ u b x, c = .call i (.initializePop u b) ∧ w.objs i = some x ∧ x.obj.core.K < x.obj.st.pop.length

end mo

end Spec

end Heu
