import Verif.Model.AOSCopy
import Verif.Spec.AOSFull

/-!
# Specification: several AOS objects, copies of each other
-/

namespace Heu

/-- No objects yet. -/
def AOSWorld.empty {A α : Type} : AOSWorld A α := ⟨0, 0, fun _ => none⟩

namespace Spec

section
variable {A α : Type}

/-- The pointers of the object lead into its own list. -/
def AOSHeld.Owns (x : AOSHeld A α) : Prop := x.ptr = some x.nodes

/-- The call this event makes on object `i`, if it does. -/
def AOSWorldCall.callOn? (i : Nat) : AOSWorldCall A α → Option (AOSFullCall A α)
  | .call j c => if j = i then some c else none
  | _ => none

/-- This event destroys object `i`, assigns something to it, or moves from it. -/
def AOSWorldCall.Replaces (i : Nat) (c : AOSWorldCall A α) : Prop :=
  c = .destroy i ∨ (∃ j, c = .assign i j) ∨ (∃ j bs a, c = .moveAssign i j bs a) ∨ (∃ bs a, c = .move i bs a) ∨
    ∃ j bs a, c = .moveAssign j i bs a

/-- This event replaces object `i`, or initialises or runs it. -/
def AOSWorldCall.Touches (i : Nat) (c : AOSWorldCall A α) : Prop :=
  AOSWorldCall.Replaces i c ∨ (∃ u b, c = .call i (.initializePop u b)) ∨ ∃ env, c = .call i (.run env)

/-- This event erases all electrons of object `i`: it destroys it, assigns another object to it, or initialises it. -/
def AOSWorldCall.Erases (i : Nat) (c : AOSWorldCall A α) : Prop :=
  c = .destroy i ∨ (∃ j, j ≠ i ∧ c = .assign i j) ∨ (∃ j bs a, c = .moveAssign i j bs a) ∨
    ∃ u b, c = .call i (.initializePop u b)

/-- The electrons the layers of an object refer to, if its pointers lead into its own list. -/
def ownLayers (x : AOSFull A α) : Out (List (List (Gene (List α) α))) :=
  x.st.layers.mapM fun l => l.members.mapM fun a => deref x.st.electrons a

end
end Spec
end Heu
