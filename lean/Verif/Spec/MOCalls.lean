import Verif.Spec.Calls
import Verif.Spec.MORunFl
import Verif.Model.MOCalls

/-!
# Specification: multi-objective runs with user functions that have side effects
-/

namespace Heu.Spec

section
variable {κ V ω F : Type}

/-- Shuffling permutes, and every task of the evaluation loop is done once. -/
structure FairRest (R : Rest κ V F ω) : Prop where
  shuffle : ∀ l w, (R.shuffle l w).1.Perm l
  order : ∀ l, (R.order l).Perm l
end

section
variable {V α ω : Type} {m : Nat}

/-- `paretoFront(front)` called after a run; `order` is the iteration order of the hash set. -/
def reportedFront (order : Finset Addr → List Addr)
    (r : CallsResult V (Fin m → α) ω (Finset Addr × Nat) (Fin m → α)) : Out (List (Fin m → α)) :=
  paretoFront order { pop := r.pop, pf := r.rest.1, fail := r.rest.2 }

/-- every member once -/
def Iterates (order : Finset Addr → List Addr) : Prop := ∀ S, (order S).Nodup ∧ ∀ a, a ∈ order S ↔ a ∈ S

/-- everything the fitness function has returned: to the individuals that had a value at the start, and in the calls of
the log -/
def returned (pop : Pop (Gene V (Fin m → α))) (log : List (UserCall V (Fin m → α))) : List (Fin m → α) :=
  (valuedPop pop ++ values log).map (·.2)

/-- Some member of `front` matches or dominates each of `ys`. -/
def Covers (D : (Fin m → α) → (Fin m → α) → Prop) (front ys : List (Fin m → α)) : Prop :=
  ∀ y ∈ ys, ∃ z ∈ front, z = y ∨ D z y

end
end Heu.Spec
