import Verif.Spec.Box

/-!
# Specification: which boxes an integer scalar type has room for
-/

namespace Heu.Spec

/-- The type has room for the box: one step beyond either bound, and the number of values, are
representable in the scalar type. -/
def RoomFor (T : IntT) (b : Box Int) : Prop :=
  1 ≤ T.bits ∧ T.bits ≤ 64 ∧ ∀ i, i < b.dim →
    T.lo ≤ b.min i - 1 ∧ b.max i + 1 ≤ T.hi ∧ b.max i + 1 - b.min i ≤ T.hi

end Heu.Spec
