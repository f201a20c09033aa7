import Verif.Model.Traits

/-!
# What the compile-time traits of a container ought to say

Stated through the objects a container type has, not through its template parameters.
-/

namespace Heu.Spec

/-- The element type the user wrote. -/
def element : CType → Elem
  | .vector e => e
  | .array e _ => e
  | .eigen e _ _ => e

/-- `HasShape t r c`: some object of the container type `t` has `r` rows and `c` columns (standard containers are
columns). -/
def HasShape : CType → Nat → Nat → Prop
  | .vector _, _, c => c = 1
  | .array _ n, r, c => r = n ∧ c = 1
  | .eigen _ R C, r, c => (R = -1 ∨ (r : Int) = R) ∧ (C = -1 ∨ (c : Int) = C)

/-- All objects of the type have `n` elements. -/
def AlwaysSize (t : CType) (n : Nat) : Prop := ∀ r c, HasShape t r c → r * c = n

/-- All objects of the type have a single row or a single column. -/
def AlwaysVector (t : CType) : Prop := ∀ r c, HasShape t r c → r = 1 ∨ c = 1

/-- Ordinary container types: not empty, sizes that fit an `int`, elements that occupy memory. -/
def Ordinary : CType → Prop
  | .vector _ => True
  | .array e n => 0 < n ∧ n < 2 ^ 31 ∧ 0 < e.sizeof
  | .eigen _ R C => (R = -1 ∨ 0 < R) ∧ (C = -1 ∨ 0 < C)

/-- What the documentation promises: one argument for vectors that can be resized, two for matrices that can be
resized, no such function for fixed sizes. -/
def DocumentedSetDimensions (t : CType) (k : Option Nat) : Prop :=
  ((∃ n, AlwaysSize t n) → k = none) ∧
  ((¬ ∃ n, AlwaysSize t n) → AlwaysVector t → k = some 1) ∧
  ((¬ ∃ n, AlwaysSize t n) → ¬ AlwaysVector t → k = some 2)

/-- A class with everything the documentation lists for a box constraint. -/
def IsBox (m : BoxMembers) : Prop :=
  m.var = true ∧ m.scalar = true ∧ m.minIdx = true ∧ m.maxIdx = true ∧ m.init = true ∧ m.initSize = true ∧
    m.applyConstraint = true ∧ m.applyConstraintIdx = true ∧ m.applyDelta = true ∧ m.dimensions = true

end Heu.Spec
