import Verif.Model.Box

/-!
# Specification vocabulary for boxes
-/

namespace Heu.Spec

/-- The point `v` is in the box: right dimension, and every coordinate between its two bounds. -/
def InBox {α : Type} [LE α] (b : Box α) (v : List α) : Prop :=
  v.length = b.dim ∧ ∀ i, ∀ h : i < v.length, b.min i ≤ v[i] ∧ v[i] ≤ b.max i

/-- The box is not empty: the lower bounds do not exceed the upper ones. -/
def NonEmptyBox {α : Type} [LE α] (b : Box α) : Prop := ∀ i, i < b.dim → b.min i ≤ b.max i

/-- Two points differ at most in coordinate `k`. -/
def SameExcept {α : Type} (v w : List α) (k : Nat) : Prop :=
  v.length = w.length ∧ ∀ i, i ≠ k → v[i]? = w[i]?

/-- A `float` in `[0,1)`: the number `m / 2^t`, where `m` has at most 24 significant bits. -/
def FloatDraw (d : Nat × Nat) : Prop := 24 ≤ d.1 ∧ d.2 < 2 ^ d.1 ∧ roundF32 d.2 = d.2

/-- The integer types C++ code uses: 8, 16, 32 or 64 bits. -/
def MachineInt (T : IntT) : Prop := T.bits = 8 ∨ T.bits = 16 ∨ T.bits = 32 ∨ T.bits = 64

/-- The bounds of every coordinate are values of the scalar type, in the right order. -/
def TypedBox (T : IntT) (b : Box Int) : Prop :=
  ∀ i, i < b.dim → T.lo ≤ b.min i ∧ b.min i ≤ b.max i ∧ b.max i ≤ T.hi

/-- Exactly the ranges `[min, max]` of an integer type from which `initialize` draws values of the range
only.  Narrow types (promoted to `int`): either `max` is below the largest value and `max - min` is a
value of the type, or `max` is the largest value and `min` is one of the two smallest.  Wider unsigned
types: all.  Wider signed types: `max + 1` and `max + 1 - min` must be values of the type. -/
def InitSafe (T : IntT) (mn mx : Int) : Prop :=
  if T.bits < 32 then (mx < T.hi ∧ mx - mn ≤ T.hi) ∨ (mx = T.hi ∧ mn ≤ T.lo + 1)
  else T.signed = true → mx < T.hi ∧ mx + 1 - mn ≤ T.hi

/-- Exactly the ranges on which the symbol mutation stays in the range: a single value; or `max` below the
largest value of the type with the difference `max - min` (for types narrower than `int`:
`max - min - 1`) a value of the type; unsigned types of at least 32 bits have no condition. -/
def SymbolSafe (T : IntT) (mn mx : Int) : Prop :=
  mn = mx ∨ (if T.bits < 32 then mx < T.hi ∧ mx - mn - 1 ≤ T.hi
    else T.signed = true → mx < T.hi ∧ mx - mn ≤ T.hi)

end Heu.Spec
