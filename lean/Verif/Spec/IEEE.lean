import Verif.Model.Encode
import Mathlib.Data.Rat.Defs
import Mathlib.Algebra.Order.Field.Rat
import Mathlib.Algebra.Ring.Int.Parity

/-!
# IEEE-754 interchange formats (specification)

A finite datum is given by a sign, a biased exponent `E < 2^eb - 1` and a mantissa `M < 2^mb`.
-/

namespace Heu

/-- The bit pattern `sign | E | M` read as an unsigned integer. -/
def ieeeCode (F : Fmt) (neg : Bool) (E M : Nat) : Nat :=
  (if neg then 2 ^ (F.eb + F.mb) else 0) + E * 2 ^ F.mb + M

/-- The number the pattern denotes, as the standard defines it:
`(-1)^sign * 0.M * 2^(1-bias)` if `E = 0` and `(-1)^sign * 1.M * 2^(E-bias)` otherwise. -/
def ieeeNumber (F : Fmt) (neg : Bool) (E M : Nat) : ℚ :=
  (if neg then -1 else 1) *
    (if E = 0 then ((M : ℚ) / 2 ^ F.mb) * (2 : ℚ) ^ (1 - (F.bias : ℤ))
     else (1 + (M : ℚ) / 2 ^ F.mb) * (2 : ℚ) ^ ((E : ℤ) - (F.bias : ℤ)))

/-- The datum of the arithmetic model denoted by the pattern (sign and number of units of the
smallest subnormal). -/
def ieeeDatum (F : Fmt) (neg : Bool) (E M : Nat) : Fl :=
  .fin neg (if E = 0 then M else (2 ^ F.mb + M) * 2 ^ (E - 1))

/-- A number of units with at most `mb + 1` significant bits. -/
def Rep (mb n : Nat) : Prop := ∃ m k, m < 2 ^ (mb + 1) ∧ n = m * 2 ^ k

/-- A finite floating-point number of the format: at most `mb + 1` significant bits and below the
overflow threshold. -/
def Fl.Finite (F : Fmt) (x : Fl) : Prop := ∃ s n, x = .fin s n ∧ Rep F.mb n ∧ n < 2 ^ F.top

/-- The number denoted by a finite datum of the arithmetic model. -/
def Fl.number (F : Fmt) : Fl → ℚ
  | .fin neg n => (if neg then -1 else 1) * ((n : ℚ) * (2 : ℚ) ^ (-(F.one : ℤ)))
  | _ => 0

end Heu
