import Verif.Model.Basic
import Mathlib.Order.Defs.LinearOrder
import Mathlib.Algebra.Order.Field.Basic

/-!
# Models of `Global/HeuMaths.hpp`, `Global/Randoms.hpp`, `Global/LogisticChaos.hpp`
-/

namespace Heu

/-! ## `Global/HeuMaths.hpp` -/

/-- `fractorial<size_t>`, `Global/HeuMaths.hpp` lines 66-72: recursion with wrap-around of `size_t`
(64 bit) at every multiplication. -/
def fractorial64 : Nat → Nat
  | 0 => 1
  | n + 1 => if n + 1 > 1 then ((n + 1) * fractorial64 n) % 2 ^ 64 else 1

/-- `NchooseK<size_t>`, `Global/HeuMaths.hpp` lines 84-90.  Division by zero is undefined behaviour.
Precondition of the model: `K ≤ N < 2^63` (so `K * 2` and `N - K` do not wrap). -/
def nchooseK64 (N K : Nat) : Out Nat :=
  if h : K * 2 > N then nchooseK64 N (N - K)
  else
    let den := (fractorial64 K * fractorial64 (N - K)) % 2 ^ 64
    if den = 0 then .ub else .ok (fractorial64 N / den)
termination_by K
decreasing_by omega

section minmax
variable {α : Type} [LinearOrder α]

/-- `imp_min(a,b)`, `Global/HeuMaths.hpp` lines 152-156. -/
def impMin2 (a b : α) : α := if a ≥ b then b else a

/-- `imp_max(a,b)`, `Global/HeuMaths.hpp` lines 166-170. -/
def impMax2 (a b : α) : α := if a ≤ b then b else a

/-- `heu::min(a, args...)`, `Global/HeuMaths.hpp` lines 159-163 and 191-194: the first two arguments
are combined, then the result with the rest.  (The C++ needs at least two arguments.) -/
def minV : α → List α → α
  | a, [] => a
  | a, b :: args => minV (impMin2 a b) args

/-- `heu::max(a, args...)`, `Global/HeuMaths.hpp` lines 173-177 and 206-209. -/
def maxV : α → List α → α
  | a, [] => a
  | a, b :: args => maxV (impMax2 a b) args

/-- `_impl_minmax<T, vals...>::min`, `Global/HeuMaths.hpp` lines 218-239 (general, two-value and
one-value specialisations). -/
def minCT : α → List α → α
  | v, [] => v
  | a, [b] => if a > b then b else a
  | v, w :: ws => if v < minCT w ws then v else minCT w ws

/-- `_impl_minmax<T, vals...>::max`, `Global/HeuMaths.hpp` lines 218-239. -/
def maxCT : α → List α → α
  | v, [] => v
  | a, [b] => if a < b then b else a
  | v, w :: ws => if v > maxCT w ws then v else maxCT w ws

/-- `sign`, `Global/HeuMaths.hpp` lines 45-56. -/
def signOf {α : Type} [LinearOrder α] [Zero α] [One α] [Neg α] (x : α) : α :=
  if x > 0 then 1 else if x < 0 then -1 else 0

/-- `square`, `Global/HeuMaths.hpp` lines 40-43. -/
def square {α : Type} [Mul α] (a : α) : α := a * a

end minmax

/-! ## `Global/Randoms.hpp` -/

/-- Rounding of a natural number to a 24-bit significand, round half to even: what conversion of an
integer to `float`, and a `float` multiplication with an integral-valued exact result scaled by a
power of two, do.  (IEEE-754 binary32; exponent range not limited.)
(C++ language; used for `Randoms.hpp` lines 115-148.) -/
def roundF32 (n : Nat) : Nat :=
  if n < 2 ^ 24 then n
  else
    let s := n.log2 - 23
    let q := n / 2 ^ s
    let r := n % 2 ^ s
    if 2 * r < 2 ^ s then q * 2 ^ s
    else if 2 * r > 2 ^ s then (q + 1) * 2 ^ s
    else if q % 2 = 0 then q * 2 ^ s else (q + 1) * 2 ^ s

/-- `randIdx(size)`, `Global/Randoms.hpp` lines 130-133, with exact `float` semantics.  The draw
`randF()` (lines 117-120) is the float `m / 2^t`: `m` has a 24-bit significand (`roundF32 m = m`)
and `m < 2^t`.  The product `randF()*size` is the rounded product of the draw and of the `float`
nearest to `size`; scaling by a power of two does not affect rounding; conversion to an integer
truncates. -/
def randIdxF32 (t m size : Nat) : Nat := roundF32 (m * roundF32 size) / 2 ^ t

/-- `randIdx(min, max_plus_1)`, `Global/Randoms.hpp` lines 145-148, with exact `float` semantics;
the range `max_plus_1 - min` is non-negative and fits the integer type. -/
def randIdxRangeF32 (t m : Nat) (mn mx1 : Int) : Int :=
  (randIdxF32 t m (mx1 - mn).toNat : Int) + mn

/-- `randD(min,max)`, `Global/Randoms.hpp` lines 100-102, over exact arithmetic; `u` is the draw
`randD()`. -/
def randDRange {α : Type} [Field α] (u mn mx : α) : α := (mx - mn) * u + mn

/-! ## `Global/LogisticChaos.hpp` -/

section chaos
variable {α : Type} [Field α]

/-- `operator()`, `Global/LogisticChaos.hpp` lines 64-67: the new `_value`, which is also returned.
Exact arithmetic instead of `double`. -/
def chaosStep (v : α) : α := v * (4 * (1 - v))

/-- The loop of `makeSequence`, `Global/LogisticChaos.hpp` lines 87-89: `dst[i] = 4*dst[i-1]*(1-dst[i-1])`. -/
def chaosFill : Nat → α → List α
  | 0, _ => []
  | n + 1, prev => let x := 4 * prev * (1 - prev); x :: chaosFill n x

/-- `makeSequence(dst, L)`, `Global/LogisticChaos.hpp` lines 84-91: returns what is written to `dst`
and the new `_value`. -/
def chaosMakeSequence (v : α) (L : Nat) : List α × α :=
  if L = 0 then ([], v)
  else
    let d0 := chaosStep v
    let dst := d0 :: chaosFill (L - 1) d0
    (dst, dst.getLast (by simp [dst]))

/-- `iterate(It)`, `Global/LogisticChaos.hpp` lines 98-102. -/
def chaosIterate : Nat → α → α
  | 0, v => v
  | n + 1, v => chaosIterate n (v * (4 * (1 - v)))

end chaos

end Heu
