import Verif.Model.Basic
import Verif.Model.Encode
import Verif.Model.Maths
import Mathlib.Algebra.Order.Field.Basic

/-!
# Box constraints and the default GA operators

`HeuristicFlow/src/EAGlobal/BoxConstraint.hpp` and
`HeuristicFlow/src/Genetic/Miscellaneous4GA.hpp`.

A decision variable (vector or matrix, fixed or dynamic size) is the list of its entries in storage
order; `at(v, idx)` (`Global/Types.hpp` lines 393-409) is the `idx`-th entry.  A failed `assert` is
undefined behaviour.
-/

namespace Heu

/-- What every box offers: `dimensions()`, `min(idx)`, `max(idx)` (`BoxConstraint.hpp` lines 104-113
for square boxes, where the two functions are constant, 236-247 for rectangular ones, 478-480 and
500-502 for compile-time ones). -/
structure Box (α : Type) where
  dim : Nat
  min : Nat → α
  max : Nat → α

/-- `SquareBoxCore`, `BoxConstraint.hpp` lines 99-124. -/
def squareBox {α : Type} (dim : Nat) (mn mx : α) : Box α := ⟨dim, fun _ => mn, fun _ => mx⟩

/-- `SquareBoxCore::setRange`, `BoxConstraint.hpp` lines 115-119: asserts `min < max`. -/
def setRangeSquare {α : Type} [LT α] [DecidableLT α] (b : Box α) (mn mx : α) : Out (Box α) :=
  if mn < mx then .ok (squareBox b.dim mn mx) else .ub

/-- `NonSquareBoxCore::setRange`, `BoxConstraint.hpp` lines 249-253: only the sizes are compared. -/
def setRangeRect {α : Type} (mn mx : List α) (d : α) : Out (Box α) :=
  if mn.length = mx.length then .ok ⟨mn.length, fun i => mn.getD i d, fun i => mx.getD i d⟩ else .ub

/-- `std::min(a,b)`: `(b < a) ? b : a`.
(C++ standard library, called in `BoxConstraint.hpp` lines 56, 64, 77 and 633.) -/
def stdMin {α : Type} [LT α] [DecidableLT α] (a b : α) : α := if b < a then b else a
/-- `std::max(a,b)`: `(a < b) ? b : a`.
(C++ standard library, called in `BoxConstraint.hpp` lines 57, 65, 78 and 634.) -/
def stdMax {α : Type} [LT α] [DecidableLT α] (a b : α) : α := if a < b then b else a

/-- The two statements that confine one entry, `BoxConstraint.hpp` lines 56-57, 64-65, 77-78, 633-634:
first `min` with the upper bound, then `max` with the lower one. -/
def clampTo {α : Type} [LT α] [DecidableLT α] (mn mx x : α) : α := stdMax (stdMin x mx) mn

/-- `BoxBase::applyConstraint(v)`, `BoxConstraint.hpp` lines 53-59. -/
def applyConstraint {α : Type} [LT α] [DecidableLT α] (b : Box α) (v : List α) : Out (List α) :=
  if v.length = b.dim then .ok (v.mapIdx fun i x => clampTo (b.min i) (b.max i) x) else .ub

/-- `BoxBase::applyConstraint(v, idx)`, `BoxConstraint.hpp` lines 61-66. -/
def applyConstraintAt {α : Type} [LT α] [DecidableLT α] (b : Box α) (v : List α) (idx : Nat) :
    Out (List α) :=
  if v.length = b.dim ∧ idx < b.dim then
    .ok (v.mapIdx fun i x => if i = idx then clampTo (b.min i) (b.max i) x else x)
  else .ub

/-! ## Integer scalar types -/

/-- An integer scalar type: number of bits and signedness.
(`Scalar_t` of a discrete box, `BoxConstraint.hpp` lines 38-80.) -/
structure IntT where
  bits : Nat
  signed : Bool

namespace IntT
/-- smallest value  (C++ language; used for `BoxConstraint.hpp` lines 38-80.) -/
def lo (T : IntT) : Int := if T.signed then -2 ^ (T.bits - 1) else 0
/-- largest value  (C++ language; used for `BoxConstraint.hpp` lines 38-80.) -/
def hi (T : IntT) : Int := if T.signed then 2 ^ (T.bits - 1) - 1 else 2 ^ T.bits - 1
/-- conversion of an integer to the type: modulo `2^bits`
(C++ language; the assignments in `BoxConstraint.hpp` lines 38-80.) -/
def conv (T : IntT) (x : Int) : Int := (x - T.lo) % 2 ^ T.bits + T.lo
/-- The value of an arithmetic expression on operands of this type (`x` is the mathematical result):
types narrower than `int` (32 bits) are promoted to `int`; `unsigned` types wrap; overflow of signed
types is undefined.
(C++ language; the expressions in `BoxConstraint.hpp` lines 43-76 and `Randoms.hpp` lines 129-148.) -/
def arith (T : IntT) (x : Int) : Out Int :=
  if T.bits < 32 then .ok x
  else if T.signed then (if T.lo ≤ x ∧ x ≤ T.hi then .ok x else .ub)
  else .ok (T.conv x)
end IntT

/-- `randIdx<Scalar_t>(min, max_plus_1)`, `Global/Randoms.hpp` lines 145-148, on a bounded integer type:
`int_t((max_plus_1 - min) * randF()) + min`.  The draw is the float `m / 2^t` (see `randIdxF32`);
converting a float that does not fit the type is undefined. -/
def randIdxT (T : IntT) (t m : Nat) (mn mx1 : Int) : Out Int := do
  let d ← T.arith (mx1 - mn)
  let p : Int := if 0 ≤ d then (randIdxF32 t m d.natAbs : Int) else -(randIdxF32 t m d.natAbs : Int)
  if T.lo ≤ p ∧ p ≤ T.hi then do
    let r ← T.arith (p + mn)
    .ok (T.conv r)
  else .ub

/-- One integral entry of `BoxBase::initialize`, `BoxConstraint.hpp` lines 43-45:
`randIdx<Scalar_t>(min(idx), 1 + max(idx))`. -/
def initIntEntry (T : IntT) (t m : Nat) (mn mx : Int) : Out Int := do
  let s ← T.arith (1 + mx)
  randIdxT T t m mn (T.conv s)

/-- `BoxBase::initialize` for an integral scalar, `BoxConstraint.hpp` lines 38-51; `draw i` is the float
draw for entry `i`. -/
def initializeInt (T : IntT) (b : Box Int) (draw : Nat → Nat × Nat) : Out (List Int) :=
  (List.range b.dim).mapM fun i => initIntEntry T (draw i).1 (draw i).2 (b.min i) (b.max i)

/-- `BoxBase::initialize` for `bool`, `BoxConstraint.hpp` line 42: `randIdx(2) == 0`. -/
def initializeBool (dim : Nat) (draw : Nat → Nat × Nat) : List Bool :=
  (List.range dim).map fun i => randIdxF32 (draw i).1 (draw i).2 2 == 0

/-- `BoxBase::initialize` for a real scalar in exact arithmetic, `BoxConstraint.hpp` lines 46-48:
`randD(min, max)`. -/
def initializeReal {α : Type} [Field α] (b : Box α) (u : Nat → α) : List α :=
  (List.range b.dim).map fun i => randDRange (u i) (b.min i) (b.max i)

/-- `randD(min,max)`, `Global/Randoms.hpp` lines 100-102, in IEEE arithmetic of format `F`:
`(max - min) * randD() + min`, three rounded operations. -/
def randDRangeFl (F : Fmt) (u mn mx : Fl) : Fl := ((mx.sub F mn).mul F u).add F mn

/-- `BoxBase::initialize` for `double`, `BoxConstraint.hpp` lines 46-48, in IEEE arithmetic. -/
def initializeFl (F : Fmt) (b : Box Fl) (u : Nat → Fl) : List Fl :=
  (List.range b.dim).map fun i => randDRangeFl F (u i) (b.min i) (b.max i)

/-! ## applyDelta -/

/-- `BoxBase::applyDelta`, `BoxConstraint.hpp` lines 68-80, for an integral scalar: one step up or down
in the scalar type (compound assignment converts back to the type), then confined to the bounds.
`idx` is the drawn index, `up` whether `randIdx(2) == 0`. -/
def applyDeltaInt (T : IntT) (b : Box Int) (v : List Int) (idx : Nat) (up : Bool) : Out (List Int) :=
  if v.length = b.dim then
    match v[idx]? with
    | none => .ub
    | some x => do
      let s ← T.arith (x + (if up then 1 else -1))
      .ok (v.set idx (clampTo (b.min idx) (b.max idx) (T.conv s)))
  else .ub

/-- `BoxBase::applyDelta` for `bool`, `BoxConstraint.hpp` lines 71-73. -/
def applyDeltaBool (dim : Nat) (v : List Bool) (idx : Nat) : Out (List Bool) :=
  if v.length = dim then
    match v[idx]? with
    | none => .ub
    | some x => .ok (v.set idx (!x))
  else .ub

/-- `BoxBase::applyDelta` for a floating-point scalar, `BoxConstraint.hpp` lines 68-80 (exact
arithmetic).  This is the version used by `DiscretBox` over reals and also by `FixedContinousBox20` and
`FixedContinousBox17` (lines 638-664), which inherit it and never look at their `delta`. -/
def applyDeltaUnit {α : Type} [Field α] [LT α] [DecidableLT α] (b : Box α) (v : List α) (idx : Nat)
    (up : Bool) : Out (List α) :=
  if v.length = b.dim then
    match v[idx]? with
    | none => .ub
    | some x => .ok (v.set idx (clampTo (b.min idx) (b.max idx) (x + (if up then 1 else -1))))
  else .ub

/-- `ContinousBox::applyDelta`, `BoxConstraint.hpp` lines 627-635 (exact arithmetic): add
`randD(-1,1) * delta(idx)`, then confine.  `u` is the draw `randD()`. -/
def applyDeltaCont {α : Type} [Field α] [LT α] [DecidableLT α] (b : Box α) (delta : Nat → α)
    (v : List α) (idx : Nat) (u : α) : Out (List α) :=
  if v.length = b.dim then
    match v[idx]? with
    | none => .ub
    | some x =>
      .ok (v.set idx (clampTo (b.min idx) (b.max idx) (x + randDRange u (-1) 1 * delta idx)))
  else .ub

/-- `GaussianBox::applyDelta`, `BoxConstraint.hpp` lines 745-750 (exact arithmetic): no bounds. -/
def applyDeltaGauss {α : Type} [Field α] (dim : Nat) (delta : α) (v : List α) (idx : Nat) (u : α) :
    Out (List α) :=
  if v.length = dim then
    match v[idx]? with
    | none => .ub
    | some x => .ok (v.set idx (x + randDRange u (-1) 1 * delta))
  else .ub

/-! ## Default crossover operators -/

/-- `imp_cFunNd`, `Genetic/Miscellaneous4GA.hpp` lines 35-45 (std containers) and 62-69 (Eigen), exact
arithmetic; `r` is `DivDecode<_r>::real`, for which `static_assert`s demand `0 < r < 1`.  Reading past
the end of the second parent is undefined. -/
def cFunNd {α : Type} [Field α] (r : α) (p1 p2 : List α) : Out (List α × List α) :=
  if p1.length ≤ p2.length then
    .ok (List.zipWith (fun a b => r * a + (1 - r) * b) p1 p2,
         List.zipWith (fun a b => r * b + (1 - r) * a) p1 p2)
  else .ub

/-- One entry of `imp_cFunNd` in IEEE arithmetic of format `F`.  (`Miscellaneous4GA.hpp` lines 41-43.) -/
def cFunNdEntryFl (F : Fmt) (r a b : Fl) : Fl :=
  (r.mul F a).add F (((Fl.ofNat F 1).sub F r).mul F b)

/-- `imp_cFunSwapNs`, `Genetic/Miscellaneous4GA.hpp` lines 71-85 (the version for Eigen vectors): the
first `idx` entries stay, the others are exchanged.  `idx` is the draw `randIdx(N)`.  (The version for
std containers, lines 47-56, calls Eigen members and does not compile.) -/
def cFunSwapNs {α : Type} (p1 p2 : List α) (idx : Nat) : Out (List α × List α) :=
  if p1.length ≤ p2.length then
    .ok ((List.zip p1 p2).mapIdx (fun i ab => if i < idx then ab.1 else ab.2),
         (List.zip p1 p2).mapIdx (fun i ab => if i < idx then ab.2 else ab.1))
  else .ub

/-- `cFunRandNs<p>`, `Genetic/Miscellaneous4GA.hpp` lines 431-440: two independent draws per entry;
`u i`, `w i` are the two `randD()` of entry `i`, `r` is `DivDecode<p>::real`. -/
def cFunRandNs {α κ : Type} [LT κ] [DecidableLT κ] (r : κ) (u w : Nat → κ) (p1 p2 : List α) :
    Out (List α × List α) :=
  if p1.length ≤ p2.length then
    .ok ((List.zip p1 p2).mapIdx (fun i ab => if u i < r then ab.1 else ab.2),
         (List.zip p1 p2).mapIdx (fun i ab => if w i < r then ab.2 else ab.1))
  else .ub

/-- `cFunRandXs<p>`, `Genetic/Miscellaneous4GA.hpp` lines 447-450: calls `cFunRandNs` without its
template argument, i.e. with the default probability `DivCode_Half`; the parameter `p` is not used. -/
def cFunRandXs {α : Type} (_p : ℚ) (u w : Nat → ℚ) (p1 p2 : List α) : Out (List α × List α) :=
  cFunRandNs (divReal divCodeHalf) u w p1 p2

/-! ## Default mutation operators -/

/-- `SymBoxOp::imp_domFunNs`, `Genetic/Miscellaneous4GA.hpp` lines 134-146 (rectangular) and 154-166
(square).  `u` is the `randD()` of the comparison (exact arithmetic), `(t, m)` the float draw of
`randIdx`.  Integers are unbounded here. -/
def symbolMutate {κ : Type} [Field κ] [LE κ] [DecidableLE κ] (b : Box Int) (src : List Int)
    (idx : Nat) (u : κ) (t m : Nat) : Out (List Int) :=
  match src[idx]? with
  | none => .ub
  | some val =>
    let numLess := (val - b.min idx).toNat
    let numGreater := (b.max idx - val).toNat
    if u * ((numLess : κ) + (numGreater : κ)) ≤ (numLess : κ) then
      .ok (src.set idx (randIdxRangeF32 t m (b.min idx) val))
    else
      .ok (src.set idx (randIdxRangeF32 t m (val + 1) (b.max idx + 1)))

/-- The same operator on a bounded integer scalar type `T`: `numLess` and `numGreater` are differences
computed in `T` and converted to `size_t`; `scalar_t(val + 1)` and `scalar_t(max + 1)` convert back to
`T` (`Genetic/Miscellaneous4GA.hpp` lines 134-146 and 154-166). -/
def symbolMutateT {κ : Type} [Field κ] [LE κ] [DecidableLE κ] (T : IntT) (b : Box Int)
    (src : List Int) (idx : Nat) (u : κ) (t m : Nat) : Out (List Int) :=
  match src[idx]? with
  | none => .ub
  | some val => do
    let less ← T.arith (val - b.min idx)
    let greater ← T.arith (b.max idx - val)
    let numLess := (less % 2 ^ 64).toNat
    let numGreater := (greater % 2 ^ 64).toNat
    if u * ((numLess : κ) + (numGreater : κ)) ≤ (numLess : κ) then do
      let y ← randIdxT T t m (b.min idx) val
      .ok (src.set idx y)
    else do
      let lo ← T.arith (val + 1)
      let hi ← T.arith (b.max idx + 1)
      let y ← randIdxT T t m (T.conv lo) (T.conv hi)
      .ok (src.set idx y)

end Heu
