import Verif.Model.Box

/-!
# Compile-time decisions about containers and boxes

Model of `Global/Types.hpp`, `EAGlobal/SizeBody4BoxConstraint.hpp`, the class selection of
`EAGlobal/BoxConstraint.hpp` and the acceptance conditions of `Genetic/Miscellaneous4GA.hpp` and `AOS/AOS.hpp`.
Template metaprograms are evaluated by the compiler; here they are functions on descriptions of C++ types.
Simplification: of all C++ types only `std::vector`, `std::array` and `Eigen::Array` are described, with the element
types `bool`, integers and floating point numbers.
-/

namespace Heu

/-- Element types: `bool`, an integer type or a floating-point type with its `sizeof`, and the proxy class
`std::vector<bool>::reference` (what `std::vector<bool>::operator[]` returns, C++ library).
(The types that `toElement`, Global/Types.hpp lines 254-257, can name.) -/
inductive Elem
  | bool
  | int (bytes : Nat) (signed : Bool)
  | flt (bytes : Nat)
  | bitRef
  deriving DecidableEq

/-- `sizeof` of an element (C++ language; used by `stdArraySizeCT`, Global/Types.hpp line 310). -/
def Elem.sizeof : Elem → Nat
  | .bool => 1
  | .int b _ => b
  | .flt b => b
  | .bitRef => 16

/-- Container types: `std::vector<e>`, `std::array<e, n>`, `Eigen::Array<e, rows, cols>` with `-1` for
`Eigen::Dynamic`.  (The types `Var` may be, BoxConstraint.hpp lines 434-435.) -/
inductive CType
  | vector (e : Elem)
  | array (e : Elem) (n : Nat)
  | eigen (e : Elem) (rows cols : Int)
  deriving DecidableEq

/-- `toElement<Vec_t>::type`, Global/Types.hpp lines 254-257: the decayed type of `Vec_t()[0]`. -/
def CType.toElement : CType → Elem
  | .vector .bool => .bitRef
  | .vector e => e
  | .array e _ => e
  | .eigen e _ _ => e

/-- Conversion of a constant to `int` (C++ language; `static constexpr int value = …`, Global/Types.hpp line 310). -/
def toInt (n : Nat) : Int := (⟨32, true⟩ : IntT).conv n

/-- `sizeof(std::array<e, n>)` (C++ library; Global/Types.hpp line 310).  For `n = 0` it is up to the library: `s0`
(1 in libstdc++). -/
def sizeofArray (s0 : Nat) (e : Elem) (n : Nat) : Nat := if n = 0 then s0 else n * e.sizeof

/-- `stdArraySizeCT<T>::value`, Global/Types.hpp lines 308-313. -/
def stdArraySizeCT (s0 : Nat) (e : Elem) (n : Nat) : Int := toInt (sizeofArray s0 e n / e.sizeof)

/-- `Eigen::Array<e, r, c>::SizeAtCompileTime` (Eigen; read by `getEigenClassSizeCT`, Global/Types.hpp lines
299-305). -/
def eigenSizeCT (r c : Int) : Int := if r = -1 ∨ c = -1 then -1 else r * c

/-- `array_traits<T>::isEigenClass`, Global/Types.hpp lines 367-372. -/
def CType.isEigen : CType → Bool
  | .eigen _ _ _ => true
  | _ => false

/-- `array_traits<T>::sizeCT`, Global/Types.hpp line 375 with lines 299-361: `Eigen::Dynamic` (-1) for what can be
resized. -/
def CType.sizeCT (s0 : Nat) : CType → Int
  | .vector _ => -1
  | .array e n => stdArraySizeCT s0 e n
  | .eigen _ r c => eigenSizeCT r c

/-- `array_traits<T>::rowsCT`, Global/Types.hpp line 376 with lines 302, 337 and 341-361. -/
def CType.rowsCT (s0 : Nat) : CType → Int
  | .vector _ => -1
  | .array e n => stdArraySizeCT s0 e n
  | .eigen _ r _ => r

/-- `array_traits<T>::colsCT`, Global/Types.hpp line 377 with lines 303, 338 and 341-361. -/
def CType.colsCT : CType → Int
  | .vector _ => 1
  | .array _ _ => 1
  | .eigen _ _ c => c

/-- `array_traits<T>::isFixedSize`, Global/Types.hpp line 378. -/
def CType.isFixedSize (s0 : Nat) (t : CType) : Bool := decide (t.sizeCT s0 ≠ -1)

/-- `array_traits<T>::isVector`, Global/Types.hpp lines 380-382. -/
def CType.isVector (s0 : Nat) (t : CType) : Bool := decide (t.rowsCT s0 = 1) || decide (t.colsCT = 1)

/-- `array_traits<T>::isMatrix`, Global/Types.hpp line 384. -/
def CType.isMatrix (s0 : Nat) (t : CType) : Bool := !decide (t.rowsCT s0 = 1) && !decide (t.colsCT = 1)

/-- `stdContainer<scalar_t, Dim>`, Global/Types.hpp lines 50-52: `size_t(Dim)` is taken modulo 2^64. -/
def stdContainer (e : Elem) (dim : Int) : CType :=
  if dim = -1 then .vector e else .array e (dim % 2 ^ 64).toNat

/-- `uintX_t<bitNum>`, Global/Types.hpp lines 34-39: the number of bits of the type, `none` if there is no type. -/
def uintXBits (bitNum : Nat) : Option Nat :=
  if bitNum ≤ 64 then
    some (if bitNum ≤ 8 then 8 else if bitNum ≤ 16 then 16 else if bitNum ≤ 32 then 32 else 64)
  else none

/-! ## Box classes -/

/-- The four implementations of every box, SizeBody4BoxConstraint.hpp lines 28-92 and BoxConstraint.hpp lines
141-356. -/
inductive BoxImpl
  | constVec | constMat | dynVec | dynMat
  deriving DecidableEq

/-- `SquareBoxSizeBody<Var>`, SizeBody4BoxConstraint.hpp lines 97-102. -/
def squareSizeBody (s0 : Nat) (t : CType) : BoxImpl :=
  if t.isVector s0 then (if t.isFixedSize s0 then .constVec else .dynVec)
  else (if t.isFixedSize s0 then .constMat else .dynMat)

/-- `SquareBox_t<Var_t>`, BoxConstraint.hpp lines 226-233. -/
def squareBoxImpl (s0 : Nat) (t : CType) : BoxImpl :=
  if t.isFixedSize s0 then (if t.isVector s0 then .constVec else .constMat)
  else (if t.isVector s0 then .dynVec else .dynMat)

/-- `NonSquareBox_t<Var_t>`, BoxConstraint.hpp lines 358-365. -/
def rectBoxImpl (s0 : Nat) (t : CType) : BoxImpl :=
  if t.isFixedSize s0 then (if t.isVector s0 then .constVec else .constMat)
  else (if t.isVector s0 then .dynVec else .dynMat)

/-- The bounds of a square box are the constants 0 and 1 (`BooleanBoxCore`) instead of stored numbers
(`SquareBoxCore`), BoxConstraint.hpp lines 138-198. -/
def booleanCore (t : CType) : Bool := decide (t.toElement = .bool)

/-- The assertions of the class `DiscretBox<Var, BS>` hold, BoxConstraint.hpp lines 441-450. -/
def discretBoxOK (rect : Bool) (t : CType) : Bool := !(decide (t.toElement = .bool) && rect)

/-- The assertions of the class `ContinousBox<Var, BS>` hold, BoxConstraint.hpp lines 616-626. -/
def continousBoxOK (rect : Bool) (t : CType) : Bool :=
  discretBoxOK rect t && (match t.toElement with
    | .flt _ => true
    | _ => false)

/-- The bodies of `initialize`, `applyConstraint` and `applyDelta` of `BoxBase` compile, BoxConstraint.hpp lines
38-80: `at(*v, idx)` (Global/Types.hpp lines 393-400) returns a reference to the element, which a proxy is not. -/
def boxBodiesCompile (t : CType) : Bool := decide (t.toElement ≠ .bitRef)

/-- Number of arguments of the `setDimensions` that can be called, SizeBody4BoxConstraint.hpp lines 49-52 and 75-80,
BoxConstraint.hpp lines 208-213, 311-315, 347-353; `none` if there is none or its body does not compile: that of
lines 311-315 is `const` and calls the non-`const` `resize` of a bound. -/
def setDimensionsArgs (rect : Bool) (s0 : Nat) (t : CType) : Option Nat :=
  match (if rect then rectBoxImpl s0 t else squareBoxImpl s0 t) with
  | .constVec => none
  | .constMat => none
  | .dynVec => if rect then none else some 1
  | .dynMat => some 2

/-! ## Where a box is accepted -/

/-- The value of the member `Encoding` of a box, Global/Enumerations.hpp lines 161-167. -/
inductive EncodeKind
  | real | binary | symbolic
  deriving DecidableEq

/-- What a class offers as a box (any class the user may pass, or a box of the library): one entry per name required
somewhere, Global/Types.hpp lines 85-212 and Miscellaneous4GA.hpp lines 322-331.  `isBox` and `encoding` are the
values of the static members of these names, if there are any. -/
structure BoxMembers where
  var : Bool
  scalar : Bool
  shape : Bool
  minAll : Bool
  maxAll : Bool
  minIdx : Bool
  maxIdx : Bool
  init : Bool
  initSize : Bool
  applyConstraint : Bool
  applyConstraintIdx : Bool
  applyDelta : Bool
  dimensions : Bool
  deltaIdx : Bool
  isBox : Option Bool
  encoding : Option EncodeKind
  deriving DecidableEq

/-- The boxes of the library, BoxConstraint.hpp lines 441-450 (`DiscretBox`), 463-480 (`FixedDiscreteBox`), 482-500
(`FixedDiscreteBox17`), 616-636 (`ContinousBox`), 638-650 (`FixedContinousBox20`), 652-664 (`FixedContinousBox17`),
723-754 (`GaussianBox`). -/
inductive LibBox
  | discrete (rect : Bool)
  | fixedDiscrete
  | fixedDiscrete17
  | continous (rect : Bool)
  | fixedContinous20
  | fixedContinous17
  | gaussian
  deriving DecidableEq

/-- The members of the boxes of the library, BoxConstraint.hpp lines 30-80, 102-124, 237-259, 441-754: all have the
common interface; `DiscretBox` has no `Shape` (lines 441-450), only the continuous ones have `delta(int)`, none has
`isBox` or `Encoding`. -/
def LibBox.members : LibBox → BoxMembers
  | .discrete _ =>
    { var := true, scalar := true, shape := false, minAll := true, maxAll := true, minIdx := true, maxIdx := true,
      init := true, initSize := true, applyConstraint := true, applyConstraintIdx := true,
      applyDelta := true, dimensions := true, deltaIdx := false, isBox := none, encoding := none }
  | .fixedDiscrete | .fixedDiscrete17 =>
    { var := true, scalar := true, shape := true, minAll := true, maxAll := true, minIdx := true, maxIdx := true,
      init := true, initSize := true, applyConstraint := true, applyConstraintIdx := true,
      applyDelta := true, dimensions := true, deltaIdx := false, isBox := none, encoding := none }
  | .continous _ | .fixedContinous20 | .fixedContinous17 | .gaussian =>
    { var := true, scalar := true, shape := true, minAll := true, maxAll := true, minIdx := true, maxIdx := true,
      init := true, initSize := true, applyConstraint := true, applyConstraintIdx := true,
      applyDelta := true, dimensions := true, deltaIdx := true, isBox := none, encoding := none }

/-- The C++20 concept `isBoxConstraint<Box>`, Global/Types.hpp lines 182-200 (`is_arithmetic_v` in line 188 is an
expression that must only compile). -/
def isBoxConstraint20 (m : BoxMembers) : Bool :=
  m.var && m.scalar && m.shape && m.minAll && m.maxAll && m.minIdx && m.maxIdx && m.init && m.initSize &&
    m.applyConstraint && m.applyConstraintIdx && m.applyDelta && m.dimensions

/-- The C++17 variable `isContinousBox_v<Box>`, Global/Types.hpp lines 127-151.  `std::enable_if<…>()` in lines 131-133
names the class `enable_if`, which exists whatever the condition is, so of the three conditions only `Scalar_t` and
`delta(int)` count. -/
def isContinousBox17 (m : BoxMembers) : Bool := m.scalar && m.deltaIdx

/-- `GADefaults<Var_t, Args_t>::iFun` can be used, Miscellaneous4GA.hpp lines 181-185; `cxx20` is
`__cplusplus >= 202002L`. -/
def iFunAccepts (cxx20 : Bool) (m : BoxMembers) : Bool := (!cxx20 || isBoxConstraint20 m) && m.init

/-- `GADefaults<Var_t, Args_t>::mFun` can be used, Miscellaneous4GA.hpp lines 299-306. -/
def mFunAccepts (cxx20 : Bool) (m : BoxMembers) : Bool := (!cxx20 || isBoxConstraint20 m) && m.applyDelta

/-- `GADefaults<Var_t, Args_t>::mFun_s` can be used on a box of integers whose `Var_t` is that of the solver,
Miscellaneous4GA.hpp lines 320-331 and 134-170. -/
def mFunSAccepts (cxx20 : Bool) (m : BoxMembers) : Bool :=
  (!cxx20 || isBoxConstraint20 m) && decide (m.isBox = some true) && decide (m.encoding = some .symbolic) && m.var &&
    m.shape && m.minAll && m.maxAll

/-- The class `AOS<Box_t>` can be used, AOS/AOS.hpp lines 39-51: the concept (C++20), the static assertion, and
`Box_t::Var_t`. -/
def aosAccepts (cxx20 : Bool) (m : BoxMembers) : Bool :=
  (!cxx20 || isBoxConstraint20 m) && isContinousBox17 m && m.var

end Heu
