import Verif.Model.Basic
import Mathlib.Data.Rat.Defs
import Mathlib.Algebra.Field.Rat
import Mathlib.Algebra.Order.Ring.Rat

/-!
# Numbers carried through template parameters

`HeuristicFlow/src/Global/TemplateFloat.hpp` (`DivCode`, `PowCode`) and
`HeuristicFlow/src/Global/ConvertDoubleAndBinCode.hpp` (`binCode64`, `binCode32`).

The first two encodings are integer code; they are modelled on bit vectors / integers exactly, and the
final conversion to `double` is modelled by the exact rational (rounding of that one last step is
not modelled).

The third one is floating-point code, and its behaviour depends on rounding.  It is modelled over a
complete small model of IEEE-754 binary arithmetic (`Fl`): values are `nan`, `±inf`, or a sign and a
natural number of *units*, one unit being the smallest positive subnormal.  Every operation is
rounded to nearest, ties to even, with gradual underflow and overflow to infinity.  The model is
generic in the format (`Fmt`: number of mantissa bits and of exponent bits); `binary64` and
`binary32` are the two formats of the library.
-/

namespace Heu

/-! ## DivCode -/

/-- `DivEncode<a,b>::code`, `TemplateFloat.hpp` lines 75-82: `(uint64_t(a) << 32) | b` with `a` an
`int32_t` (so the conversion sign-extends) and `b` a `uint32_t`. -/
def divEncode (a b : BitVec 32) : BitVec 64 :=
  (a.signExtend 64 <<< 32) ||| b.setWidth 64

/-- `DivDecode<dc>::numerator`, `TemplateFloat.hpp` line 98: `int32_t(dc >> 32)`. -/
def divNumerator (dc : BitVec 64) : BitVec 32 := (dc >>> 32).setWidth 32

/-- `DivDecode<dc>::denominator`, `TemplateFloat.hpp` line 99: `dc & 0xFFFFFFFF`. -/
def divDenominator (dc : BitVec 64) : BitVec 32 := (dc &&& 0xFFFFFFFF#64).setWidth 32

/-- `DivDecode<dc>::real`, `TemplateFloat.hpp` line 100: `double(numerator) / denominator`
(exact rational; the rounding of this single division is not modelled). -/
def divReal (dc : BitVec 64) : ℚ :=
  ((divNumerator dc).toInt : ℚ) / ((divDenominator dc).toNat : ℚ)

/-- The predefined codes, `TemplateFloat.hpp` lines 44-58. -/
def divCodeHalf : BitVec 64 := 4294967298#64
/-- `DivCode_Pi`, `TemplateFloat.hpp` line 46. -/
def divCodePi : BitVec 64 := 2088567404207137453#64
/-- `DivCode_Pi_mul_2`, `TemplateFloat.hpp` line 47. -/
def divCodePiMul2 : BitVec 64 := 993512999210214248#64
/-- `DivCode_Pi_mul_3`, `TemplateFloat.hpp` line 48. -/
def divCodePiMul3 : BitVec 64 := 2111843339415065010#64
/-- `DivCode_Pi_mul_4`, `TemplateFloat.hpp` line 49. -/
def divCodePiMul4 : BitVec 64 := 4223686678804044427#64
/-- `DivCode_Pi_mul_6`, `TemplateFloat.hpp` line 50. -/
def divCodePiMul6 : BitVec 64 := 2111843339388979417#64
/-- `DivCode_Pi_div_2`, `TemplateFloat.hpp` line 51. -/
def divCodePiDiv2 : BitVec 64 := 1744352159520604142#64
/-- `DivCode_Pi_div_3`, `TemplateFloat.hpp` line 52. -/
def divCodePiDiv3 : BitVec 64 := 458953659822443224#64
/-- `DivCode_Pi_div_4`, `TemplateFloat.hpp` line 53. -/
def divCodePiDiv4 : BitVec 64 := 1055921669994474028#64
/-- `DivCode_Pi_div_6`, `TemplateFloat.hpp` line 54. -/
def divCodePiDiv6 : BitVec 64 := 114738414981121388#64
/-- `DivCode_Sqrt2`, `TemplateFloat.hpp` line 55. -/
def divCodeSqrt2 : BitVec 64 := 1464156825348615605#64
/-- `DivCode_one_div_Sqrt2`, `TemplateFloat.hpp` line 56. -/
def divCodeOneDivSqrt2 : BitVec 64 := 566232695896337324#64
/-- `DivCode_E`, `TemplateFloat.hpp` line 57. -/
def divCodeE : BitVec 64 := 1518759938472606051#64

/-! ## PowCode -/

/-- `PowEncode::threshold`, `TemplateFloat.hpp` lines 127 and 178: `1e16`. -/
def powThreshold : Nat := 10000000000000000

/-- `PowEncode_amplifier<val, threshold>::result`, `TemplateFloat.hpp` lines 126-139: multiply by ten
until the value is not below the threshold; 0 stays 0.  The template recursion is fuelled: `timeout`
stands for an instantiation deeper than the fuel.  (`10 * val` cannot wrap: `val < 1e16`.) -/
def powAmplify : Nat → Nat → Out Nat
  | fuel, val =>
    if val = 0 then .ok 0
    else if val < powThreshold then
      match fuel with
      | 0 => .timeout
      | f + 1 => powAmplify f (10 * val)
    else .ok val

/-- `PowEncode<significant, power>::code`, `TemplateFloat.hpp` lines 175-197.  A failed
`static_assert` (lines 181-183 and 187-189: the program does not compile) is `none`.
`significant` ranges over `int64_t`, `power` over `int16_t`. -/
def powEncode (significant power : Int) : Out (Option (BitVec 64)) :=
  let isNegative := decide (significant < 0)
  let absVal := significant.natAbs
  let isSigValid := decide (absVal / 10 < powThreshold)
  if ¬ isSigValid then .ok none
  else if ¬ power ≤ 255 then .ok none
  else if ¬ -255 ≤ power then .ok none
  else do
    let recordedSignificant ← powAmplify 17 absVal
    let isPowNegative := decide (power < 0)
    let absPowVal : BitVec 8 := BitVec.ofNat 8 power.natAbs
    let upperPart : BitVec 64 :=
      ((BitVec.ofBool isNegative).setWidth 64 <<< 63) ||| (BitVec.ofNat 64 recordedSignificant <<< 9)
    let lowerPart : BitVec 64 :=
      ((BitVec.ofBool isPowNegative).setWidth 64 <<< 8) ||| absPowVal.setWidth 64
    .ok (some (upperPart ||| lowerPart))

/-- `PowDecode<pc>::upperSigMask`, `TemplateFloat.hpp` lines 217-218: `((~0 << 1) >> 10) << 9`. -/
def powUpperSigMask : BitVec 64 := ((BitVec.allOnes 64 <<< 1) >>> 10) <<< 9

/-- `PowDecode<pc>::sig`, `TemplateFloat.hpp` lines 219-222. -/
def powDecodeSig (pc : BitVec 64) : Int :=
  let isNegative := decide ((1#64 <<< 63) &&& pc ≠ 0)
  let absSig : Int := ((pc &&& powUpperSigMask) >>> 9).toInt
  if isNegative then -absSig else absSig

/-- `PowDecode<pc>::pow`, `TemplateFloat.hpp` lines 224-228. -/
def powDecodePow (pc : BitVec 64) : Int :=
  let isPowNegative := decide ((1#64 <<< 8) &&& pc ≠ 0)
  let absPow : Int := (0xFF#64 &&& pc).toInt
  if isPowNegative then -absPow else absPow

/-- `PowEncode_OneE<pow>::result`, `TemplateFloat.hpp` lines 141-154: a product of `|pow|` factors
10.0 or 0.1 (exact rationals: the literal `0.1` is taken as 1/10 and products are not rounded). -/
def powOneE (pow : Int) : ℚ :=
  if 0 < pow then (10 : ℚ) ^ pow.natAbs else (1 / 10 : ℚ) ^ pow.natAbs

/-- `PowDecode<pc>::real`, `TemplateFloat.hpp` lines 229-233: `(sig / 1e16) * powPart` (exact
rationals). -/
def powReal (pc : BitVec 64) : ℚ :=
  ((powDecodeSig pc : ℚ) / (powThreshold : ℚ)) * powOneE (powDecodePow pc)

/-! ## IEEE-754 arithmetic -/

/-- A binary interchange format: `mb` explicitly stored mantissa bits, `eb` exponent bits.
(IEEE-754; the formats of `ConvertDoubleAndBinCode.hpp` lines 30-60.) -/
structure Fmt where
  /-- stored mantissa bits -/
  mb : Nat
  /-- exponent bits -/
  eb : Nat

/-- `double`.  (IEEE-754; the formats of `ConvertDoubleAndBinCode.hpp` lines 30-60.) -/
def binary64 : Fmt := ⟨52, 11⟩
/-- `float`.  (IEEE-754; the formats of `ConvertDoubleAndBinCode.hpp` lines 30-60.) -/
def binary32 : Fmt := ⟨23, 8⟩

namespace Fmt
/-- Exponent bias (1023, 127).  (IEEE-754; the formats of `ConvertDoubleAndBinCode.hpp` lines 30-60.) -/
def bias (F : Fmt) : Nat := 2 ^ (F.eb - 1) - 1
/-- log2 of the number of units in 1.0 (one unit is the smallest positive subnormal).
(IEEE-754; the formats of `ConvertDoubleAndBinCode.hpp` lines 30-60.) -/
def one (F : Fmt) : Nat := F.bias - 1 + F.mb
/-- Total width of a code in bits.  (IEEE-754; the formats of `ConvertDoubleAndBinCode.hpp` lines 30-60.) -/
def width (F : Fmt) : Nat := 1 + F.eb + F.mb
/-- log2 of the first number of units that overflows to infinity.
(IEEE-754; the formats of `ConvertDoubleAndBinCode.hpp` lines 30-60.) -/
def top (F : Fmt) : Nat := F.mb + 1 + (2 ^ F.eb - 3)
end Fmt

/-- A floating-point datum: `fin neg n` is `±n` units.
(IEEE-754; the arithmetic of `ConvertDoubleAndBinCode.hpp`.  No lines of the repository.) -/
inductive Fl where
  | nan
  | inf (neg : Bool)
  | fin (neg : Bool) (n : Nat)
  deriving DecidableEq, Repr

/-- `a / b` rounded to an integer, ties to even.
(IEEE-754; the arithmetic of `ConvertDoubleAndBinCode.hpp`.  No lines of the repository.) -/
def rndHE (a b : Nat) : Nat :=
  let q := a / b
  let r := a % b
  if 2 * r < b then q
  else if b < 2 * r then q + 1
  else if q % 2 = 0 then q else q + 1

/-- `a / b` units rounded to the nearest value with at most `mb + 1` significant bits, ties to even
(values below `2^(mb+1)` units are spaced by one unit: gradual underflow).
(IEEE-754; the arithmetic of `ConvertDoubleAndBinCode.hpp`.  No lines of the repository.) -/
def rndUnits (mb a b : Nat) : Nat :=
  let s := Nat.log2 (a / b) - mb
  rndHE a (b * 2 ^ s) * 2 ^ s

namespace Fl

/-- Overflow to infinity.  (IEEE-754; the arithmetic of `ConvertDoubleAndBinCode.hpp`.  No lines of the repository.) -/
def mk (F : Fmt) (neg : Bool) (n : Nat) : Fl :=
  if 2 ^ F.top ≤ n then inf neg else fin neg n

/-- A non-negative integer constant converted to floating point (exact for the constants used).
(IEEE-754; the arithmetic of `ConvertDoubleAndBinCode.hpp`.  No lines of the repository.) -/
def ofNat (F : Fmt) (k : Nat) : Fl := fin false (k * 2 ^ F.one)

/-- Signed number of units of a finite datum.
(IEEE-754; the arithmetic of `ConvertDoubleAndBinCode.hpp`.  No lines of the repository.) -/
def units (neg : Bool) (n : Nat) : Int := if neg then -(n : Int) else n

/-- IEEE negation.  (IEEE-754; the arithmetic of `ConvertDoubleAndBinCode.hpp`.  No lines of the repository.) -/
def neg : Fl → Fl
  | nan => nan
  | inf s => inf !s
  | fin s n => fin (!s) n

/-- IEEE addition, round to nearest even.
(IEEE-754; the arithmetic of `ConvertDoubleAndBinCode.hpp`.  No lines of the repository.) -/
def add (F : Fmt) : Fl → Fl → Fl
  | nan, _ => nan
  | _, nan => nan
  | inf s, inf t => if s = t then inf s else nan
  | inf s, fin _ _ => inf s
  | fin _ _, inf t => inf t
  | fin s n, fin t m =>
    let z := units s n + units t m
    if z = 0 then fin (s && t) 0
    else mk F (decide (z < 0)) (rndUnits F.mb z.natAbs 1)

/-- IEEE subtraction.  (IEEE-754; the arithmetic of `ConvertDoubleAndBinCode.hpp`.  No lines of the repository.) -/
def sub (F : Fmt) (x y : Fl) : Fl := add F x (neg y)

/-- IEEE multiplication, round to nearest even.
(IEEE-754; the arithmetic of `ConvertDoubleAndBinCode.hpp`.  No lines of the repository.) -/
def mul (F : Fmt) : Fl → Fl → Fl
  | nan, _ => nan
  | _, nan => nan
  | inf s, inf t => inf (xor s t)
  | inf s, fin t m => if m = 0 then nan else inf (xor s t)
  | fin s n, inf t => if n = 0 then nan else inf (xor s t)
  | fin s n, fin t m => mk F (xor s t) (rndUnits F.mb (n * m) (2 ^ F.one))

/-- IEEE division, round to nearest even.
(IEEE-754; the arithmetic of `ConvertDoubleAndBinCode.hpp`.  No lines of the repository.) -/
def div (F : Fmt) : Fl → Fl → Fl
  | nan, _ => nan
  | _, nan => nan
  | inf _, inf _ => nan
  | inf s, fin t _ => inf (xor s t)
  | fin s _, inf t => fin (xor s t) 0
  | fin s n, fin t m =>
    if m = 0 then (if n = 0 then nan else inf (xor s t))
    else mk F (xor s t) (rndUnits F.mb (n * 2 ^ F.one) m)

/-- IEEE `x < y`.  (IEEE-754; the arithmetic of `ConvertDoubleAndBinCode.hpp`.  No lines of the repository.) -/
def lt : Fl → Fl → Bool
  | nan, _ => false
  | _, nan => false
  | inf s, inf t => s && !t
  | inf s, fin _ _ => s
  | fin _ _, inf t => !t
  | fin s n, fin t m => decide (units s n < units t m)

/-- IEEE `x <= y`.  (IEEE-754; the arithmetic of `ConvertDoubleAndBinCode.hpp`.  No lines of the repository.) -/
def le : Fl → Fl → Bool
  | nan, _ => false
  | _, nan => false
  | inf s, inf t => s || !t
  | inf s, fin _ _ => s
  | fin _ _, inf t => !t
  | fin s n, fin t m => decide (units s n ≤ units t m)

end Fl

/-! ## binCode64 / binCode32 -/

section bin
variable (F : Fmt)

/-- `expOf2AtCompileTime(N)`, `ConvertDoubleAndBinCode.hpp` lines 34-59: four `while` loops
multiplying/dividing by 1024 and by 2.  (Fuelled; `timeout` would mean a loop ran longer.) -/
def expOf2 (N : Int) : Out Fl := do
  let s ← loopN (fun (s : Fl × Int) =>
    .ok (if 11 < s.2 then some (s.1.mul F (.ofNat F 1024), s.2 - 10) else none)) N.natAbs
      (Fl.ofNat F 1, N)
  let s ← loopN (fun (s : Fl × Int) =>
    .ok (if 0 < s.2 then some (s.1.mul F (.ofNat F 2), s.2 - 1) else none)) N.natAbs s
  let s ← loopN (fun (s : Fl × Int) =>
    .ok (if s.2 < -11 then some (s.1.div F (.ofNat F 1024), s.2 + 10) else none)) N.natAbs s
  let s ← loopN (fun (s : Fl × Int) =>
    .ok (if s.2 < 0 then some (s.1.div F (.ofNat F 2), s.2 + 1) else none)) N.natAbs s
  .ok s.1

/-- The mantissa loop of `decode`, lines 115-125 (and 190-200): `for (int i = 0; i < 52; i++)`
adding `delta` where the bit under the mask is set, then halving `delta` and shifting the mask.
The number of iterations is 52 in both formats. -/
def decodeMantissa (code : Nat) : Nat → Fl → Fl → Nat → Fl
  | 0, res, _, _ => res
  | i + 1, res, delta, mask =>
    let res := if code &&& mask ≠ 0 then res.add F delta else res
    decodeMantissa code i res (delta.div F (.ofNat F 2)) (mask >>> 1)

/-- `decode(binCode64)` lines 87-154 and `decode(binCode32)` lines 163-230 (the same text with
52/11/1023/1022 replaced by 23/8/127/126). -/
def binDecode (code : Nat) : Out Fl :=
  let expMask := (2 ^ F.eb - 1) <<< F.mb
  let mantissaMask := (1 <<< F.mb) - 1
  if (expMask &&& code) = expMask ∧ (mantissaMask &&& code) ≠ 0 then .ok .nan
  else
    let absCode := code &&& (2 ^ F.width - 1 - (1 <<< (F.width - 1)))
    if (2 ^ F.eb - 1) <<< F.mb ≤ absCode then
      if absCode = code then .ok (.inf false) else .ok (.inf true)
    else do
      let exponent := (code &&& expMask) >>> F.mb
      let res : Fl := .fin false 0
      let res := if exponent ≠ 0 then res.add F (.ofNat F 1) else res
      let half : Fl := .fin false (2 ^ (F.one - 1))
      let res := decodeMantissa F code 52 res half (1 <<< (F.mb - 1))
      let res ← (if exponent ≠ 0 then do
          let N : Int := (exponent : Int) - F.bias
          let s ← loopN (fun (s : Fl × Int) =>
            .ok (if 0 < s.2 then some (s.1.mul F (.ofNat F 2), s.2 - 1) else none)) N.natAbs (res, N)
          let s ← loopN (fun (s : Fl × Int) =>
            .ok (if s.2 < 0 then some (s.1.div F (.ofNat F 2), s.2 + 1) else none)) N.natAbs s
          .ok s.1
        else do
          let d ← expOf2 F ((F.bias : Int) - 1)
          .ok (res.div F d))
      if code &&& (1 <<< (F.width - 1)) ≠ 0 then .ok res.neg else .ok res

/-- `isNotNegative`, lines 234-236. -/
def isNotNegative (fl : Fl) : Bool := Fl.le (.fin false 0) fl

/-- `signCode`, lines 238-240. -/
def signCode (fl : Fl) : Nat := (if isNotNegative fl then 0 else 1) <<< (F.width - 1)

/-- `absVal`, lines 242-244. -/
def absFl (fl : Fl) : Fl := if Fl.le (.fin false 0) fl then fl else fl.neg

/-- `exponentVal`, lines 246-286.  `seper` is `decode` of the code whose mantissa bits are all ones
and the rest zero.  Fuelled with `2^eb + 2` iterations per loop. -/
def exponentVal (fl : Fl) : Out Nat := do
  let seper ← binDecode F (2 ^ F.mb - 1)
  let s ← loopN (fun (s : Fl × Nat) =>
    .ok (if Fl.lt (Fl.mul F (.ofNat F 257) seper) s.1
      then some (s.1.div F (.ofNat F 256), s.2 + 8) else none)) (2 ^ F.eb + 2) (absFl fl, 0)
  let s ← loopN (fun (s : Fl × Nat) =>
    .ok (if Fl.lt seper s.1 then some (s.1.div F (.ofNat F 2), s.2 + 1) else none)) (2 ^ F.eb + 2) s
  .ok s.2

/-- `exponentCode`, lines 288-290. -/
def exponentCode (fl : Fl) : Out Nat := do
  let v ← exponentVal F fl
  .ok ((v <<< F.mb) % 2 ^ F.width)

/-- `absValWithExponentCode0`, lines 292-311:
`(fl * expOf2(bias - exponentVal(fl)) - 1) * expOf2(-(bias - 1))`. -/
def absValWithExponentCode0 (fl : Fl) : Out Fl := do
  let fl := absFl fl
  let v ← exponentVal F fl
  if v = 0 then .ok fl
  else do
    let p ← expOf2 F ((F.bias : Int) - (v : Int))
    let q ← expOf2 F (-((F.bias : Int) - 1))
    .ok (((fl.mul F p).sub F (.ofNat F 1)).mul F q)

/-- The loop of `mantissaCode`, lines 321-329 and 341-348. -/
def mantissaLoop (compareNum : Fl) : Nat → Fl → Nat → Nat → Nat
  | 0, _, result, _ => result
  | i + 1, fl, result, mask =>
    let result' := if Fl.le compareNum fl then result ||| mask else result
    let fl' := if Fl.le compareNum fl then fl.sub F compareNum else fl
    mantissaLoop compareNum i (fl'.mul F (.ofNat F 2)) result' (mask >>> 1)

/-- `mantissaCode`, lines 313-351. -/
def mantissaCode (fl : Fl) : Out Nat := do
  let fl ← absValWithExponentCode0 F fl
  let compareNum ← expOf2 F (-(F.bias : Int))
  .ok (mantissaLoop F compareNum F.mb fl 0 (1 <<< (F.mb - 1)))

/-- `encode(double)` lines 362-379 and `encode(float)` lines 388-405.  Both write infinity as
`0b11111111111 << mb` (eleven ones) and `0b111111111111 << mb` (twelve ones) converted to the code
type; the conversion keeps the low `width` bits. -/
def binEncode (d : Fl) : Out Nat :=
  if ¬ (Fl.le (.fin false 0) d ∨ Fl.le d (.fin false 0)) then
    .ok ((2 ^ F.eb - 1) <<< F.mb ||| 1 <<< (F.mb - 1))
  else if Fl.le (.inf false) (absFl d) then
    if Fl.lt (.fin false 0) d then .ok ((2047 <<< F.mb) % 2 ^ F.width)
    else .ok ((4095 <<< F.mb) % 2 ^ F.width)
  else do
    let e ← exponentCode F d
    let m ← mantissaCode F d
    .ok (signCode F d ||| e ||| m)

end bin

end Heu
