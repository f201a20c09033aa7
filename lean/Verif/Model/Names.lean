import Verif.Model.SOGA
import Verif.Model.Maths

/-!
# `Global/Enumerations.hpp`: enumerators and their printed names

An enumeration is given by its numbers; `Enum2String` is a function on the number, because an object of an enumeration
type can hold numbers that are no enumerator.
-/

namespace Heu

/-- `enum RecordOption : uint8_t`, Global/Enumerations.hpp lines 38-42. -/
inductive RecordOption
  | RECORD_FITNESS | DONT_RECORD_FITNESS
  deriving DecidableEq

/-- The numbers of `RecordOption`, Global/Enumerations.hpp lines 38-42 (`true` and `false`). -/
def RecordOption.num : RecordOption → Nat
  | .RECORD_FITNESS => 1
  | .DONT_RECORD_FITNESS => 0

/-- `Enum2String(RecordOption)`, Global/Enumerations.hpp lines 51-58: control flows off the end of the function (which
is undefined) for other numbers. -/
def recordName (n : Nat) : Out String :=
  if n = 1 then .ok "RECORD_FITNESS" else if n = 0 then .ok "DONT_RECORD_FITNESS" else .ub

/-- `enum FitnessOption : uint8_t`, Global/Enumerations.hpp lines 67-70. -/
inductive FitnessOptionE
  | FITNESS_LESS_BETTER | FITNESS_GREATER_BETTER
  deriving DecidableEq

/-- The numbers of `FitnessOption`, Global/Enumerations.hpp lines 67-70. -/
def FitnessOptionE.num : FitnessOptionE → Nat
  | .FITNESS_LESS_BETTER => 0
  | .FITNESS_GREATER_BETTER => 1

/-- `Enum2String(FitnessOption)`, Global/Enumerations.hpp lines 79-86. -/
def fitnessName (n : Nat) : Out String :=
  if n = 0 then .ok "FITNESS_LESS_BETTER" else if n = 1 then .ok "FITNESS_GREATER_BETTER" else .ub

/-- `enum ContainerOption`, Global/Enumerations.hpp lines 102-106. -/
inductive ContainerOption
  | Std | Eigen | Custom
  deriving DecidableEq

/-- The numbers of `ContainerOption`, Global/Enumerations.hpp lines 102-106 (letters). -/
def ContainerOption.num : ContainerOption → Nat
  | .Std => 83
  | .Eigen => 69
  | .Custom => 67

/-- `Enum2String(ContainerOption)`, Global/Enumerations.hpp lines 115-124. -/
def containerName (n : Nat) : Out String :=
  if n = 83 then .ok "C++ std vector/array" else if n = 69 then .ok "Eigen Array" else .ok "Unknown custom types"

/-- `enum BoxShape`, Global/Enumerations.hpp lines 136-139. -/
inductive BoxShapeE
  | SQUARE_BOX | RECTANGLE_BOX
  deriving DecidableEq

/-- The numbers of `BoxShape`, Global/Enumerations.hpp lines 136-139. -/
def BoxShapeE.num : BoxShapeE → Nat
  | .SQUARE_BOX => 0
  | .RECTANGLE_BOX => 1

/-- `Enum2String(BoxShape)`, Global/Enumerations.hpp lines 148-155. -/
def shapeName (n : Nat) : Out String :=
  if n = 1 then .ok "Non-square box" else if n = 0 then .ok "Square box" else .ub

/-- `enum EncodeType`, Global/Enumerations.hpp lines 164-170. -/
inductive EncodeTypeE
  | Real | Binary | Symbolic
  deriving DecidableEq

/-- The numbers of `EncodeType`, Global/Enumerations.hpp lines 164-170. -/
def EncodeTypeE.num : EncodeTypeE → Nat
  | .Real => 0
  | .Binary => 1
  | .Symbolic => 2

/-- `Enum2String(EncodeType)`, Global/Enumerations.hpp lines 180-189. -/
def encodeName (n : Nat) : Out String :=
  if n = 0 then .ok "Real encoding" else if n = 1 then .ok "Binary encoding"
  else if n = 2 then .ok "Symbolic encoding" else .ub

/-- `Enum2String(SelectMethod)`, Global/Enumerations.hpp lines 330-355. -/
def methodName (n : Nat) : Out String :=
  if n = 0 then .ok "RouletteWheel" else if n = 1 then .ok "Tournament" else if n = 2 then .ok "Truncation"
  else if n = 3 then .ok "MonteCarlo" else if n = 4 then .ok "Probability" else if n = 5 then .ok "LinearRank"
  else if n = 6 then .ok "ExponentialRank" else if n = 7 then .ok "Boltzmann"
  else if n = 8 then .ok "StochasticUniversal" else if n = 9 then .ok "EliteReserved"
  else .ok "RunTimeSelectMethod"

/-- The argument of the static assertion in Global/HeuMaths.hpp lines 254-261: `max_v` of all numbers of
`SelectMethod`, in the order written there. -/
def maxSelectMethod : Nat :=
  maxCT SelectMethod.Boltzmann.toNat [SelectMethod.EliteReserved.toNat, SelectMethod.ExponentialRank.toNat,
    SelectMethod.LinearRank.toNat, SelectMethod.MonteCarlo.toNat, SelectMethod.Probability.toNat,
    SelectMethod.RouletteWheel.toNat, SelectMethod.RunTimeSelectMethod.toNat, SelectMethod.StochasticUniversal.toNat,
    SelectMethod.Tournament.toNat, SelectMethod.Truncation.toNat]

end Heu
