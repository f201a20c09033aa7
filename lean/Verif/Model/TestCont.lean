import Verif.Model.TestFuns

/-!
# The containers the test functions are called with

`HeuristicFlow/src/EAGlobal/MOFunctions.hpp`, `SOFunctions.hpp`, `TestFunctions.hpp` and the container traits of
`HeuristicFlow/src/Global/Types.hpp`: which families of test functions `testFunctions<Var_t, Fitness_t, Arg_t>` offers
for a pair of container types, whether that class can be instantiated at all, and what a call does with the result
object it is handed, whatever its type and its content.

Simplifications: the scalars are real numbers, Eigen containers are columns; a failing allocation is not modelled.
-/

namespace Heu.TestFuns

/-- A container type, as far as `array_traits` of `Global/Types.hpp` lines 365-387 looks at it: Eigen or std
(`isEigenClass`), and the compile-time size, `none` for `Eigen::Dynamic` (`sizeCT`; an Eigen array answers with its
`SizeAtCompileTime`, lines 298-305, a type without `resize` with its size, lines 307-339).  So `eigen (some n)` is
`Eigen::Array<double, n, 1>`, `eigen none` is `Eigen::ArrayXd`, `std (some n)` is `std::array<double, n>` and
`std none` is `std::vector<double>`. -/
inductive Cont
  | eigen (sizeCT : Option Nat)
  | std (sizeCT : Option Nat)
  deriving DecidableEq

/-- `array_traits<T>::isEigenClass`, Global/Types.hpp lines 367-372. -/
def Cont.isEigen : Cont → Bool
  | .eigen _ => true
  | .std _ => false

/-- `array_traits<T>::sizeCT`, Global/Types.hpp line 375. -/
def Cont.sizeCT : Cont → Option Nat
  | .eigen s => s
  | .std s => s

/-- `array_traits<T>::isFixedSize`, Global/Types.hpp line 378. -/
def Cont.isFixed (c : Cont) : Bool := c.sizeCT.isSome

/-- `sizeMayMatch<T, size>::value`, Global/Types.hpp lines 387-391. -/
def sizeMayMatch (c : Cont) (n : Nat) : Bool := !c.isFixed || decide (c.sizeCT = some n)

/-- `sizeMayMatchDTLZ1to7<Var_t, Fitness_t>::value`, MOFunctions.hpp lines 319-328: `N - M + 1 > 0` on signed
numbers. -/
def sizeMayMatchDTLZ1to7 (v f : Cont) : Bool :=
  match v.sizeCT, f.sizeCT with
  | some N, some M => decide ((N : Int) - M + 1 > 0)
  | _, _ => true

/-- `sizeMayMatchDTLZ89<Var_t, Fitness_t>::value`, MOFunctions.hpp lines 330-339. -/
def sizeMayMatchDTLZ89 (v f : Cont) : Bool :=
  match v.sizeCT, f.sizeCT with
  | some N, some M => decide (N > M)
  | _, _ => true

/-- The families of multi-objective test functions, the base classes of `MOFunctions`, TestFunctions.hpp lines 52-65:
`MOFunctions12` (Schaffer), `MOFunctions22` (Binh-Korn, Changkong-Haimes, Poloni), `MOFunctions23` (Viennet),
`MOFunctionsX2` (Fonseca-Fleming, Kursawe), `DTLZ1to7`, `DTLZ89`. -/
inductive Family
  | f12 | f22 | f23 | fX2 | dtlz1to7 | dtlz89
  deriving DecidableEq

/-- Whether `testFunctions<Var_t, Fitness_t, Arg_t>` inherits the family: the conditions of TestFunctions.hpp
lines 54-65. -/
def offers (v f : Cont) : Family → Bool
  | .f12 => sizeMayMatch v 1 && sizeMayMatch f 2
  | .f22 => sizeMayMatch v 2 && sizeMayMatch f 2
  | .f23 => sizeMayMatch v 2 && sizeMayMatch f 3
  | .fX2 => sizeMayMatch f 2
  | .dtlz1to7 => sizeMayMatchDTLZ1to7 v f
  | .dtlz89 => sizeMayMatchDTLZ89 v f

/-- Whether the specialisation `Family<Var_t, Fitness_t, void>` can be instantiated: its class-level assertions and
types.  `MOFunctions12` lines 43-45, `MOFunctions22` lines 102-103, `MOFunctions23` lines 184-185, `MOFunctionsX2`
lines 225-226 (the second assertion tests the size of `Fitness_t`, which is `-1` for a dynamic one), `DTLZ1to7` lines
345-346 and the type of lines 388-391, where `std::array<…, sizeCT - 1>` with the `sizeCT = -1` of a dynamic
`Fitness_t` is a narrowing conversion and so ill-formed.  All of MOFunctions.hpp. -/
def specialises (v f : Cont) : Family → Bool
  | .f12 => sizeMayMatch v 1 && sizeMayMatch f 2
  | .f22 => sizeMayMatch v 2 && sizeMayMatch f 2
  | .f23 => sizeMayMatch v 2 && sizeMayMatch f 3
  | .fX2 => sizeMayMatch f 2 && (!v.isFixed || decide (∃ M, f.sizeCT = some M ∧ 1 ≤ M))
  | .dtlz1to7 =>
    (match v.sizeCT with | some N => decide (N > 1) | none => true) &&
      (match f.sizeCT with | some M => decide (M > 1) | none => false)
  | .dtlz89 => true

/-- Whether `testFunctions<Var_t, Fitness_t, Arg_t>` can be instantiated for a container `Fitness_t`, TestFunctions.hpp
lines 52-68.  The size of `Fitness_t` must be dynamic or at least 2 (lines 66-67); the two last bases use the same empty
structure `emptyStruct5` when their condition fails (lines 62-65), so both failing gives the class the same direct base
twice, which is ill-formed; without an argument type (`hasArg = false`, `Arg_t = void`) the bases are the
specialisations themselves, which must be well-formed; with one they are the primary templates, which only forward
(testFunctionsCommon.hpp lines 25-28) and whose specialisations are instantiated by a call. -/
def instantiates (hasArg : Bool) (v f : Cont) : Bool :=
  (match f.sizeCT with | some M => decide (2 ≤ M) | none => true) &&
  (offers v f .dtlz1to7 || offers v f .dtlz89) &&
  (hasArg || ([Family.f12, .f22, .f23, .fX2, .dtlz1to7, .dtlz89].all fun g => !offers v f g || specialises v f g))

/-- The objects of a container type: a fixed container holds as many entries as its type says (`sizeCT`,
Global/Types.hpp line 375). -/
def Cont.Holds (c : Cont) (l : List ℝ) : Prop := ∀ n, c.sizeCT = some n → l.length = n

/-- `c.resize(n)` or, with `two`, `c.resize(n, 1)`, MOFunctions.hpp lines 56 and 58, 112 and 114, 194 and 196.  On a
fixed Eigen array the size must be the right one already; a dynamic Eigen array keeps its content if the size does not
change and has arbitrary content (`junk`) otherwise; on a vector `resize(n, 1)` means `n` entries, new ones with value 1.
A `std::array` has no `resize`: the call does not compile (`resizeCompiles`), the model answers with `ub`. -/
def resizeTo (two : Bool) (junk : List ℝ) (c : Cont) (n : Nat) (l : List ℝ) : Out (List ℝ) :=
  match c with
  | .eigen (some m) => if m = n then .ok l else .ub
  | .eigen none => .ok (if l.length = n then l else (junk ++ List.replicate n 0).take n)
  | .std (some _) => .ub
  | .std none => .ok ((l ++ List.replicate n (if two then 1 else 0)).take n)

/-- Whether `resize` exists on the container, see `resizeTo` (MOFunctions.hpp lines 112-114). -/
def resizeCompiles : Cont → Bool
  | .std (some _) => false
  | _ => true

/-- `assert4Size`: a vector of run-time size must have `n` entries.  MOFunctions.hpp lines 47-51 (`n = 1`), 104-108,
186-190 (`n = 2`), and SOFunctions.hpp lines 58-62 (`n = 2`). -/
def assert4Size (v : Cont) (n : Nat) (x : List ℝ) : Out Unit :=
  if v.isFixed then .ok () else if x.length = n then .ok () else .ub

/-- `MOFunctions12::initializeFitness`, MOFunctions.hpp lines 53-61: the result object is resized if *it* is of
run-time size. -/
def initFitness12 (junk : List ℝ) (f : Cont) (fv : List ℝ) : Out (List ℝ) :=
  if f.isFixed then .ok fv else resizeTo f.isEigen junk f 2 fv

/-- `MOFunctions22::initializeFitnessSize` (`n = 2`), MOFunctions.hpp lines 110-118, and
`MOFunctions23::initializeFitnessSize` (`n = 3`), lines 192-200: the result object is resized if the *variable* is of
run-time size. -/
def initFitness2 (n : Nat) (junk : List ℝ) (v f : Cont) (fv : List ℝ) : Out (List ℝ) :=
  if v.isFixed then .ok fv else resizeTo v.isEigen junk f n fv

/-- Whether the body of a function of `MOFunctions22` or `MOFunctions23` compiles: the `resize` of MOFunctions.hpp
lines 110-118, 192-200 is instantiated for a variable of run-time size. -/
def bodyCompiles2 (v f : Cont) : Bool := v.isFixed || resizeCompiles f

/-- `MOFunctions12::Schaffer1`, MOFunctions.hpp lines 64-71, on the caller's containers. -/
def callSchaffer1 (junk : List ℝ) (v f : Cont) (xv fv : List ℝ) : Out (List ℝ) := do
  assert4Size v 1 xv
  let fv ← initFitness12 junk f fv
  let x ← rd xv 0
  let fv ← wr fv 0 (x * x)
  wr fv 1 (square (x - 2))

/-- `MOFunctions12::Schaffer2`, MOFunctions.hpp lines 73-89, on the caller's containers. -/
noncomputable def callSchaffer2 (junk : List ℝ) (v f : Cont) (xv fv : List ℝ) : Out (List ℝ) := do
  assert4Size v 1 xv
  let fv ← initFitness12 junk f fv
  let x ← rd xv 0
  let fv ← wr fv 1 (square (x - 5))
  if x ≤ 1 then wr fv 0 (-x) else if x ≤ -3 then wr fv 0 (x - 2) else if x ≤ 4 then wr fv 0 (4 - x)
  else wr fv 0 (4 - x)

/-- `f->operator[](i) += d` for `cond`, MOFunctions.hpp lines 133 and 135. -/
noncomputable def addIf (cond : ℝ) (i : Nat) (d : ℝ) (fv : List ℝ) : Out (List ℝ) :=
  if cond > 0 then do
    let a ← rd fv i
    wr fv i (a + d)
  else .ok fv

/-- `MOFunctions22::BinhKorn`, MOFunctions.hpp lines 121-136, on the caller's containers. -/
noncomputable def callBinhKorn (junk : List ℝ) (v f : Cont) (xv fv : List ℝ) : Out (List ℝ) := do
  assert4Size v 2 xv
  let fv ← initFitness2 2 junk v f fv
  let x ← rd xv 0
  let y ← rd xv 1
  let fv ← wr fv 0 (4 * x * x + 4 * y * y)
  let fv ← wr fv 1 (square (x - 5) + square (y - 5))
  let penltyG1 := square (x - 5) + y * y - 25
  let penltyG2 := 7.7 - square (x - 8) - square (y + 3)
  let fv ← addIf penltyG1 0 (1e5 + penltyG1) fv
  addIf penltyG2 1 (1e5 + penltyG2) fv

/-- `MOFunctions22::ChangkongHaimes`, MOFunctions.hpp lines 138-154, on the caller's containers. -/
noncomputable def callChangkongHaimes (junk : List ℝ) (v f : Cont) (xv fv : List ℝ) : Out (List ℝ) := do
  assert4Size v 2 xv
  let fv ← initFitness2 2 junk v f fv
  let x ← rd xv 0
  let y ← rd xv 1
  let fv ← wr fv 0 (2 + square (x - 2) + square (y - 1))
  let fv ← wr fv 1 (9 * x - square (y - 1))
  let penltyG1 := x * x + y * y - 225
  let penltyG2 := x - 3 * y + 10
  let fv ← addIf penltyG1 0 (1e5 + penltyG1) fv
  addIf penltyG2 1 (1e5 + penltyG2) fv

/-- `MOFunctions22::Poloni`, MOFunctions.hpp lines 156-173, on the caller's containers (the two values: `poloni`). -/
noncomputable def callPoloni (junk : List ℝ) (v f : Cont) (xv fv : List ℝ) : Out (List ℝ) := do
  assert4Size v 2 xv
  let fv ← initFitness2 2 junk v f fv
  let x ← rd xv 0
  let y ← rd xv 1
  let fv ← wr fv 0 (poloni x y 0)
  wr fv 1 (poloni x y 1)

/-- `MOFunctions23::viennet`, MOFunctions.hpp lines 203-213, on the caller's containers (the three values:
`viennet`). -/
noncomputable def callViennet (junk : List ℝ) (v f : Cont) (xv fv : List ℝ) : Out (List ℝ) := do
  assert4Size v 2 xv
  let fv ← initFitness2 3 junk v f fv
  let x ← rd xv 0
  let y ← rd xv 1
  let fv ← wr fv 0 (viennet x y 0)
  let fv ← wr fv 1 (viennet x y 1)
  wr fv 2 (viennet x y 2)

/-- `MOFunctionsX2::Kursawe`, the branch for Eigen vectors, MOFunctions.hpp lines 255-283.  `N` is the number of
*objectives* (2), so `topRows(N - 1)` is the first entry of the vector and `bottomRows(N - 1)` the last one; the sum for
the second objective is over the whole vector.  (The variant for fixed sizes uses `N` as a template argument; whether
this compiles depends on the compiler, as for `fonsecaFleming`.) -/
noncomputable def kursaweEigen (x : List ℝ) : Out (Fin 2 → ℝ) :=
  let N := 2
  if x.length < N - 1 then .ub else
  let top := x.take (N - 1)
  let bottom := x.drop (x.length - (N - 1))
  .ok ![-10 * ((List.zipWith (fun a b => Real.exp (-0.2 * Real.sqrt (a ^ 2 + b ^ 2))) top bottom).sum),
    (x.map fun t => abs t ^ (0.8 : ℝ) + 5 * Real.sin (t ^ 3)).sum]

/-- `MOFunctionsX2::Kursawe`, MOFunctions.hpp lines 255-302, on the caller's containers: the result object is not
resized, one of run-time size must have two entries already (`assert4Size`, lines 228-232). -/
noncomputable def callKursawe (v f : Cont) (xv fv : List ℝ) : Out (List ℝ) :=
  if !f.isFixed && decide (fv.length ≠ 2) then .ub else do
  let r ← bif v.isEigen then kursaweEigen xv else kursaweStd xv
  let fv ← wr fv 0 (r 0)
  wr fv 1 (r 1)

end Heu.TestFuns
