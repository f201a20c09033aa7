import Verif.Model.AOSFl
import Verif.Model.NSGA2Fl

/-!
# Sums of squares among the test functions, on `double`s

`HeuristicFlow/src/EAGlobal/SOFunctions.hpp`, `HeuristicFlow/src/EAGlobal/MOFunctions.hpp`; coordinates and fitness of
type `double` (`Dbl F` with `F = binary64`).

Simplifications, for every definition of this file: each operation is rounded on its own (no fused multiply-add); the
two-variable functions take their coordinates, and the assertion that there are two is a precondition; the order in
which Eigen adds up the entries of an array is not fixed (`Heu.Reduction`).
-/

namespace Heu.TestFl

/-- `square`, `Global/HeuMaths.hpp` lines 40-43. -/
def squareFl {F : Fmt} (a : Dbl F) : Dbl F := a * a

/-- A literal `k / 2^j` with few bits.  (C++ language; `EAGlobal/SOFunctions.hpp` line 76.) -/
def dyadic (F : Fmt) (k j : Nat) : Dbl F := ⟨.fin false (k * 2 ^ (F.one - j))⟩

/-- `booth`, `EAGlobal/SOFunctions.hpp` lines 90-95. -/
def booth {F : Fmt} (x y : Dbl F) : Dbl F :=
  squareFl (x + Dbl.nat F 2 * y - Dbl.nat F 7) + squareFl (Dbl.nat F 2 * x + y - Dbl.nat F 5)

/-- `himmelblau`, `EAGlobal/SOFunctions.hpp` lines 119-124. -/
def himmelblau {F : Fmt} (x y : Dbl F) : Dbl F :=
  squareFl (x * x + y - Dbl.nat F 11) + squareFl (x + y * y - Dbl.nat F 7)

/-- `beale`, `EAGlobal/SOFunctions.hpp` lines 72-77; the literals are 1.5, 2.25, 2.625. -/
def beale {F : Fmt} (x y : Dbl F) : Dbl F :=
  squareFl (dyadic F 3 1 - x + x * y) + squareFl (dyadic F 9 2 - x + x * y * y) +
    squareFl (dyadic F 21 3 - x + x * y * y * y)

/-- `matyas`, `EAGlobal/SOFunctions.hpp` lines 104-109; `a` and `b` are the values of the literals 0.26 and 0.48. -/
def matyas {F : Fmt} (a b x y : Dbl F) : Dbl F := a * (x * x + y * y) - b * x * y

/-- `sphere` of a vector that is not of Eigen, `EAGlobal/SOFunctions.hpp` lines 229-236. -/
def sphereStd {F : Fmt} (x : List (Dbl F)) : Dbl F := x.foldl (fun res i => res + i * i) 0

/-- A way to add up a sequence of values: `Eigen::DenseBase::sum()` fixes neither order nor bracketing (with vector
instructions partial sums are formed); the sum of nothing is 0.  (Eigen; used in `EAGlobal/SOFunctions.hpp` lines 228,
241 and 242.) -/
inductive Reduction {F : Fmt} : List (Dbl F) → Dbl F → Prop where
  | none : Reduction [] 0
  | one (x : Dbl F) : Reduction [x] x
  | both {l l' : List (Dbl F)} {a b : Dbl F} : Reduction l a → Reduction l' b → Reduction (l ++ l') (a + b)
  | perm {l l' : List (Dbl F)} {a : Dbl F} : l.Perm l' → Reduction l a → Reduction l' a

/-- `sphere` of an Eigen vector, `EAGlobal/SOFunctions.hpp` lines 227-228: the possible results. -/
def SphereEigen {F : Fmt} (x : List (Dbl F)) (y : Dbl F) : Prop := Reduction (x.map squareFl) y

/-- The loop of `rosenbrock` of a vector that is not of Eigen, `EAGlobal/SOFunctions.hpp` lines 245-250: `x` is the rest
of the vector from `idx` on. -/
def rosenbrockLoop {F : Fmt} : List (Dbl F) → Dbl F → Dbl F
  | a :: b :: rest, val =>
    rosenbrockLoop (b :: rest) (val + (Dbl.nat F 100 * squareFl (b - a) + squareFl (Dbl.nat F 1 - a)))
  | _, val => val

/-- `rosenbrock` of a vector that is not of Eigen, `EAGlobal/SOFunctions.hpp` lines 244-251.  `size() - 1` of an empty
vector wraps around, and the loop reads outside. -/
def rosenbrockStd {F : Fmt} (x : List (Dbl F)) : Out (Dbl F) :=
  if x = [] then .ub else .ok (rosenbrockLoop x 0)

/-- `rosenbrock` of an Eigen vector with at least one entry, `EAGlobal/SOFunctions.hpp` lines 240-243: the possible
results. -/
def RosenbrockEigen {F : Fmt} (x : List (Dbl F)) (y : Dbl F) : Prop :=
  ∃ a b, Reduction (x.dropLast.map fun t => squareFl (Dbl.nat F 1 - t)) a ∧
    Reduction (List.zipWith (fun t b => squareFl (t - b)) x.dropLast x.tail) b ∧ y = Dbl.nat F 100 * b + a

/-- `Schaffer1`, `EAGlobal/MOFunctions.hpp` lines 63-70: the two objectives. -/
def schaffer1 {F : Fmt} (x : Dbl F) : Dbl F × Dbl F := (x * x, squareFl (x - Dbl.nat F 2))

/-- `levy`, `EAGlobal/SOFunctions.hpp` lines 111-117; `sin` is the function of the C++ library (any function), `pi` the
value of `M_PI`. -/
def levy {F : Fmt} (sin : Dbl F → Dbl F) (pi x y : Dbl F) : Dbl F :=
  squareFl (sin (Dbl.nat F 3 * pi * x)) +
    squareFl (x - Dbl.nat F 1) * (Dbl.nat F 1 + squareFl (sin (Dbl.nat F 3 * pi * y))) +
    squareFl (y - Dbl.nat F 1) * (Dbl.nat F 1 + squareFl (sin (Dbl.nat F 2 * pi * y)))

/-- `easom`, `EAGlobal/SOFunctions.hpp` lines 133-138; `cos` and `exp` are the functions of the C++ library (any
functions), `pi` the value of `M_PI`. -/
def easom {F : Fmt} (cos exp : Dbl F → Dbl F) (pi x y : Dbl F) : Dbl F :=
  -cos x * cos y * exp (-squareFl (x - pi) - squareFl (y - pi))

/-- `bukin`, `EAGlobal/SOFunctions.hpp` lines 97-102; `sqrt` is the function of the C++ library (any function), `c` the
value of the literal 0.01. -/
def bukin {F : Fmt} (sqrt : Dbl F → Dbl F) (c x y : Dbl F) : Dbl F :=
  Dbl.nat F 100 * sqrt ⟨(y - c * x * x).val.abs⟩ + c * ⟨(x + Dbl.nat F 10).val.abs⟩

/-- `holderTable`, `EAGlobal/SOFunctions.hpp` lines 165-176; `sin`, `cos`, `exp` and `sqrt` are the functions of the C++
library (any functions), `pi` the value of `M_PI`. -/
def holderTable {F : Fmt} (sin cos exp sqrt : Dbl F → Dbl F) (pi x y : Dbl F) : Dbl F :=
  -⟨(sin x * cos y * exp ⟨(Dbl.nat F 1 - sqrt (x * x - y * y) / pi).val.abs⟩).val.abs⟩

/-- `schaffer2`, `EAGlobal/SOFunctions.hpp` lines 186-192; `sin` is the function of the C++ library (any function), `c` the
value of the literal 0.001, 0.5 is `dyadic F 1 1`. -/
def schaffer2 {F : Fmt} (sin : Dbl F → Dbl F) (c x y : Dbl F) : Dbl F :=
  dyadic F 1 1 + squareFl (sin (x * x - y * y) - dyadic F 1 1) / squareFl (Dbl.nat F 1 + c * (x * x + y * y))

/-- `rastrigin`, `EAGlobal/SOFunctions.hpp` lines 219-224, for every kind of vector; `cos` is the function of the C++ library
(any function), `pi` the value of `M_PI`.  The conversion of `size()` to `double` is taken to be exact. -/
def rastrigin {F : Fmt} (cos : Dbl F → Dbl F) (pi : Dbl F) (x : List (Dbl F)) : Dbl F :=
  x.foldl (fun f xi => f + (squareFl xi - Dbl.nat F 10 * cos (pi * Dbl.nat F 2 * xi))) (Dbl.nat F 10 * Dbl.nat F x.length)

/-- The first constraint of `BinhKorn` (violated when positive), `EAGlobal/MOFunctions.hpp` line 130. -/
def binhKornG1 {F : Fmt} (x y : Dbl F) : Dbl F := squareFl (x - Dbl.nat F 5) + y * y - Dbl.nat F 25

/-- The second constraint of `BinhKorn` (violated when positive), `EAGlobal/MOFunctions.hpp` line 131; `c` is the value of
the literal 7.7. -/
def binhKornG2 {F : Fmt} (c x y : Dbl F) : Dbl F := c - squareFl (x - Dbl.nat F 8) - squareFl (y + Dbl.nat F 3)

/-- `BinhKorn`, `EAGlobal/MOFunctions.hpp` lines 121-136: the two objectives. -/
def binhKorn {F : Fmt} (c x y : Dbl F) : Dbl F × Dbl F :=
  let f0 := Dbl.nat F 4 * x * x + Dbl.nat F 4 * y * y
  let f1 := squareFl (x - Dbl.nat F 5) + squareFl (y - Dbl.nat F 5)
  (if 0 < binhKornG1 x y then f0 + (Dbl.nat F 100000 + binhKornG1 x y) else f0,
   if 0 < binhKornG2 c x y then f1 + (Dbl.nat F 100000 + binhKornG2 c x y) else f1)

/-- The first constraint of `ChangkongHaimes` (violated when positive), `EAGlobal/MOFunctions.hpp` line 147. -/
def changkongHaimesG1 {F : Fmt} (x y : Dbl F) : Dbl F := x * x + y * y - Dbl.nat F 225

/-- The second constraint of `ChangkongHaimes` (violated when positive), `EAGlobal/MOFunctions.hpp` line 149. -/
def changkongHaimesG2 {F : Fmt} (x y : Dbl F) : Dbl F := x - Dbl.nat F 3 * y + Dbl.nat F 10

/-- `ChangkongHaimes`, `EAGlobal/MOFunctions.hpp` lines 138-154: the two objectives. -/
def changkongHaimesFl {F : Fmt} (x y : Dbl F) : Dbl F × Dbl F :=
  let f0 := Dbl.nat F 2 + squareFl (x - Dbl.nat F 2) + squareFl (y - Dbl.nat F 1)
  let f1 := Dbl.nat F 9 * x - squareFl (y - Dbl.nat F 1)
  (if 0 < changkongHaimesG1 x y then f0 + (Dbl.nat F 100000 + changkongHaimesG1 x y) else f0,
   if 0 < changkongHaimesG2 x y then f1 + (Dbl.nat F 100000 + changkongHaimesG2 x y) else f1)

end Heu.TestFl
