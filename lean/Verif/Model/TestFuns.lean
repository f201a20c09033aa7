import Verif.Model.Basic
import Mathlib.Analysis.SpecialFunctions.Exp
import Mathlib.Analysis.SpecialFunctions.Sqrt
import Mathlib.Analysis.SpecialFunctions.Pow.Real
import Mathlib.Analysis.SpecialFunctions.Trigonometric.Basic

/-!
# The test functions, over the reals

`HeuristicFlow/src/EAGlobal/SOFunctions.hpp` and `HeuristicFlow/src/EAGlobal/MOFunctions.hpp`.

Simplifications, for every definition of this file: `double` is the field of real numbers (no
rounding, no overflow); `std::sin`, `std::exp`, ... are the real functions; the decimal literals are
the decimal numbers they denote; `M_PI` is π, `M_2_PI` is 2/π (that is what the macro means),
`M_E` is e.  A `std::sqrt` of a negative number is NaN: functions in which that can happen return
an `Option`, `none` standing for NaN.  The two-variable functions take their two coordinates; the
assertion that the vector has two entries (lines 58-62) is a precondition.
-/

namespace Heu.TestFuns

/-- The kind of vector a caller passes: `array_traits<Var_t>::isEigenClass` or not.
(Tested in `SOFunctions.hpp` and `MOFunctions.hpp`, e.g. `MOFunctions.hpp` lines 255-283.) -/
inductive Vec where
  | eigen
  | std
  deriving DecidableEq

/-- `square`, `HeuristicFlow/src/Global/HeuMaths.hpp` lines 40-43. -/
def square (x : ℝ) : ℝ := x * x

/-! ### Two variables, one objective: `SOFunctions2` -/

/-- `ackley`, SOFunctions.hpp lines 65-70.  Note `M_2_PI = 2/π`, not `2π`. -/
noncomputable def ackley (x y : ℝ) : ℝ :=
  -20 * Real.exp (-0.2 * Real.sqrt (0.5 * (x * x + y * y))) -
    Real.exp (0.5 * (Real.cos (2 / Real.pi * x) + Real.cos (2 / Real.pi * y))) + 20 + Real.exp 1

/-- `beale`, SOFunctions.hpp lines 72-77. -/
noncomputable def beale (x y : ℝ) : ℝ :=
  square (1.5 - x + x * y) + square (2.25 - x + x * y * y) + square (2.625 - x + x * y * y * y)

/-- `GoldsteinPrice`, SOFunctions.hpp lines 79-88. -/
def goldsteinPrice (x y : ℝ) : ℝ :=
  let part1 := 1 + square (1 + x + y) *
    (19 - 14 * x + 3 * x * x - 14 * y + 6 * x * y + 3 * y * y)
  let part2 := 30 + square (2 * x - 3 * y) *
    (18 - 32 * x + 12 * x + 47 * y - 36 * x * y + 27 * y * y)
  part1 * part2

/-- `booth`, SOFunctions.hpp lines 90-95. -/
def booth (x y : ℝ) : ℝ := square (x + 2 * y - 7) + square (2 * x + y - 5)

/-- `bukin`, SOFunctions.hpp lines 97-102. -/
noncomputable def bukin (x y : ℝ) : ℝ :=
  100 * Real.sqrt (abs (y - 0.01 * x * x)) + 0.01 * abs (x + 10)

/-- `matyas`, SOFunctions.hpp lines 104-109. -/
noncomputable def matyas (x y : ℝ) : ℝ := 0.26 * (x * x + y * y) - 0.48 * x * y

/-- `levy`, SOFunctions.hpp lines 111-117. -/
noncomputable def levy (x y : ℝ) : ℝ :=
  square (Real.sin (3 * Real.pi * x)) + square (x - 1) * (1 + square (Real.sin (3 * Real.pi * y))) +
    square (y - 1) * (1 + square (Real.sin (2 * Real.pi * y)))

/-- `himmelblau`, SOFunctions.hpp lines 119-124. -/
def himmelblau (x y : ℝ) : ℝ := square (x * x + y - 11) + square (x + y * y - 7)

/-- `threeHumpCamel`, SOFunctions.hpp lines 126-131. -/
noncomputable def threeHumpCamel (x y : ℝ) : ℝ :=
  2 * x * x - 1.05 * x ^ 4 + x ^ 6 / 6 + x * y + y * y

/-- `easom`, SOFunctions.hpp lines 133-138. -/
noncomputable def easom (x y : ℝ) : ℝ :=
  -Real.cos x * Real.cos y * Real.exp (-square (x - Real.pi) - square (y - Real.pi))

/-- `crossInTray`, SOFunctions.hpp lines 140-153. -/
noncomputable def crossInTray (x y : ℝ) : ℝ :=
  -0.0001 * (1 + abs (Real.sin x * Real.sin y *
    Real.exp (abs (100 - Real.sqrt (x * x + y * y) / Real.pi)))) ^ (0.1 : ℝ)

/-- `eggHolder`, SOFunctions.hpp lines 155-163. -/
noncomputable def eggHolder (x y : ℝ) : ℝ :=
  let y47 := y + 47;
  -y47 * Real.sin (Real.sqrt (abs (x / 2 + y47))) - x * Real.sin (Real.sqrt (abs (x - y47)))

/-- `holderTable`, SOFunctions.hpp lines 165-176.  `none` is NaN: the argument of the square root
is `x * x - y * y`. -/
noncomputable def holderTable (x y : ℝ) : Option ℝ :=
  if x * x - y * y < 0 then none
  else some (-abs (Real.sin x * Real.cos y * Real.exp (abs (1 - Real.sqrt (x * x - y * y) / Real.pi))))

/-- `McCormick`, SOFunctions.hpp lines 178-184. -/
noncomputable def mcCormick (x y : ℝ) : ℝ :=
  Real.sin (x + y) + square (x - y) - 1.5 * x + 2.5 * y + 1

/-- `schaffer2`, SOFunctions.hpp lines 186-192. -/
noncomputable def schaffer2 (x y : ℝ) : ℝ :=
  0.5 + square (Real.sin (x * x - y * y) - 0.5) / square (1 + 0.001 * (x * x + y * y))

/-- `schaffer4`, SOFunctions.hpp lines 194-201. -/
noncomputable def schaffer4 (x y : ℝ) : ℝ :=
  0.5 + (square (Real.cos (Real.sin (abs (x * x - y * y)))) - 0.5) /
    square (1 + 0.001 * (x * x + y * y))

/-! ### Any number of variables, one objective: `SOFunctionsX` -/

/-- `rastrigin`, SOFunctions.hpp lines 219-224. -/
noncomputable def rastrigin (x : List ℝ) : ℝ :=
  x.foldl (fun acc xi => acc + (square xi - 10 * Real.cos (Real.pi * 2 * xi))) (10.0 * x.length)

/-- `sphere`, SOFunctions.hpp lines 226-237: the Eigen expression and the loop. -/
def sphere (v : Vec) (x : List ℝ) : ℝ :=
  match v with
  | .eigen => (x.map fun i => i ^ 2).sum
  | .std => x.foldl (fun res i => res + i * i) 0

/-- Reading `x->operator[](i)`: out of range is undefined behaviour.
(`SOFunctions.hpp`, `MOFunctions.hpp`; the functions that use it cite their lines.) -/
def rd (x : List ℝ) (i : Nat) : Out ℝ :=
  match x[i]? with
  | some v => .ok v
  | none => .ub

/-- Writing `f->operator[](i) = v`: out of range is undefined behaviour.
(`MOFunctions.hpp`; the functions that use it cite their lines.) -/
def wr (f : List ℝ) (i : Nat) (v : ℝ) : Out (List ℝ) :=
  if i < f.length then .ok (f.set i v) else .ub

/-- `for (int i = lo; i < hi; i++) body`, for the loops of this file.
(`SOFunctions.hpp`, `MOFunctions.hpp`; the functions that use it cite their lines.) -/
def forUp {σ : Type} (lo hi : Nat) (body : Nat → σ → Out σ) (s : σ) : Out σ :=
  (List.range' lo (hi - lo)).foldlM (fun s i => body i s) s

/-- `for (int i = n; i > 0; i--) body`, for the loops of this file.
(`MOFunctions.hpp`; the functions that use it cite their lines.) -/
def forDown {σ : Type} (body : Nat → σ → Out σ) : Nat → σ → Out σ
  | 0, s => .ok s
  | i + 1, s => (body (i + 1) s).bind (forDown body i)

/-- `rosenbrock`, SOFunctions.hpp lines 239-252.  For the empty vector `size() - 1` is not a legal
row count (Eigen) or wraps around to a huge bound (std): undefined behaviour either way. -/
def rosenbrock (v : Vec) (x : List ℝ) : Out ℝ :=
  if x.length = 0 then .ub else
  match v with
  | .eigen =>
    let top := x.take (x.length - 1)
    let bottom := x.drop 1
    let square1MinusXTop := (top.map fun t => (1 - t) ^ 2).sum
    let minusSquare := (List.zipWith (fun t b => (t - b) ^ 2) top bottom).sum
    .ok (100 * minusSquare + square1MinusXTop)
  | .std =>
    forUp 0 (x.length - 1) (fun idx val => do
      let a ← rd x (idx + 1)
      let b ← rd x idx
      return val + (100 * square (a - b) + square (1 - b))) 0

/-- `styblinskiTang`, SOFunctions.hpp lines 254-266.  The Eigen branch does not halve. -/
noncomputable def styblinskiTang (v : Vec) (x : List ℝ) : ℝ :=
  match v with
  | .eigen => (x.map fun t => t ^ 4 - 16 * t ^ 2 + 5 * t).sum
  | .std => x.foldl (fun val t => val + (t * t * t * t - 16 * t * t + 5 * t)) 0 / 2

/-! ### Several objectives -/

/-- `MOFunctions12::Schaffer1`, MOFunctions.hpp lines 64-71. -/
def schafferMO1 (x : ℝ) : Fin 2 → ℝ := ![x * x, square (x - 2)]

/-- `MOFunctions12::Schaffer2`, MOFunctions.hpp lines 73-89: the branches in the order of the code. -/
noncomputable def schafferMO2 (x : ℝ) : Fin 2 → ℝ :=
  ![if x ≤ 1 then -x else if x ≤ -3 then x - 2 else if x ≤ 4 then 4 - x else 4 - x, square (x - 5)]

/-- `MOFunctions22::BinhKorn`, MOFunctions.hpp lines 121-136. -/
noncomputable def binhKorn (x y : ℝ) : Fin 2 → ℝ :=
  let f0 := 4 * x * x + 4 * y * y
  let f1 := square (x - 5) + square (y - 5)
  let penltyG1 := square (x - 5) + y * y - 25
  let penltyG2 := 7.7 - square (x - 8) - square (y + 3)
  ![if penltyG1 > 0 then f0 + (1e5 + penltyG1) else f0,
    if penltyG2 > 0 then f1 + (1e5 + penltyG2) else f1]

/-- `MOFunctions22::ChangkongHaimes`, MOFunctions.hpp lines 138-154. -/
noncomputable def changkongHaimes (x y : ℝ) : Fin 2 → ℝ :=
  let f0 := 2 + square (x - 2) + square (y - 1)
  let f1 := 9 * x - square (y - 1)
  let penltyG1 := x * x + y * y - 225
  let penltyG2 := x - 3 * y + 10
  ![if penltyG1 > 0 then f0 + (1e5 + penltyG1) else f0,
    if penltyG2 > 0 then f1 + (1e5 + penltyG2) else f1]

/-- `MOFunctions22::Poloni`, MOFunctions.hpp lines 156-173. -/
noncomputable def poloni (x y : ℝ) : Fin 2 → ℝ :=
  let A1 : ℝ := 0.87364856231406409441675015609208455034347519302074844792508553304659184302050078940737876109778881072998046875
  let A2 : ℝ := 2.74857244326863962686864072157634249269337869363896678191405505936963961366448216949720517732203006744384765625
  let B1 := 0.5 * Real.sin x - 2 * Real.cos x + Real.sin y - 1.5 * Real.cos y
  let B2 := 1.5 * Real.sin x - Real.cos x + 2 * Real.sin y - 0.5 * Real.cos y
  ![1 + square (A1 - B1) + square (A2 - B2), square (x + 3) + square (y + 1)]

/-- `MOFunctions23::viennet`, MOFunctions.hpp lines 203-213. -/
noncomputable def viennet (x y : ℝ) : Fin 3 → ℝ :=
  let r := x * x + y * y
  ![r / 2 + Real.sin r, square (2 * x - 2 * y + 4) / 8 + square (x - y + 1) / 27 + 15,
    1 / (r + 1) - 1.1 * Real.exp (-r)]

/-- `MOFunctionsX2::FonsecaFleming`, MOFunctions.hpp lines 235-253.  `N` is the number of *objectives*
(`f->size()`, asserted to be 2), `rSqrtN` is `1 / sqrt(N)`.  The branch for std containers has `sqrt` where the
Eigen branch has `square`; the entries are `none` (NaN) when a root was taken of a negative number.  (`rSqrtN` is
`constexpr` although `N` is computed from a pointer: whether this compiles depends on the compiler.) -/
noncomputable def fonsecaFleming (v : Vec) (x : List ℝ) : Out (Fin 2 → Option ℝ) :=
  let N : Nat := 2
  let rSqrtN : ℝ := 1 / Real.sqrt (N : ℝ)
  let sqrtOpt := fun t : ℝ => if t < 0 then none else some (Real.sqrt t)
  match v with
  | .eigen =>
    .ok ![some (1 - Real.exp (-1 * (x.map fun t => (t - rSqrtN) ^ 2).sum)),
      some (1 - Real.exp (-1 * (x.map fun t => (t + rSqrtN) ^ 2).sum))]
  | .std => do
    let (exp1, exp2) ← forUp 0 N (fun idx (s : Option ℝ × Option ℝ) => do
      let t ← rd x idx
      return (do let e ← s.1; let r ← sqrtOpt (t - rSqrtN); return e - r,
        do let e ← s.2; let r ← sqrtOpt (t + rSqrtN); return e - r)) (some 0, some 0)
    .ok ![exp1.map fun e => 1 - Real.exp e, exp2.map fun e => 1 - Real.exp e]

/-- `MOFunctionsX2::Kursawe`, the branch for std containers, MOFunctions.hpp lines 256-257 and
284-299.  `N` is the number of *objectives* (`f->size()`, asserted to be 2 in lines 228-232), not the
number of variables. -/
noncomputable def kursaweStd (x : List ℝ) : Out (Fin 2 → ℝ) := do
  let N := 2
  let (f1, f2) ← forUp 0 (N - 1) (fun i (s : ℝ × ℝ) => do
    let a ← rd x i
    let b ← rd x (i + 1)
    return (s.1 - 10 * Real.exp (-0.2 * Real.sqrt (square a + square b)),
      s.2 + (abs a ^ (0.8 : ℝ) + 5 * Real.sin (a * a * a)))) ((0, 0) : ℝ × ℝ)
  let last ← rd x (N - 1)
  return ![f1, f2 + (abs last ^ (0.8 : ℝ) + 5 * Real.sin (last * last * last))]

/-- The part of the vector behind the first `M - 1` entries: `computeXM`, MOFunctions.hpp lines
366-376, and the index range of the loops `for (int idx = M - 1; idx < N; idx++)`. -/
def xM (x : List ℝ) (M : Nat) : List ℝ := x.drop (M - 1)

/-- `g` of `DTLZ1` and `DTLZ3`, MOFunctions.hpp lines 405-422 and 464-480. -/
noncomputable def gMulti (v : Vec) (x : List ℝ) (M : Nat) : ℝ :=
  match v with
  | .eigen => 100 * ((xM x M).length +
      ((xM x M).map fun t => (t - 0.5) ^ 2 - Real.cos (20 * Real.pi * (t - 0.5))).sum)
  | .std => (xM x M).foldl (fun g t => g + 100 * ((t - 0.5) * (t - 0.5) -
      Real.cos (20 * Real.pi * (t - 0.5)))) (100 * ((x.length : ℝ) - M + 1))

/-- `g` of `DTLZ2`, `DTLZ4` and `gXm` of `DTLZ5`, MOFunctions.hpp lines 439-448, 500-509, 528-536. -/
noncomputable def gSphere (v : Vec) (x : List ℝ) (M : Nat) : ℝ :=
  match v with
  | .eigen => ((xM x M).map fun t => (t - 0.5) ^ 2).sum
  | .std => (xM x M).foldl (fun g t => g + square (t - 0.5)) 0

/-- The loop over the objectives shared by `DTLZ1` to `DTLZ6`: `f[objIdx] = prodCum * s`,
`prodCum *= c` for `objIdx` from `M - 1` down to 1, then `f[0] = prodCum`; `s` and `c` are functions
of the entry `M - 1 - objIdx` of the vector `t`.  MOFunctions.hpp lines 426-430, 451-455, 485-489,
512-517, 572-576, 633-637. -/
def objLoop (s c : ℝ → ℝ) (t : List ℝ) (M : Nat) (prodCum : ℝ) (f : List ℝ) : Out (List ℝ) := do
  let (p, f) ← forDown (fun objIdx (st : ℝ × List ℝ) => do
    let a ← rd t (M - 1 - objIdx)
    let f' ← wr st.2 objIdx (st.1 * s a)
    return (st.1 * c a, f')) (M - 1) (prodCum, f)
  wr f 0 p

/-- `assert4Size`, MOFunctions.hpp lines 348-360, with `M = f->size()`; a violated assertion is
modelled as undefined behaviour. -/
def assertSize (x f : List ℝ) : Out Unit :=
  if (x.length : Int) - f.length + 1 > 0 then .ok () else .ub

/-- `DTLZ1`, MOFunctions.hpp lines 399-431.  `f` is the previous content of the result vector. -/
noncomputable def dtlz1 (v : Vec) (x f : List ℝ) : Out (List ℝ) := do
  assertSize x f
  objLoop (fun t => 1 - t) (fun t => t) x f.length (0.5 * (1 + gMulti v x f.length)) f

/-- `DTLZ2`, MOFunctions.hpp lines 433-456. -/
noncomputable def dtlz2 (v : Vec) (x f : List ℝ) : Out (List ℝ) := do
  assertSize x f
  objLoop (fun t => Real.sin (Real.pi / 2 * t)) (fun t => Real.cos (Real.pi / 2 * t)) x f.length
    (1 + gSphere v x f.length) f

/-- `DTLZ3`, MOFunctions.hpp lines 458-490. -/
noncomputable def dtlz3 (v : Vec) (x f : List ℝ) : Out (List ℝ) := do
  assertSize x f
  objLoop (fun t => Real.sin (Real.pi / 2 * t)) (fun t => Real.cos (Real.pi / 2 * t)) x f.length
    (1 + gMulti v x f.length) f

/-- `DTLZ4<alpha>`, MOFunctions.hpp lines 493-518; `alpha` is a non-negative template argument. -/
noncomputable def dtlz4 (alpha : Nat) (v : Vec) (x f : List ℝ) : Out (List ℝ) := do
  assertSize x f
  objLoop (fun t => Real.sin (Real.pi / 2 * t ^ alpha)) (fun t => Real.cos (Real.pi / 2 * t ^ alpha))
    x f.length (1 + gSphere v x f.length) f

/-- The vector `theta_times_PI_div_2` of `DTLZ5` and `DTLZ6`, MOFunctions.hpp lines 538-568 and
599-629.  Both branches compute the same entries over the reals.  For one objective the write to
entry 0 is out of range. -/
noncomputable def theta56 (x : List ℝ) (M : Nat) (gr : ℝ) : Out (List ℝ) := do
  let theta := (x.take (M - 1)).map fun t =>
    Real.pi / 2 * (1 + 2 * gr * t) * Real.pi / (4 * (1 + gr))
  let x0 ← rd x 0
  wr theta 0 (Real.pi / 2 * Real.pi / 2 * x0)

/-- `DTLZ5`, MOFunctions.hpp lines 520-579.  Only for Eigen vectors: the branch on the kind of the
vector in line 528 is not `if constexpr`, so the function does not compile for others. -/
noncomputable def dtlz5 (x f : List ℝ) : Out (List ℝ) := do
  assertSize x f
  let gr := ((xM x f.length).map fun t => t ^ 2).sum
  let theta ← theta56 x f.length gr
  objLoop Real.sin Real.cos theta f.length (1 + gSphere .eigen x f.length) f

/-- `DTLZ6`, MOFunctions.hpp lines 581-640, only for Eigen vectors (as `dtlz5`) and for
non-negative entries (the power of a negative number is NaN). -/
noncomputable def dtlz6 (x f : List ℝ) : Out (List ℝ) := do
  assertSize x f
  let gr := ((xM x f.length).map fun t => t ^ 2).sum
  let gXm := ((xM x f.length).map fun t => t ^ (0.1 : ℝ)).sum
  let theta ← theta56 x f.length gr
  objLoop Real.sin Real.cos theta f.length (1 + gXm) f

/-- `DTLZ7`, MOFunctions.hpp lines 642-684, both vectors of the same kind.  In the std branch the
loop copies only the first `M - 2` entries. -/
noncomputable def dtlz7 (v : Vec) (x f : List ℝ) : Out (List ℝ) := do
  assertSize x f
  let M := f.length
  let f ← forUp 0 (match v with | .eigen => M - 1 | .std => M - 2) (fun idx f => do
    let a ← rd x idx
    wr f idx a) f
  let gXm : ℝ := match v with
    | .eigen => 1 + 9.0 / (xM x M).length * (xM x M).sum
    | .std => (xM x M).foldl (· + ·) 0 * (9.0 / ((x.length : ℝ) - M + 1)) + 1
  let h ← forUp 0 (M - 1) (fun objIdx h => do
    let a ← rd f objIdx
    return h - a / (1 + gXm) * (1 + Real.sin (3 * Real.pi * a))) (0 : ℝ)
  if M = 0 then .ub else wr f (M - 1) ((1 + gXm) * (h + M))

/-- `computeFitness8`, MOFunctions.hpp lines 718-781: every variant sums the entries from
`objIdx * N / M` up to and including `min((objIdx + 1) * N / M, N - 1)`. -/
def fitness8 (x f : List ℝ) : Out (List ℝ) :=
  let N := x.length
  let M := f.length
  forUp 0 M (fun objIdx f => do
    let sum ← forUp (objIdx * N / M) (min ((objIdx + 1) * N / M) (N - 1) + 1) (fun idx sum => do
      let a ← rd x idx
      return sum + a) (0 : ℝ)
    wr f objIdx sum) f

/-- `std::min(result, s)` of line 812 of MOFunctions.hpp, where `result` starts at `+∞` (`none`). -/
noncomputable def minInf : Option ℝ → ℝ → ℝ
  | none, s => s
  | some m, s => min m s

/-- `findMin2SumForDTLZ8` for a result vector of run-time size, MOFunctions.hpp lines 807-817;
`none` is the initial `+∞`. -/
noncomputable def min2Dynamic (f : List ℝ) : Out (Option ℝ) :=
  let M := f.length
  forUp 0 (M - 2) (fun i r => forUp (i + 1) (M - 1) (fun j r => do
    let a ← rd f i
    let b ← rd f j
    return some (minInf r (a + b))) r) none

/-- `findMin2SumForDTLZ8<i, j>` for a result vector of compile-time size, MOFunctions.hpp lines
783-804.  `fuel` bounds the depth of the template instantiation; running out of it, and the failing
`static_assert(i == M - 3)`, are `ub` (the code does not compile). -/
noncomputable def min2Fixed (f : List ℝ) : Nat → Nat → Nat → Out ℝ
  | 0, _, _ => .ub
  | fuel + 1, i, j =>
    let M := f.length
    if i + 3 < M then
      if j + 1 < M then do
        let a ← rd f i
        let b ← rd f j
        let m ← min2Fixed f fuel i (j + 1)
        return min (a + b) m
      else min2Fixed f fuel (i + 1) (i + 2)
    else if i + 3 = M then do
      let a ← rd f i
      let b ← rd f j
      return a + b
    else .ub

/-- `findMin2SumForDTLZ8`, MOFunctions.hpp lines 803-819: the compile-time or the run-time variant. -/
noncomputable def min2 (fixed : Bool) (f : List ℝ) : Out (Option ℝ) :=
  if fixed then (min2Fixed f (f.length * f.length) 0 1).bind fun m => .ok (some m) else min2Dynamic f

/-- `DTLZ8`, MOFunctions.hpp lines 821-853.  The vector `g` is a local list; `fixed` says whether the
number of objectives is known at compile time. -/
noncomputable def dtlz8 (fixed : Bool) (x f : List ℝ) : Out (List ℝ) :=
  let N := x.length
  let M := f.length
  if N ≤ M then .ub else do
  let f ← fitness8 x f
  let f := f.map (· / ((N / M : Nat) : ℝ))
  let last ← rd f (M - 1)
  let g := f.dropLast.map fun v => last + 4 * v - 1
  let m ← min2 fixed f
  -- `2 * f[M-1] + min - 1 < 0`; with `min = +∞` the comparison is false
  let gLast : ℝ := match m with | none => 0 | some m => 2 * last + m - 1
  return List.zipWith (fun v gv => if gv < 0 then v + (1e3 + (-gv)) else v) f (g ++ [gLast])

/-- `DTLZ9`, the loop over the objectives, MOFunctions.hpp lines 857-867 (the penalties that follow
are not modelled: `dtlz9_always_ub` shows that they are never reached). -/
noncomputable def dtlz9Values (x f : List ℝ) : Out (List ℝ) :=
  let N := x.length
  let M := f.length
  if N ≤ M then .ub else
  forUp 0 M (fun objIdx f => do
    let sum ← forUp (objIdx * N / M) (min N ((objIdx + 1) * N / M) + 1) (fun idx sum => do
      let a ← rd x idx
      return sum + a ^ (0.1 : ℝ)) (0 : ℝ)
    wr f objIdx sum) f

end Heu.TestFuns
