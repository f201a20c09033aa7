import Verif.Model.Session

/-!
# NSGA-III solver objects: reference point precision, reference points and calls in any order

`Model/Session.lean` has the calls all multi-objective solvers share; here the object also has the members of
`Genetic/NSGA3Base.hpp`: the precision(s) and the matrix of reference points, which only `initializePop`
computes.
-/

namespace Heu

variable {V α : Type} {d : Nat} [Field α] [LinearOrder α]

/-- The two values of `ReferencePointOption` (`Genetic/NSGA3Base.hpp` lines 46-49), as what the two versions of
the class do: the type of the precision(s), their value in a new object (`none`: indeterminate), the assertions of
`setReferencePointPrecision`, `referencePointCount()` and `makeReferencePoses()`. -/
structure RefLayout (d : Nat) (α : Type) where
  P : Type
  initial : Option P
  allowed : P → Bool
  count : P → Out Nat
  make : (Fin (d + 1) → α) → (List (Fin (d + 1) → α) → List (Fin (d + 1) → α)) → P →
    Out (List (Fin (d + 1) → α))

/-- `SINGLE_LAYER`, `Genetic/NSGA3Base.hpp` lines 72-131: the class has no constructor, so `_precision` is
indeterminate; the setter (line 101) checks nothing; the count is lines 108-110. -/
def singleLayer (d : Nat) (α : Type) [Field α] : RefLayout d α where
  P := Nat
  initial := none
  allowed := fun _ => true
  count := fun p => nchooseK64 (p + (d + 1) - 1) p
  make := makeReferencePoses

/-- `DOUBLE_LAYER`, `Genetic/NSGA3Base.hpp` lines 150-230: defaults in lines 164-167, assertions in lines 196-201,
count in lines 203-206 (`size_t` arithmetic). -/
def doubleLayer (d : Nat) (α : Type) [Field α] (invSqrt2 : α) : RefLayout d α where
  P := Nat × Nat
  initial := some (3, 4)
  allowed := fun p => decide (2 ≤ p.1) && decide (2 ≤ p.2)
  count := fun p => do
    let ci ← nchooseK64 (p.1 + (d + 1) - 1) p.1
    let co ← nchooseK64 (p.2 + (d + 1) - 1) p.2
    .ok ((ci + co) % 2 ^ 64)
  make := fun junk _ p => makeReferencePoses2 junk invSqrt2 p.1 p.2

/-- An NSGA-III object: what every multi-objective solver has, the precision(s) (`Genetic/NSGA3Base.hpp` lines 113
and 209-210) and the columns of `referencePoses` (`Genetic/NSGA3Abstract.hpp` lines 74-78, accessor
`referencePoints()`). -/
structure NSGA3Obj (L : RefLayout d α) (V : Type) where
  mo : MOObj V (d + 1) α
  prec : Option L.P
  refs : List (Fin (d + 1) → α)

/-- A new object, `Genetic/NSGA3.hpp` line 95: the reference matrix is empty. -/
def NSGA3Obj.new (L : RefLayout d α) (f : V → Fin (d + 1) → α) (garbage : Nat × Nat) : NSGA3Obj L V :=
  { mo := .new f garbage, prec := L.initial, refs := [] }

/-- The public calls that change the object: those of `MOCall` and `setReferencePointPrecision`.
`initializePop` carries the uninitialised scratch memory and the shuffle of the reference points, `run` the draws
of selection, crossover and mutation.
(`Genetic/GABase.hpp` line 104, `Genetic/GAAbstract.hpp` lines 33 and 108, `Genetic/NSGA3Base.hpp` lines
101 and 196-201, `Genetic/NSGA3.hpp` lines 103-108.) -/
inductive NSGA3Call (L : RefLayout d α) (V : Type) where
  | setOption (K maxGen maxFail : Nat)
  | setFitness (f : V → Fin (d + 1) → α)
  | setPrecision (p : L.P)
  | initializePop (init : Nat → V) (blank : Gene V (Fin (d + 1) → α)) (junk : Fin (d + 1) → α)
      (shuffle : List (Fin (d + 1) → α) → List (Fin (d + 1) → α))
  | run (e : Nat → NSGA3Env α) (v : Nat → MOVary V (d + 1) α)

/-- One call.  `setReferencePointPrecision` is `Genetic/NSGA3Base.hpp` lines 101 and 196-201; `initializePop` is
`Genetic/NSGA3.hpp` lines 103-106 (the reference points first, then the population); `run` is
`Genetic/GABase.hpp` lines 171-205 with the selection of `Genetic/NSGA3Abstract.hpp` lines 117-233 on the reference
points stored in the object.  `tiny` is the singularity threshold.  The niching loop gets as fuel the number of
candidates plus the number of reference points, which is never too little (`nsga3_run`). -/
noncomputable def nsga3Call (L : RefLayout d α) (tiny : α) (x : NSGA3Obj L V) :
    NSGA3Call L V → Out (NSGA3Obj L V)
  | .setOption K G F => moCall .lessBetter x.mo (.setOption K G F) >>= fun y => .ok { x with mo := y }
  | .setFitness f => moCall .lessBetter x.mo (.setFitness f) >>= fun y => .ok { x with mo := y }
  | .setPrecision p => if L.allowed p then .ok { x with prec := some p } else .ub
  | .initializePop init blank junk shuffle =>
    match x.prec with
    | none => .ub
    | some p => do
      let refs ← L.make junk shuffle p
      let y ← moCall .lessBetter x.mo (.initializePop init blank)
      .ok { x with refs := refs, mo := y }
  | .run e v => do
    let y ← moCall .lessBetter x.mo (.run (fun K g fit pop =>
      nsga3SelectFull K fit (e g).sortD tiny x.refs (e g).order (e g).ds (pop.length + x.refs.length) pop) v)
    .ok { x with mo := y }

/-- A sequence of public calls, in order (`Genetic/GABase.hpp` lines 99-205; glue). -/
noncomputable def nsga3Session (L : RefLayout d α) (tiny : α) (x : NSGA3Obj L V) :
    List (NSGA3Call L V) → Out (NSGA3Obj L V)
  | [] => .ok x
  | c :: cs => nsga3Call L tiny x c >>= fun y => nsga3Session L tiny y cs

/-- `referencePointCount()`, `Genetic/NSGA3Base.hpp` lines 108-110 and 203-206: computed from the precision, not
from the matrix. -/
def NSGA3Obj.referencePointCount {L : RefLayout d α} (x : NSGA3Obj L V) : Out Nat :=
  match x.prec with
  | none => .ub
  | some p => L.count p

end Heu
