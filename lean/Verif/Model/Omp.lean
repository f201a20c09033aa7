import Verif.Model.GA
import Verif.Model.NSGA
import Verif.Model.PSO

/-!
# The parallel loops: `#pragma omp parallel for schedule(dynamic, size / thN)`

The loops of `Genetic/GABase.hpp` lines 214-233, `Genetic/NSGABase.hpp` lines 105-117, `AOSBoxed.hpp` lines
101-119, `PSOAbstrcat.hpp` lines 287-294 and `PSO4Eigen.hpp` lines 85-108 are modelled at the level of single
stores to shared memory.  What a store reads is part of the model, so that data races can be talked about.
-/

namespace Heu

/-! ## The number of threads -/

/-- `thNum` (`Global/Threading.hpp` lines 47-50) and the function-local `static const int32_t thN` of one
parallel loop (for example `Genetic/GABase.hpp` line 224), which is `none` before the first call. -/
structure ThreadState where
  thNum : Int
  thN : Option Int

/-- `threadNum()`, `Global/Threading.hpp` line 62. -/
def ThreadState.threadNum (s : ThreadState) : Int := s.thNum

/-- `setThreadNum(n)`, `Global/Threading.hpp` lines 71-74; a failing `HEU_ASSERT` ends the program (`.ub` here). -/
def setThreadNum (n : Int) (s : ThreadState) : Out ThreadState :=
  if n > 0 then .ok { s with thNum := n } else .ub

/-- The chunk size of a parallel loop with `size` iterations: `static const int32_t thN = threadNum();` and
`schedule(dynamic, size / thN)`; `Genetic/GABase.hpp` lines 224-225, `Genetic/NSGABase.hpp` lines 108-109,
`AOSBoxed.hpp` lines 111-112, `PSO4Eigen.hpp` lines 87-88, `PSO4std.hpp` lines 96-97, `PSOAbstrcat.hpp` lines
289-290.  Division by zero is undefined (`hardware_concurrency()` may be 0), and OpenMP demands a positive chunk
size. -/
def chunkSize (size : Nat) (s : ThreadState) : Out (Nat × ThreadState) :=
  let thN := s.thN.getD s.threadNum
  if thN ≤ 0 then .ub
  else
    let chunk := size / thN.toNat
    if chunk = 0 then .ub else .ok (chunk, { s with thN := some thN })

/-! ## Shared memory -/

section
variable {L : Type} {V : L → Type}

/-- One store: `loc = val(memory)`, where `val` depends on the locations in `reads` only.  (The memory model of
C++ for programs without data races: stores take effect one after the other.)
(The stores of the loops in `Genetic/GABase.hpp` lines 213-243, `Genetic/NSGABase.hpp` lines 104-130 and
`PSO/PSOAbstrcat.hpp`.) -/
structure Act (V : L → Type) where
  loc : L
  reads : L → Prop
  val : (∀ l, V l) → V loc
  loc_only : ∀ m m' : ∀ l, V l, (∀ l, reads l → m l = m' l) → val m = val m'

/-- The memory after a store (C++ language).  (No lines of the repository.) -/
def Act.exec [DecidableEq L] (a : Act V) (m : ∀ l, V l) : ∀ l, V l := Function.update m a.loc (a.val m)

/-- The memory after the stores of a trace; a trace says which iteration made which store.
(No lines of the repository.) -/
def runTrace [DecidableEq L] (tr : List (Nat × Act V)) (m : ∀ l, V l) : ∀ l, V l :=
  tr.foldl (fun m s => s.2.exec m) m

/-- The loop without OpenMP: iterations `0 .. n-1` one after the other.
(The loops without `HEU_HAS_OPENMP`, e.g. `Genetic/GABase.hpp` lines 213-243.) -/
def seqTrace (n : Nat) (acts : Nat → List (Act V)) : List (Nat × Act V) :=
  (List.range n).flatMap fun i => (acts i).map fun a => (i, a)

end

/-! ## Evaluation of genes and electrons -/

/-- Fields of list nodes: `decision_variable`, `fitness`, `is_fitness_computed` (`Genetic/DefaultGeneType.hpp`
lines 43-57; `state`, `energy`, `isComputed` in `AOSDefaultElectron.hpp`). -/
inductive GLoc
  | var (a : Addr)
  | fit (a : Addr)
  | flag (a : Addr)
  deriving DecidableEq

/-- Types of the fields.  (`Genetic/DefaultGeneType.hpp` lines 44-50.) -/
def GLoc.ty (V F : Type) : GLoc → Type
  | var _ => V
  | fit _ => F
  | flag _ => Bool

/-- The user's fitness function (assumed to have no side effects) reads the variables and stores the fitness;
`Genetic/GABase.hpp` lines 228-230, `AOSBoxed.hpp` lines 115-117. -/
def fitAct {V F : Type} (f : V → F) (a : Addr) : Act (GLoc.ty V F) :=
  { loc := .fit a, reads := fun l => l = .var a, val := fun m => f (m (.var a))
    loc_only := fun m m' h => by show f _ = f _; rw [h (.var a) rfl] }

/-- The flag is set; `Genetic/GABase.hpp` line 231, `AOSBoxed.hpp` line 118. -/
def flagAct {V F : Type} (a : Addr) : Act (GLoc.ty V F) :=
  { loc := .flag a, reads := fun _ => False, val := fun _ => true, loc_only := fun _ _ _ => rfl }

/-- The loop body for the task at address `a`; `Genetic/GABase.hpp` lines 227-231, `AOSBoxed.hpp` lines 114-118. -/
def evalActs {V F : Type} (f : V → F) (a : Addr) : List (Act (GLoc.ty V F)) := [fitAct f a, flagAct a]

/-! ## Counting dominators -/

/-- Fields of individuals in `sortSpace`: `fitness` and `dominated_by_num` (`Genetic/NSGABase.hpp` lines 111-115). -/
inductive DLoc (G : Type)
  | fit (g : G)
  | num (g : G)
  deriving DecidableEq

/-- Types of the fields.  (`Genetic/NSGABase.hpp` lines 104-130.) -/
def DLoc.ty (G F : Type) : DLoc G → Type
  | fit _ => F
  | num _ => Nat

section
variable {G F : Type}

/-- `ed->dominated_by_num = 0`, `Genetic/NSGABase.hpp` line 111. -/
def zeroAct (ed : G) : Act (DLoc.ty G F) :=
  { loc := .num ed, reads := fun _ => False, val := fun _ => (0 : Nat), loc_only := fun _ _ _ => rfl }

/-- `ed->dominated_by_num += dominates(er, ed)`, `Genetic/NSGABase.hpp` line 115. -/
def countAct (dom : F → F → Bool) (ed er : G) : Act (DLoc.ty G F) :=
  { loc := .num ed
    reads := fun l => l = .num ed ∨ l = .fit er ∨ l = .fit ed
    val := fun m =>
      let n : Nat := m (.num ed)
      (n + (if dom (m (.fit er)) (m (.fit ed)) then 1 else 0) : Nat)
    loc_only := fun m m' h => by
      have h1 := h (.num ed) (Or.inl rfl)
      have h2 := h (.fit er) (Or.inr (Or.inl rfl))
      have h3 := h (.fit ed) (Or.inr (Or.inr rfl))
      simp only [h1, h2, h3]; rfl }

/-- The loop body of `calculateDominatedNum` for the individual `ed`, `Genetic/NSGABase.hpp` lines 111-116: the
counter is set to zero and then increased once per other individual. -/
def dominatedActs [DecidableEq G] (dom : F → F → Bool) (sortSpace : List G) (ed : G) : List (Act (DLoc.ty G F)) :=
  zeroAct ed :: (sortSpace.filter (fun er => er ≠ ed)).map (countAct dom ed)

end

/-! ## The particle swarm -/

/-- Particle fields, the global best, the global random engine (`Global/Randoms.hpp` lines 59-71) and the local
variables `lFP`, `lFG` of an iteration (`PSO4Eigen.hpp` line 92). -/
inductive PLoc
  | pos (k : Nat)
  | vel (k : Nat)
  | fit (k : Nat)
  | pBest (k : Nat)
  | gBest
  | engine
  | rnd (k : Nat) (second : Bool)
  deriving DecidableEq

/-- Types of the locations: `P` positions and velocities, `F` fitness, `E` engine states, `α` numbers.
(`PSO/PSOAbstrcat.hpp` lines 73-95.) -/
def PLoc.ty (P F E α : Type) : PLoc → Type
  | pos _ => P
  | vel _ => P
  | fit _ => F
  | pBest _ => P
  | gBest => P
  | engine => E
  | rnd _ _ => α

section
variable {P F E α : Type}

/-- The store of `__impl_computeAllFitness`, `PSOAbstrcat.hpp` lines 292-293. -/
def psoFitAct (f : P → F) (k : Nat) : Act (PLoc.ty P F E α) :=
  { loc := .fit k, reads := fun l => l = .pos k, val := fun m => f (m (.pos k))
    loc_only := fun m m' h => by show f _ = f _; rw [h (.pos k) rfl] }

/-- The loop body of `__impl_computeAllFitness`, `PSOAbstrcat.hpp` lines 292-293. -/
def psoEvalActs (f : P → F) (k : Nat) : List (Act (PLoc.ty P F E α)) := [psoFitAct f k]

/-- The value of a draw `randD()` is stored in the local variable `lFP` or (`second`) `lFG` of iteration `k`
(`Global/Randoms.hpp` lines 81-84; the engine is one object shared by all threads, lines 59-71). -/
def drawAct (out : E → α) (k : Nat) (second : Bool) : Act (PLoc.ty P F E α) :=
  { loc := .rnd k second, reads := fun l => l = .engine, val := fun m => out (m .engine)
    loc_only := fun m m' h => by show out _ = out _; rw [h .engine rfl] }

/-- A draw advances the engine (`Global/Randoms.hpp` lines 59-71, 81-84). -/
def advanceAct (next : E → E) : Act (PLoc.ty P F E α) :=
  { loc := .engine, reads := fun l => l = .engine, val := fun m => next (m .engine)
    loc_only := fun m m' h => by show next _ = next _; rw [h .engine rfl] }

/-- A draw `randD()`, `Global/Randoms.hpp` lines 81-84. -/
def drawActs (out : E → α) (next : E → E) (k : Nat) (second : Bool) : List (Act (PLoc.ty P F E α)) :=
  [drawAct out k second, advanceAct next]

/-- The new velocity (confined) is stored, `PSO4Eigen.hpp` lines 93-98; `vel lFP lFG v p pb gb` is the
expression. -/
def velAct (vel : α → α → P → P → P → P → P) (k : Nat) : Act (PLoc.ty P F E α) :=
  { loc := .vel k
    reads := fun l => l = .rnd k false ∨ l = .rnd k true ∨ l = .vel k ∨ l = .pos k ∨ l = .pBest k ∨ l = .gBest
    val := fun m => vel (m (.rnd k false)) (m (.rnd k true)) (m (.vel k)) (m (.pos k)) (m (.pBest k)) (m .gBest)
    loc_only := fun m m' h => by
      have h1 := h (.rnd k false) (by simp)
      have h2 := h (.rnd k true) (by simp)
      have h3 := h (.vel k) (by simp)
      have h4 := h (.pos k) (by simp)
      have h5 := h (.pBest k) (by simp)
      have h6 := h .gBest (by simp)
      simp only [h1, h2, h3, h4, h5, h6]; rfl }

/-- The new position (confined) is stored, `PSO4Eigen.hpp` lines 100-107; `pos p v` is the expression. -/
def posAct (pos : P → P → P) (k : Nat) : Act (PLoc.ty P F E α) :=
  { loc := .pos k, reads := fun l => l = .pos k ∨ l = .vel k, val := fun m => pos (m (.pos k)) (m (.vel k))
    loc_only := fun m m' h => by
      have h1 := h (.pos k) (Or.inl rfl)
      have h2 := h (.vel k) (Or.inr rfl)
      simp only [h1, h2]; rfl }

/-- The part of the loop body of `__impl_updatePopulation` behind the draws, `PSO4Eigen.hpp` lines 93-107. -/
def moveActs (vel : α → α → P → P → P → P → P) (pos : P → P → P) (k : Nat) : List (Act (PLoc.ty P F E α)) :=
  [velAct vel k, posAct pos k]

/-- The loop body of `__impl_updatePopulation`, `PSO4Eigen.hpp` lines 91-107. -/
def psoMoveActs (out : E → α) (next : E → E) (vel : α → α → P → P → P → P → P) (pos : P → P → P) (k : Nat) :
    List (Act (PLoc.ty P F E α)) :=
  drawActs out next k false ++ drawActs out next k true ++ moveActs vel pos k

end

end Heu
