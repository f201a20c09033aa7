import Verif.Model.Basic
import Mathlib.Order.Defs.LinearOrder
import Mathlib.Data.List.Perm.Basic

/-!
# Model of `Genetic/GABase.hpp`: population, evaluation, crossover, mutation and the main loop

A population is a `std::list` of genes: here a list of cells `(address, gene)` with pairwise different
addresses, so that iterators and pointers to genes are addresses and may dangle.
-/

namespace Heu

/-- address of a list node (what a `GeneIt_t` or `Gene*` refers to)
(`std::list` of `Genetic/GABase.hpp` lines 151-152.) -/
abbrev Addr := Nat
/-- a node of the population list  (`std::list` of `Genetic/GABase.hpp` lines 151-152.) -/
abbrev Cell (γ : Type) := Addr × γ
/-- `_population`, `Genetic/GABase.hpp` line 157 -/
abbrev Pop (γ : Type) := List (Cell γ)

/-- Dereferencing an iterator or pointer: undefined behaviour when the node is not (any more) in the
list.  (C++ standard library; e.g. `Genetic/SOGA.hpp` lines 149-156.) -/
def deref {γ : Type} (pop : Pop γ) (a : Addr) : Out γ :=
  match pop.find? (fun c => c.1 == a) with
  | some c => .ok c.2
  | none => .ub

/-- Address of a new list node: different from all live nodes.  (The allocator; not repository
code.)  (`emplace_back` in `Genetic/GABase.hpp` lines 262-317.) -/
def freshAddr {γ : Type} (pop : Pop γ) : Addr := pop.foldr (fun c m => max c.1 m) 0 + 1

/-- `_population.emplace_back()` followed by filling the new node,
`Genetic/GABase.hpp` lines 284-295 and 312-315. -/
def emplaceBack {γ : Type} (pop : Pop γ) (g : γ) : Pop γ := pop ++ [(freshAddr pop, g)]

/-- `DefaultGene_t`, `Genetic/DefaultGeneType.hpp` lines 43-57. -/
structure Gene (V F : Type) where
  var : V
  fitness : F
  computed : Bool
  deriving DecidableEq, Repr

section
variable {V F α : Type}

/-- `initializePop`, `Genetic/GABase.hpp` lines 120-127: `populationSize` nodes, the `i`-th one
initialised to `init i`; the fitness is left indeterminate (`junk`). -/
def initializePop (K : Nat) (init : Nat → V) (junk : F) : Pop (Gene V F) :=
  (List.range K).map fun i => (i, { var := init i, fitness := junk, computed := false })

/-- Evaluation of one gene, `Genetic/GABase.hpp` lines 236-242 (and 227-233). -/
def evalGene (f : V → F) (g : Gene V F) : Gene V F :=
  if g.computed then g else { g with fitness := f g.var, computed := true }

/-- `__impl_computeAllFitness` without OpenMP, `Genetic/GABase.hpp` lines 235-243.  The fitness
function is assumed to be a function of the variables (and the fixed parameters). -/
def computeAllFitness (f : V → F) (pop : Pop (Gene V F)) : Pop (Gene V F) :=
  pop.map fun c => (c.1, evalGene f c.2)

/-- One atomic action of the parallel evaluation: `(a, false)` stores the fitness of the gene at
address `a`, `(a, true)` sets its flag; `Genetic/GABase.hpp` lines 230 and 232. -/
def evalAction (f : V → F) (pop : Pop (Gene V F)) (act : Addr × Bool) : Pop (Gene V F) :=
  pop.map fun c =>
    if c.1 = act.1 then
      (c.1, if act.2 then { c.2 with computed := true } else { c.2 with fitness := f c.2.var })
    else c

/-- The task list of the OpenMP branch, `Genetic/GABase.hpp` lines 215-223. -/
def evalTasks (pop : Pop (Gene V F)) : List Addr :=
  (pop.filter fun c => !c.2.computed).map (·.1)

/-- `__impl_computeAllFitness` with OpenMP, `Genetic/GABase.hpp` lines 214-233.  `sched` is the global
order in which the actions of all threads take effect. -/
def computeAllFitnessPar (f : V → F) (pop : Pop (Gene V F)) (sched : List (Addr × Bool)) :
    Pop (Gene V F) := sched.foldl (evalAction f) pop

/-- The `while` loop of `__impl_crossover`, `Genetic/GABase.hpp` lines 278-296.  `queue` is
`crossoverQueue` *reversed* (it is consumed from its back); `cx n` is the `n`-th call of the
crossover function. -/
def crossoverLoop (junk : F) (cx : Nat → V → V → V × V) :
    Nat → List (Cell (Gene V F)) → Pop (Gene V F) → Pop (Gene V F)
  | n, a :: b :: queue, pop =>
    let children := cx n a.2.var b.2.var
    let pop := emplaceBack pop { var := children.1, fitness := junk, computed := false }
    let pop := emplaceBack pop { var := children.2, fitness := junk, computed := false }
    crossoverLoop junk cx (n + 1) queue pop
  | _, _, pop => pop

/-- `__impl_crossover`, `Genetic/GABase.hpp` lines 262-297.  `sel c` says whether the draw for the node
`c` was at most `crossoverProb`; `shuffle` is what `std::shuffle` does. -/
def crossover (junk : F) (cx : Nat → V → V → V × V) (sel : Addr → Bool)
    (shuffle : List (Cell (Gene V F)) → List (Cell (Gene V F))) (pop : Pop (Gene V F)) :
    Pop (Gene V F) :=
  let q := shuffle (pop.filter fun c => sel c.1)
  let q := if q.length % 2 = 1 then q.dropLast else q
  crossoverLoop junk cx 0 q.reverse pop

/-- `__impl_mutate`, `Genetic/GABase.hpp` lines 303-317. -/
def mutate (junk : F) (mu : Nat → V → V) (sel : Addr → Bool) (pop : Pop (Gene V F)) :
    Pop (Gene V F) :=
  let mutateList := pop.filter fun c => sel c.1
  (mutateList.zipIdx.foldl (fun (p : Pop (Gene V F)) s =>
    emplaceBack p { var := mu s.2 s.1.2.var, fitness := junk, computed := false }) pop)

end

/-! ## The main loop -/

/-- What the main loop of `GABase` calls in a concrete solver (CRTP), with the randomness of the
`gen`-th generation fixed by the index.  (`Genetic/GABase.hpp` lines 171-205.) -/
structure GASolver (σ R : Type) where
  computeAllFitness : σ → σ
  select : Nat → σ → Out σ
  crossover : Nat → σ → σ
  mutate : Nat → σ → σ
  bestFitness : σ → Out R
  failTimes : σ → Nat
  resetFailTimes : σ → σ

/-- Result of `run()`: final solver state, `generation()` and `record()`.  (`Genetic/GABase.hpp` lines 141 and 413.) -/
structure RunResult (σ R : Type) where
  state : σ
  generation : Nat
  record : List R

/-- The `while (true)` loop of `__impl_run`, `Genetic/GABase.hpp` lines 175-204, with fuel.
`gen` is `_generation` before the increment; recording (lines 423-431) appends `bestFitness()`. -/
def gaLoop {σ R : Type} (S : GASolver σ R) (maxGenerations maxFailTimes : Nat) :
    Nat → Nat → σ → List R → Out (RunResult σ R)
  | 0, _, _, _ => .timeout
  | fuel + 1, gen, s, record => do
    let gen := gen + 1
    let s := S.computeAllFitness s
    let s ← S.select gen s
    let b ← S.bestFitness s
    let record := record ++ [b]
    if gen > maxGenerations then .ok ⟨s, gen - 1, record⟩
    else if maxFailTimes > 0 ∧ S.failTimes s > maxFailTimes then .ok ⟨s, gen - 1, record⟩
    else gaLoop S maxGenerations maxFailTimes fuel gen (S.mutate gen (S.crossover gen s)) record

/-- `__impl_run`, `Genetic/GABase.hpp` lines 171-205. -/
def gaRun {σ R : Type} (S : GASolver σ R) (maxGenerations maxFailTimes : Nat) (fuel : Nat) (s : σ) :
    Out (RunResult σ R) :=
  gaLoop S maxGenerations maxFailTimes fuel 0 (S.resetFailTimes s) []

end Heu
