import Verif.Model.Omp

/-!
# What a parallel loop may do

Chunks of a loop with `schedule(dynamic, chunk)` are handed to threads as they come; iterations of one chunk run
one after the other, chunks run in any order and interleave in any way.
-/

namespace Heu.Spec
open Heu

variable {L : Type} {V : L → Type}

/-- Two stores conflict when one writes what the other reads or writes. -/
def Conflict (x y : Act V) : Prop := x.loc = y.loc ∨ x.reads y.loc ∨ y.reads x.loc

/-- A data race: conflicting stores in iterations of different chunks – nothing orders them. -/
def DataRace (chunk n : Nat) (acts : Nat → List (Act V)) : Prop :=
  ∃ i j, i < n ∧ j < n ∧ i / chunk ≠ j / chunk ∧ ∃ x ∈ acts i, ∃ y ∈ acts j, Conflict x y

/-- A trace the loop may have: for every chunk, its stores occur in program order. -/
def OmpTrace (chunk n : Nat) (acts : Nat → List (Act V)) (tr : List (Nat × Act V)) : Prop :=
  ∀ k, tr.filter (fun s => s.1 / chunk = k) =
    ((List.range n).filter (fun i => i / chunk = k)).flatMap fun i => (acts i).map fun a => (i, a)

/-- The nodes of a population have the contents found in memory. -/
def HoldsPop {V F : Type} (m : ∀ l, GLoc.ty V F l) (pop : Pop (Gene V F)) : Prop :=
  ∀ c ∈ pop, m (.var c.1) = c.2.var ∧ m (.fit c.1) = c.2.fitness ∧ m (.flag c.1) = c.2.computed

/-- The particles of a swarm, its personal bests and its global best have the contents found in memory. -/
def HoldsSwarm {P F E α : Type} (m : ∀ l, PLoc.ty P F E α l) (s : PSOState P F) : Prop :=
  m .gBest = s.gBest.position ∧
  ∀ k p, s.swarm[k]? = some p → m (.pos k) = p.position ∧ m (.vel k) = p.velocity ∧ m (.fit k) = p.fitness ∧
    m (.pBest k) = p.pBest.position

end Heu.Spec
