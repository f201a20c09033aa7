import Verif.Model.GAFull

/-!
# Copies of genetic solver objects

The genetic solvers have implicitly defined copy constructors and copy assignments (and, having a destructor declared,
no move operations): the list of individuals is copied, but `_bestGene` (an iterator) and `_pfGenes` (a set of pointers)
are copied as they are, so in the copy they still refer to the individuals of the original.

First part: the selectors of `Model/SOGA.lean` again, where the individual `_bestGene` refers to is read by a function
`rd` instead of looking it up in the own list.  Second part: several objects, with copying and destruction.
-/

namespace Heu

section
variable {γ α : Type}

/-- `updateFailTimesAndBestGene(newBestGeneIt)`, `Genetic/SOGA.hpp` lines 221-223, reading the previous best gene by `rd` (`Heu.updateFail1` reads it in the own list). -/
def updateFail1From (rd : Pop γ → Out γ) [LT α] [DecidableLT α] (opt : FitnessOption) (fit : γ → α) (s : SOState γ)
    (new : Cell γ) : Out (SOState γ) := do
  let g ← rd s.pop
  .ok (updateFail opt fit s new (fit g))

/-- `SOGASelector<Truncation>`, `Genetic/SOGASelecters.hpp` lines 53-76, reading the previous best gene by `rd` (`Heu.selectTruncation` reads it in the own list). -/
def selectTruncationFrom (rd : Pop γ → Out γ) [LT α] [DecidableLT α] (opt : FitnessOption) (fit : γ → α)
    (sort : Sorter (Cell γ)) (K : Nat) (s : SOState γ) : Out (SOState γ) :=
  let sortSpace := sort.run (geneItCompare opt fit) s.pop
  let keep := sortSpace.take K
  let erased := sortSpace.drop K
  let pop := s.pop.filter fun c => !(erased.map (·.1)).contains c.1
  match keep with
  | [] => .ub
  | b :: _ => updateFail1From rd opt fit { s with pop := pop } b

/-- `SOGASelector<RouletteWheel>`, `Genetic/SOGASelecters.hpp` lines 92-177, reading the previous best gene by `rd` (`Heu.selectRoulette` reads it in the own list). -/
def selectRouletteFrom [Field α] [LinearOrder α] (rd : Pop γ → Out γ) (opt : FitnessOption) (fit : γ → α) (ds : Nat → RouletteDraw α) (fuel : Nat)
    (K : Nat) (s : SOState γ) : Out (SOState γ) := do
  let prev ← rd s.pop
  if s.pop.length ≤ K then keepAll opt fit s (fit prev)
  else
    let es ← elimLoop (s.pop.length - K)
      (fun it st =>
        if st.1 > 0 then rouletteStep (ds it).u st
        else .ok (st.1, randomPass (ds it).hit 0 st.2))
      fuel 0 (shiftedSpace opt fit s.pop)
    finish opt fit s es (fit prev)

/-- `SOGASelector<Probability>`, `Genetic/SOGASelecters.hpp` lines 351-440, reading the previous best gene by `rd` (`Heu.selectProbability` reads it in the own list). -/
def selectProbabilityFrom [Field α] [LinearOrder α] (rd : Pop γ → Out γ) (opt : FitnessOption) (fit : γ → α) (big : α) (ds : Nat → RouletteDraw α)
    (fuel : Nat) (K : Nat) (s : SOState γ) : Out (SOState γ) := do
  let prev ← rd s.pop
  if s.pop.length ≤ K then keepAll opt fit s (fit prev)
  else
    let n := s.pop.length
    let sp := shiftedSpace opt fit s.pop
    let probs := if sp.1 ≤ 0 then sp.2.map (fun p => (p.1, 1 / (n : α)))
      else sp.2.map (fun p => (p.1, p.2 / sp.1))
    let es := probs.map fun p => (p.1, big * p.2 ^ K * (1 - p.2) ^ (n - K))
    selectByWeights opt fit ds fuel K s prev (es.foldl (fun a p => a + p.2) 0) es

/-- `SOGASelector<LinearRank>`, `Genetic/SOGASelecters.hpp` lines 486-545, reading the previous best gene by `rd` (`Heu.selectLinearRank` reads it in the own list). -/
def selectLinearRankFrom [Field α] [LinearOrder α] (rd : Pop γ → Out γ) (opt : FitnessOption) (fit : γ → α) (sort : Sorter (Cell γ)) (worst best : α)
    (ds : Nat → RouletteDraw α) (fuel : Nat) (K : Nat) (s : SOState γ) : Out (SOState γ) := do
  let prev ← rd s.pop
  if s.pop.length ≤ K then keepAll opt fit s (fit prev)
  else
    let n := s.pop.length
    let sortSpace := sort.run (geneItCompare opt fit) s.pop
    selectByWeights opt fit ds fuel K s prev 1
      (sortSpace.zipIdx.map fun p => (p.1, linearWeight worst best n p.2))

/-- `SOGASelector<ExponentialRank>`, `Genetic/SOGASelecters.hpp` lines 576-634, reading the previous best gene by `rd` (`Heu.selectExponentialRank` reads it in the own list). -/
def selectExponentialRankFrom [Field α] [LinearOrder α] (rd : Pop γ → Out γ) (opt : FitnessOption) (fit : γ → α) (sort : Sorter (Cell γ)) (base : α)
    (ds : Nat → RouletteDraw α) (fuel : Nat) (K : Nat) (s : SOState γ) : Out (SOState γ) := do
  let prev ← rd s.pop
  if s.pop.length ≤ K then keepAll opt fit s (fit prev)
  else
    let n := s.pop.length
    let sortSpace := sort.run (geneItCompare opt fit) s.pop
    selectByWeights opt fit ds fuel K s prev 1
      (sortSpace.zipIdx.map fun p => (p.1, (base - 1) / (base ^ n - 1) * base ^ p.2))

/-- `SOGASelector<Boltzmann>`, `Genetic/SOGASelecters.hpp` lines 652-706, reading the previous best gene by `rd` (`Heu.selectBoltzmann` reads it in the own list). -/
def selectBoltzmannFrom [Field α] [LinearOrder α] (rd : Pop γ → Out γ) (opt : FitnessOption) (fit : γ → α) (exp : α → α) (strength : α)
    (ds : Nat → RouletteDraw α) (fuel : Nat) (K : Nat) (s : SOState γ) : Out (SOState γ) := do
  let prev ← rd s.pop
  if s.pop.length ≤ K then keepAll opt fit s (fit prev)
  else
    let es := s.pop.map fun c => (c, exp (strength * fit c.2))
    selectByWeights opt fit ds fuel K s prev (es.foldl (fun a p => a + p.2) 0) es

/-- `SOGASelector<MonteCarlo>`, `Genetic/SOGASelecters.hpp` lines 308-339, reading the previous best gene by `rd` (`Heu.selectMonteCarlo` reads it in the own list). -/
def selectMonteCarloFrom (rd : Pop γ → Out γ) [Zero α] [LT α] [DecidableLT α] (opt : FitnessOption) (fit : γ → α)
    (shuffle : List (Cell γ) → List (Cell γ)) (K : Nat) (s : SOState γ) : Out (SOState γ) := do
  let prev ← rd s.pop
  if s.pop.length ≤ K then keepAll opt fit s (fit prev)
  else
    finish opt fit s (((shuffle s.pop).take (s.pop.length - K)).map fun c => (c, (0 : α))) (fit prev)

/-- `SOGASelector<StochasticUniversal>`, `Genetic/SOGASelecters.hpp` lines 715-806, reading the previous best gene by `rd` (`Heu.selectSUS` reads it in the own list). -/
def selectSUSFrom (rd : Pop γ → Out γ) [Field α] [LinearOrder α] (opt : FitnessOption) (fit : γ → α) (u0 : α) (u : Nat → α) (K : Nat) (s : SOState γ) :
    Out (SOState γ) := do
  let prev ← rd s.pop
  if s.pop.length ≤ K then keepAll opt fit s (fit prev)
  else
    let n := s.pop.length
    let sp := shiftedSpace opt fit s.pop
    let es := if sp.1 ≤ 0 then susEqualPass (K : α) (n : α) u sp.2
      else
        let interval := sp.1 / (K : α)
        (susPass interval ((interval - 0) * u0 + 0) sp.2).take (n - K)
    finish opt fit s es (fit prev)

/-- `SOGASelector<EliteReserved>`, `Genetic/SOGASelecters.hpp` lines 831-906, reading the previous best gene by `rd` (`Heu.selectElite` reads it in the own list). -/
def selectEliteFrom (rd : Pop γ → Out γ) [Field α] [LinearOrder α] (opt : FitnessOption) (fit : γ → α) (sort : Sorter (Cell γ)) (eliteNum : Nat)
    (ds : Nat → RouletteDraw α) (fuel : Nat) (K : Nat) (s : SOState γ) : Out (SOState γ) :=
  if s.pop.length ≤ K then do
    let b ← findCurrentBestGene opt fit s.pop
    updateFail1From rd opt fit s b
  else do
    let sortSpace := sort.run (geneItCompare opt fit) s.pop
    let sp := shiftedSpace opt fit (sortSpace.drop eliteNum)
    let es ← elimLoop (s.pop.length - K)
      (fun it st => if sp.1 ≤ 0 then .ok (st.1, randomPass (ds it).hit 0 st.2)
        else rouletteStep (ds it).u st)
      fuel 0 sp
    let pop := applyErasement s.pop es
    let b ← findCurrentBestGene opt fit pop
    updateFail1From rd opt fit { s with pop := pop } b

/-- `SOGASelector<Tournament>`, `Genetic/SOGASelecters.hpp` lines 204-296, reading the previous best gene by `rd` (`Heu.selectTournament` reads it in the own list). -/
def selectTournamentFrom (rd : Pop γ → Out γ) [LT α] [DecidableLT α] (opt : FitnessOption) (fit : γ → α)
    (shuffle : List (Cell γ) → List (Cell γ)) (TS : Nat) (idxB : Nat → Nat → Nat)
    (order : List (Cell γ) → List (Cell γ)) (K : Nat) (s : SOState γ) : Out (SOState γ) :=
  if ¬ TS < K then .ub
  else do
    let prev ← rd s.pop
    if s.pop.length ≤ K then keepAll opt fit s (fit prev)
    else
      let (winners, _) ← tournamentPlay opt fit TS idxB K (shuffle s.pop)
      let counter := fun (a : Addr) => (winners.map (·.1)).count a
      let kept := s.pop.filter fun c => decide (counter c.1 > 0)
      let b ← findCurrentBestGene opt fit kept
      let copies := (order kept).flatMap fun c => List.replicate (counter c.1 - 1) c.2
      let pop := copies.foldl emplaceBack kept
      .ok (updateFail opt fit { s with pop := pop } b (fit prev))

/-- `SOGASelector<m>::__impl___impl_select`, `Genetic/SOGASelecters.hpp` lines 47-908, reading the previous best gene by `rd` (`Heu.runSelect` reads it in the own list). -/
def runSelectFrom [Field α] [LinearOrder α] (rd : Pop γ → Out γ) (opt : FitnessOption) (fit : γ → α) (m : SelectMethod) (e : SelectEnv γ α) (K : Nat)
    (s : SOState γ) : Out (SOState γ) :=
  match m with
  | .RouletteWheel => selectRouletteFrom rd opt fit e.ds e.fuel K s
  | .Tournament =>
    selectTournamentFrom rd opt fit e.shuffle e.tournamentSize (e.idxB s.pop.length) e.order K s
  | .Truncation => selectTruncationFrom rd opt fit e.sort K s
  | .MonteCarlo => selectMonteCarloFrom rd opt fit e.shuffle K s
  | .Probability => selectProbabilityFrom rd opt fit e.big e.ds e.fuel K s
  | .LinearRank => selectLinearRankFrom rd opt fit e.sort e.worst e.best e.ds e.fuel K s
  | .ExponentialRank => selectExponentialRankFrom rd opt fit e.sort e.base e.ds e.fuel K s
  | .Boltzmann => selectBoltzmannFrom rd opt fit e.exp e.strength e.ds e.fuel K s
  | .StochasticUniversal => selectSUSFrom rd opt fit e.u0 e.u K s
  | .EliteReserved => selectEliteFrom rd opt fit e.sort e.eliteNum e.ds e.fuel K s
  | .RunTimeSelectMethod => .ub

end

/-! ## Several objects -/

/-- Where the pointers in an object (`_bestGene`, `_pfGenes`) lead: nowhere yet, into its own list, or into the list of
another object as it was in a certain version.  (`Genetic/SOGA.hpp` line 168, `Genetic/MOGAAbstract.hpp` line 148.) -/
inductive Home where
  | unset
  | own
  | at (id version : Nat)
  deriving DecidableEq, Repr

/-- An object with the version of its list: the version changes when nodes may have been erased, after which pointers
of other objects into the list count as dangling.  (`std::list`, `Genetic/GABase.hpp` line 151.) -/
structure Held (O : Type) where
  obj : O
  version : Nat
  home : Home

/-- All live objects.  (Glue; objects of type `SOGA` or `NSGA2`.  `Genetic/SOGA.hpp` line 104.) -/
structure World (O : Type) where
  next : Nat
  objs : Nat → Option (Held O)

section
variable {O : Type}

/-- The object with this number; using one that does not exist is undefined.  (Glue.  `Genetic/SOGA.hpp` line 104.) -/
def World.get (w : World O) (i : Nat) : Out (Held O) :=
  match w.objs i with
  | some x => .ok x
  | none => .ub

/-- Store an object.  (Glue.  `Genetic/SOGA.hpp` line 104.) -/
def World.put (w : World O) (i : Nat) (x : Held O) : World O :=
  { w with objs := fun j => if j = i then some x else w.objs j }

/-- Construct a new object.  (`Genetic/SOGA.hpp` lines 125-129.) -/
def World.make (w : World O) (o : O) (h : Home) : World O :=
  { next := w.next + 1, objs := fun j => if j = w.next then some ⟨o, 0, h⟩ else w.objs j }

/-- Where the copied pointers lead.  (Implicit copy operations of `Genetic/SOGA.hpp` lines 104-238 and
`Genetic/MOGAAbstract.hpp` lines 55-180.) -/
def Home.copied (h : Home) (i version : Nat) : Home :=
  match h with
  | .unset => .unset
  | .own => .at i version
  | .at j v => .at j v

/-- Copy construction from object `i`; a `std::move` of a solver is the same.  The nodes of the new list are new ones,
but within the new object they are called by the same names.  (Implicit copy constructors of `Genetic/SOGA.hpp` lines
104-238 and `Genetic/MOGAAbstract.hpp` lines 55-180.) -/
def World.copy (w : World O) (i : Nat) : Out (World O) := do
  let x ← w.get i
  .ok (w.make x.obj (x.home.copied i x.version))

/-- Copy assignment `i = j`; the nodes of the old list of `i` are gone.  (Implicit copy assignments of
`Genetic/SOGA.hpp` lines 104-238 and `Genetic/MOGAAbstract.hpp` lines 55-180.) -/
def World.assign (w : World O) (i j : Nat) : Out (World O) := do
  let x ← w.get i
  let y ← w.get j
  if i = j then .ok w
  else .ok (w.put i ⟨y.obj, x.version + 1, y.home.copied j y.version⟩)

/-- Destruction.  (`Genetic/SOGA.hpp` line 131, `Genetic/MOGAAbstract.hpp` line 68.) -/
def World.destroy (w : World O) (i : Nat) : Out (World O) := do
  let _ ← w.get i
  .ok { w with objs := fun j => if j = i then none else w.objs j }

/-- The list the pointers of the object lead into; `pop` reads the list of an object.  (`Genetic/SOGA.hpp` line 168,
`Genetic/MOGAAbstract.hpp` line 148.) -/
def World.homePop {γ : Type} (w : World O) (pop : O → Pop γ) (x : Held O) : Out (Pop γ) :=
  match x.home with
  | .unset => .ub
  | .own => .ok (pop x.obj)
  | .at j v => do
    let y ← w.get j
    if y.version = v then .ok (pop y.obj) else .ub

end

section soga
variable {κ A Ω V α : Type} [Field α] [LinearOrder α] [Ring κ] [LinearOrder κ]

/-- What happens to objects of type `SOGA`.  (`Genetic/SOGA.hpp` lines 104-238.) -/
inductive SOGAWorldCall (κ A Ω V α : Type) where
  | make (p q : κ) (j : GAJunk A α)
  | copy (i : Nat)
  | assign (i j : Nat)
  | destroy (i : Nat)
  | call (i : Nat) (c : SOGAFullCall κ A Ω V α)

/-- The solver in the main loop when `_bestGene` refers to an individual of another object, which is read by `rd`: up to
the first selection (the flag is `true`), which sets `_bestGene` to an individual of the own list.
(`Genetic/GABase.hpp` lines 171-205, `Genetic/SOGA.hpp` lines 206-215.) -/
def SOGAFull.opsFrom (opt : FitnessOption) (cap : Nat) (junk : α) (rd : Pop (Gene V α) → Out (Gene V α))
    (x : SOGAFull κ A Ω V α) (e : Nat → SelDraw (Gene V α) α) (d : Nat → VaryDraw κ Ω V α) :
    GAOps (SOState (Gene V α) × Bool) α where
  evaluate s := do
    let p ← x.core.evaluate s.1.pop
    .ok ({ s.1 with pop := p }, s.2)
  select gen s := do
    let t ← runSelectFrom (if s.2 then rd else fun pop => deref pop s.1.best) opt Gene.fitness
      (dispatchedMethod x.sel.method) ((e gen).with x.sel junk) x.core.K s.1
    .ok (t, false)
  crossover gen s := do
    let p ← x.core.crossover (d gen) s.1.pop
    .ok ({ s.1 with pop := p }, s.2)
  mutate gen s := do
    let p ← x.core.mutate cap (d gen) s.1.pop
    .ok ({ s.1 with pop := p }, s.2)
  bestFitness s := (if s.2 then rd s.1.pop else deref s.1.pop s.1.best) >>= fun g => .ok g.fitness
  failTimes s := s.1.fail

/-- How a run of the object reads `*_bestGene` before the first selection has set it: in its own list as it is then, or
in the list of another object.  (`Genetic/SOGA.hpp` lines 168 and 222.) -/
def World.reader (w : World (SOGAFull κ A Ω V α)) (x : Held (SOGAFull κ A Ω V α)) (pop : Pop (Gene V α)) :
    Out (Gene V α) :=
  if x.home = .own then deref pop x.obj.st.best
  else w.homePop (fun o => o.st.pop) x >>= fun p => deref p x.obj.st.best

/-- A call on one of the objects.  The list of the object gets a new version with `run` (individuals are erased) and
with an `initializePop` that shrinks it; after these two calls `_bestGene` refers to an individual of the own list.
(`Genetic/SOGA.hpp` lines 161-164, `Genetic/GABase.hpp` lines 120-127 and 171-205.)  Simplification: an individual of
another object that this object's run happens to keep counts as erased. -/
def sogaWorldObjCall (rec : Bool) (opt : FitnessOption) (cap : Nat) (junk : α) (w : World (SOGAFull κ A Ω V α))
    (i : Nat) (c : SOGAFullCall κ A Ω V α) : Out (World (SOGAFull κ A Ω V α)) := do
  let x ← w.get i
  match c with
  | .set c => do
    let y ← sogaFullCall rec opt cap junk x.obj (.set c)
    .ok (w.put i { x with obj := y })
  | .sel c => do
    let y ← sogaFullCall rec opt cap junk x.obj (.sel c)
    .ok (w.put i { x with obj := y })
  | .initializePop u blank => do
    let y ← sogaFullCall rec opt cap junk x.obj (.initializePop u blank)
    .ok (w.put i ⟨y, if x.obj.core.K < x.obj.st.pop.length then x.version + 1 else x.version, .own⟩)
  | .run e d =>
    if clearRecordOK rec cap x.obj.core.maxGen then do
      let r ← gaOpsLoop rec (x.obj.opsFrom opt cap junk (w.reader x) e d) x.obj.core.maxGen x.obj.core.maxFail
        (x.obj.core.maxGen + 1) 0 ({ x.obj.st with fail := 0 }, true) []
      .ok (w.put i ⟨{ x.obj with
        st := r.state.1
        core := { x.obj.core with generation := r.generation, record := r.record } }, x.version + 1, .own⟩)
    else .ub

/-- One event.  (Glue over `Genetic/SOGA.hpp` lines 104-238.) -/
def sogaWorldCall (rec : Bool) (opt : FitnessOption) (cap : Nat) (junk : α) (w : World (SOGAFull κ A Ω V α)) :
    SOGAWorldCall κ A Ω V α → Out (World (SOGAFull κ A Ω V α))
  | .make p q j => .ok (w.make (.new p q j) .unset)
  | .copy i => w.copy i
  | .assign i j => w.assign i j
  | .destroy i => w.destroy i
  | .call i c => sogaWorldObjCall rec opt cap junk w i c

/-- A sequence of events.  (Glue over `Genetic/SOGA.hpp` lines 104-238.) -/
def sogaWorldSession (rec : Bool) (opt : FitnessOption) (cap : Nat) (junk : α) (w : World (SOGAFull κ A Ω V α))
    (cs : List (SOGAWorldCall κ A Ω V α)) : Out (World (SOGAFull κ A Ω V α)) :=
  cs.foldlM (sogaWorldCall rec opt cap junk) w

/-- The individual `_bestGene` of object `i` refers to: `bestGene()`, `Genetic/SOGA.hpp` line 142. -/
def World.bestGene (w : World (SOGAFull κ A Ω V α)) (i : Nat) : Out (Gene V α) := do
  let x ← w.get i
  let p ← w.homePop (fun o => o.st.pop) x
  deref p x.obj.st.best

/-- `result()`, `Genetic/SOGA.hpp` line 156. -/
def World.result (w : World (SOGAFull κ A Ω V α)) (i : Nat) : Out V := w.bestGene i >>= fun g => .ok g.var

/-- `bestFitness()`, `Genetic/SOGA.hpp` line 149. -/
def World.bestFitness (w : World (SOGAFull κ A Ω V α)) (i : Nat) : Out α := w.bestGene i >>= fun g => .ok g.fitness

end soga

section mo
variable {κ A Ω V α : Type} {m : Nat} [Zero α] [LinearOrder α] [Ring κ] [LinearOrder κ]

/-- What happens to objects of a multi-objective solver.  (`Genetic/NSGA2.hpp` lines 60-290.) -/
inductive MOWorldCall (κ A Ω V : Type) (m : Nat) (α : Type) where
  | make (p q : κ) (arg : A) (fail generation : Nat)
  | copy (i : Nat)
  | assign (i j : Nat)
  | destroy (i : Nat)
  | call (i : Nat) (c : MOFullCall κ A Ω V m α)

/-- A call on one of the objects, as `sogaWorldObjCall`.  A run clears `_pfGenes` without following the pointers
(`Genetic/NSGABase.hpp` lines 156-169), so it does not matter where they lead.  (`Genetic/MOGAAbstract.hpp` lines
119-123, `Genetic/GABase.hpp` lines 120-127 and 171-205.) -/
def moWorldObjCall (rec : Bool) (opt : FitnessOption) (cap : Nat) (w : World (MOFull κ A Ω V m α))
    (i : Nat) (c : MOFullCall κ A Ω V m α) : Out (World (MOFull κ A Ω V m α)) := do
  let x ← w.get i
  let y ← moFullCall rec opt cap x.obj c
  match c with
  | .set _ => .ok (w.put i { x with obj := y })
  | .initializePop _ _ =>
    .ok (w.put i ⟨y, if x.obj.core.K < x.obj.st.pop.length then x.version + 1 else x.version, .own⟩)
  | .run _ _ => .ok (w.put i ⟨y, x.version + 1, .own⟩)

/-- One event; the set of pointers of a new object is empty, so that nothing is read through it.  (Glue over
`Genetic/NSGA2.hpp` lines 60-290.) -/
def moWorldCall (rec : Bool) (opt : FitnessOption) (cap : Nat) (w : World (MOFull κ A Ω V m α)) :
    MOWorldCall κ A Ω V m α → Out (World (MOFull κ A Ω V m α))
  | .make p q a f g => .ok (w.make (.new p q a f g) .own)
  | .copy i => w.copy i
  | .assign i j => w.assign i j
  | .destroy i => w.destroy i
  | .call i c => moWorldObjCall rec opt cap w i c

/-- A sequence of events.  (Glue over `Genetic/NSGA2.hpp` lines 60-290.) -/
def moWorldSession (rec : Bool) (opt : FitnessOption) (cap : Nat) (w : World (MOFull κ A Ω V m α))
    (cs : List (MOWorldCall κ A Ω V m α)) : Out (World (MOFull κ A Ω V m α)) :=
  cs.foldlM (moWorldCall rec opt cap) w

/-- `paretoFront(front)` of object `i`, `Genetic/MOGAAbstract.hpp` lines 84-91; `order` is the iteration order of the
hash set. -/
def World.front (w : World (MOFull κ A Ω V m α)) (order : Finset Addr → List Addr) (i : Nat) :
    Out (List (Fin m → α)) := do
  let x ← w.get i
  (order x.obj.st.pf).mapM fun a => do
    let p ← w.homePop (fun o => o.st.pop) x
    let g ← deref p a
    .ok g.fitness

end mo

end Heu
