import Verif.Model.GA
import Verif.Model.NSGA

/-!
# Models of `Genetic/SOGA.hpp` and `Genetic/SOGASelecters.hpp`

`γ` is the type of genes, `fit : γ → α` reads the (computed) fitness.  Every random draw is an argument.
-/

namespace Heu

section
variable {γ α : Type}

/-- The part of a single-objective solver that selection works on: `_population`, `_bestGene`,
`_failTimes` (`Genetic/GABase.hpp` lines 157-161, `Genetic/SOGA.hpp` line 168). -/
structure SOState (γ : Type) where
  pop : Pop γ
  best : Addr
  fail : Nat
  deriving DecidableEq, Repr

/-- `isBetter`, `Genetic/SOGA.hpp` lines 177-182. -/
def isBetter [LT α] [DecidableLT α] (opt : FitnessOption) (A B : α) : Bool :=
  match opt with
  | .greaterBetter => decide (A > B)
  | .lessBetter => decide (A < B)

/-- `GeneItCompareFun`, `Genetic/SOGA.hpp` lines 184-186. -/
def geneItCompare [LT α] [DecidableLT α] (opt : FitnessOption) (fit : γ → α) (a b : Cell γ) : Bool :=
  isBetter opt (fit a.2) (fit b.2)

/-- `findCurrentBestGene`, `Genetic/SOGA.hpp` lines 188-197.  Every caller dereferences the result,
so the empty population (result `end()`) is undefined behaviour. -/
def findCurrentBestGene [LT α] [DecidableLT α] (opt : FitnessOption) (fit : γ → α) :
    Pop γ → Out (Cell γ)
  | [] => .ub
  | c :: cs => .ok ((c :: cs).foldl (fun g it => if geneItCompare opt fit it g then it else g) c)

/-- `applyErasement`, `Genetic/SOGA.hpp` lines 199-204. -/
def applyErasement (pop : Pop γ) (eraseList : List (Cell γ × α)) : Pop γ :=
  pop.filter fun c => !(eraseList.map (·.1.1)).contains c.1

/-- `updateFailTimesAndBestGene(newBestGeneIt, prevFitness)`, `Genetic/SOGA.hpp` lines 206-215. -/
def updateFail [LT α] [DecidableLT α] (opt : FitnessOption) (fit : γ → α) (s : SOState γ)
    (new : Cell γ) (prev : α) : SOState γ :=
  { s with fail := if !isBetter opt (fit new.2) prev then s.fail + 1 else 0, best := new.1 }

/-- `updateFailTimesAndBestGene(newBestGeneIt)`, `Genetic/SOGA.hpp` lines 221-223: dereferences
`_bestGene` in the *current* population. -/
def updateFail1 [LT α] [DecidableLT α] (opt : FitnessOption) (fit : γ → α) (s : SOState γ)
    (new : Cell γ) : Out (SOState γ) := do
  let g ← deref s.pop s.best
  .ok (updateFail opt fit s new (fit g))

/-- Erase the nodes of the list from the population, find the new best and update, the common tail of
the methods that cached the previous best fitness (e.g. `Genetic/SOGASelecters.hpp` lines 173-176). -/
def finish [LT α] [DecidableLT α] (opt : FitnessOption) (fit : γ → α) (s : SOState γ)
    (eraseList : List (Cell γ × α)) (prev : α) : Out (SOState γ) := do
  let pop := applyErasement s.pop eraseList
  let b ← findCurrentBestGene opt fit pop
  .ok (updateFail opt fit { s with pop := pop } b prev)

/-- The early return when nobody has to be eliminated
(e.g. `Genetic/SOGASelecters.hpp` lines 116-120; lines 493-497, 584-588, 664-668 and 725-729 read the
old best again instead of the cached value, which is the same because nothing has been erased). -/
def keepAll [LT α] [DecidableLT α] (opt : FitnessOption) (fit : γ → α) (s : SOState γ) (prev : α) :
    Out (SOState γ) := do
  let b ← findCurrentBestGene opt fit s.pop
  .ok (updateFail opt fit s b prev)

/-! ## Truncation -/

/-- `SOGASelector<Truncation>`, `Genetic/SOGASelecters.hpp` lines 53-76.  The loop erases the worst
nodes until `populationSize` are left; then `_bestGene` is dereferenced. -/
def selectTruncation [LT α] [DecidableLT α] (opt : FitnessOption) (fit : γ → α)
    (sort : Sorter (Cell γ)) (K : Nat) (s : SOState γ) : Out (SOState γ) :=
  let sortSpace := sort.run (geneItCompare opt fit) s.pop
  let keep := sortSpace.take K
  let erased := sortSpace.drop K
  let pop := s.pop.filter fun c => !(erased.map (·.1)).contains c.1
  match keep with
  | [] => .ub
  | b :: _ => updateFail1 opt fit { s with pop := pop } b

/-! ## Roulette machinery -/

/-- The inner `for` loop of the roulette methods (e.g. `Genetic/SOGASelecters.hpp` lines 147-154):
subtract weights from `r` until it is not positive; that element is erased.  Result: the erased weight
and the remaining list, `none` if no element was erased. -/
def rouletteErase {β : Type} [Sub α] [Zero α] [LE α] [DecidableLE α] :
    α → List (β × α) → Option (α × List (β × α))
  | _, [] => none
  | r, x :: xs =>
    let r' := r - x.2
    if r' ≤ 0 then some (x.2, xs)
    else (rouletteErase r' xs).map fun p => (p.1, x :: p.2)

/-- One iteration of the `while` loop of the roulette methods
(e.g. `Genetic/SOGASelecters.hpp` lines 143-160).  `u` is the draw `randD()`; the state is the remaining
weight sum and the eliminate space. -/
def rouletteStep {β : Type} [Sub α] [Zero α] [Mul α] [Add α] [LE α] [DecidableLE α] [LT α]
    [DecidableLT α] (u : α) (st : α × List (β × α)) : Out (α × List (β × α)) :=
  let r := (st.1 - 0) * u + 0
  match rouletteErase r st.2 with
  | some p => .ok (st.1 - p.1, p.2)
  | none =>
    if 0 < st.2.foldl (fun r x => r - x.2) r then
      match st.2.getLast? with
      | some x => .ok (st.1 - x.2, st.2.dropLast)
      | none => .ub
    else .ok st

/-- The random pass when all weights are equal (`Genetic/SOGASelecters.hpp` lines 162-169 and
875-883): the first element whose draw hits is erased, possibly none. -/
def randomPass {β : Type} (hit : Nat → Bool) : Nat → List β → List β
  | _, [] => []
  | i, x :: xs => if hit i then xs else x :: randomPass hit (i + 1) xs

/-- `while (eliminateSpace.size() > eliminateNum)` with fuel.
(`Genetic/SOGASelecters.hpp`, e.g. lines 143-175 and 875-895.) -/
def elimLoop {β : Type} (eliminateNum : Nat)
    (step : Nat → α × List (β × α) → Out (α × List (β × α))) :
    Nat → Nat → α × List (β × α) → Out (List (β × α))
  | 0, _, st => if st.2.length > eliminateNum then .timeout else .ok st.2
  | fuel + 1, it, st =>
    if st.2.length > eliminateNum then do
      let st' ← step it st
      elimLoop eliminateNum step fuel (it + 1) st'
    else .ok st.2

/-- Draws of one iteration of a roulette loop: the number `randD()` and, for random passes, whether
the draw at each position hits.  (`Genetic/SOGASelecters.hpp`, e.g. lines 143-175 and 875-895.) -/
structure RouletteDraw (α : Type) where
  u : α
  hit : Nat → Bool

/-- Fitness with the sign that makes greater better (`Genetic/SOGASelecters.hpp` lines 127-131). -/
def signedFit [Neg α] (opt : FitnessOption) (fit : γ → α) (g : γ) : α :=
  match opt with
  | .greaterBetter => fit g
  | .lessBetter => -fit g

section field
variable [Field α] [LinearOrder α]

/-- Minimum of the weights (`Genetic/SOGASelecters.hpp` lines 122, 132); the initial `pinfD` is
replaced by the first element. -/
def minWeight : List α → α
  | [] => 0
  | w :: ws => ws.foldl (fun m x => if x < m then x else m) w

/-- The eliminate space filled with shifted weights and their sum
(`Genetic/SOGASelecters.hpp` lines 122-139). -/
def shiftedSpace (opt : FitnessOption) (fit : γ → α) (cells : List (Cell γ)) :
    α × List (Cell γ × α) :=
  let raw := cells.map fun c => (c, signedFit opt fit c.2)
  let mn := minWeight (raw.map (·.2))
  let es := raw.map fun p => (p.1, p.2 - mn)
  (es.foldl (fun s p => s + p.2) 0, es)

/-- `SOGASelector<RouletteWheel>`, `Genetic/SOGASelecters.hpp` lines 92-177. -/
def selectRoulette (opt : FitnessOption) (fit : γ → α) (ds : Nat → RouletteDraw α) (fuel : Nat)
    (K : Nat) (s : SOState γ) : Out (SOState γ) := do
  let prev ← deref s.pop s.best
  if s.pop.length ≤ K then keepAll opt fit s (fit prev)
  else
    let es ← elimLoop (s.pop.length - K)
      (fun it st =>
        if st.1 > 0 then rouletteStep (ds it).u st
        else .ok (st.1, randomPass (ds it).hit 0 st.2))
      fuel 0 (shiftedSpace opt fit s.pop)
    finish opt fit s es (fit prev)

/-- A roulette over the given weights, the common loop of Probability, LinearRank, ExponentialRank and
Boltzmann (`Genetic/SOGASelecters.hpp` lines 419-434, 523-539, 612-628, 684-700). -/
def selectByWeights (opt : FitnessOption) (fit : γ → α) (ds : Nat → RouletteDraw α) (fuel : Nat)
    (K : Nat) (s : SOState γ) (prev : γ) (rMax : α) (es : List (Cell γ × α)) : Out (SOState γ) := do
  let es ← elimLoop (s.pop.length - K) (fun it st => rouletteStep (ds it).u st) fuel 0 (rMax, es)
  finish opt fit s es (fit prev)

/-- `SOGASelector<Probability>`, `Genetic/SOGASelecters.hpp` lines 351-440.  `big` is the constant
`1e100`. -/
def selectProbability (opt : FitnessOption) (fit : γ → α) (big : α) (ds : Nat → RouletteDraw α)
    (fuel : Nat) (K : Nat) (s : SOState γ) : Out (SOState γ) := do
  let prev ← deref s.pop s.best
  if s.pop.length ≤ K then keepAll opt fit s (fit prev)
  else
    let n := s.pop.length
    let sp := shiftedSpace opt fit s.pop
    let probs := if sp.1 ≤ 0 then sp.2.map (fun p => (p.1, 1 / (n : α)))
      else sp.2.map (fun p => (p.1, p.2 / sp.1))
    let es := probs.map fun p => (p.1, big * p.2 ^ K * (1 - p.2) ^ (n - K))
    selectByWeights opt fit ds fuel K s prev (es.foldl (fun a p => a + p.2) 0) es

/-- Weight of the rank `idx` in LinearRank, `Genetic/SOGASelecters.hpp` lines 508-520. -/
def linearWeight (worst best : α) (n idx : Nat) : α :=
  (worst * (n : α) + (best * (n : α) - worst * (n : α)) * ((n - idx - 1 : Nat) : α) /
    ((n - 1 : Nat) : α)) / (n : α)

/-- `SOGASelector<LinearRank>`, `Genetic/SOGASelecters.hpp` lines 486-545. -/
def selectLinearRank (opt : FitnessOption) (fit : γ → α) (sort : Sorter (Cell γ)) (worst best : α)
    (ds : Nat → RouletteDraw α) (fuel : Nat) (K : Nat) (s : SOState γ) : Out (SOState γ) := do
  let prev ← deref s.pop s.best
  if s.pop.length ≤ K then keepAll opt fit s (fit prev)
  else
    let n := s.pop.length
    let sortSpace := sort.run (geneItCompare opt fit) s.pop
    selectByWeights opt fit ds fuel K s prev 1
      (sortSpace.zipIdx.map fun p => (p.1, linearWeight worst best n p.2))

/-- `SOGASelector<ExponentialRank>`, `Genetic/SOGASelecters.hpp` lines 576-634. -/
def selectExponentialRank (opt : FitnessOption) (fit : γ → α) (sort : Sorter (Cell γ)) (base : α)
    (ds : Nat → RouletteDraw α) (fuel : Nat) (K : Nat) (s : SOState γ) : Out (SOState γ) := do
  let prev ← deref s.pop s.best
  if s.pop.length ≤ K then keepAll opt fit s (fit prev)
  else
    let n := s.pop.length
    let sortSpace := sort.run (geneItCompare opt fit) s.pop
    selectByWeights opt fit ds fuel K s prev 1
      (sortSpace.zipIdx.map fun p => (p.1, (base - 1) / (base ^ n - 1) * base ^ p.2))

/-- `SOGASelector<Boltzmann>`, `Genetic/SOGASelecters.hpp` lines 652-706.  `exp` is `std::exp`. -/
def selectBoltzmann (opt : FitnessOption) (fit : γ → α) (exp : α → α) (strength : α)
    (ds : Nat → RouletteDraw α) (fuel : Nat) (K : Nat) (s : SOState γ) : Out (SOState γ) := do
  let prev ← deref s.pop s.best
  if s.pop.length ≤ K then keepAll opt fit s (fit prev)
  else
    let es := s.pop.map fun c => (c, exp (strength * fit c.2))
    selectByWeights opt fit ds fuel K s prev (es.foldl (fun a p => a + p.2) 0) es

end field

/-! ## MonteCarlo -/

/-- `SOGASelector<MonteCarlo>`, `Genetic/SOGASelecters.hpp` lines 308-339. -/
def selectMonteCarlo [Zero α] [LT α] [DecidableLT α] (opt : FitnessOption) (fit : γ → α)
    (shuffle : List (Cell γ) → List (Cell γ)) (K : Nat) (s : SOState γ) : Out (SOState γ) := do
  let prev ← deref s.pop s.best
  if s.pop.length ≤ K then keepAll opt fit s (fit prev)
  else
    finish opt fit s (((shuffle s.pop).take (s.pop.length - K)).map fun c => (c, (0 : α))) (fit prev)

/-! ## StochasticUniversal -/

/-- The pass with the pointers, `Genetic/SOGASelecters.hpp` lines 783-793: returns the elements that
stay in the eliminate space. -/
def susPass {β : Type} [Add α] [Sub α] [LE α] [DecidableLE α] (interval : α) : α → List (β × α) → List (β × α)
  | _, [] => []
  | cnt, x :: xs =>
    let cnt := cnt + x.2
    if interval ≤ cnt then susPass interval (cnt - interval) xs
    else x :: susPass interval cnt xs

/-- The pass when all weights are equal, `Genetic/SOGASelecters.hpp` lines 754-761: an element leaves the
eliminate space (is kept) iff `randD() * populationSize <= popSizeBeforeSelect`. -/
def susEqualPass {β : Type} [Mul α] [LE α] [DecidableLE α] (K n : α) (u : Nat → α) (es : List (β × α)) : List (β × α) :=
  (es.zipIdx.filter fun p => !decide (u p.2 * K ≤ n)).map (·.1)

/-- `SOGASelector<StochasticUniversal>`, `Genetic/SOGASelecters.hpp` lines 715-806.  `u0` is the draw of
the first pointer, `u` the draws of the equal-weight pass. -/
def selectSUS [Field α] [LinearOrder α] (opt : FitnessOption) (fit : γ → α) (u0 : α) (u : Nat → α) (K : Nat) (s : SOState γ) :
    Out (SOState γ) := do
  let prev ← deref s.pop s.best
  if s.pop.length ≤ K then keepAll opt fit s (fit prev)
  else
    let n := s.pop.length
    let sp := shiftedSpace opt fit s.pop
    let es := if sp.1 ≤ 0 then susEqualPass (K : α) (n : α) u sp.2
      else
        let interval := sp.1 / (K : α)
        (susPass interval ((interval - 0) * u0 + 0) sp.2).take (n - K)
    finish opt fit s es (fit prev)

/-! ## EliteReserved -/

/-- `SOGASelector<EliteReserved>`, `Genetic/SOGASelecters.hpp` lines 831-906.  After the erasure
`_bestGene` is dereferenced. -/
def selectElite [Field α] [LinearOrder α] (opt : FitnessOption) (fit : γ → α) (sort : Sorter (Cell γ)) (eliteNum : Nat)
    (ds : Nat → RouletteDraw α) (fuel : Nat) (K : Nat) (s : SOState γ) : Out (SOState γ) :=
  if s.pop.length ≤ K then do
    let b ← findCurrentBestGene opt fit s.pop
    updateFail1 opt fit s b
  else do
    let sortSpace := sort.run (geneItCompare opt fit) s.pop
    let sp := shiftedSpace opt fit (sortSpace.drop eliteNum)
    let es ← elimLoop (s.pop.length - K)
      (fun it st => if sp.1 ≤ 0 then .ok (st.1, randomPass (ds it).hit 0 st.2)
        else rouletteStep (ds it).u st)
      fuel 0 sp
    let pop := applyErasement s.pop es
    let b ← findCurrentBestGene opt fit pop
    updateFail1 opt fit { s with pop := pop } b

/-! ## Tournament -/

/-- `std::swap(tournamentSpace[a], tournamentSpace[b])`, `Genetic/SOGASelecters.hpp` line 256; an index
outside the vector is undefined behaviour. -/
def swapAt {β : Type} (l : List β) (a b : Nat) : Out (List β) :=
  match l[a]?, l[b]? with
  | some x, some y => .ok ((l.set a y).set b x)
  | _, _ => .ub

/-- The best of the first `TS` entries, `Genetic/SOGASelecters.hpp` lines 243-249. -/
def tournamentBest [LT α] [DecidableLT α] (opt : FitnessOption) (fit : γ → α) (TS : Nat) :
    List (Cell γ) → Out (Cell γ)
  | [] => .ub
  | c :: cs =>
    if cs.length < TS - 1 then .ub
    else .ok ((cs.take (TS - 1)).foldl (fun b x => if isBetter opt (fit x.2) (fit b.2) then x else b) c)

/-- The loop that brings new candidates into the tournament, `Genetic/SOGASelecters.hpp` lines 253-257:
entries `0 .. k-1` have been swapped. -/
def tournamentMix {β : Type} (idxB : Nat → Nat) : Nat → List β → Out (List β)
  | 0, l => .ok l
  | k + 1, l => do
    let l ← tournamentMix idxB k l
    swapAt l k (idxB k)

/-- The `playTimes` loop, `Genetic/SOGASelecters.hpp` lines 241-258: the winners in order. -/
def tournamentPlay [LT α] [DecidableLT α] (opt : FitnessOption) (fit : γ → α) (TS : Nat)
    (idxB : Nat → Nat → Nat) :
    Nat → List (Cell γ) → Out (List (Cell γ) × List (Cell γ))
  | 0, l => .ok ([], l)
  | k + 1, l => do
    let (ws, l) ← tournamentPlay opt fit TS idxB k l
    let b ← tournamentBest opt fit TS l
    let l ← tournamentMix (idxB k) TS l
    .ok (ws ++ [b], l)

/-- `SOGASelector<Tournament>`, `Genetic/SOGASelecters.hpp` lines 204-296.  `selectCounter[g]` is the
number of occurrences of `g` in the list of winners.  `order` is the iteration order of the hash map
when the copies are made.  The assertion `tournamentSize < populationSize` is a precondition (its
violation counts as undefined behaviour).  A copy is a new node with the same gene. -/
def selectTournament [LT α] [DecidableLT α] (opt : FitnessOption) (fit : γ → α)
    (shuffle : List (Cell γ) → List (Cell γ)) (TS : Nat) (idxB : Nat → Nat → Nat)
    (order : List (Cell γ) → List (Cell γ)) (K : Nat) (s : SOState γ) : Out (SOState γ) :=
  if ¬ TS < K then .ub
  else do
    let prev ← deref s.pop s.best
    if s.pop.length ≤ K then keepAll opt fit s (fit prev)
    else
      let (winners, _) ← tournamentPlay opt fit TS idxB K (shuffle s.pop)
      let counter := fun (a : Addr) => (winners.map (·.1)).count a
      let kept := s.pop.filter fun c => decide (counter c.1 > 0)
      let b ← findCurrentBestGene opt fit kept
      let copies := (order kept).flatMap fun c => List.replicate (counter c.1 - 1) c.2
      let pop := copies.foldl emplaceBack kept
      .ok (updateFail opt fit { s with pop := pop } b (fit prev))

end

/-! ## Run-time dispatch -/

/-- `SelectMethod`, `Global/Enumerations.hpp` lines 201-328 (the ten methods in declaration order,
then the run-time marker). -/
inductive SelectMethod where
  | RouletteWheel | Tournament | Truncation | MonteCarlo | Probability | LinearRank
  | ExponentialRank | Boltzmann | StochasticUniversal | EliteReserved | RunTimeSelectMethod
  deriving DecidableEq, Repr

/-- Numeric value of the enumerator, `Global/Enumerations.hpp` lines 201-328. -/
def SelectMethod.toNat : SelectMethod → Nat
  | .RouletteWheel => 0 | .Tournament => 1 | .Truncation => 2 | .MonteCarlo => 3
  | .Probability => 4 | .LinearRank => 5 | .ExponentialRank => 6 | .Boltzmann => 7
  | .StochasticUniversal => 8 | .EliteReserved => 9 | .RunTimeSelectMethod => 10

/-- Inverse of the above on the ten methods (`SelectMethod(int)` casts in
`Genetic/SOGASelecters.hpp` line 911). -/
def SelectMethod.ofIdx : Nat → SelectMethod
  | 0 => .RouletteWheel | 1 => .Tournament | 2 => .Truncation | 3 => .MonteCarlo
  | 4 => .Probability | 5 => .LinearRank | 6 => .ExponentialRank | 7 => .Boltzmann
  | 8 => .StochasticUniversal | 9 => .EliteReserved | _ => .RunTimeSelectMethod

/-- `SOGAInheriter::__impl___impl___impl_select`, `Genetic/SOGASelecters.hpp` lines 916-927: which
selector runs, starting the chain at enumerator `sm`.  The last link runs its selector unconditionally. -/
def dispatchFrom (sm : Nat) (wanted : SelectMethod) : SelectMethod :=
  if sm + 1 ≥ SelectMethod.RunTimeSelectMethod.toNat then SelectMethod.ofIdx sm
  else if wanted = SelectMethod.ofIdx sm then SelectMethod.ofIdx sm
  else dispatchFrom (sm + 1) wanted
termination_by 10 - sm
decreasing_by simp only [SelectMethod.toNat] at *; omega

/-- `setSelectMethod`, `Genetic/SOGASelecters.hpp` lines 944-963: the assertion fails for anything but
the ten methods (undefined here); `_selectMethod` otherwise takes the argument. -/
def setSelectMethod (_cur : SelectMethod) (sm : SelectMethod) : Out SelectMethod :=
  match sm with
  | .Boltzmann | .EliteReserved | .ExponentialRank | .LinearRank | .MonteCarlo | .Probability
  | .RouletteWheel | .StochasticUniversal | .Tournament | .Truncation => .ok sm
  | .RunTimeSelectMethod => .ub

/-- Constructor default, `Genetic/SOGASelecters.hpp` line 940. -/
def defaultSelectMethod : SelectMethod := .EliteReserved

/-- The selector that runs, `Genetic/SOGASelecters.hpp` lines 968-972. -/
def dispatchedMethod (cur : SelectMethod) : SelectMethod := dispatchFrom 0 cur

/-- Constructor of `SOGA`, `Genetic/SOGA.hpp` lines 125-129: `_boltzmannSelectStrength` is initialised
only when the method is fixed to Boltzmann at compile time; `none` is an indeterminate value. -/
def sogaInitialStrength (smOpt : SelectMethod) (opt : FitnessOption) : Option Int :=
  if smOpt = .Boltzmann then some (10 * (if opt = .lessBetter then -1 else 1)) else none

/-! ## All selectors behind one entry point, and the single-objective solver -/

section
variable {γ α V : Type}

/-- Configuration of the selectors (tournament size, elite number, rank probabilities, exponential
base, Boltzmann strength; `Genetic/SOGASelecters.hpp` lines 198, 466-467, 573, 646, 826) together with all
random draws of one call of `select` and the tie treatment of `std::sort`.  `idxB n k j` is the
`j`-th draw of the `k`-th tournament, `randIdx(_tournamentSize, n)` (line 254). -/
structure SelectEnv (γ α : Type) where
  sort : Sorter (Cell γ)
  shuffle : List (Cell γ) → List (Cell γ)
  order : List (Cell γ) → List (Cell γ)
  ds : Nat → RouletteDraw α
  fuel : Nat
  tournamentSize : Nat
  idxB : Nat → Nat → Nat → Nat
  big : α
  worst : α
  best : α
  base : α
  exp : α → α
  strength : α
  u0 : α
  u : Nat → α
  eliteNum : Nat

variable [Field α] [LinearOrder α]

/-- `SOGASelector<m>::__impl___impl_select`, `Genetic/SOGASelecters.hpp` lines 47-908; the run-time
marker itself has no selector. -/
def runSelect (opt : FitnessOption) (fit : γ → α) (m : SelectMethod) (e : SelectEnv γ α) (K : Nat)
    (s : SOState γ) : Out (SOState γ) :=
  match m with
  | .RouletteWheel => selectRoulette opt fit e.ds e.fuel K s
  | .Tournament =>
    selectTournament opt fit e.shuffle e.tournamentSize (e.idxB s.pop.length) e.order K s
  | .Truncation => selectTruncation opt fit e.sort K s
  | .MonteCarlo => selectMonteCarlo opt fit e.shuffle K s
  | .Probability => selectProbability opt fit e.big e.ds e.fuel K s
  | .LinearRank => selectLinearRank opt fit e.sort e.worst e.best e.ds e.fuel K s
  | .ExponentialRank => selectExponentialRank opt fit e.sort e.base e.ds e.fuel K s
  | .Boltzmann => selectBoltzmann opt fit e.exp e.strength e.ds e.fuel K s
  | .StochasticUniversal => selectSUS opt fit e.u0 e.u K s
  | .EliteReserved => selectElite opt fit e.sort e.eliteNum e.ds e.fuel K s
  | .RunTimeSelectMethod => .ub

/-- The user functions and random draws of crossover and mutation in one generation
(`Genetic/GABase.hpp` lines 262-317). -/
structure VaryEnv (V α : Type) where
  cx : Nat → V → V → V × V
  cxSel : Addr → Bool
  cxShuffle : List (Cell (Gene V α)) → List (Cell (Gene V α))
  mu : Nat → V → V
  muSel : Addr → Bool
  junk : α

/-- A single-objective solver (`SOGA`, `Genetic/SOGA.hpp` lines 104-238) as an instance of the main
loop: fitness function `f`, selection method `m`, the draws of generation `gen` in `e gen` and
`v gen`. -/
def sogaSolver (opt : FitnessOption) (f : V → α) (m : SelectMethod) (K : Nat)
    (e : Nat → SelectEnv (Gene V α) α) (v : Nat → VaryEnv V α) :
    GASolver (SOState (Gene V α)) α where
  computeAllFitness s := { s with pop := computeAllFitness f s.pop }
  select gen s := runSelect opt Gene.fitness m (e gen) K s
  crossover gen s :=
    { s with pop := crossover (v gen).junk (v gen).cx (v gen).cxSel (v gen).cxShuffle s.pop }
  mutate gen s := { s with pop := mutate (v gen).junk (v gen).mu (v gen).muSel s.pop }
  bestFitness s := deref s.pop s.best >>= fun g => .ok g.fitness
  failTimes s := s.fail
  resetFailTimes s := { s with fail := 0 }

/-- `SOGA::initializePop`, `Genetic/SOGA.hpp` lines 161-164: the first node is the provisional best. -/
def sogaInit (K : Nat) (init : Nat → V) (junk : α) : SOState (Gene V α) :=
  { pop := initializePop K init junk, best := 0, fail := 0 }

end

end Heu
