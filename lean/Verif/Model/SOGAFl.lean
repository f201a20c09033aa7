import Verif.Model.SOGA
import Verif.Model.PSO
import Verif.Model.NSGA2Fl

/-!
# Single-objective selection on real `double`s

`Model/SOGA` reads `double` as an ordered field.  Here the ten selection methods of
`Genetic/SOGASelecters.hpp` are modelled over IEEE-754 data (`Dbl`): NaN, infinities, rounding, overflow and
underflow included.  The control flow that does not depend on the arithmetic (`elimLoop`, `rouletteStep`,
`susPass`, the tournament) is shared with `Model/SOGA`.  `std::sort` with a comparator that is not a strict weak
order on the range is undefined behaviour.  `std::exp` and `std::pow` are arbitrary functions.
-/

namespace Heu

/-- `+0.0` (C++ language; not code of the repository). -/
instance (F : Fmt) : Zero (Dbl F) := ⟨⟨.fin false 0⟩⟩
/-- IEEE division (C++ language). -/
instance (F : Fmt) : Div (Dbl F) := ⟨fun x y => ⟨x.val.div F y.val⟩⟩
/-- IEEE `<=` (C++ language). -/
instance (F : Fmt) : LE (Dbl F) := ⟨fun x y => x.val.le y.val = true⟩
instance (F : Fmt) : DecidableLE (Dbl F) := fun _ _ => inferInstanceAs (Decidable (_ = true))

/-- Conversion of an integer to `double` (exact below `2^53`; C++ language; e.g. `Genetic/SOGASelecters.hpp` lines 503-509). -/
def Dbl.nat (F : Fmt) (k : Nat) : Dbl F := ⟨.ofNat F k⟩

section
variable {γ : Type} [DecidableEq γ] {F : Fmt}

/-- The minimum computed by RouletteWheel, StochasticUniversal and EliteReserved:
`minFitness = std::min(minFitness, x)` starting from `pinfD` (`Genetic/SOGASelecters.hpp` lines 122, 132, 733, 744,
844, 863). -/
def minFl (l : List (Dbl F)) : Dbl F :=
  l.foldl (fun m x => if x < m then x else m) ⟨.inf false⟩

/-- The minimum computed by Probability: `minFitness = std::min(x, minFitness)` starting from `pinfD`
(`Genetic/SOGASelecters.hpp` lines 375, 385). -/
def minFlSwapped (l : List (Dbl F)) : Dbl F :=
  l.foldl (fun m x => if m < x then m else x) ⟨.inf false⟩

/-- The eliminate space with shifted weights, and their sum (`Genetic/SOGASelecters.hpp` lines 122-139, 733-752,
844-872; with `minFlSwapped` lines 375-393). -/
def shiftedSpaceFl (mn : List (Dbl F) → Dbl F) (opt : FitnessOption) (fit : γ → Dbl F)
    (cells : List (Cell γ)) : Dbl F × List (Cell γ × Dbl F) :=
  let raw := cells.map fun c => (c, signedFit opt fit c.2)
  let m := mn (raw.map (·.2))
  let es := raw.map fun p => (p.1, p.2 - m)
  (es.foldl (fun s p => s + p.2) 0, es)

/-- `SOGASelector<Truncation>`, `Genetic/SOGASelecters.hpp` lines 53-76. -/
def selectTruncationFl (opt : FitnessOption) (fit : γ → Dbl F) (sort : Sorter (Cell γ)) (K : Nat)
    (s : SOState γ) : Out (SOState γ) := do
  let sortSpace ← sortRange sort (geneItCompare opt fit) s.pop
  let keep := sortSpace.take K
  let erased := sortSpace.drop K
  let pop := s.pop.filter fun c => !(erased.map (·.1)).contains c.1
  match keep with
  | [] => .ub
  | b :: _ => updateFail1 opt fit { s with pop := pop } b

/-- `SOGASelector<RouletteWheel>`, `Genetic/SOGASelecters.hpp` lines 92-177. -/
def selectRouletteFl (opt : FitnessOption) (fit : γ → Dbl F) (ds : Nat → RouletteDraw (Dbl F))
    (fuel : Nat) (K : Nat) (s : SOState γ) : Out (SOState γ) := do
  let prev ← deref s.pop s.best
  if s.pop.length ≤ K then keepAll opt fit s (fit prev)
  else
    let es ← elimLoop (s.pop.length - K)
      (fun it st =>
        if st.1 > 0 then rouletteStep (ds it).u st
        else .ok (st.1, randomPass (ds it).hit 0 st.2))
      fuel 0 (shiftedSpaceFl minFl opt fit s.pop)
    finish opt fit s es (fit prev)

/-- The common loop of Probability, LinearRank, ExponentialRank and Boltzmann
(`Genetic/SOGASelecters.hpp` lines 419-434, 523-539, 612-628, 684-700). -/
def selectByWeightsFl (opt : FitnessOption) (fit : γ → Dbl F) (ds : Nat → RouletteDraw (Dbl F))
    (fuel : Nat) (K : Nat) (s : SOState γ) (prev : γ) (rMax : Dbl F) (es : List (Cell γ × Dbl F)) :
    Out (SOState γ) := do
  let es ← elimLoop (s.pop.length - K) (fun it st => rouletteStep (ds it).u st) fuel 0 (rMax, es)
  finish opt fit s es (fit prev)

/-- The probabilities of the method Probability before the final formula
(`Genetic/SOGASelecters.hpp` lines 375-404). -/
def probabilitiesFl (opt : FitnessOption) (fit : γ → Dbl F) (pop : List (Cell γ)) :
    List (Cell γ × Dbl F) :=
  let sp := shiftedSpaceFl minFlSwapped opt fit pop
  if sp.1 ≤ 0 then sp.2.map (fun p => (p.1, Dbl.nat F 1 / Dbl.nat F pop.length))
  else sp.2.map (fun p => (p.1, p.2 / sp.1))

/-- `SOGASelector<Probability>`, `Genetic/SOGASelecters.hpp` lines 351-440.  `big` is `1e100`, `pow` is
`std::pow(double, int)`. -/
def selectProbabilityFl (opt : FitnessOption) (fit : γ → Dbl F) (big : Dbl F)
    (pow : Dbl F → Nat → Dbl F) (ds : Nat → RouletteDraw (Dbl F)) (fuel : Nat) (K : Nat) (s : SOState γ) :
    Out (SOState γ) := do
  let prev ← deref s.pop s.best
  if s.pop.length ≤ K then keepAll opt fit s (fit prev)
  else
    let n := s.pop.length
    let es := (probabilitiesFl opt fit s.pop).map fun p =>
      (p.1, big * pow p.2 K * pow (Dbl.nat F 1 - p.2) (n - K))
    selectByWeightsFl opt fit ds fuel K s prev (es.foldl (fun a p => a + p.2) 0) es

/-- Weight of the rank `idx` in LinearRank, `Genetic/SOGASelecters.hpp` lines 508-520. -/
def linearWeightFl (worst best : Dbl F) (n idx : Nat) : Dbl F :=
  (worst * Dbl.nat F n + (best * Dbl.nat F n - worst * Dbl.nat F n) * Dbl.nat F (n - idx - 1) /
    Dbl.nat F (n - 1)) / Dbl.nat F n

/-- `SOGASelector<LinearRank>`, `Genetic/SOGASelecters.hpp` lines 486-545. -/
def selectLinearRankFl (opt : FitnessOption) (fit : γ → Dbl F) (sort : Sorter (Cell γ))
    (worst best : Dbl F) (ds : Nat → RouletteDraw (Dbl F)) (fuel : Nat) (K : Nat) (s : SOState γ) :
    Out (SOState γ) := do
  let prev ← deref s.pop s.best
  if s.pop.length ≤ K then keepAll opt fit s (fit prev)
  else
    let n := s.pop.length
    let sortSpace ← sortRange sort (geneItCompare opt fit) s.pop
    selectByWeightsFl opt fit ds fuel K s prev (Dbl.nat F 1)
      (sortSpace.zipIdx.map fun p => (p.1, linearWeightFl worst best n p.2))

/-- Weight of the rank `idx` in ExponentialRank, `Genetic/SOGASelecters.hpp` lines 599-609. -/
def exponentialWeightFl (base : Dbl F) (pow : Dbl F → Nat → Dbl F) (n idx : Nat) : Dbl F :=
  (base - Dbl.nat F 1) / (pow base n - Dbl.nat F 1) * pow base idx

/-- `SOGASelector<ExponentialRank>`, `Genetic/SOGASelecters.hpp` lines 576-634. -/
def selectExponentialRankFl (opt : FitnessOption) (fit : γ → Dbl F) (sort : Sorter (Cell γ))
    (base : Dbl F) (pow : Dbl F → Nat → Dbl F) (ds : Nat → RouletteDraw (Dbl F)) (fuel : Nat) (K : Nat)
    (s : SOState γ) : Out (SOState γ) := do
  let prev ← deref s.pop s.best
  if s.pop.length ≤ K then keepAll opt fit s (fit prev)
  else
    let n := s.pop.length
    let sortSpace ← sortRange sort (geneItCompare opt fit) s.pop
    selectByWeightsFl opt fit ds fuel K s prev (Dbl.nat F 1)
      (sortSpace.zipIdx.map fun p => (p.1, exponentialWeightFl base pow n p.2))

/-- `SOGASelector<Boltzmann>`, `Genetic/SOGASelecters.hpp` lines 652-706.  `exp` is `std::exp`. -/
def selectBoltzmannFl (opt : FitnessOption) (fit : γ → Dbl F) (exp : Dbl F → Dbl F) (strength : Dbl F)
    (ds : Nat → RouletteDraw (Dbl F)) (fuel : Nat) (K : Nat) (s : SOState γ) : Out (SOState γ) := do
  let prev ← deref s.pop s.best
  if s.pop.length ≤ K then keepAll opt fit s (fit prev)
  else
    let es := s.pop.map fun c => (c, exp (strength * fit c.2))
    selectByWeightsFl opt fit ds fuel K s prev (es.foldl (fun a p => a + p.2) 0) es

/-- `SOGASelector<StochasticUniversal>`, `Genetic/SOGASelecters.hpp` lines 715-806. -/
def selectSUSFl (opt : FitnessOption) (fit : γ → Dbl F) (u0 : Dbl F) (u : Nat → Dbl F) (K : Nat)
    (s : SOState γ) : Out (SOState γ) := do
  let prev ← deref s.pop s.best
  if s.pop.length ≤ K then keepAll opt fit s (fit prev)
  else
    let n := s.pop.length
    let sp := shiftedSpaceFl minFl opt fit s.pop
    let es := if sp.1 ≤ 0 then susEqualPass (Dbl.nat F K) (Dbl.nat F n) u sp.2
      else
        let interval := sp.1 / Dbl.nat F K
        (susPass interval ((interval - 0) * u0 + 0) sp.2).take (n - K)
    finish opt fit s es (fit prev)

/-- `SOGASelector<EliteReserved>`, `Genetic/SOGASelecters.hpp` lines 831-906. -/
def selectEliteFl (opt : FitnessOption) (fit : γ → Dbl F) (sort : Sorter (Cell γ)) (eliteNum : Nat)
    (ds : Nat → RouletteDraw (Dbl F)) (fuel : Nat) (K : Nat) (s : SOState γ) : Out (SOState γ) :=
  if s.pop.length ≤ K then do
    let b ← findCurrentBestGene opt fit s.pop
    updateFail1 opt fit s b
  else do
    let sortSpace ← sortRange sort (geneItCompare opt fit) s.pop
    let sp := shiftedSpaceFl minFl opt fit (sortSpace.drop eliteNum)
    let es ← elimLoop (s.pop.length - K)
      (fun it st => if sp.1 ≤ 0 then .ok (st.1, randomPass (ds it).hit 0 st.2)
        else rouletteStep (ds it).u st)
      fuel 0 sp
    let pop := applyErasement s.pop es
    let b ← findCurrentBestGene opt fit pop
    updateFail1 opt fit { s with pop := pop } b

/-- `SOGASelector<m>::__impl___impl_select`, `Genetic/SOGASelecters.hpp` lines 47-908, on IEEE data. -/
def runSelectFl (opt : FitnessOption) (fit : γ → Dbl F) (m : SelectMethod) (e : SelectEnv γ (Dbl F))
    (pow : Dbl F → Nat → Dbl F) (K : Nat) (s : SOState γ) : Out (SOState γ) :=
  match m with
  | .RouletteWheel => selectRouletteFl opt fit e.ds e.fuel K s
  | .Tournament =>
    selectTournament opt fit e.shuffle e.tournamentSize (e.idxB s.pop.length) e.order K s
  | .Truncation => selectTruncationFl opt fit e.sort K s
  | .MonteCarlo => selectMonteCarlo opt fit e.shuffle K s
  | .Probability => selectProbabilityFl opt fit e.big pow e.ds e.fuel K s
  | .LinearRank => selectLinearRankFl opt fit e.sort e.worst e.best e.ds e.fuel K s
  | .ExponentialRank => selectExponentialRankFl opt fit e.sort e.base pow e.ds e.fuel K s
  | .Boltzmann => selectBoltzmannFl opt fit e.exp e.strength e.ds e.fuel K s
  | .StochasticUniversal => selectSUSFl opt fit e.u0 e.u K s
  | .EliteReserved => selectEliteFl opt fit e.sort e.eliteNum e.ds e.fuel K s
  | .RunTimeSelectMethod => .ub

end

end Heu
