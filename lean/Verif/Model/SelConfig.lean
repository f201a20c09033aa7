import Verif.Model.SOGA

/-!
# The parameters of the selection methods

`HeuristicFlow/src/Genetic/SOGASelecters.hpp`: the setters and getters of the selectors, as a solver with
run-time selection method has them all at once (`SOGAInheriter::type`, lines 910-936).
-/

namespace Heu

/-- The members `_tournamentSize` (line 201), `_linearSelectWrostProbability`,
`_linearSelectBestProbability` (482-483), `_exponetialSelectBase` (573), `_boltzmannSelectStrength` (648;
`none` is an indeterminate value), `_eliteNum` (827) and `_selectMethod` (966),
`Genetic/SOGASelecters.hpp`. -/
structure SelConfig (κ : Type) where
  tournamentSize : Int
  worst : κ
  best : κ
  base : κ
  strength : Option κ
  eliteNum : Int
  method : SelectMethod

/-- The constructors, `Genetic/SOGASelecters.hpp` lines 188, 450-453, 556, 817, 940; the Boltzmann strength
is left uninitialised by the selector (see `sogaInitialStrength` for the solver's constructor). -/
def SelConfig.initial (κ : Type) [Field κ] : SelConfig κ where
  tournamentSize := 3
  worst := 1 / 10
  best := 9 / 10
  base := 8 / 10
  strength := none
  eliteNum := 1
  method := defaultSelectMethod

/-- The public calls that change a parameter.  `writeTournamentSize` is an assignment through the
non-const reference `int& tournamentSize()` (line 190). -/
inductive SelCall (κ : Type) where
  | setTournamentSize (n : Int)
  | writeTournamentSize (n : Int)
  | setLinearSelectProbability (worst best : κ)
  | setExponetialSelectBase (c : κ)
  | setBoltzmannSelectStrength (b : κ)
  | setEliteNum (n : Int)
  | setSelectMethod (m : SelectMethod)

/-- The setters, `Genetic/SOGASelecters.hpp` lines 193-197, 463-480, 564-571, 645, 825-828 and 944-963; a
failed assertion is undefined. -/
def selCall {κ : Type} [Field κ] [LinearOrder κ] (s : SelConfig κ) : SelCall κ → Out (SelConfig κ)
  | .setTournamentSize n => if n ≥ 2 then .ok { s with tournamentSize := n } else .ub
  | .writeTournamentSize n => .ok { s with tournamentSize := n }
  | .setLinearSelectProbability w b =>
    if w < b then
      if w ≥ 0 ∧ b ≥ 0 then
        if w ≤ 1 ∧ b ≤ 1 then .ok { s with best := b, worst := w } else .ub
      else .ub
    else .ub
  | .setExponetialSelectBase c =>
    if c ≥ 0 then (if c < 1 then .ok { s with base := c } else .ub) else .ub
  | .setBoltzmannSelectStrength b => .ok { s with strength := some b }
  | .setEliteNum n => if n ≥ 1 then .ok { s with eliteNum := n } else .ub
  | .setSelectMethod m => do
    let m ← setSelectMethod s.method m
    .ok { s with method := m }

/-- A history of such calls on a new solver.  (Glue over `Genetic/SOGASelecters.hpp`; the calls cite their lines.) -/
def selSession {κ : Type} [Field κ] [LinearOrder κ] (cs : List (SelCall κ)) : Out (SelConfig κ) :=
  cs.foldlM selCall (SelConfig.initial κ)

/-- The parameters a selection works with (the selectors read the members, e.g. lines 237, 505-506, 598,
668, 843); `junk` is the indeterminate strength. -/
def SelConfig.into {γ κ : Type} (s : SelConfig κ) (junk : κ) (e : SelectEnv γ κ) : SelectEnv γ κ :=
  { e with tournamentSize := s.tournamentSize.toNat, worst := s.worst, best := s.best, base := s.base,
           strength := s.strength.getD junk, eliteNum := s.eliteNum.toNat }

end Heu
