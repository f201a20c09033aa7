import Verif.Model.SelConfig
import Verif.Spec.Session

/-!
# Specification: the parameters of the selection methods
-/

namespace Heu.Spec

/-- The documented range of every argument. -/
def AllowedSelCall {κ : Type} [Field κ] [LinearOrder κ] : SelCall κ → Prop
  | .setTournamentSize n => 2 ≤ n
  | .writeTournamentSize _ => True
  | .setLinearSelectProbability w b => 0 ≤ w ∧ w < b ∧ b ≤ 1
  | .setExponetialSelectBase c => 0 ≤ c ∧ c < 1
  | .setBoltzmannSelectStrength _ => True
  | .setEliteNum n => 1 ≤ n
  | .setSelectMethod m => m ≠ .RunTimeSelectMethod

/-- The tournament size a call gives, if any (and so on for the other parameters). -/
def giveTournament {κ : Type} : SelCall κ → Option Int
  | .setTournamentSize n | .writeTournamentSize n => some n
  | _ => none
/-- see `giveTournament` -/
def giveLinear {κ : Type} : SelCall κ → Option (κ × κ)
  | .setLinearSelectProbability w b => some (w, b)
  | _ => none
/-- see `giveTournament` -/
def giveBase {κ : Type} : SelCall κ → Option κ
  | .setExponetialSelectBase c => some c
  | _ => none
/-- see `giveTournament` -/
def giveStrength {κ : Type} : SelCall κ → Option (Option κ)
  | .setBoltzmannSelectStrength b => some (some b)
  | _ => none
/-- see `giveTournament` -/
def giveElite {κ : Type} : SelCall κ → Option Int
  | .setEliteNum n => some n
  | _ => none
/-- see `giveTournament` -/
def giveMethod {κ : Type} : SelCall κ → Option SelectMethod
  | .setSelectMethod m => some m
  | _ => none

/-- No assignment through the reference `tournamentSize()`. -/
def OnlySetters {κ : Type} (cs : List (SelCall κ)) : Prop :=
  ∀ c ∈ cs, ∀ n, c ≠ SelCall.writeTournamentSize n

end Heu.Spec
