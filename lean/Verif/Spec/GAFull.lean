import Verif.Model.GAFull
import Verif.Spec.Session
import Verif.Spec.SelConfig

/-!
# Specification: histories of calls on a genetic solver object
-/

namespace Heu.Spec

section
variable {κ A Ω V F : Type}

/-- What a setter gives for the options: `populationSize`, `maxGenerations`, `maxFailTimes`, `crossoverProb`,
`mutateProb`. -/
def GASetter.option? : GASetter κ A Ω V F → Option (Nat × Nat × Nat × κ × κ)
  | .setOption K G L p q => some (K, G, L, p, q)
  | _ => none
/-- What a setter gives for the initialiser (`none` is the null pointer), and so on. -/
def GASetter.iFun? : GASetter κ A Ω V F → Option (Option (A → Ω → V → V))
  | .setiFun f => some f
  | _ => none
/-- see `GASetter.iFun?` -/
def GASetter.fFun? : GASetter κ A Ω V F → Option (Option (A → V → F))
  | .setfFun f => some f
  | _ => none
/-- see `GASetter.iFun?` -/
def GASetter.cFun? : GASetter κ A Ω V F → Option (Option (A → Ω → V → V → V × V))
  | .setcFun f => some f
  | _ => none
/-- see `GASetter.iFun?` -/
def GASetter.mFun? : GASetter κ A Ω V F → Option (Option (A → Ω → V → V))
  | .setmFun f => some f
  | _ => none
/-- What a setter gives for the arguments of the user functions. -/
def GASetter.arg? : GASetter κ A Ω V F → Option A
  | .setArgs a => some a
  | _ => none

/-- What the setters in a history gave last (or the initial values `x0` of the object): options, functions,
arguments. -/
structure GASettings {C : Type} (set? : C → Option (GASetter κ A Ω V F)) (p q : κ) (arg0 : A) (cs : List C)
    (x : GACore κ A Ω V F) : Prop where
  option : (x.K, x.maxGen, x.maxFail, x.cxProb, x.muProb) =
    lastSet (fun c => (set? c).bind GASetter.option?) cs (100, 300, 50, p, q)
  iFun : x.iFun = lastSet (fun c => (set? c).bind GASetter.iFun?) cs none
  fFun : x.fFun = lastSet (fun c => (set? c).bind GASetter.fFun?) cs none
  cFun : x.cFun = lastSet (fun c => (set? c).bind GASetter.cFun?) cs none
  mFun : x.mFun = lastSet (fun c => (set? c).bind GASetter.mFun?) cs none
  arg : x.arg = lastSet (fun c => (set? c).bind GASetter.arg?) cs arg0

/-- This setter changes what `the fitness function applied to the arguments` is. -/
def GASetter.ChangesFitness (c : GASetter κ A Ω V F) : Prop := (∃ f, c = .setfFun f) ∨ ∃ a, c = .setArgs a

/-- The draws of crossover and mutation are possible ones (`std::shuffle` permutes). -/
def VaryDraw.Legal (d : VaryDraw κ Ω V F) : Prop := ∀ l, (d.cxShuffle l).Perm l

end

section soga
variable {κ A Ω V α : Type}

/-- The setter of this call, if it is one of the shared setters. -/
def SOGAFullCall.set? : SOGAFullCall κ A Ω V α → Option (GASetter κ A Ω V α)
  | .set c => some c
  | _ => none
/-- The call on the selection parameters, if it is one. -/
def SOGAFullCall.sel? : SOGAFullCall κ A Ω V α → Option (SelCall α)
  | .sel c => some c
  | _ => none
/-- This call is `initializePop`. -/
def SOGAFullCall.IsInit (c : SOGAFullCall κ A Ω V α) : Prop := ∃ w b, c = .initializePop w b

/-- Neither the fitness function nor the arguments were changed since the last `initializePop`. -/
def SOGAFullFitnessKept (cs : List (SOGAFullCall κ A Ω V α)) : Prop :=
  ∀ (before : List (SOGAFullCall κ A Ω V α)) c after, cs = before ++ .set c :: after →
    GASetter.ChangesFitness c → ∃ d ∈ after, SOGAFullCall.IsInit d

/-- Possible draws of a selection, whatever its parameters are. -/
structure SelDraw.Legal {γ : Type} [Zero α] [One α] [LT α] [LE α] (d : SelDraw γ α) : Prop where
  shuffle : ∀ l, (d.env.shuffle l).Perm l
  order : ∀ l, (d.env.order l).Perm l
  idx : ∀ t n k j, t < n → t ≤ d.idx t n k j ∧ d.idx t n k j < n
  u0 : 0 ≤ d.env.u0 ∧ d.env.u0 < 1
  u : ∀ i, 0 ≤ d.env.u i ∧ d.env.u i < 1

/-- The draws of all runs are possible ones, and nobody writes a tournament size below 1 through the reference
`tournamentSize()`. -/
structure SOGAFullLegal [Zero α] [One α] [LT α] [LE α] (cs : List (SOGAFullCall κ A Ω V α)) : Prop where
  draws : ∀ e d, SOGAFullCall.run e d ∈ cs → ∀ g, SelDraw.Legal (e g)
  tournament : ∀ n, SOGAFullCall.sel (.writeTournamentSize n) ∈ cs → 1 ≤ n

end soga

section mo
variable {κ A Ω V α : Type} {m : Nat}

/-- The setter of this call, if it is one. -/
def MOFullCall.set? : MOFullCall κ A Ω V m α → Option (GASetter κ A Ω V (Fin m → α))
  | .set c => some c
  | _ => none
/-- This call is `initializePop`. -/
def MOFullCall.IsInit (c : MOFullCall κ A Ω V m α) : Prop := ∃ w b, c = .initializePop w b
/-- This call is `run`. -/
def MOFullCall.IsRun (c : MOFullCall κ A Ω V m α) : Prop := ∃ s d, c = .run s d

/-- Neither the fitness function nor the arguments were changed since the last `initializePop`. -/
def MOFullFitnessKept (cs : List (MOFullCall κ A Ω V m α)) : Prop :=
  ∀ (before : List (MOFullCall κ A Ω V m α)) c after, cs = before ++ .set c :: after →
    GASetter.ChangesFitness c → ∃ d ∈ after, MOFullCall.IsInit d

/-- The options in force after a history (`p`, `q`: the initial probabilities). -/
def moFullOption (p q : κ) (cs : List (MOFullCall κ A Ω V m α)) : Nat × Nat × Nat × κ × κ :=
  lastSet (fun c => (MOFullCall.set? c).bind GASetter.option?) cs (100, 300, 50, p, q)

/-- Size of the population after a history of calls that returned: `populationSize` at the last `initializePop` or
`run`. -/
def moFullCount (cs : List (MOFullCall κ A Ω V m α)) : Nat :=
  (cs.foldl (fun (n : Nat × Nat) c => match c with
    | .set (.setOption K _ _ _ _) => (K, n.2)
    | .set _ => n
    | .initializePop _ _ => (n.1, n.1)
    | .run _ _ => (n.1, n.1)) (100, 0)).2

/-- At every `run` the population has at least `populationSize` members. -/
def MOFullRoom (p q : κ) (cs : List (MOFullCall κ A Ω V m α)) : Prop :=
  ∀ (before : List (MOFullCall κ A Ω V m α)) s d after, cs = before ++ .run s d :: after →
    (moFullOption p q before).1 ≤ moFullCount before

/-- What a call needs to have been set by the calls `before`: `initializePop` an initialiser, `run` the other three
functions, a mutation probability that is not negative and for which the list of parents of mutants (up to
`4 * populationSize * mutateProb` entries are reserved) and, if the solver records, the record fit into memory. -/
def MOFullReadyFor [Ring κ] [LinearOrder κ] (rec : Bool) (cap : Nat) (p q : κ)
    (before : List (MOFullCall κ A Ω V m α)) : MOFullCall κ A Ω V m α → Prop
  | .set _ => True
  | .initializePop _ _ => lastSet (fun c => (MOFullCall.set? c).bind GASetter.iFun?) before none ≠ none
  | .run _ _ =>
    lastSet (fun c => (MOFullCall.set? c).bind GASetter.fFun?) before none ≠ none ∧
    lastSet (fun c => (MOFullCall.set? c).bind GASetter.cFun?) before none ≠ none ∧
    lastSet (fun c => (MOFullCall.set? c).bind GASetter.mFun?) before none ≠ none ∧
    0 ≤ (moFullOption p q before).2.2.2.2 ∧
    4 * ((moFullOption p q before).1 : κ) * (moFullOption p q before).2.2.2.2 ≤ (cap : κ) ∧
    (rec = true → (moFullOption p q before).2.1 + 1 ≤ cap ∧ (moFullOption p q before).2.1 + 1 < 2 ^ 64)

/-- Every call of the history finds what it needs. -/
def MOFullPrepared [Ring κ] [LinearOrder κ] (rec : Bool) (cap : Nat) (p q : κ)
    (cs : List (MOFullCall κ A Ω V m α)) : Prop :=
  ∀ (before : List (MOFullCall κ A Ω V m α)) c after, cs = before ++ c :: after →
    MOFullReadyFor rec cap p q before c

end mo

end Heu.Spec
