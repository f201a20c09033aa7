import Verif.Model.AOSFull

/-!
# An AOS object with an initialiser of the user's own

`HeuristicFlow/src/AOS/`: the solver of `Model/AOSFull` (Eigen array type, square box, recorded fitness) whose
template argument `_iFun_` is not the reserved symbol: `initializePop` calls the user's function for every electron
and nothing checks what it writes.  The states may therefore have any size: the size check of Eigen in
`_bindingState += elec.state` is part of this model, and the bounds are read only if there is an entry to confine.
-/

namespace Heu

section
variable {A Ω α : Type}

/-- An initialisation function `void (*)(Var_t*, const Arg_t*)`, `AOS/AOSParameterPack.hpp` lines 39 and 71: what it
writes to the state it is given (`ω`: whatever else it reads, e.g. random numbers). -/
abbrev AOSInitFun (A Ω α : Type) : Type := A → Ω → List α → List α

/-- The object: the members of `Model/AOSFull` and the initialisation function (`Global/FunBody.hpp` line 67; `none`
is `nullptr`; `AOS/AOSBoxed.hpp` line 43). -/
structure AOSOwn (A Ω α : Type) where
  obj : AOSFull A α
  iFun : Option (AOSInitFun A Ω α)

/-- A new object; `i0` is the function given at compile time, or `none` (`nullptr`) if it is to be set at run time
(`Global/FunBody.hpp` lines 45-68). -/
def AOSOwn.new (rate0 : α) (shape0 : Option (Int × Int)) (j : AOSJunk A α) (i0 : Option (AOSInitFun A Ω α)) :
    AOSOwn A Ω α :=
  { obj := .new rate0 shape0 j, iFun := i0 }

/-- The calls that only set something (`AOS/AOSBoxed.hpp` lines 70-74, `Global/FunBody.hpp` line 63,
`AOS/AOSParameterPack.hpp` lines 62-64, `EAGlobal/BoxConstraint.hpp`). -/
inductive AOSSetter (A α : Type) where
  | setOption (o : AOSOption) (rate : α)
  | setfFun (f : Option (A → List α → α))
  | setArg (a : A)
  | box (c : SqBoxCall α)

/-- The same call in `Model/AOSFull`.  (Glue, no code of its own; `AOS/AOSBoxed.hpp` lines 70-74.) -/
def AOSSetter.toCall : AOSSetter A α → AOSFullCall A α
  | .setOption o rate => .setOption o rate
  | .setfFun f => .setfFun f
  | .setArg a => .setArg a
  | .box c => .box c

/-- The public calls.  `setiFun` exists if the function was not given at compile time (`Global/FunBody.hpp` line 63);
`w k` is what the initialiser reads for electron `k`; `blank` is the state of a new electron (empty for run-time
sized arrays, indeterminate otherwise), `junk` its indeterminate energy.
(`AOS/AOSBase.hpp` lines 46 and 146, `AOS/AOS.hpp` line 60.) -/
inductive AOSOwnCall (A Ω α : Type) where
  | set (c : AOSSetter A α)
  | setiFun (f : Option (AOSInitFun A Ω α))
  | initializePop (w : Nat → Ω) (blank : List α) (junk : α)
  | run (env : Nat → AOSRawEnv α)

/-- `initializePop`, `AOS/AOSBase.hpp` lines 46-76 and 146-150, with `doInitiailization`, `AOS/AOSBoxed.hpp` lines
136-145 and 154-163.  The electrons are new (lines 55-57), so the initialiser is given a blank state. -/
def AOSOwn.initializePop (x : AOSOwn A Ω α) (w : Nat → Ω) (blank : List α) (junk : α) : Out (AOSOwn A Ω α) := do
  let i ← readMember x.iFun
  let s ← aosInitializePop x.obj.option (fun k => i x.obj.arg (w k) blank) junk
  .ok { x with obj := { x.obj with st := s, generation := 0, record := [] } }

section run
variable [Field α] [LinearOrder α] [FloorSemiring α]

/-- `_bindingState += elec.state` for every electron, `AOS/AOS4EigenAndStd.hpp` lines 43-49: the sum has the size of
the first state, and Eigen asserts that all others have it too. -/
def AOSOwn.sizesAgree (s : AOSState α) : Bool :=
  match s.electrons with
  | [] => true
  | front :: rest => rest.all fun c => decide (c.2.var.length = front.2.var.length)

/-- First part of an iteration, `AOS/AOSBase.hpp` lines 107-111. -/
def AOSOwn.evaluate (opt : FitnessOption) (x : AOSFull A α) (s : AOSState α) : Out (AOSState α) :=
  if AOSOwn.sizesAgree s then x.evaluate opt s else .ub

/-- Second part of an iteration, `AOS/AOSBase.hpp` lines 119-121: the confinement reads the bounds for every entry
(`AOS/AOS4EigenAndStd.hpp` lines 118-120 and 128-130), so not at all if the states are empty. -/
def AOSOwn.children (opt : FitnessOption) (x : AOSFull A α) (e : AOSRawEnv α) (s : AOSState α) :
    Out (AOSState α) :=
  if s.electrons.all (fun c => c.2.var.isEmpty) then
    ({ x with box := { x.box with mn := some (x.box.mn.getD 0), mx := some (x.box.mx.getD 0) } } :
      AOSFull A α).children opt e s
  else x.children opt e s

/-- The loop of `__impl_run`, `AOS/AOSBase.hpp` lines 105-125, with fuel. -/
def AOSOwn.loop (opt : FitnessOption) (gauss : Nat → Nat → α) (x : AOSFull A α) (env : Nat → AOSRawEnv α) :
    Nat → Nat → AOSState α → List α → Out (RunResult (AOSState α) α)
  | 0, _, _, _ => .timeout
  | fuel + 1, gen, s, record => do
    let s ← AOSOwn.evaluate opt x s
    let bst ← deref s.electrons s.best
    let record := record ++ [bst.fitness]
    let s ← x.select opt gauss (env gen) s
    if gen ≥ x.option.maxGeneration ∨ s.early ≥ x.option.maxEarlyStop then .ok ⟨s, gen, record⟩
    else do
      let s ← AOSOwn.children opt x (env gen) s
      AOSOwn.loop opt gauss x env fuel (gen + 1) s record

/-- `run`, `AOS/AOSBase.hpp` lines 105-125. -/
def AOSOwn.run (opt : FitnessOption) (gauss : Nat → Nat → α) (x : AOSOwn A Ω α) (env : Nat → AOSRawEnv α) :
    Out (AOSOwn A Ω α) := do
  let r ← AOSOwn.loop opt gauss x.obj env (x.obj.option.maxGeneration + 1) x.obj.generation x.obj.st x.obj.record
  .ok { x with obj := { x.obj with st := r.state, generation := r.generation, record := r.record } }

/-- One call (`AOS/AOSBoxed.hpp` lines 70-74, `Global/FunBody.hpp` line 63, `AOS/AOSBase.hpp` lines 46-125).  The
setters are those of `Model/AOSFull`. -/
def aosOwnCall (opt : FitnessOption) (gauss : Nat → Nat → α) (x : AOSOwn A Ω α) :
    AOSOwnCall A Ω α → Out (AOSOwn A Ω α)
  | .set c => do
    let y ← aosFullCall opt gauss x.obj c.toCall
    .ok { x with obj := y }
  | .setiFun f => .ok { x with iFun := f }
  | .initializePop w blank junk => x.initializePop w blank junk
  | .run env => x.run opt gauss env

/-- A sequence of public calls.  (Glue over `AOS/AOSBase.hpp` lines 46-157.) -/
def aosOwnSession (opt : FitnessOption) (gauss : Nat → Nat → α) (x : AOSOwn A Ω α)
    (cs : List (AOSOwnCall A Ω α)) : Out (AOSOwn A Ω α) :=
  cs.foldlM (aosOwnCall opt gauss) x

end run
end

end Heu
