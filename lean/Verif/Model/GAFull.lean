import Verif.Model.Session
import Verif.Model.SelConfig
import Verif.Model.BoxConfig

/-!
# Whole objects of the genetic solvers `SOGA` and `NSGA2`

All members and all setters that the genetic solvers share (`Genetic/GABase.hpp`, `Genetic/GAAbstract.hpp`,
`Global/FunBody.hpp`): the five options, the four function pointers (null in a new object) and the arguments, the
selection parameters of `SOGA`; `initializePop()` and `run()` as they use them.  A call through a null pointer is
undefined behaviour, but only if it happens.
-/

namespace Heu

section
variable {κ A Ω V F : Type}

/-- The members shared by all genetic solvers: `_option` (`Genetic/GABase.hpp` line 152, fields in
`Genetic/GAOption.hpp` lines 57-83), the four function pointers (`Global/FunBody.hpp` line 67, `none` is `nullptr`),
`_args` (`Genetic/GAAbstract.hpp` line 112), `_generation` (`Genetic/GABase.hpp` line 154) and `_record` (line 421).
A user function that draws random numbers or looks at the content of default-constructed children gets these as an
argument of type `Ω`; the initialiser also gets what is in the variable before. -/
structure GACore (κ A Ω V F : Type) where
  K : Nat
  maxGen : Nat
  maxFail : Nat
  cxProb : κ
  muProb : κ
  iFun : Option (A → Ω → V → V)
  fFun : Option (A → V → F)
  cFun : Option (A → Ω → V → V → V × V)
  mFun : Option (A → Ω → V → V)
  arg : A
  generation : Nat
  record : List F

/-- A new object: `GAOption()` (`Genetic/GAOption.hpp` lines 45-51; `p`, `q` are 0.8 and 0.05), null pointers
(`Global/FunBody.hpp` line 60); the arguments and the generation counter are left as they are in memory. -/
def GACore.new (p q : κ) (arg : A) (generation : Nat) : GACore κ A Ω V F :=
  { K := 100, maxGen := 300, maxFail := 50, cxProb := p, muProb := q
    iFun := none, fFun := none, cFun := none, mFun := none, arg := arg, generation := generation, record := [] }

/-- The setters: `setOption` (`Genetic/GABase.hpp` line 104), `setiFun`, `setfFun`, `setcFun`, `setmFun`
(`Global/FunBody.hpp` line 63, `Genetic/GAAbstract.hpp` lines 31-34) and `setArgs` (lines 105-107; an assignment
through the reference `args()`, line 99, is the same). -/
inductive GASetter (κ A Ω V F : Type) where
  | setOption (K maxGen maxFail : Nat) (cxProb muProb : κ)
  | setiFun (f : Option (A → Ω → V → V))
  | setfFun (f : Option (A → V → F))
  | setcFun (f : Option (A → Ω → V → V → V × V))
  | setmFun (f : Option (A → Ω → V → V))
  | setArgs (a : A)

/-- What the setters do (`Genetic/GABase.hpp` line 104, `Global/FunBody.hpp` line 63, `Genetic/GAAbstract.hpp`
lines 105-107). -/
def GACore.set (x : GACore κ A Ω V F) : GASetter κ A Ω V F → GACore κ A Ω V F
  | .setOption K G L p q => { x with K := K, maxGen := G, maxFail := L, cxProb := p, muProb := q }
  | .setiFun f => { x with iFun := f }
  | .setfFun f => { x with fFun := f }
  | .setcFun f => { x with cFun := f }
  | .setmFun f => { x with mFun := f }
  | .setArgs a => { x with arg := a }

/-- `initializePop`, `Genetic/GABase.hpp` lines 120-127, with `doInitialization` (lines 322 and 345): the list is
resized (`blank` is the content of new nodes) and the initialiser is called for every node on what is there, `w i`
being its random draws; without nodes it is not called. -/
def GACore.initializePop (x : GACore κ A Ω V F) (w : Nat → Ω) (blank : Gene V F) (pop : Pop (Gene V F)) :
    Out (Pop (Gene V F)) :=
  let resized := resizePop x.K blank pop
  if resized = [] then .ok []
  else do
    let f ← readMember x.iFun
    .ok (resized.zipIdx.map fun p =>
      (p.1.1, { p.1.2 with var := f x.arg (w p.2) p.1.2.var, computed := false }))

/-- `__impl_computeAllFitness`, `Genetic/GABase.hpp` lines 213-243, with `doFitness` (lines 324-326 and 347-349):
the fitness function is called only for individuals that are not computed. -/
def GACore.evaluate (x : GACore κ A Ω V F) (pop : Pop (Gene V F)) : Out (Pop (Gene V F)) :=
  if pop.all fun c => c.2.computed then .ok pop
  else do
    let f ← readMember x.fFun
    .ok (computeAllFitness (f x.arg) pop)

/-- The random draws of crossover and mutation in one generation: a number for every node (`randD()`), the shuffle,
what the user functions draw, and the indeterminate fitness of new individuals (`Genetic/GABase.hpp` lines
262-317). -/
structure VaryDraw (κ Ω V F : Type) where
  cxU : Addr → κ
  cxShuffle : List (Cell (Gene V F)) → List (Cell (Gene V F))
  cxW : Nat → Ω
  muU : Addr → κ
  muW : Nat → Ω
  junk : F

section vary
variable [LE κ] [DecidableLE κ]

/-- `__impl_crossover`, `Genetic/GABase.hpp` lines 262-297 (`Heu.crossover`), with `doCrossover` (lines 328-331 and
351-354): a node takes part if its draw is at most `crossoverProb` (line 268); the crossover function is called
only if there are two of them. -/
def GACore.crossover (x : GACore κ A Ω V F) (d : VaryDraw κ Ω V F) (pop : Pop (Gene V F)) :
    Out (Pop (Gene V F)) :=
  if (d.cxShuffle (pop.filter fun c => decide (d.cxU c.1 ≤ x.cxProb))).length < 2 then .ok pop
  else do
    let f ← readMember x.cFun
    .ok (Heu.crossover d.junk (fun n => f x.arg (d.cxW n)) (fun a => decide (d.cxU a ≤ x.cxProb)) d.cxShuffle pop)

/-- `__impl_mutate`, `Genetic/GABase.hpp` lines 303-317 (`Heu.mutate`), with `doMutation` (lines 333-335 and
356-358): a node takes part if its draw is at most `mutateProb` (line 307).  Line 305 first reserves memory for
`population size * mutateProb * 2` pointers: the conversion of this number to `size_t` is undefined unless it is
above -1, and `reserve` throws out of the `noexcept` function if it is above `cap`, the largest capacity the
machine provides (both are `ub` here; the product is exact here). -/
def GACore.mutate [Ring κ] [LT κ] [DecidableLT κ] (cap : Nat) (x : GACore κ A Ω V F) (d : VaryDraw κ Ω V F)
    (pop : Pop (Gene V F)) : Out (Pop (Gene V F)) :=
  if -1 < (pop.length : κ) * x.muProb * 2 ∧ (pop.length : κ) * x.muProb * 2 < (cap : κ) + 1 then
    if pop.all fun c => !decide (d.muU c.1 ≤ x.muProb) then .ok pop
    else do
      let f ← readMember x.mFun
      .ok (Heu.mutate d.junk (fun n => f x.arg (d.muW n)) (fun a => decide (d.muU a ≤ x.muProb)) pop)
  else .ub

end vary

end

/-- What the main loop calls in a solver object, any of which may be undefined (compare `GASolver`).
(`Genetic/GABase.hpp` lines 171-205.) -/
structure GAOps (σ R : Type) where
  evaluate : σ → Out σ
  select : Nat → σ → Out σ
  crossover : Nat → σ → Out σ
  mutate : Nat → σ → Out σ
  bestFitness : σ → Out R
  failTimes : σ → Nat

/-- The `while (true)` loop of `__impl_run`, `Genetic/GABase.hpp` lines 175-204, with fuel; `rec` is the template
parameter `Record`: without it nothing is recorded (lines 157-162 and 429-431). -/
def gaOpsLoop {σ R : Type} (rec : Bool) (S : GAOps σ R) (maxGenerations maxFailTimes : Nat) :
    Nat → Nat → σ → List R → Out (RunResult σ R)
  | 0, _, _, _ => .timeout
  | fuel + 1, gen, s, record => do
    let gen := gen + 1
    let s ← S.evaluate s
    let s ← S.select gen s
    let record ← (if rec then S.bestFitness s >>= fun b => Out.ok (record ++ [b]) else .ok record)
    if gen > maxGenerations then .ok ⟨s, gen - 1, record⟩
    else if maxFailTimes > 0 ∧ S.failTimes s > maxFailTimes then .ok ⟨s, gen - 1, record⟩
    else do
      let s ← S.crossover gen s
      let s ← S.mutate gen s
      gaOpsLoop rec S maxGenerations maxFailTimes fuel gen s record

/-- `__impl_clearRecord`, `Genetic/GABase.hpp` lines 157-158 and 423-426: a recording solver reserves
`maxGenerations + 1` entries (`size_t` arithmetic); `reserve` throws out of the `noexcept` function if that is above
`cap`. -/
def clearRecordOK (rec : Bool) (cap maxGenerations : Nat) : Bool :=
  !rec || decide ((maxGenerations + 1) % 2 ^ 64 ≤ cap)

section soga
variable {κ A Ω V α : Type} [Field α] [LinearOrder α] [Ring κ] [LinearOrder κ]

/-- A `SOGA` object with run-time selection method: the shared members, the selection parameters, population,
`_bestGene` and `_failTimes` (`Genetic/SOGA.hpp` line 168, `Genetic/GABase.hpp` lines 151-155). -/
structure SOGAFull (κ A Ω V α : Type) where
  core : GACore κ A Ω V α
  sel : SelConfig α
  st : SOState (Gene V α)

/-- What a new object contains that no constructor sets: arguments, `_bestGene`, `_failTimes`, `_generation`, the
Boltzmann strength.  (Members without initialiser: `Genetic/GAAbstract.hpp` line 112, `Genetic/SOGA.hpp` line 168,
`Genetic/GABase.hpp` lines 154-155, `Genetic/SOGASelecters.hpp` line 648.) -/
structure GAJunk (A α : Type) where
  arg : A
  best : Addr
  fail : Nat
  generation : Nat
  strength : α

/-- A new object (`Genetic/SOGA.hpp` lines 125-129; with run-time selection method the body of the constructor does
nothing). -/
def SOGAFull.new (p q : κ) (j : GAJunk A α) : SOGAFull κ A Ω V α :=
  { core := .new p q j.arg j.generation, sel := .initial α, st := { pop := [], best := j.best, fail := j.fail } }

/-- The draws of one selection: those of `SelectEnv` (whose parameters are not used), but the draws of the
tournament, `randIdx(_tournamentSize, n)` (`Genetic/SOGASelecters.hpp` line 254), for every tournament size. -/
structure SelDraw (γ α : Type) where
  env : SelectEnv γ α
  idx : Nat → Nat → Nat → Nat → Nat

/-- What a selection works with (`SelConfig.into`; `Genetic/SOGASelecters.hpp`, the selectors read the members). -/
def SelDraw.with {γ : Type} (d : SelDraw γ α) (c : SelConfig α) (junk : α) : SelectEnv γ α :=
  { c.into junk d.env with idxB := d.idx c.tournamentSize.toNat }

/-- The public calls that change the object.  (`Genetic/GABase.hpp` lines 104 and 171, `Global/FunBody.hpp` line 63,
`Genetic/GAAbstract.hpp` lines 99-107, `Genetic/SOGASelecters.hpp` lines 188-963, `Genetic/SOGA.hpp` lines
161-164.) -/
inductive SOGAFullCall (κ A Ω V α : Type) where
  | set (c : GASetter κ A Ω V α)
  | sel (c : SelCall α)
  | initializePop (w : Nat → Ω) (blank : Gene V α)
  | run (e : Nat → SelDraw (Gene V α) α) (d : Nat → VaryDraw κ Ω V α)

/-- The solver in the main loop (`Genetic/GABase.hpp` lines 171-205 with `Genetic/SOGASelecters.hpp` lines
968-972).  The members that matter are those of the object `x`. -/
def SOGAFull.ops (opt : FitnessOption) (cap : Nat) (junk : α) (x : SOGAFull κ A Ω V α)
    (e : Nat → SelDraw (Gene V α) α) (d : Nat → VaryDraw κ Ω V α) : GAOps (SOState (Gene V α)) α where
  evaluate s := do
    let p ← x.core.evaluate s.pop
    .ok { s with pop := p }
  select gen s := runSelect opt Gene.fitness (dispatchedMethod x.sel.method) ((e gen).with x.sel junk) x.core.K s
  crossover gen s := do
    let p ← x.core.crossover (d gen) s.pop
    .ok { s with pop := p }
  mutate gen s := do
    let p ← x.core.mutate cap (d gen) s.pop
    .ok { s with pop := p }
  bestFitness s := deref s.pop s.best >>= fun g => .ok g.fitness
  failTimes s := s.fail

/-- One call.  `initializePop` is `Genetic/SOGA.hpp` lines 161-164, `run` is `Genetic/GABase.hpp` lines 171-205
(fuel `maxGenerations + 1` is never too little). -/
def sogaFullCall (rec : Bool) (opt : FitnessOption) (cap : Nat) (junk : α) (x : SOGAFull κ A Ω V α) :
    SOGAFullCall κ A Ω V α → Out (SOGAFull κ A Ω V α)
  | .set c => .ok { x with core := x.core.set c }
  | .sel c => do
    let s ← selCall x.sel c
    .ok { x with sel := s }
  | .initializePop w blank => do
    let pop ← x.core.initializePop w blank x.st.pop
    let first := match pop with
      | [] => freshAddr pop
      | c :: _ => c.1
    .ok { x with st := { x.st with pop := pop, best := first } }
  | .run e d =>
    if clearRecordOK rec cap x.core.maxGen then do
      let r ← gaOpsLoop rec (x.ops opt cap junk e d) x.core.maxGen x.core.maxFail (x.core.maxGen + 1) 0
        { x.st with fail := 0 } []
      .ok { x with st := r.state, core := { x.core with generation := r.generation, record := r.record } }
    else .ub

/-- A sequence of public calls.  (Glue over `Genetic/GABase.hpp` lines 99-205.) -/
def sogaFullSession (rec : Bool) (opt : FitnessOption) (cap : Nat) (junk : α) (x : SOGAFull κ A Ω V α)
    (cs : List (SOGAFullCall κ A Ω V α)) : Out (SOGAFull κ A Ω V α) :=
  cs.foldlM (sogaFullCall rec opt cap junk) x

/-- `result()`, `Genetic/SOGA.hpp` line 156. -/
def SOGAFull.result (x : SOGAFull κ A Ω V α) : Out V := deref x.st.pop x.st.best >>= fun g => .ok g.var

/-- `bestFitness()`, `Genetic/SOGA.hpp` line 149. -/
def SOGAFull.bestFitness (x : SOGAFull κ A Ω V α) : Out α :=
  deref x.st.pop x.st.best >>= fun g => .ok g.fitness

end soga

section mo
variable {κ A Ω V α : Type} {m : Nat} [Zero α] [LinearOrder α] [Ring κ] [LinearOrder κ]

/-- A multi-objective solver object: the shared members, population, front and `_failTimes`
(`Genetic/GABase.hpp` lines 151-155, `Genetic/MOGAAbstract.hpp` line 148). -/
structure MOFull (κ A Ω V : Type) (m : Nat) (α : Type) where
  core : GACore κ A Ω V (Fin m → α)
  st : MOState V m α

/-- A new object (`Genetic/NSGA2.hpp`; `arg`, `fail` and `generation` are indeterminate, `Genetic/GABase.hpp` lines
154-155 and `Genetic/GAAbstract.hpp` line 112). -/
def MOFull.new (p q : κ) (arg : A) (fail generation : Nat) : MOFull κ A Ω V m α :=
  { core := .new p q arg generation, st := { pop := [], pf := ∅, fail := fail } }

/-- The public calls that change the object; a run carries the selection algorithm with its draws, given
`populationSize`.  (`Genetic/GABase.hpp` lines 104 and 171, `Global/FunBody.hpp` line 63, `Genetic/GAAbstract.hpp`
lines 99-107, `Genetic/MOGAAbstract.hpp` lines 119-123.) -/
inductive MOFullCall (κ A Ω V : Type) (m : Nat) (α : Type) where
  | set (c : GASetter κ A Ω V (Fin m → α))
  | initializePop (w : Nat → Ω) (blank : Gene V (Fin m → α))
  | run (sel : Nat → Nat → (Addr → Fin m → α) → List Addr → Out (SelectResult Addr))
      (d : Nat → VaryDraw κ Ω V (Fin m → α))

/-- The solver in the main loop (`Genetic/GABase.hpp` lines 171-205). -/
def MOFull.ops (opt : FitnessOption) (cap : Nat) (x : MOFull κ A Ω V m α)
    (sel : Nat → Nat → (Addr → Fin m → α) → List Addr → Out (SelectResult Addr))
    (d : Nat → VaryDraw κ Ω V (Fin m → α)) : GAOps (MOState V m α) (Fin m → α) where
  evaluate s := do
    let p ← x.core.evaluate s.pop
    .ok { s with pop := p }
  select gen s := moSelect (sel x.core.K gen) s
  crossover gen s := do
    let p ← x.core.crossover (d gen) s.pop
    .ok { s with pop := p }
  mutate gen s := do
    let p ← x.core.mutate cap (d gen) s.pop
    .ok { s with pop := p }
  bestFitness s := moBestFitness opt (s.pop.map fun c => c.2.fitness)
  failTimes s := s.fail

/-- One call.  `initializePop` is `Genetic/MOGAAbstract.hpp` lines 119-123, `run` is `Genetic/GABase.hpp` lines
171-205 (fuel `maxGenerations + 1` is never too little). -/
def moFullCall (rec : Bool) (opt : FitnessOption) (cap : Nat) (x : MOFull κ A Ω V m α) :
    MOFullCall κ A Ω V m α → Out (MOFull κ A Ω V m α)
  | .set c => .ok { x with core := x.core.set c }
  | .initializePop w blank => do
    let pop ← x.core.initializePop w blank x.st.pop
    .ok { x with st := { x.st with pop := pop, pf := ∅ } }
  | .run sel d =>
    if clearRecordOK rec cap x.core.maxGen then do
      let r ← gaOpsLoop rec (x.ops opt cap sel d) x.core.maxGen x.core.maxFail (x.core.maxGen + 1) 0
        { x.st with fail := 0 } []
      .ok { x with st := r.state, core := { x.core with generation := r.generation, record := r.record } }
    else .ub

/-- A sequence of public calls.  (Glue over `Genetic/GABase.hpp` lines 99-205.) -/
def moFullSession (rec : Bool) (opt : FitnessOption) (cap : Nat) (x : MOFull κ A Ω V m α)
    (cs : List (MOFullCall κ A Ω V m α)) : Out (MOFull κ A Ω V m α) :=
  cs.foldlM (moFullCall rec opt cap) x

end mo

end Heu
