import Verif.Model.AOSFull

/-!
# Copies and moves of AOS objects

`AOS` declares neither copy nor move operations nor a destructor, so all are implicit: members are copied or moved one by
one.  `_atomBestPtr` (`AOS/AOSBoxed.hpp` line 95) and the elements of `_layers` (lines 57 and 92) are plain pointers to
electrons, and are copied as they are.

Every list of electrons has an identity (a number); it gets a new one when electrons may have been erased, after which
pointers made before count as dangling.  A moved list keeps its identity.
-/

namespace Heu

section
variable {A α : Type}

/-- An object, the identity of its list of electrons, and the identity of the list its pointers lead into (`none`: never
set).  The pointer to the best electron and the layers are always set together.  (`AOS/AOSBoxed.hpp` lines 91-98,
`AOS/AOSBase.hpp` lines 46-76 and 105-125.) -/
structure AOSHeld (A α : Type) where
  obj : AOSFull A α
  nodes : Nat
  ptr : Option Nat

/-- All live objects; numbers below `next` have been given to objects, those below `stamp` to lists.  (Glue.
`AOS/AOS.hpp` lines 43-47.) -/
structure AOSWorld (A α : Type) where
  next : Nat
  stamp : Nat
  objs : Nat → Option (AOSHeld A α)

/-- The object with this number; using one that does not exist is undefined.  (Glue.  `AOS/AOS.hpp` line 43.) -/
def AOSWorld.get (w : AOSWorld A α) (i : Nat) : Out (AOSHeld A α) :=
  match w.objs i with
  | some x => .ok x
  | none => .ub

/-- Store an object.  (Glue.  `AOS/AOS.hpp` line 43.) -/
def AOSWorld.put (w : AOSWorld A α) (i : Nat) (x : AOSHeld A α) : AOSWorld A α :=
  { w with objs := fun j => if j = i then some x else w.objs j }

/-- An object that has this list, if there is one.  (Glue.  `AOS/AOSBoxed.hpp` line 91.) -/
def AOSWorld.owner (w : AOSWorld A α) (s : Nat) : Option (AOSHeld A α) :=
  (List.range w.next).findSome? fun j => (w.objs j).filter fun y => decide (y.nodes = s)

/-- The electrons the pointers of an object may lead to.  (`AOS/AOSBoxed.hpp` lines 91-95.) -/
def AOSWorld.home (w : AOSWorld A α) (x : AOSHeld A α) : Out (Pop (Gene (List α) α)) :=
  match x.ptr.bind w.owner with
  | some y => .ok y.obj.st.electrons
  | none => .ub

/-- A new object with a list of its own and these pointers.  (Glue.  `AOS/AOS.hpp` line 43.) -/
def AOSWorld.make (w : AOSWorld A α) (o : AOSFull A α) (p : Option Nat) : AOSWorld A α :=
  { next := w.next + 1, stamp := w.stamp + 1,
    objs := fun j => if j = w.next then some ⟨o, w.stamp, p⟩ else w.objs j }

/-- The object after `initializePop` or `run`: pointers lead into its own list.  (`AOS/AOSBase.hpp` lines 65 and
105-125.) -/
def AOSWorld.renew (w : AOSWorld A α) (i : Nat) (o : AOSFull A α) : AOSWorld A α :=
  { w.put i ⟨o, w.stamp, some w.stamp⟩ with stamp := w.stamp + 1 }

/-- What is left of an object that was moved from: no electrons, no layers, no record; the binding state and the argument
are unspecified (`bs`, `arg`); everything else is as before.  (Implicit move operations, `AOS/AOSBoxed.hpp` lines 91-98,
`AOS/AOSBase.hpp` line 153, `AOS/AOSParameterPack.hpp` line 59.  The standard leaves the content of a moved-from
`std::list` open; all implementations leave it empty.) -/
def AOSFull.movedFrom (x : AOSFull A α) (bs : List α) (arg : A) : AOSFull A α :=
  { x with st := { x.st with electrons := [], layers := [], bindingState := bs }, record := [], arg := arg }

/-- Copy construction from object `i`.  (Implicit, `AOS/AOSBoxed.hpp` lines 91-98.) -/
def AOSWorld.copy (w : AOSWorld A α) (i : Nat) : Out (AOSWorld A α) := do
  let x ← w.get i
  .ok (w.make x.obj x.ptr)

/-- Move construction from object `i`: the new object takes over the list.  (Implicit, `AOS/AOSBoxed.hpp` lines
91-98.) -/
def AOSWorld.move (w : AOSWorld A α) (i : Nat) (bs : List α) (arg : A) : Out (AOSWorld A α) := do
  let x ← w.get i
  .ok { next := w.next + 1, stamp := w.stamp + 1,
        objs := fun j => if j = w.next then some x
          else if j = i then some ⟨x.obj.movedFrom bs arg, w.stamp, x.ptr⟩ else w.objs j }

/-- Copy assignment `i = j`; the old electrons of `i` are gone.  (Implicit, `AOS/AOSBoxed.hpp` lines 91-98.) -/
def AOSWorld.assign (w : AOSWorld A α) (i j : Nat) : Out (AOSWorld A α) := do
  let _ ← w.get i
  let y ← w.get j
  if i = j then .ok w
  else .ok { w.put i ⟨y.obj, w.stamp, y.ptr⟩ with stamp := w.stamp + 1 }

/-- Move assignment `i = std::move(j)`; the old electrons of `i` are gone.  The outcome of a self-move is unspecified;
it is counted as undefined.  (Implicit, `AOS/AOSBoxed.hpp` lines 91-98.) -/
def AOSWorld.moveAssign (w : AOSWorld A α) (i j : Nat) (bs : List α) (arg : A) : Out (AOSWorld A α) := do
  let _ ← w.get i
  let y ← w.get j
  if i = j then .ub
  else .ok { next := w.next, stamp := w.stamp + 1,
             objs := fun k => if k = i then some y
               else if k = j then some ⟨y.obj.movedFrom bs arg, w.stamp, y.ptr⟩ else w.objs k }

/-- Destruction.  (Implicit, `AOS/AOS.hpp` line 43.) -/
def AOSWorld.destroy (w : AOSWorld A α) (i : Nat) : Out (AOSWorld A α) := do
  let _ ← w.get i
  .ok { w with objs := fun j => if j = i then none else w.objs j }

section run
variable [Field α] [LinearOrder α] [FloorSemiring α]

/-- `__impl_computeAtomBSBELE`, `AOS/AOS4EigenAndStd.hpp` lines 41-69, where `*prevBestPtr` is read by `rd`
(`Heu.computeAtomBSBELE` reads it in the own list). -/
def computeAtomFrom (rd : Pop (Gene (List α) α) → Out (Gene (List α) α)) (opt : FitnessOption) (s : AOSState α) :
    Out (AOSState α) :=
  match s.electrons with
  | [] => .ub
  | front :: rest => do
    let best := atomScan opt front (front :: rest)
    let n : α := ((front :: rest).length : α)
    let bs := (sumStates front.2.var.length ((front :: rest).map (·.2.var))).map (· / n)
    let be := (((front :: rest).map (·.2.fitness)).foldl (· + ·) 0) / n
    let prev ← rd s.electrons
    .ok { s with bindingState := bs, bindingEnergy := be, best := best.1,
                 early := if prev.fitness ≤ best.2.fitness ∧ best.2.fitness ≤ prev.fitness then s.early + 1 else 0 }

/-- First part of the first iteration, `AOS/AOSBase.hpp` lines 107-111 (as `AOSFull.evaluate`). -/
def AOSFull.evaluateFrom (rd : Pop (Gene (List α) α) → Out (Gene (List α) α)) (opt : FitnessOption)
    (x : AOSFull A α) (s : AOSState α) : Out (AOSState α) :=
  if s.electrons.all (fun c => c.2.computed) then computeAtomFrom rd opt (aosComputeFitness (fun _ => 0) s)
  else do
    let f ← x.fitness
    computeAtomFrom rd opt (aosComputeFitness f s)

/-- `run`, `AOS/AOSBase.hpp` lines 105-125.  Only the first evaluation follows the pointer as it was before the run; it
sets the pointer to an electron of the own list. -/
def AOSFull.runFrom (rd : Pop (Gene (List α) α) → Out (Gene (List α) α)) (opt : FitnessOption)
    (gauss : Nat → Nat → α) (x : AOSFull A α) (env : Nat → AOSRawEnv α) : Out (AOSFull A α) := do
  let s ← x.evaluateFrom rd opt x.st
  let bst ← deref s.electrons s.best
  let s ← x.select opt gauss (env x.generation) s
  if x.generation ≥ x.option.maxGeneration ∨ s.early ≥ x.option.maxEarlyStop then
    .ok { x with st := s, generation := x.generation, record := x.record ++ [bst.fitness] }
  else do
    let s ← x.children opt (env x.generation) s
    let r ← x.loop opt gauss env x.option.maxGeneration (x.generation + 1) s (x.record ++ [bst.fitness])
    .ok { x with st := r.state, generation := r.generation, record := r.record }

/-- How a run reads `*_atomBestPtr` at first: in the own list as it is then, or in that of another object.
(`AOS/AOS4EigenAndStd.hpp` lines 42 and 63.) -/
def AOSWorld.reader (w : AOSWorld A α) (x : AOSHeld A α) (own : Pop (Gene (List α) α)) : Out (Gene (List α) α) :=
  if x.ptr = some x.nodes then deref own x.obj.st.best
  else w.home x >>= fun p => deref p x.obj.st.best

/-- A call on one of the objects.  (`AOS/AOSBase.hpp` lines 46-76 and 105-125, `AOS/AOSBoxed.hpp` lines 70-74.)
Simplification: electrons of an object that its own run happens to keep count as erased for other objects. -/
def aosWorldObjCall (opt : FitnessOption) (gauss : Nat → Nat → α) (w : AOSWorld A α) (i : Nat) (c : AOSFullCall A α) :
    Out (AOSWorld A α) := do
  let x ← w.get i
  match c with
  | .initializePop u junk => do
    let y ← x.obj.initializePop u junk
    .ok (w.renew i y)
  | .run env => do
    let y ← x.obj.runFrom (w.reader x) opt gauss env
    .ok (w.renew i y)
  | c => do
    let y ← aosFullCall opt gauss x.obj c
    .ok (w.put i { x with obj := y })

/-- What happens to AOS objects.  (`AOS/AOS.hpp` line 43; the draws of the calls and the unspecified parts of moved-from
objects are arguments.) -/
inductive AOSWorldCall (A α : Type) where
  | make (rate0 : α) (shape0 : Option (Int × Int)) (j : AOSJunk A α)
  | copy (i : Nat)
  | move (i : Nat) (bs : List α) (arg : A)
  | assign (i j : Nat)
  | moveAssign (i j : Nat) (bs : List α) (arg : A)
  | destroy (i : Nat)
  | call (i : Nat) (c : AOSFullCall A α)

/-- One event.  (Glue over `AOS/AOS.hpp` lines 43-140.) -/
def aosWorldCall (opt : FitnessOption) (gauss : Nat → Nat → α) (w : AOSWorld A α) :
    AOSWorldCall A α → Out (AOSWorld A α)
  | .make rate0 shape0 j => .ok (w.make (.new rate0 shape0 j) none)
  | .copy i => w.copy i
  | .move i bs arg => w.move i bs arg
  | .assign i j => w.assign i j
  | .moveAssign i j bs arg => w.moveAssign i j bs arg
  | .destroy i => w.destroy i
  | .call i c => aosWorldObjCall opt gauss w i c

/-- A sequence of events.  (Glue over `AOS/AOS.hpp` lines 43-140.) -/
def aosWorldSession (opt : FitnessOption) (gauss : Nat → Nat → α) (w : AOSWorld A α) (cs : List (AOSWorldCall A α)) :
    Out (AOSWorld A α) :=
  cs.foldlM (aosWorldCall opt gauss) w

/-- `bestElectron()` of object `i`, `AOS/AOSBoxed.hpp` line 76. -/
def AOSWorld.bestElectron (w : AOSWorld A α) (i : Nat) : Out (Gene (List α) α) := do
  let x ← w.get i
  let p ← w.home x
  deref p x.obj.st.best

/-- The electrons `layers()` of object `i` refers to, `AOS/AOSBoxed.hpp` line 84: following every pointer of every layer.
With no layers nothing is read. -/
def AOSWorld.layers (w : AOSWorld A α) (i : Nat) : Out (List (List (Gene (List α) α))) := do
  let x ← w.get i
  x.obj.st.layers.mapM fun l => l.members.mapM fun a => do
    let p ← w.home x
    deref p a

end run
end

end Heu
