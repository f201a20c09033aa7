import Verif.Model.BitHeap

/-!
# Bit containers as independent values, and who owns the memory

The vocabulary of C141.
-/

namespace Heu.Spec

variable {w : Nat}

/-- The containers of a program as values: `none`, no object; `some none`, an object whose members were never set;
`some (some s)`, a container. -/
abbrev BitValues (w : Nat) := Nat → Option (Option (MBS w))

/-- Changing one variable. -/
def BitValues.put (v : BitValues w) (i : Nat) (m : Option (Option (MBS w))) : BitValues w :=
  fun k => if k = i then m else v k

/-- The container in variable `i`; there is none to be used if the storage is empty or the members were never set. -/
def BitValues.get (v : BitValues w) (i : Nat) : Out (MBS w) :=
  match v i with
  | some (some s) => .ok s
  | _ => .ub

/-- An operation that replaces container `i` by what `f` makes of it. -/
def BitValues.change (v : BitValues w) (i : Nat) (f : MBS w → Out (MBS w)) : Out (BitValues w) :=
  (v.get i).bind fun s => (f s).bind fun s => .ok (v.put i (some (some s)))

/-- What a container assigned to itself becomes: `resize` to its own size, then its own blocks copied onto themselves. -/
def selfAssigned (e : Nat) (junk : Nat → BitVec w) (s : MBS w) : Out (MBS w) :=
  if s.size = 0 then .ok s
  else
    let s' := s.resize e junk s.size
    (memcpyB s'.blocks s'.blocks (blocksFor w e s.size * (w / 8))).bind fun d => .ok { s' with blocks := d }

/-- What each operation does to the values: it acts on its own container with the operation of the single-container
model. -/
def BitValues.step (p e : Nat) (v : BitValues w) : BitCall w → Out (BitValues w)
  | .create i => if (v i).isNone then .ok (v.put i (some (some mbsEmpty))) else .ub
  | .createSize i n =>
    if (v i).isNone then .ok (v.put i (some (if n = 0 then none else some (mbsCtor e mbsEmpty n)))) else .ub
  | .copyCreate i j junk =>
    if (v i).isNone then (v.get j).bind fun b => (mbsCopy e junk b).bind fun s => .ok (v.put i (some (some s))) else .ub
  | .assign i j junk =>
    (v.get j).bind fun b => v.change i fun s => if i = j then selfAssigned e junk s else s.assign e junk b
  | .resize i n junk => v.change i fun s => .ok (s.resize e junk n)
  | .reserve i n junk => v.change i fun s => s.reserve e junk n
  | .shrink i junk => v.change i fun s => s.shrinkToFit e junk
  | .push i x junk => v.change i fun s => s.pushBack p e junk x
  | .pop i => v.change i fun s => s.popBack
  | .clear i => v.change i fun s => .ok s.clear
  | .write i k x => v.change i fun s => s.write p e k x
  | .writeRef i k j l => (v.get j).bind fun b => v.change i fun s =>
      if k < s.size then (b.read p e l).bind fun x => s.write p e k x else .ub
  | .destroy i => (v.get i).bind fun _ => .ok (v.put i none)

/-- A program on values. -/
def BitValues.run (p e : Nat) : BitValues w → List (BitCall w) → Out (BitValues w)
  | v, [] => .ok v
  | v, c :: cs => (BitValues.step p e v c).bind fun v => BitValues.run p e v cs

/-- What a program sees of container `i`: its size and its blocks. -/
def bitView (x : BitWorld w) : BitValues w := fun i =>
  (x.objs i).map fun o => if o.known then some { blocks := heapCells x.heap o.data, size := o.size } else none

/-- The memory is in order: every container has a live block list of exactly `blocks()` blocks (or no memory and none),
no two containers share one, and every live allocation belongs to a container. -/
structure BitMemoryOk (x : BitWorld w) : Prop where
  owns : ∀ i o, x.objs i = some o →
    (o.data = none ∧ o.nblocks = 0) ∨
      ∃ a cells, o.known = true ∧ o.data = some a ∧ x.heap[a]? = some (some cells) ∧ cells.length = o.nblocks
  separate : ∀ i j oi oj a, i ≠ j → x.objs i = some oi → x.objs j = some oj → oi.data = some a → oj.data ≠ some a
  noLeak : ∀ (a : Nat) (cells : List (BitVec w)), x.heap[a]? = some (some cells) →
    ∃ i o, x.objs i = some o ∧ o.data = some a

/-- The container a call may change. -/
def BitCall.target : BitCall w → Nat
  | .create i | .createSize i _ | .copyCreate i _ _ | .assign i _ _ | .resize i _ _ | .reserve i _ _ | .shrink i _
  | .push i _ _ | .pop i | .clear i | .write i _ _ | .writeRef i _ _ _ | .destroy i => i

/-- The call is one a careful programmer makes: objects are constructed once, with a size that is not 0, and used while
they live; no container ever holds more than 2^24 bits; indices are in range; only containers without spare blocks are
copied by the copy constructor. -/
def LegalBitCall (e : Nat) (v : BitValues w) : BitCall w → Prop
  | .create i => v i = none
  | .createSize i n => v i = none ∧ n ≠ 0 ∧ n * e ≤ 2 ^ 24
  | .copyCreate i j _ => v i = none ∧ ∃ b, v j = some (some b) ∧ (b.size = 0 ∨ b.blocks.length = blocksFor w e b.size)
  | .assign i j _ => ∃ s b, v i = some (some s) ∧ v j = some (some b)
  | .resize i n _ => n * e ≤ 2 ^ 24 ∧ ∃ s, v i = some (some s)
  | .reserve i n _ => n * e ≤ 2 ^ 24 ∧ ∃ s, v i = some (some s)
  | .shrink i _ => ∃ s, v i = some (some s)
  | .push i _ _ => ∃ s, v i = some (some s) ∧ (s.size + 1) * e ≤ 2 ^ 24
  | .pop i => ∃ s, v i = some (some s) ∧ 0 < s.size
  | .clear i => ∃ s, v i = some (some s)
  | .write i k _ => ∃ s, v i = some (some s) ∧ k < s.size
  | .writeRef i k j l => ∃ s b, v i = some (some s) ∧ v j = some (some b) ∧ k < s.size ∧ l < b.size
  | .destroy i => ∃ s, v i = some (some s)

/-- All calls of a program are legal when they happen. -/
def LegalBitProgram (p e : Nat) : BitValues w → List (BitCall w) → Prop
  | _, [] => True
  | v, c :: cs => LegalBitCall e v c ∧ ∀ v', BitValues.step p e v c = .ok v' → LegalBitProgram p e v' cs

end Heu.Spec
