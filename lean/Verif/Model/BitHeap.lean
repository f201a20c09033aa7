import Verif.Model.MultiBitSet
import Verif.Model.MatHeap

/-!
# Several `multiBitSet` objects on one heap

`HeuristicFlow/src/SimpleMatrix/MultiBitSet.hpp`: who owns which buffer.  `Verif/Model/MultiBitSet.lean` models one
container with its blocks inside; here a container holds a pointer, the blocks live on a heap shared by all containers,
and containers are constructed, copied, assigned, changed and destroyed.

The heap is that of `Verif/Model/MatHeap.lean`: `deallocate` of an address that is not a live block, or with another size
than it was allocated with, is undefined.

`strict = true` is the letter of the standards: `deallocate(nullptr, 0)`, `memcpy` from the null pointer and `memcpy` of
a range onto itself are undefined.  `strict = false` is what the common implementations do: these calls have no effect.

Not modelled: the move constructor (lines 388-397 do not compile); running out of memory.
-/

namespace Heu

variable {w : Nat}

/-- `multiBitSet`: the members of `MultiBitSet.hpp` lines 590-592.  `nblocks` is `_end - _data`.  `known = false`: the
members have never been given values (constructor with size 0, lines 354-357); then the other fields mean nothing. -/
structure BitObj where
  known : Bool
  data : Option Nat
  nblocks : Nat
  size : Nat

/-- All containers of a program and the heap; `objs i = none`: the storage of variable `i` holds no object.
(`MultiBitSet.hpp` lines 590-592 and 658-661.) -/
structure BitWorld (w : Nat) where
  objs : Nat → Option BitObj
  heap : BlockHeap (BitVec w)

/-- One operation of the program; `junk` is the content of the memory it may allocate. -/
inductive BitCall (w : Nat) where
  /-- `multiBitSet b_i;` -/
  | create (i : Nat)
  /-- `multiBitSet b_i(n);` -/
  | createSize (i n : Nat)
  /-- `multiBitSet b_i(b_j);` -/
  | copyCreate (i j : Nat) (junk : Nat → BitVec w)
  /-- `b_i = b_j;` -/
  | assign (i j : Nat) (junk : Nat → BitVec w)
  /-- `b_i.resize(n);` -/
  | resize (i n : Nat) (junk : Nat → BitVec w)
  /-- `b_i.reserve(n);` -/
  | reserve (i n : Nat) (junk : Nat → BitVec w)
  /-- `b_i.shrink_to_fit();` -/
  | shrink (i : Nat) (junk : Nat → BitVec w)
  /-- `b_i.push_back(v);` -/
  | push (i : Nat) (v : BitVec w) (junk : Nat → BitVec w)
  /-- `b_i.pop_back();` -/
  | pop (i : Nat)
  /-- `b_i.clear();` -/
  | clear (i : Nat)
  /-- `b_i[k] = v;` -/
  | write (i k : Nat) (v : BitVec w)
  /-- `b_i[k] = b_j[l];` -/
  | writeRef (i k j l : Nat)
  /-- the end of `b_i`'s lifetime -/
  | destroy (i : Nat)

/-- `alloc().deallocate(_data, n)` without a check for the null pointer, `MultiBitSet.hpp` lines 471, 494 and 511. -/
def bitFree (strict : Bool) (p : Option Nat) (n : Nat) (h : BlockHeap (BitVec w)) : Out (BlockHeap (BitVec w)) :=
  match p with
  | none => bif strict then .ub else .ok h
  | some a => heapFree a n h

/-- `memcpy(dst, src, nbytes)`, `MultiBitSet.hpp` lines 380, 492, 509 and 569: the new heap. -/
def bitCopy (strict : Bool) (dst src : Option Nat) (nbytes : Nat) (h : BlockHeap (BitVec w)) :
    Out (BlockHeap (BitVec w)) :=
  bif strict && (dst == none || src == none || (dst == src && nbytes != 0)) then .ub
  else do
    let d ← memcpyB (heapCells h dst) (heapCells h src) nbytes
    return heapStore h dst d

namespace BitWorld

/-- The program before its first container (`MultiBitSet.hpp` line 343: nothing is allocated yet). -/
def start : BitWorld w := { objs := fun _ => none, heap := [] }

/-- Replacing object `i` (`MultiBitSet.hpp` lines 590-592). -/
def put (x : BitWorld w) (i : Nat) (o : Option BitObj) : BitWorld w :=
  { x with objs := fun k => if k = i then o else x.objs k }

/-- The object in variable `i`, when its members have values (reading them otherwise is undefined): every member
function of `MultiBitSet.hpp` lines 403-587 starts by reading `_data` or `_size`. -/
def obj (x : BitWorld w) (i : Nat) : Out BitObj :=
  match x.objs i with
  | some o => bif o.known then .ok o else .ub
  | none => .ub

/-- The default constructor's members, `MultiBitSet.hpp` lines 343-347. -/
def emptyObj : BitObj := { known := true, data := none, nblocks := 0, size := 0 }

/-- `capacity()`, `MultiBitSet.hpp` lines 421-424. -/
def capacityObj (w e : Nat) (o : BitObj) : Nat := o.nblocks * w / e

/-- `resize(newSize)`, `MultiBitSet.hpp` lines 459-476. -/
def resizeObj (strict : Bool) (e : Nat) (junk : Nat → BitVec w) (n : Nat) (o : BitObj) (h : BlockHeap (BitVec w)) :
    Out (BitObj × BlockHeap (BitVec w)) :=
  if n ≤ capacityObj w e o then .ok ({ o with size := n }, h)
  else do
    let nb := blocksFor w e n
    let (a, h) := heapAlloc (freshBlocks junk nb) h
    let h ← bitFree strict o.data o.nblocks h
    return ({ o with data := some a, nblocks := nb, size := n }, h)

/-- `reserve(newCap)`, `MultiBitSet.hpp` lines 483-498; line 492 copies `_end - _data` bytes. -/
def reserveObj (strict : Bool) (e : Nat) (junk : Nat → BitVec w) (n : Nat) (o : BitObj) (h : BlockHeap (BitVec w)) :
    Out (BitObj × BlockHeap (BitVec w)) :=
  if n ≤ capacityObj w e o then .ok (o, h)
  else do
    let nb := blocksFor w e n
    let (a, h) := heapAlloc (freshBlocks junk nb) h
    let h ← bitCopy strict (some a) o.data o.nblocks h
    let h ← bitFree strict o.data o.nblocks h
    return ({ o with data := some a, nblocks := nb }, h)

/-- `shrink_to_fit()`, `MultiBitSet.hpp` lines 500-515. -/
def shrinkObj (strict : Bool) (e : Nat) (junk : Nat → BitVec w) (o : BitObj) (h : BlockHeap (BitVec w)) :
    Out (BitObj × BlockHeap (BitVec w)) :=
  let nb := blocksFor w e o.size
  if nb = o.nblocks then .ok (o, h)
  else do
    let (a, h) := heapAlloc (freshBlocks junk nb) h
    let h ← bitCopy strict (some a) o.data (w / 8 * nb) h
    let h ← bitFree strict o.data o.nblocks h
    return ({ o with data := some a, nblocks := nb }, h)

/-- `setValue(k, v)` on the heap, `MultiBitSet.hpp` lines 596-632. -/
def setObj (p e : Nat) (o : BitObj) (k : Nat) (v : BitVec w) (h : BlockHeap (BitVec w)) : Out (BlockHeap (BitVec w)) := do
  let bs ← setValue p e (heapCells h o.data) k v
  return heapStore h o.data bs

/-- Releasing the blocks, destructor lines 403-407 and `clear()` lines 544-547 of `MultiBitSet.hpp` (the null pointer is
checked for). -/
def releaseObj (o : BitObj) (h : BlockHeap (BitVec w)) : Out (BlockHeap (BitVec w)) :=
  match o.data with
  | none => .ok h
  | some a => heapFree a o.nblocks h

/-- One call.  Using storage that holds no object, or constructing an object over another, is undefined.
`MultiBitSet.hpp`: constructors lines 343-382, destructor 403-407, `resize` 459-476, `reserve` 483-498, `shrink_to_fit`
500-515, `push_back` 520-524, `pop_back` 535-538, `clear` 544-552, `operator=` 560-571, element assignment 69, 77-79 and
444-452. -/
def call (strict : Bool) (p e : Nat) (x : BitWorld w) : BitCall w → Out (BitWorld w)
  | .create i =>
    match x.objs i with
    | none => .ok (x.put i (some emptyObj))
    | some _ => .ub
  | .createSize i n =>
    match x.objs i with
    | none =>
      if n = 0 then .ok (x.put i (some { known := false, data := none, nblocks := 0, size := 0 }))
      else
        let nb := blocksFor w e n
        let (a, h) := heapAlloc (List.replicate nb 0#w) x.heap
        .ok (({ x with heap := h }).put i (some { known := true, data := some a, nblocks := nb, size := n }))
    | some _ => .ub
  | .copyCreate i j junk =>
    match x.objs i with
    | none => do
      let b ← x.obj j
      if 0 < b.size then do
        let (o, h) ← resizeObj strict e junk b.size emptyObj x.heap
        let h ← bitCopy strict o.data b.data (b.nblocks * (w / 8)) h
        return ({ x with heap := h }).put i (some o)
      else return x.put i (some emptyObj)
    | some _ => .ub
  | .assign i j junk => do
    let o ← x.obj i
    let b ← x.obj j
    if b.size = 0 then do
      let (o, h) ← resizeObj strict e junk 0 o x.heap
      return ({ x with heap := h }).put i (some o)
    else do
      let (o, h) ← resizeObj strict e junk b.size o x.heap
      -- the source is read after the target has been resized; they may be the same object
      let src := if i = j then o.data else b.data
      let h ← bitCopy strict o.data src (blocksFor w e o.size * (w / 8)) h
      return ({ x with heap := h }).put i (some o)
  | .resize i n junk => do
    let o ← x.obj i
    let (o, h) ← resizeObj strict e junk n o x.heap
    return ({ x with heap := h }).put i (some o)
  | .reserve i n junk => do
    let o ← x.obj i
    let (o, h) ← reserveObj strict e junk n o x.heap
    return ({ x with heap := h }).put i (some o)
  | .shrink i junk => do
    let o ← x.obj i
    let (o, h) ← shrinkObj strict e junk o x.heap
    return ({ x with heap := h }).put i (some o)
  | .push i v junk => do
    let o ← x.obj i
    let (o, h) ← reserveObj strict e junk (o.size + 1) o x.heap
    let h ← setObj p e o o.size v h
    return ({ x with heap := h }).put i (some { o with size := o.size + 1 })
  | .pop i => do
    let o ← x.obj i
    if 0 < o.size then return x.put i (some { o with size := o.size - 1 }) else .ub
  | .clear i => do
    let o ← x.obj i
    let h ← releaseObj o x.heap
    return ({ x with heap := h }).put i (some emptyObj)
  | .write i k v => do
    let o ← x.obj i
    if k < o.size then do
      let h ← setObj p e o k v x.heap
      return { x with heap := h }
    else .ub
  | .writeRef i k j l => do
    let o ← x.obj i
    let b ← x.obj j
    if k < o.size ∧ l < b.size then do
      let v ← getValue p e (heapCells x.heap b.data) l
      let h ← setObj p e o k v x.heap
      return { x with heap := h }
    else .ub
  | .destroy i => do
    let o ← x.obj i
    let h ← releaseObj o x.heap
    return ({ x with heap := h }).put i none

/-- A program: calls one after the other (`MultiBitSet.hpp` lines 343-587). -/
def run (strict : Bool) (p e : Nat) : BitWorld w → List (BitCall w) → Out (BitWorld w)
  | x, [] => .ok x
  | x, c :: cs => do
    let x ← x.call strict p e c
    run strict p e x cs

end BitWorld

end Heu
