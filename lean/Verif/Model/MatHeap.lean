import Verif.Model.Matrix

/-!
# Several `MatrixDynamicSize` objects on one heap

`HeuristicFlow/src/SimpleMatrix/MatrixDynamicSize.hpp`: who owns which buffer.  `Verif/Model/Matrix.lean` models one
matrix with its buffer inside; here a matrix holds a pointer, the buffers live on a heap shared by all matrices, and
objects are constructed, moved, assigned and destroyed.

A heap is a list of blocks, the address of a block is its position; a released block is `none` and its address is never
used again.  `deallocate` of an address that is not a live block, or with another size than it was allocated with, is
undefined.  Cells are as in `Verif/Model/Matrix.lean`.  The copy constructor is not an operation here: it reads
uninitialised members (`copy_ctor_matrix_undefined`).
-/

namespace Heu

variable {α : Type}

/-- Blocks of cells of type `β`, as handed out by the allocators of `MatrixDynamicSize.hpp` lines 356-359 and
`MultiBitSet.hpp` lines 658-661. -/
abbrev BlockHeap (β : Type) := List (Option (List β))

/-- The memory the allocator of `MatrixDynamicSize.hpp` lines 356-359 hands out. -/
abbrev MatHeap (α : Type) := BlockHeap (Option α)

/-- `MatrixDynamicSize`: the members of lines 350-353; `dataPtr = none` is the null pointer. -/
structure MatObj where
  dataPtr : Option Nat
  rowNum : Nat
  colNum : Nat
  capacity : Nat

/-- `alloc().allocate(n)`, `MatrixDynamicSize.hpp` lines 80 and 262: a fresh block with the given cells. -/
def heapAlloc {β : Type} (cells : List β) (h : BlockHeap β) : Nat × BlockHeap β := (h.length, h ++ [some cells])

/-- `alloc().deallocate(p, n)`, `MatrixDynamicSize.hpp` lines 124, 162 and 259. -/
def heapFree {β : Type} (a n : Nat) (h : BlockHeap β) : Out (BlockHeap β) :=
  match h[a]? with
  | some (some cells) => if cells.length = n then .ok (h.set a none) else .ub
  | _ => .ub

/-- The cells `dataPtr` points to; the null pointer and a released block have none (any access is then out of range,
i.e. undefined).  `MatrixDynamicSize.hpp` line 350. -/
def heapCells {β : Type} (h : BlockHeap β) (p : Option Nat) : List β :=
  match p with
  | none => []
  | some a => (h[a]?.getD none).getD []

/-- Storing the cells back after an assignment to elements (`MatrixDynamicSize.hpp` lines 311-321). -/
def heapStore {β : Type} (h : BlockHeap β) (p : Option Nat) (cells : List β) : BlockHeap β :=
  match p with
  | none => h
  | some a => h.set a (some cells)

/-- All matrices of a program and the heap.  `objs i = none`: the storage of variable `i` holds no object.
(`MatrixDynamicSize.hpp` lines 350-353 and 356-359.) -/
structure MatWorld (α : Type) where
  objs : Nat → Option MatObj
  heap : MatHeap α

/-- One operation of the program on its matrices. -/
inductive MatCall (α : Type) where
  /-- `MatrixDynamicSize m_i;` -/
  | create (i : Nat)
  /-- `MatrixDynamicSize m_i(r, c);` -/
  | createShape (i r c : Nat)
  /-- `MatrixDynamicSize m_i(std::move(m_j));` -/
  | moveCreate (i j : Nat)
  /-- `m_i = std::move(m_j);` -/
  | moveAssign (i j : Nat)
  /-- `m_i = m_j;` (exists for non-trivial element types only) -/
  | copyAssign (i j : Nat)
  /-- `m_i = other;` for a matrix of another kind -/
  | assign (i r c : Nat) (src : Nat → α)
  /-- `m_i.resize(r, c);` -/
  | resize (i r c : Nat)
  /-- `m_i(r, c) = v;` -/
  | write (i r c : Nat) (v : α)
  /-- `m_i.fill(v);` -/
  | fill (i : Nat) (v : α)
  /-- the end of `m_i`'s lifetime -/
  | destroy (i : Nat)

namespace MatWorld

/-- The program before its first matrix (`MatrixDynamicSize.hpp` line 63: nothing is allocated yet). -/
def start : MatWorld α := { objs := fun _ => none, heap := [] }

/-- Replacing object `i` (`MatrixDynamicSize.hpp` lines 350-353). -/
def put (w : MatWorld α) (i : Nat) (o : Option MatObj) : MatWorld α :=
  { w with objs := fun k => if k = i then o else w.objs k }

/-- Releasing the buffer of an object: `MatrixDynamicSize.hpp` lines 117-125 and 155-163.  For a non-trivial element
type all `_capacity` cells are destroyed first. -/
def release (triv : Bool) (o : MatObj) (h : MatHeap α) : Out (MatHeap α) :=
  match o.dataPtr with
  | none => .ok h
  | some a => do
    if triv then pure () else destroyAll triv (heapCells h o.dataPtr)
    heapFree a o.capacity h

/-- `resize(r, c)` on the heap, `MatrixDynamicSize.hpp` lines 250-275 (see `DynMat.resize`). -/
def resizeObj (triv : Bool) (dflt : α) (r c : Nat) (o : MatObj) (h : MatHeap α) : Out (MatObj × MatHeap α) := do
  let n ← intMul r c
  if n ≠ o.rowNum * o.colNum then
    if n > o.capacity then do
      let h ← (match o.dataPtr with
        | none => .ok h
        | some a => heapFree a o.capacity h)
      let (a, h) := heapAlloc (List.replicate n (if triv then some dflt else none)) h
      return ({ dataPtr := some a, rowNum := r, colNum := c, capacity := n }, h)
    else return ({ o with rowNum := r, colNum := c }, h)
  else return ({ o with rowNum := r, colNum := c }, h)

/-- Assigning the elements `f 0, …, f (k - 1)` to the first `k` cells of an object, the loops of lines 94-97, 137-144 and
338-342 of `MatrixDynamicSize.hpp`. -/
def assignCells (triv : Bool) (f : Nat → Out α) (k : Nat) (o : MatObj) (h : MatHeap α) : Out (MatHeap α) := do
  let cells ← DynMat.assignLoop triv f k 0 (heapCells h o.dataPtr)
  return heapStore h o.dataPtr cells

/-- The state at the closing brace of the move assignment, `MatrixDynamicSize.hpp` lines 154-173.  The members are
copied and cleared one after the other, which leaves an empty matrix when an object is moved to itself. -/
def moveAssignEnd (triv : Bool) (i j : Nat) (w : MatWorld α) : Out (MatWorld α) :=
  match w.objs i, w.objs j with
  | some oi, some oj => do
    let h ← release triv oi w.heap
    let moved : MatObj := { dataPtr := oj.dataPtr, rowNum := oj.rowNum, colNum := oj.colNum, capacity := oj.capacity }
    let cleared : MatObj := { dataPtr := none, rowNum := 0, colNum := 0, capacity := 0 }
    return { objs := fun k => if k = j then some cleared else if k = i then some moved else w.objs k, heap := h }
  | _, _ => .ub

/-- One call.  Using storage that holds no object, or constructing an object over another, is undefined.
`MatrixDynamicSize.hpp`: constructors lines 63-110, destructor 116-126, copy assignment 136-146 (does not compile for trivial
element types), move assignment 154-173
(the closing brace is reached without a `return`, which is undefined), assignment from other kinds 175-179, `resize`
250-275, element assignment 311-321, `fill` 338-342. -/
def call (triv : Bool) (dflt : α) (w : MatWorld α) : MatCall α → Out (MatWorld α)
  | .create i =>
    match w.objs i with
    | none => .ok (w.put i (some { dataPtr := none, rowNum := 0, colNum := 0, capacity := 0 }))
    | some _ => .ub
  | .createShape i r c =>
    match w.objs i with
    | none => do
      let n ← intMul r c
      let (a, h) := heapAlloc (List.replicate n (if triv then none else some dflt)) w.heap
      return ({ w with heap := h }).put i (some { dataPtr := some a, rowNum := r, colNum := c, capacity := n })
    | some _ => .ub
  | .moveCreate i j =>
    match w.objs i, w.objs j with
    | none, some oj =>
      .ok ((w.put i (some oj)).put j (some { dataPtr := none, rowNum := 0, colNum := 0, capacity := 0 }))
    | _, _ => .ub
  | .moveAssign i j => (moveAssignEnd triv i j w).bind fun _ => .ub
  | .copyAssign i j =>
    match w.objs i, w.objs j with
    | some oi, some oj => if triv then .ub else do
      let (oi', h) ← resizeObj triv dflt oj.rowNum oj.colNum oi w.heap
      -- the source is read while the target is written; if they are the same object its cells are those of the target
      let srcPtr := if i = j then oi'.dataPtr else oj.dataPtr
      let h ← assignCells triv (fun k => cellGet (heapCells h srcPtr) k) (oi'.rowNum * oi'.colNum) oi' h
      return ({ w with heap := h }).put i (some oi')
    | _, _ => .ub
  | .assign i r c src =>
    match w.objs i with
    | some o => do
      let (o, h) ← resizeObj triv dflt r c o w.heap
      let h ← assignCells triv (fun k => .ok (src k)) (r * c) o h
      return ({ w with heap := h }).put i (some o)
    | none => .ub
  | .resize i r c =>
    match w.objs i with
    | some o => do
      let (o, h) ← resizeObj triv dflt r c o w.heap
      return ({ w with heap := h }).put i (some o)
    | none => .ub
  | .write i r c v =>
    match w.objs i with
    | some o => do
      let cells ← cellSet triv (heapCells w.heap o.dataPtr) (o.rowNum * c + r) v
      return { w with heap := heapStore w.heap o.dataPtr cells }
    | none => .ub
  | .fill i v =>
    match w.objs i with
    | some o => do
      let h ← assignCells triv (fun _ => .ok v) (o.rowNum * o.colNum) o w.heap
      return { w with heap := h }
    | none => .ub
  | .destroy i =>
    match w.objs i with
    | some o => do
      let h ← release triv o w.heap
      return ({ w with heap := h }).put i none
    | none => .ub

/-- A program: calls one after the other (`MatrixDynamicSize.hpp` lines 63-342). -/
def run (triv : Bool) (dflt : α) : MatWorld α → List (MatCall α) → Out (MatWorld α)
  | w, [] => .ok w
  | w, c :: cs => do
    let w ← w.call triv dflt c
    run triv dflt w cs

end MatWorld

end Heu
