import Verif.Model.Basic

/-!
# Model of `SimpleMatrix/MatrixDynamicSize.hpp`, `MatrixFixedSize.hpp`, `MatrixMap.hpp`, `MatrixBase.hpp`

A buffer is a list of cells; a cell is `none` while no object has been constructed in it (raw storage)
and `some v` when it holds an object.  `triv` says whether `Scalar_t` is trivial (`double`, `int`, …):
for a trivial type raw storage may be assigned to and destroyed freely; for a non-trivial type
(`std::vector`, `std::list`, …) assigning to or destroying a raw cell is undefined.  Reading a raw cell
gives an indeterminate value: for simplicity the model makes it `ub`.

Dimensions are non-negative `int`s; a product that does not fit `int` is `ub`.
-/

namespace Heu

variable {α : Type}

/-- `int` multiplication of non-negative values; overflow is undefined.
(C++ language; `r * c` in `MatrixDynamicSize.hpp` lines 79, 221 and 250-270.) -/
def intMul (a b : Nat) : Out Nat := if a * b < 2 ^ 31 then .ok (a * b) else .ub

/-- Reading cell `i` of a buffer.
(`MatrixDynamicSize.hpp` lines 296-306, `MatrixFixedSize.hpp` lines 94-104, `MatrixMap.hpp` lines 103-107.) -/
def cellGet (buf : List (Option α)) (i : Nat) : Out α :=
  match buf[i]? with
  | some (some v) => .ok v
  | _ => .ub

/-- Assigning to cell `i` of a buffer.
(`MatrixDynamicSize.hpp` lines 311-321, `MatrixFixedSize.hpp` lines 106-110, `MatrixMap.hpp` lines 97-101.) -/
def cellSet (triv : Bool) (buf : List (Option α)) (i : Nat) (v : α) : Out (List (Option α)) :=
  match buf[i]? with
  | some c => if triv || c.isSome then .ok (buf.set i (some v)) else .ub
  | none => .ub

/-- Destroying all cells of a buffer (`(dataPtr+i)->~Scalar_t()` for each).
(`MatrixDynamicSize.hpp` lines 119-121, 157-159 and 255-258.) -/
def destroyAll (triv : Bool) (buf : List (Option α)) : Out Unit :=
  if triv || buf.all (·.isSome) then .ok () else .ub

/-- `MatrixDynamicSize`: members lines 350-353.  `buf` is the memory `dataPtr` points to. -/
structure DynMat (α : Type) where
  buf : List (Option α)
  rowNum : Nat
  colNum : Nat
  capacity : Nat

namespace DynMat

/-- Default constructor, `MatrixDynamicSize.hpp` lines 63-68. -/
def empty : DynMat α := { buf := [], rowNum := 0, colNum := 0, capacity := 0 }

/-- Constructor with a shape, lines 76-86: cells are default-constructed (value `dflt`) only if the type
is not trivial; otherwise they are raw. -/
def ctor (triv : Bool) (dflt : α) (r c : Nat) : Out (DynMat α) := do
  let n ← intMul r c
  return { buf := List.replicate n (if triv then none else some dflt), rowNum := r, colNum := c,
           capacity := n }

/-- `size()`, line 221. -/
def size (m : DynMat α) : Nat := m.rowNum * m.colNum

/-- `resize(r, c)`, lines 250-275.  The guards of lines 254 and 265 are inverted: cells are destroyed and
value-initialised exactly for *trivial* types. -/
def resize (triv : Bool) (dflt : α) (r c : Nat) (m : DynMat α) : Out (DynMat α) := do
  let n ← intMul r c
  if n ≠ m.size then
    if n > m.capacity then
      -- line 254-258: only for trivially destructible types, a no-op
      let buf : List (Option α) := List.replicate n none
      let buf := if triv then buf.map (fun _ => some dflt) else buf
      return { buf := buf, rowNum := r, colNum := c, capacity := n }
    else
      return { m with rowNum := r, colNum := c }
  else
    return { m with rowNum := r, colNum := c }

/-- `reserve(s)`, lines 230-242: returns if `_capacity <= s`, otherwise allocates `s` cells and copies
`_capacity` cells into them. -/
def reserve (s : Nat) (m : DynMat α) : Out (DynMat α) :=
  if m.capacity ≤ s then .ok m
  else
    -- memcpy of `_capacity` cells: both buffers must hold that many
    if m.capacity ≤ s ∧ m.capacity ≤ m.buf.length then
      .ok { m with buf := m.buf.take m.capacity ++ List.replicate (s - m.capacity) none, capacity := s }
    else .ub

/-- Index of element `(r, c)`, lines 306 and 321. -/
def idx (m : DynMat α) (r c : Nat) : Nat := m.rowNum * c + r

/-- `m[n]`, `m(n)` as a value, lines 296-301. -/
def get (m : DynMat α) (n : Nat) : Out α := cellGet m.buf n

/-- `m(r, c)` as a value, line 306. -/
def get2 (m : DynMat α) (r c : Nat) : Out α := cellGet m.buf (m.idx r c)

/-- `m[n] = v`, `m(n) = v`, lines 311-316. -/
def set (triv : Bool) (n : Nat) (v : α) (m : DynMat α) : Out (DynMat α) := do
  let b ← cellSet triv m.buf n v
  return { m with buf := b }

/-- `m(r, c) = v`, line 321. -/
def set2 (triv : Bool) (r c : Nat) (v : α) (m : DynMat α) : Out (DynMat α) :=
  m.set triv (m.idx r c) v

/-- Assigning `f i` to cells `i, i+1, …, i+k-1`, the loops of `fill` (lines 338-342) and of the
copies. -/
def assignLoop (triv : Bool) (f : Nat → Out α) : Nat → Nat → List (Option α) → Out (List (Option α))
  | 0, _, buf => .ok buf
  | k + 1, i, buf => do
    let v ← f i
    let buf ← cellSet triv buf i v
    assignLoop triv f k (i + 1) buf

/-- `fill(src)`, lines 338-342: over `begin()..end()` (lines 197-203), i.e. `size()` cells. -/
def fill (triv : Bool) (v : α) (m : DynMat α) : Out (DynMat α) := do
  let b ← assignLoop triv (fun _ => .ok v) m.size 0 m.buf
  return { m with buf := b }

/-- Copy constructor, lines 93-98: the members are not initialised before `resize`; `garbage` is what
they hold. -/
def copyCtor (triv : Bool) (dflt : α) (garbage src : DynMat α) : Out (DynMat α) := do
  let m ← resize triv dflt src.rowNum src.colNum garbage
  let b ← assignLoop triv (fun i => src.get i) m.size 0 m.buf
  return { m with buf := b }

/-- Move constructor, lines 100-110: the new object and what is left in the source. -/
def moveCtor (src : DynMat α) : DynMat α × DynMat α :=
  ({ buf := src.buf, rowNum := src.rowNum, colNum := src.colNum, capacity := src.capacity },
   { buf := [], rowNum := 0, colNum := 0, capacity := 0 })

/-- Destructor, lines 116-126: for non-trivial types every cell is destroyed. -/
def destroy (triv : Bool) (m : DynMat α) : Out Unit :=
  if triv then .ok () else destroyAll triv m.buf

/-- Copy assignment for non-trivial types, lines 136-146 (for trivial types line 142 does not
compile). -/
def copyAssign (dflt : α) (src : DynMat α) (m : DynMat α) : Out (DynMat α) := do
  let m ← m.resize false dflt src.rowNum src.colNum
  let b ← assignLoop false (fun i => src.get i) m.size 0 m.buf
  return { m with buf := b }

end DynMat

/-- `MatrixFixedSize<Scalar, Rows, Cols>`: `std::array` of `Rows*Cols` objects, `MatrixFixedSize.hpp`
line 147. -/
structure FixMat (α : Type) (Rows Cols : Nat) where
  arr : List (Option α)
  len : arr.length = Rows * Cols

namespace FixMat
variable {Rows Cols : Nat}

/-- Index of `(r, c)`, `MatrixFixedSize.hpp` lines 102-110. -/
def idx (_ : FixMat α Rows Cols) (r c : Nat) : Nat := Rows * c + r

/-- `m(r, c)`, lines 102-104. -/
def get2 (m : FixMat α Rows Cols) (r c : Nat) : Out α := cellGet m.arr (m.idx r c)

/-- `m[n]`, lines 98-100. -/
def get (m : FixMat α Rows Cols) (n : Nat) : Out α := cellGet m.arr n

end FixMat

/-- `MatrixMap<Scalar>`: a pointer with a shape, `MatrixMap.hpp` lines 118-120; `mem` is the memory from
`p` on. -/
structure MatMap (α : Type) where
  mem : List (Option α)
  r : Nat
  c : Nat

namespace MatMap

/-- Index of `(_r, _c)`, `MatrixMap.hpp` lines 101 and 107. -/
def idx (m : MatMap α) (i j : Nat) : Nat := m.r * j + i

/-- `size()`, line 78. -/
def size (m : MatMap α) : Nat := m.r * m.c

/-- `m(_r, _c)`, line 107. -/
def get2 (m : MatMap α) (i j : Nat) : Out α := cellGet m.mem (m.idx i j)

/-- `m[i]`, lines 103-105. -/
def get (m : MatMap α) (n : Nat) : Out α := cellGet m.mem n

/-- `src.deepCopyTo(dst)` and `dst = src`, lines 55-66: shape and elements are copied into the memory
`dst` points to. -/
def deepCopyTo (triv : Bool) (src dst : MatMap α) : Out (MatMap α) := do
  let b ← DynMat.assignLoop triv (fun i => src.get i) src.size 0 dst.mem
  return { mem := b, r := src.r, c := src.c }

end MatMap

/-- `MatrixBase::operator=` with a dynamic target and a source of shape `r × c` whose elements are read
through `src`, `MatrixBase.hpp` lines 31-60 (the `memcpy` of trivial types copies the same cells as the
loop). -/
def DynMat.assignFrom (triv : Bool) (dflt : α) (r c : Nat) (src : Nat → Out α) (m : DynMat α) :
    Out (DynMat α) := do
  let m ← m.resize triv dflt r c
  let b ← DynMat.assignLoop triv src (r * c) 0 m.buf
  return { m with buf := b }

/-- `MatrixBase::operator=` with a fixed target, `MatrixBase.hpp` lines 36-43 and 49-56: the shape is
asserted. -/
def FixMat.assignFrom {Rows Cols : Nat} (triv : Bool) (r c : Nat) (src : Nat → Out α)
    (m : FixMat α Rows Cols) : Out (List (Option α)) :=
  if r = Rows ∧ c = Cols then DynMat.assignLoop triv src (r * c) 0 m.arr else .ub

end Heu
