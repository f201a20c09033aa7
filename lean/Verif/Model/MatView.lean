import Verif.Model.Matrix

/-!
# Matrix views over shared memory, and the fixed-size matrix

`SimpleMatrix/MatrixMap.hpp` and `SimpleMatrix/MatrixFixedSize.hpp`.  In `Model/Matrix` a map has its own
memory; here several maps look at one memory (a list of cells, the user's array), as they do after a
copy construction, so that overlapping views can be described.
-/

namespace Heu

variable {α : Type}

/-- A `MatrixMap` object, `MatrixMap.hpp` lines 118-120: pointer (`base`: the offset of `p` in the user's
memory), rows and columns. -/
structure View where
  base : Nat
  r : Nat
  c : Nat
  deriving DecidableEq, Repr

namespace View

/-- The constructor, `MatrixMap.hpp` lines 37-41. -/
def mk' (d r c : Nat) : View := ⟨d, r, c⟩

/-- Copy constructor (shallow), `MatrixMap.hpp` lines 47-51. -/
def copy (s : View) : View := ⟨s.base, s.r, s.c⟩

/-- `size()`, `MatrixMap.hpp` line 78. -/
def size (v : View) : Nat := v.r * v.c

/-- `resize(r, c)`, `MatrixMap.hpp` lines 92-95: only the shape changes, the memory is not looked at. -/
def resize (v : View) (r c : Nat) : View := ⟨v.base, r, c⟩

/-- `v[i]` and `v(i)` as a value, `MatrixMap.hpp` lines 103-105. -/
def get (v : View) (mem : List (Option α)) (i : Nat) : Out α := cellGet mem (v.base + i)

/-- `v(i, j)` as a value, `MatrixMap.hpp` line 107. -/
def get2 (v : View) (mem : List (Option α)) (i j : Nat) : Out α := cellGet mem (v.base + (v.r * j + i))

/-- `v[i] = x`, `MatrixMap.hpp` lines 97-99. -/
def set (triv : Bool) (v : View) (mem : List (Option α)) (i : Nat) (x : α) : Out (List (Option α)) :=
  cellSet triv mem (v.base + i) x

/-- `v(i, j) = x`, `MatrixMap.hpp` line 101. -/
def set2 (triv : Bool) (v : View) (mem : List (Option α)) (i j : Nat) (x : α) : Out (List (Option α)) :=
  cellSet triv mem (v.base + (v.r * j + i)) x

/-- The loop of `fill`, `MatrixMap.hpp` lines 109-113, from cell `i` on. -/
def fillLoop (triv : Bool) (v : View) (x : α) : Nat → Nat → List (Option α) → Out (List (Option α))
  | 0, _, mem => .ok mem
  | k + 1, i, mem => do
    let mem ← v.set triv mem i x
    fillLoop triv v x k (i + 1) mem

/-- `fill(x)`, `MatrixMap.hpp` lines 109-113: over `begin()..end()` (lines 84-86). -/
def fill (triv : Bool) (v : View) (mem : List (Option α)) (x : α) : Out (List (Option α)) :=
  fillLoop triv v x v.size 0 mem

/-- The loop of `deepCopyTo`, `MatrixMap.hpp` lines 58-60, from element `i` on: every element is read from
the memory as it is *then*. -/
def copyLoop (triv : Bool) (src dst : View) : Nat → Nat → List (Option α) → Out (List (Option α))
  | 0, _, mem => .ok mem
  | k + 1, i, mem => do
    let x ← src.get mem i
    let mem ← dst.set triv mem i x
    copyLoop triv src dst k (i + 1) mem

/-- `src.deepCopyTo(&dst)` and `dst = src`, `MatrixMap.hpp` lines 55-66: the target takes the source's
shape (nothing is checked) and the elements are copied in increasing order. -/
def deepCopyTo (triv : Bool) (src dst : View) (mem : List (Option α)) : Out (View × List (Option α)) := do
  let mem ← copyLoop triv src dst src.size 0 mem
  .ok (⟨dst.base, src.r, src.c⟩, mem)

end View

namespace FixMat
variable {Rows Cols : Nat}

/-- `m[n] = v`, `MatrixFixedSize.hpp` lines 106-108. -/
def set (triv : Bool) (m : FixMat α Rows Cols) (n : Nat) (v : α) : Out (List (Option α)) :=
  cellSet triv m.arr n v

/-- `m(r, c) = v`, `MatrixFixedSize.hpp` line 110. -/
def set2 (triv : Bool) (m : FixMat α Rows Cols) (r c : Nat) (v : α) : Out (List (Option α)) :=
  cellSet triv m.arr (m.idx r c) v

/-- `fill(src)`, `MatrixFixedSize.hpp` lines 136-140: over `begin()..end()`. -/
def fill (triv : Bool) (m : FixMat α Rows Cols) (v : α) : Out (List (Option α)) :=
  DynMat.assignLoop triv (fun _ => .ok v) (Rows * Cols) 0 m.arr

/-- Copy assignment, `MatrixFixedSize.hpp` lines 122-127. -/
def copyAssign (triv : Bool) (src m : FixMat α Rows Cols) : Out (List (Option α)) :=
  DynMat.assignLoop triv (fun i => src.get i) (Rows * Cols) 0 m.arr

/-- Copy constructor, `MatrixFixedSize.hpp` lines 74-82: for trivial scalars all cells are copied, with
whatever they hold; otherwise the new cells, already default-constructed (`dflt`), are assigned to. -/
def copyCtor (triv : Bool) (dflt : α) (src : FixMat α Rows Cols) : Out (List (Option α)) :=
  if triv then .ok src.arr
  else DynMat.assignLoop triv (fun i => src.get i) (Rows * Cols) 0 (List.replicate (Rows * Cols) (some dflt))

/-- `resize(r, c)`, `MatrixFixedSize.hpp` lines 116-119: asserts. -/
def resize (m : FixMat α Rows Cols) (r c : Nat) : Out (FixMat α Rows Cols) :=
  if r = Rows ∧ c = Cols then .ok m else .ub

end FixMat

end Heu
