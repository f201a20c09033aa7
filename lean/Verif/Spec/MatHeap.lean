import Verif.Model.MatHeap

/-!
# Matrices as independent values, and who owns the memory

The vocabulary of C135.
-/

namespace Heu.Spec

variable {α : Type}

/-- The matrices of a program as values: every live variable has a matrix of its own, which no operation on another
variable can change. -/
abbrev MatValues (α : Type) := Nat → Option (DynMat α)

/-- Changing one variable. -/
def MatValues.put (v : MatValues α) (i : Nat) (m : Option (DynMat α)) : MatValues α := fun k => if k = i then m else v k

/-- What each operation does to the values: it acts on its own matrix with the operation of the single-matrix model; a move
hands the value over and leaves an empty matrix. -/
def MatValues.step (triv : Bool) (dflt : α) (v : MatValues α) : MatCall α → Out (MatValues α)
  | .create i =>
    match v i with
    | none => .ok (v.put i (some DynMat.empty))
    | some _ => .ub
  | .createShape i r c =>
    match v i with
    | none => (DynMat.ctor triv dflt r c).bind fun m => .ok (v.put i (some m))
    | some _ => .ub
  | .moveCreate i j =>
    match v i, v j with
    | none, some m => .ok ((v.put i (some m)).put j (some DynMat.empty))
    | _, _ => .ub
  | .moveAssign _ _ => .ub
  | .copyAssign i j =>
    match v i, v j with
    | some m, some src => if triv then .ub else (DynMat.copyAssign dflt src m).bind fun m => .ok (v.put i (some m))
    | _, _ => .ub
  | .assign i r c src =>
    match v i with
    | some m => (m.assignFrom triv dflt r c fun k => .ok (src k)).bind fun m => .ok (v.put i (some m))
    | none => .ub
  | .resize i r c =>
    match v i with
    | some m => (m.resize triv dflt r c).bind fun m => .ok (v.put i (some m))
    | none => .ub
  | .write i r c x =>
    match v i with
    | some m => (m.set2 triv r c x).bind fun m => .ok (v.put i (some m))
    | none => .ub
  | .fill i x =>
    match v i with
    | some m => (m.fill triv x).bind fun m => .ok (v.put i (some m))
    | none => .ub
  | .destroy i =>
    match v i with
    | some m => (m.destroy triv).bind fun _ => .ok (v.put i none)
    | none => .ub

/-- A program on values. -/
def MatValues.run (triv : Bool) (dflt : α) : MatValues α → List (MatCall α) → Out (MatValues α)
  | v, [] => .ok v
  | v, c :: cs => (MatValues.step triv dflt v c).bind fun v => MatValues.run triv dflt v cs

/-- What a program sees of matrix `i`: its shape, its capacity and the cells of its buffer. -/
def matView (w : MatWorld α) : MatValues α := fun i =>
  (w.objs i).map fun o => { buf := heapCells w.heap o.dataPtr, rowNum := o.rowNum, colNum := o.colNum, capacity := o.capacity }

/-- The memory is in order: every matrix has a live block of exactly `capacity()` cells (or no memory and capacity 0), no
two matrices share one, and every live block belongs to a matrix. -/
structure MemoryOk (w : MatWorld α) : Prop where
  /-- a matrix without memory has capacity 0; one with memory has a live block of its capacity -/
  owns : ∀ i o, w.objs i = some o →
    (o.dataPtr = none ∧ o.capacity = 0) ∨
      ∃ a cells, o.dataPtr = some a ∧ w.heap[a]? = some (some cells) ∧ cells.length = o.capacity
  /-- different matrices, different blocks -/
  separate : ∀ i j oi oj a, i ≠ j → w.objs i = some oi → w.objs j = some oj → oi.dataPtr = some a → oj.dataPtr ≠ some a
  /-- no block without an owner -/
  noLeak : ∀ (a : Nat) (cells : List (Option α)), w.heap[a]? = some (some cells) →
    ∃ i o, w.objs i = some o ∧ o.dataPtr = some a

/-- The matrices a call may change. -/
def Touches : MatCall α → Nat → Prop
  | .create i, k | .createShape i _ _, k | .copyAssign i _, k | .assign i _ _ _, k | .resize i _ _, k | .write i _ _ _, k
  | .fill i _, k | .destroy i, k => k = i
  | .moveCreate i j, k | .moveAssign i j, k => k = i ∨ k = j

/-- The call is one a careful programmer makes: objects are constructed once and used while they live, shapes are
representable, indices are in range, there is no move assignment, and a matrix of non-trivial elements is never grown
beyond its capacity (what the code does then is the subject of C06). -/
def LegalCall (triv : Bool) (v : MatValues α) : MatCall α → Prop
  | .create i => v i = none
  | .createShape i r c => v i = none ∧ r * c < 2 ^ 31
  | .moveCreate i j => v i = none ∧ ∃ m, v j = some m
  | .moveAssign _ _ => False
  | .copyAssign i j => triv = false ∧ ∃ m src, v i = some m ∧ v j = some src ∧ src.rowNum * src.colNum < 2 ^ 31 ∧
      src.rowNum * src.colNum ≤ m.capacity
  | .assign i r c _ => ∃ m, v i = some m ∧ r * c < 2 ^ 31 ∧ (triv = true ∨ r * c ≤ m.capacity)
  | .resize i r c => ∃ m, v i = some m ∧ r * c < 2 ^ 31 ∧ (triv = true ∨ r * c ≤ m.capacity)
  | .write i r c _ => ∃ m, v i = some m ∧ r < m.rowNum ∧ c < m.colNum
  | .fill i _ => ∃ m, v i = some m
  | .destroy i => ∃ m, v i = some m

/-- All calls of a program are legal when they happen. -/
def LegalProgram (triv : Bool) (dflt : α) : MatValues α → List (MatCall α) → Prop
  | _, [] => True
  | v, c :: cs => LegalCall triv v c ∧ ∀ v', MatValues.step triv dflt v c = .ok v' → LegalProgram triv dflt v' cs

end Heu.Spec
