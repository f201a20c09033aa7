import Verif.Model.Box

/-!
# Setting up boxes

`HeuristicFlow/src/EAGlobal/BoxConstraint.hpp` and `SizeBody4BoxConstraint.hpp`: the members of real-coded
square and rectangular boxes of run-time size, their setters, and the operations as they work on the members
(uninitialised, or of the wrong size, if the setters were not called properly).  Arithmetic is exact.
A vector is a matrix with one column; its entries are numbered as in memory.
-/

namespace Heu

/-- `int` results: overflow is undefined (C++ language).
(The product `rows * cols` in `BoxConstraint.hpp` lines 188-224.) -/
def intProduct (r c : Int) : Out Int := (⟨32, true⟩ : IntT).arith (r * c)

/-! ## Square boxes -/

/-- The members of a square `ContinousBox` of run-time size: `_dimensions`
(`SizeBody4BoxConstraint.hpp` line 62) or `_rows`, `_cols` (line 92, and `BoxConstraint.hpp` lines 222-223),
`_minS`, `_maxS` (`BoxConstraint.hpp` lines 122-123) and `_deltaS` (line 526).  No constructor initialises
them: `none` is an indeterminate value. -/
structure SqBoxObj (α : Type) where
  shape : Option (Int × Int)
  mn : Option α
  mx : Option α
  delta : Option α
  deriving DecidableEq

/-- A new object.  (`BoxConstraint.hpp` lines 102-124, 188-224 and 507-550: no member has an initialiser.) -/
def SqBoxObj.new (α : Type) : SqBoxObj α := ⟨none, none, none, none⟩

/-- The calls that change a square box.  `writeMin`, `writeMax` and `writeDelta` are assignments through the
references returned by `min()`, `max()` and `delta()`.  (`BoxConstraint.hpp` lines 102-124, 188-224 and 507-550.) -/
inductive SqBoxCall (α : Type) where
  | setDimensions (r c : Int)
  | setRange (mn mx : α)
  | writeMin (x : α)
  | writeMax (x : α)
  | setDelta (d : α)
  | writeDelta (d : α)

/-- `setDimensions` (`SizeBody4BoxConstraint.hpp` lines 51-54, 78-83; `BoxConstraint.hpp` lines 209-214; for
continuous boxes 560-565 and 588-593), `setRange` (115-119), `setDelta` (519-522) and the references
(106, 110, 513); asserts. -/
def sqBoxCall {α : Type} [Zero α] [LT α] [DecidableLT α] (s : SqBoxObj α) : SqBoxCall α → Out (SqBoxObj α)
  | .setDimensions r c => if 0 < r then (if 0 < c then .ok { s with shape := some (r, c) } else .ub) else .ub
  | .setRange mn mx => if mn < mx then .ok { s with mn := some mn, mx := some mx } else .ub
  | .writeMin x => .ok { s with mn := some x }
  | .writeMax x => .ok { s with mx := some x }
  | .setDelta d => if 0 < d then .ok { s with delta := some d } else .ub
  | .writeDelta d => .ok { s with delta := some d }

/-- A history of calls on a new square box.  (Glue over `BoxConstraint.hpp` lines 102-224 and 507-550.) -/
def sqBoxSession {α : Type} [Zero α] [LT α] [DecidableLT α] (cs : List (SqBoxCall α)) : Out (SqBoxObj α) :=
  cs.foldlM sqBoxCall (SqBoxObj.new α)

/-- Reading a member (an indeterminate value is undefined; C++ language).
(The members are those of `BoxConstraint.hpp` lines 119-122 and 547-548.) -/
def readMember {β : Type} : Option β → Out β
  | none => .ub
  | some x => .ok x

/-- `dimensions()`, `SizeBody4BoxConstraint.hpp` lines 49 and 72, `BoxConstraint.hpp` line 203. -/
def SqBoxObj.dimensions {α : Type} (s : SqBoxObj α) : Out Int := do
  let p ← readMember s.shape
  intProduct p.1 p.2

/-- `BoxBase::initialize` on a square box, `BoxConstraint.hpp` lines 38-51 with `initializeSize`
(`SizeBody4BoxConstraint.hpp` lines 56-59, 85-89): asserts positive sizes, resizes, and draws every entry
(the loop counter is an `int`). -/
def SqBoxObj.initialize {α : Type} [Field α] (s : SqBoxObj α) (u : Nat → α) : Out (List α) := do
  let p ← readMember s.shape
  if 0 < p.1 ∧ 0 < p.2 then
    let n ← intProduct p.1 p.2
    let mn ← readMember s.mn
    let mx ← readMember s.mx
    .ok (initializeReal (squareBox n.toNat mn mx) u)
  else .ub

/-- `BoxBase::applyConstraint` on a square box, `BoxConstraint.hpp` lines 53-59 (for an empty variable no
bound is read). -/
def SqBoxObj.applyConstraint {α : Type} [LT α] [DecidableLT α] (s : SqBoxObj α) (v : List α) :
    Out (List α) := do
  let n ← s.dimensions
  let mn ← readMember s.mn
  let mx ← readMember s.mx
  Heu.applyConstraint (squareBox n.toNat mn mx) v

/-- `ContinousBox::applyDelta` on a square box, `BoxConstraint.hpp` lines 627-635. -/
def SqBoxObj.applyDelta {α : Type} [Field α] [LT α] [DecidableLT α] (s : SqBoxObj α) (v : List α)
    (idx : Nat) (u : α) : Out (List α) := do
  let n ← s.dimensions
  let mn ← readMember s.mn
  let mx ← readMember s.mx
  let d ← readMember s.delta
  applyDeltaCont (squareBox n.toNat mn mx) (fun _ => d) v idx u

/-! ## Rectangular boxes -/

/-- A value of a run-time sized vector or matrix type: its shape and its entries in memory order.
(`Var_t` of a rectangular box, `BoxConstraint.hpp` lines 237-259.) -/
structure Shaped (α : Type) where
  rows : Nat
  cols : Nat
  data : List α
  deriving DecidableEq

/-- `resize` (Eigen): the entries survive exactly if their number stays the same.
(Called in `BoxConstraint.hpp` lines 297-356.) -/
def Shaped.resize {α : Type} (m : Shaped α) (r c : Nat) (junk : Nat → α) : Shaped α :=
  if m.data.length = r * c then ⟨r, c, m.data⟩ else ⟨r, c, (List.range (r * c)).map junk⟩

/-- The members `_minV`, `_maxV` (`BoxConstraint.hpp` lines 256-257) and `_deltaV` (line 548) of a rectangular
`ContinousBox`; default-constructed vectors and matrices are empty. -/
structure RectBoxObj (α : Type) where
  mn : Shaped α
  mx : Shaped α
  delta : Shaped α
  deriving DecidableEq

/-- A new object.  (`BoxConstraint.hpp` lines 237-259 and 507-550: default constructed vectors.) -/
def RectBoxObj.new (α : Type) : RectBoxObj α := ⟨⟨0, 0, []⟩, ⟨0, 0, []⟩, ⟨0, 0, []⟩⟩

/-- The calls that change a rectangular box.  `setDimensions` exists for matrices only (for vectors the
function, lines 312-316, is `const` and does not compile); `j1 j2 j3` are the indeterminate entries after
resizing.  `setDelta` exists for vectors only (its loop `for (… : __delta)` needs a vector); a matrix `delta` is
assigned through the reference. -/
inductive RectBoxCall (α : Type) where
  | setDimensions (r c : Int) (j1 j2 j3 : Nat → α)
  | setRange (mn mx : Shaped α)
  | writeMin (m : Shaped α)
  | writeMax (m : Shaped α)
  | setDelta (d : Shaped α)
  | writeDelta (d : Shaped α)

/-- `NonSquareBoxDynamicDimMat::setDimensions` (`BoxConstraint.hpp` lines 346-352; 588-593 resize `delta` too),
`NonSquareBoxCore::setRange` (249-253), the references (240, 244, 535) and `NonSquareBoxDeltaCore::setDelta`
(541-546). -/
def rectBoxCall {α : Type} [Zero α] [LT α] [DecidableLT α] (s : RectBoxObj α) :
    RectBoxCall α → Out (RectBoxObj α)
  | .setDimensions r c j1 j2 j3 =>
    if 0 < r then
      if 0 < c then
        .ok ⟨s.mn.resize r.toNat c.toNat j1, s.mx.resize r.toNat c.toNat j2,
             s.delta.resize r.toNat c.toNat j3⟩
      else .ub
    else .ub
  | .setRange mn mx => if mn.data.length = mx.data.length then .ok { s with mn := mn, mx := mx } else .ub
  | .writeMin m => .ok { s with mn := m }
  | .writeMax m => .ok { s with mx := m }
  | .setDelta d => if ∀ x ∈ d.data, 0 < x then .ok { s with delta := d } else .ub
  | .writeDelta d => .ok { s with delta := d }

/-- A history of calls on a new rectangular box.  (Glue over `BoxConstraint.hpp` lines 237-356 and 507-550.) -/
def rectBoxSession {α : Type} [Zero α] [LT α] [DecidableLT α] (cs : List (RectBoxCall α)) :
    Out (RectBoxObj α) :=
  cs.foldlM rectBoxCall (RectBoxObj.new α)

/-- `NonSquareBoxDynamicDimMat::dimensions`, `BoxConstraint.hpp` lines 330-334 (and 307-310 for vectors, whose
shape is given by the size). -/
def RectBoxObj.dimensions {α : Type} (s : RectBoxObj α) : Out Nat :=
  if s.mn.data.length = s.mx.data.length then
    (if s.mn.rows = s.mx.rows then .ok s.mn.data.length else .ub)
  else .ub

/-- The box of the operations once the sizes are known (`min(idx)`, `max(idx)`: `BoxConstraint.hpp` lines 242
and 246); `d` stands for entries out of range, which are never read. -/
def RectBoxObj.bounds {α : Type} (s : RectBoxObj α) (d : α) : Box α :=
  ⟨s.mn.data.length, fun i => s.mn.data.getD i d, fun i => s.mx.data.getD i d⟩

/-- `BoxBase::initialize` on a rectangular box, `BoxConstraint.hpp` lines 38-51 with `initializeSize` (354, using
`boxRows` 336-339 and `boxCols` 341-344, which assert equal shapes); the loop then reads `max(idx)` for every
entry of the variable, which has the size of `min`. -/
def RectBoxObj.initialize {α : Type} [Field α] (s : RectBoxObj α) (u : Nat → α) : Out (Shaped α) :=
  if s.mn.rows = s.mx.rows then
    if s.mn.cols = s.mx.cols then
      if s.mn.data.length ≤ s.mx.data.length then
        .ok ⟨s.mn.rows, s.mn.cols, initializeReal (s.bounds 0) u⟩
      else .ub
    else .ub
  else .ub

/-- `BoxBase::applyConstraint` on a rectangular box, `BoxConstraint.hpp` lines 53-59. -/
def RectBoxObj.applyConstraint {α : Type} [Zero α] [LT α] [DecidableLT α] (s : RectBoxObj α) (v : List α) :
    Out (List α) := do
  let _ ← s.dimensions
  Heu.applyConstraint (s.bounds 0) v

/-- `ContinousBox::applyDelta` on a rectangular box, `BoxConstraint.hpp` lines 627-635: reads `delta(idx)`
(line 539). -/
def RectBoxObj.applyDelta {α : Type} [Field α] [LT α] [DecidableLT α] (s : RectBoxObj α) (v : List α)
    (idx : Nat) (u : α) : Out (List α) := do
  let _ ← s.dimensions
  match s.delta.data[idx]? with
  | none => .ub
  | some d => applyDeltaCont (s.bounds 0) (fun _ => d) v idx u

/-- `BoxContinousMat::delta(r, c)`, `BoxConstraint.hpp` lines 580-584: asserts `r` and `c` in range and reads
the entry number `r + c * boxRows()`. -/
def RectBoxObj.deltaAt {α : Type} (s : RectBoxObj α) (r c : Nat) : Out α :=
  if s.mn.rows = s.mx.rows ∧ s.mn.cols = s.mx.cols then
    if r < s.mn.rows ∧ c < s.mn.cols then readMember (s.delta.data[r + c * s.mn.rows]?) else .ub
  else .ub

/-- The entry `(r, c)` of a matrix in memory order: Eigen stores column by column, or row by row for types with
the option `RowMajor`.  (Eigen; `at(v, r, c)` as used by `BoxConstraint.hpp` lines 237-259.) -/
def Shaped.entry {α : Type} (m : Shaped α) (rowMajor : Bool) (r c : Nat) : Option α :=
  if r < m.rows ∧ c < m.cols then
    (if rowMajor then m.data[c + r * m.cols]? else m.data[r + c * m.rows]?)
  else none

/-! ## Gaussian boxes -/

/-- The members of a `GaussianBox` of run-time size: sizes (as in `SqBoxObj`), `_muS`, `_sigmaS`
(`BoxConstraint.hpp` lines 707-708) and `_deltaS` (line 526), none of them initialised. -/
structure GaussBoxObj (α : Type) where
  shape : Option (Int × Int)
  mu : Option α
  sigma : Option α
  delta : Option α
  deriving DecidableEq

/-- A new object.  (`BoxConstraint.hpp` lines 666-754.) -/
def GaussBoxObj.new (α : Type) : GaussBoxObj α := ⟨none, none, none, none⟩

/-- The calls that change a Gaussian box; `writeMu`, `writeSigma` and `writeDelta` assign through the references.
(`BoxConstraint.hpp` lines 666-754.) -/
inductive GaussBoxCall (α : Type) where
  | setDimensions (r c : Int)
  | setMu (x : α)
  | writeMu (x : α)
  | setSigma (x : α)
  | writeSigma (x : α)
  | setDelta (d : α)
  | writeDelta (d : α)

/-- `setDimensions` (`SizeBody4BoxConstraint.hpp` lines 51-54, 78-83), `setMu` and `setSigma`
(`BoxConstraint.hpp` lines 693-702), `setDelta` (519-522), and the references (691, 696, 513). -/
def gaussBoxCall {α : Type} [Zero α] [LT α] [DecidableLT α] (s : GaussBoxObj α) :
    GaussBoxCall α → Out (GaussBoxObj α)
  | .setDimensions r c => if 0 < r then (if 0 < c then .ok { s with shape := some (r, c) } else .ub) else .ub
  | .setMu x => .ok { s with mu := some x }
  | .writeMu x => .ok { s with mu := some x }
  | .setSigma x => if 0 < x then .ok { s with sigma := some x } else .ub
  | .writeSigma x => .ok { s with sigma := some x }
  | .setDelta d => if 0 < d then .ok { s with delta := some d } else .ub
  | .writeDelta d => .ok { s with delta := some d }

/-- A history of calls on a new Gaussian box.  (Glue over `BoxConstraint.hpp` lines 666-754.) -/
def gaussBoxSession {α : Type} [Zero α] [LT α] [DecidableLT α] (cs : List (GaussBoxCall α)) :
    Out (GaussBoxObj α) :=
  cs.foldlM gaussBoxCall (GaussBoxObj.new α)

/-- `normD(mu, sigma)`, `Global/Randoms.hpp` line 155; `z` is the draw of `normD()`. -/
def normDScaled {α : Type} [Add α] [Mul α] (z mu sigma : α) : α := z * sigma + mu

/-- `GaussianBox::initialize`, `BoxConstraint.hpp` lines 733-739. -/
def GaussBoxObj.initialize {α : Type} [Field α] (s : GaussBoxObj α) (z : Nat → α) : Out (List α) := do
  let p ← readMember s.shape
  if 0 < p.1 ∧ 0 < p.2 then
    let n ← intProduct p.1 p.2
    let mu ← readMember s.mu
    let sigma ← readMember s.sigma
    .ok ((List.range n.toNat).map fun i => normDScaled (z i) mu sigma)
  else .ub

/-- `GaussianBox::applyConstraint`, both versions, `BoxConstraint.hpp` lines 741-743: nothing happens. -/
def GaussBoxObj.applyConstraint {α : Type} (_s : GaussBoxObj α) (v : List α) : Out (List α) := .ok v

/-- `GaussianBox::applyDelta`, `BoxConstraint.hpp` lines 745-750. -/
def GaussBoxObj.applyDelta {α : Type} [Field α] (s : GaussBoxObj α) (v : List α) (idx : Nat) (u : α) :
    Out (List α) := do
  let p ← readMember s.shape
  let n ← intProduct p.1 p.2
  let d ← readMember s.delta
  applyDeltaGauss n.toNat d v idx u

end Heu
