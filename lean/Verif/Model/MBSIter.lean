import Verif.Model.MultiBitSet

/-!
# Model of the references and iterators of `SimpleMatrix/MultiBitSet.hpp` (lines 53-334, 573-587)

Several containers live at once: `σ c` is the container at address `c`.  A reference is a container
address (`none` = null pointer) and a `size_t` index; an iterator is a reference that can be moved.
`size_t` arithmetic wraps modulo `2^64`.  Not modelled: `begin() const` / `end() const` (lines 583, 587)
pass a `const multiBitSet*` where a `multiBitSet*` is wanted and do not compile when used.
-/

namespace Heu

variable {w : Nat}

/-- `reference_t`, `SimpleMatrix/MultiBitSet.hpp` lines 53-132 (members 130-131); `iterator_t` and
`constIterator_t` hold exactly one (lines 221, 286). -/
structure MRef where
  source : Option Nat
  index : BitVec 64
  deriving DecidableEq, Repr

/-- `begin()`, line 581: `iterator_t(this, 0)`. -/
def itBegin (c : Nat) : MRef := { source := some c, index := 0#64 }

/-- `end()`, line 585: `iterator_t(this, size())`. -/
def itEnd (σ : Nat → MBS w) (c : Nat) : MRef :=
  { source := some c, index := BitVec.ofNat 64 (σ c).size }

/-- `operator++()`, lines 143-146. -/
def itInc (r : MRef) : MRef := { r with index := r.index + 1#64 }

/-- `operator--()`, lines 166-169. -/
def itDec (r : MRef) : MRef := { r with index := r.index - 1#64 }

/-- `operator++(int)`, lines 154-158: the iterator afterwards and the returned copy. -/
def itIncPost (r : MRef) : MRef × MRef := ({ r with index := r.index + 1#64 }, r)

/-- `operator--(int)`, lines 177-181. -/
def itDecPost (r : MRef) : MRef × MRef := ({ r with index := r.index - 1#64 }, r)

/-- `operator+(int64_t)`, lines 183-186: the signed operand is converted to `size_t`. -/
def itPlus (r : MRef) (k : Int) : MRef := { r with index := r.index + BitVec.ofInt 64 k }

/-- `operator-(int64_t)`, lines 188-191. -/
def itMinus (r : MRef) (k : Int) : MRef := { r with index := r.index - BitVec.ofInt 64 k }

/-- `operator[](int64_t)`, line 193 (an iterator, not an element). -/
def itAt (r : MRef) (k : Int) : MRef := itPlus r k

/-- `index()`, line 195. -/
def itIndex (r : MRef) : Nat := r.index.toNat

/-- `isNull()` of a reference or iterator, lines 87-89 and 197. -/
def itIsNull (σ : Nat → MBS w) (r : MRef) : Bool :=
  match r.source with
  | none => true
  | some c => decide (r.index.toNat ≥ (σ c).size)

/-- `operator==`, lines 242-245, 309-312 through `isSame`, lines 200-203. -/
def itEq (a b : MRef) : Bool := decide (a.source = b.source) && decide (a.index = b.index)

/-- Reading through a reference or `*it`, lines 60, 229-236, 301: `source->getValue(index)`, without any
check. -/
def itRead (p e : Nat) (σ : Nat → MBS w) (r : MRef) : Out (BitVec w) :=
  match r.source with
  | none => .ub
  | some c => getValue p e (σ c).blocks r.index.toNat

/-- Assigning a value through a reference or `*it = v`, line 69: `source->setValue(index, v)`. -/
def itWrite (p e : Nat) (σ : Nat → MBS w) (r : MRef) (v : BitVec w) : Out (Nat → MBS w) :=
  match r.source with
  | none => .ub
  | some c => do
    let bs ← setValue p e (σ c).blocks r.index.toNat v
    return fun c' => if c' = c then { σ c with blocks := bs } else σ c'

/-- `*a = *b`, lines 77-79. -/
def itAssign (p e : Nat) (σ : Nat → MBS w) (a b : MRef) : Out (Nat → MBS w) := do
  let v ← itRead p e σ b
  itWrite p e σ a v

/-- `at(i)` / `operator[]`, lines 440, 444-447 (asserts the index): a reference. -/
def mbsAt (σ : Nat → MBS w) (c i : Nat) : Out MRef :=
  if i < (σ c).size then .ok { source := some c, index := BitVec.ofNat 64 i } else .ub

/-- `front()`, line 573. -/
def refFront (c : Nat) : MRef := { source := some c, index := 0#64 }

/-- `back()`, line 577: `size() - 1` wraps when the container is empty. -/
def refBack (σ : Nat → MBS w) (c : Nat) : MRef :=
  { source := some c, index := BitVec.ofNat 64 (σ c).size - 1#64 }

/-- A user's loop `for (auto it = b.begin(); it != b.end(); ++it) *it = v;`, `n` bounding the steps
(lines 581-585, 252-255, 143-146, 69). -/
def fillLoop (p e : Nat) (c : Nat) (v : BitVec w) : Nat → (Nat → MBS w) → MRef → Out (Nat → MBS w)
  | 0, σ, it => if itEq it (itEnd σ c) then .ok σ else .timeout
  | n + 1, σ, it =>
    if itEq it (itEnd σ c) then .ok σ
    else do
      let σ ← itWrite p e σ it v
      fillLoop p e c v n σ (itInc it)

/-- A user's loop from the back: `for (auto it = b.end(); it != b.begin();) { --it; out.push_back(*it); }`
(lines 581-585, 252-255, 166-169, 60). -/
def backLoop (p e : Nat) (σ : Nat → MBS w) (c : Nat) : Nat → MRef → Out (List (BitVec w))
  | 0, it => if itEq it (itBegin c) then .ok [] else .timeout
  | n + 1, it =>
    if itEq it (itBegin c) then .ok []
    else do
      let it := itDec it
      let v ← itRead p e σ it
      let vs ← backLoop p e σ c n it
      return v :: vs

/-- A user's loop copying one container over another of the same size:
`for (auto a = x.begin(), b = y.begin(); a != x.end(); ++a, ++b) *a = *b;`.
(User code over the iterators of `MultiBitSet.hpp` lines 134-340.) -/
def copyLoop (p e : Nat) (c : Nat) : Nat → (Nat → MBS w) → MRef → MRef → Out (Nat → MBS w)
  | 0, σ, a, _ => if itEq a (itEnd σ c) then .ok σ else .timeout
  | n + 1, σ, a, b =>
    if itEq a (itEnd σ c) then .ok σ
    else do
      let σ ← itAssign p e σ a b
      copyLoop p e c n σ (itInc a) (itInc b)

end Heu
