import Verif.Model.Basic
import Verif.Model.Maths

/-!
# Model of `SimpleMatrix/MultiBitSet.hpp` (`heu::multiBitSet<eleBits, block_t>`)

Parameters of the model:

* `w` – bits of `block_t` (`blockBits`, line 41);
* `p` – bits of the type in which C++ evaluates shifts of a `block_t`: `p = w` for 32- and 64-bit
  blocks, `p = 32` for 8- and 16-bit blocks (integer promotion to `int`);
* `e` – `eleBits`, `1 ≤ e ≤ w` (lines 29-33).

Simplifications: index arithmetic is on natural numbers (`size_t` does not overflow as long as
`eleBits * size < 2^64`); memory is little-endian (only used by the byte-wise `memcpy` of `reserve`);
freshly allocated memory has arbitrary content given by `junk`.  Shifting by `p` or more bits and
touching a block outside the allocated ones are `ub`.  `assert`s are active: violating one is `ub`.
-/

namespace Heu

variable {w : Nat}

/-- `blockMask`, `SimpleMatrix/MultiBitSet.hpp` line 39: `(block_t(1) << eleBits) - 1` (computed in
`p` bits, converted to `block_t`). -/
def blockMask (w p e : Nat) : BitVec w := ((1#p <<< e) - 1#p).setWidth w

/-- `x << k` for a `block_t` operand, result converted back to `block_t`; a shift count of `p` or more
is undefined.  (`MultiBitSet.hpp` lines 610-628 and 645.) -/
def shlB (p : Nat) (x : BitVec w) (k : Nat) : Out (BitVec w) :=
  if k < p then .ok ((x.setWidth p <<< k).setWidth w) else .ub

/-- `x >> k` for a `block_t` operand.  (`MultiBitSet.hpp` lines 627, 646 and 654.) -/
def shrB (p : Nat) (x : BitVec w) (k : Nat) : Out (BitVec w) :=
  if k < p then .ok ((x.setWidth p >>> k).setWidth w) else .ub

/-- `(x >> k) << k`, the intermediate value staying in the promoted type.  (`MultiBitSet.hpp` line 624.) -/
def shrShlB (p : Nat) (x : BitVec w) (k : Nat) : Out (BitVec w) :=
  if k < p then .ok (((x.setWidth p >>> k) <<< k).setWidth w) else .ub

/-- `(x << k) >> k`, the intermediate value staying in the promoted type.  (`MultiBitSet.hpp` line 625.) -/
def shlShrB (p : Nat) (x : BitVec w) (k : Nat) : Out (BitVec w) :=
  if k < p then .ok (((x.setWidth p <<< k) >>> k).setWidth w) else .ub

/-- Reading `*(_data + i)`: undefined outside the allocated blocks.  (`MultiBitSet.hpp` lines 605-628 and 640-654.) -/
def loadB (bs : List (BitVec w)) (i : Nat) : Out (BitVec w) :=
  match bs[i]? with
  | some b => .ok b
  | none => .ub

/-- Writing `*(_data + i) = b`: undefined outside the allocated blocks.  (`MultiBitSet.hpp` lines 605-628.) -/
def storeB (bs : List (BitVec w)) (i : Nat) (b : BitVec w) : Out (List (BitVec w)) :=
  if i < bs.length then .ok (bs.set i b) else .ub

/-- `setValue(index, value)`, `SimpleMatrix/MultiBitSet.hpp` lines 596-632 (the new memory). -/
def setValue (p e : Nat) (bs : List (BitVec w)) (index : Nat) (value : BitVec w) :
    Out (List (BitVec w)) := do
  let value := value &&& blockMask w p e
  let firstScalarBitIdx := e * index
  let lastScalarBitIdx := (index + 1) * e - 1
  let blockPrev := firstScalarBitIdx / w
  let blockNext := lastScalarBitIdx / w
  if blockPrev = blockNext then
    let endBitIdx := (firstScalarBitIdx / w + 1) * w
    let leftMoveBits := endBitIdx - lastScalarBitIdx - 1
    let m ← shlB p (blockMask w p e) leftMoveBits
    let inverseMask := ~~~ m
    let b ← loadB bs blockPrev
    let bs ← storeB bs blockPrev (b &&& inverseMask)
    let b ← loadB bs blockPrev
    let v ← shlB p value leftMoveBits
    storeB bs blockPrev (b ||| v)
  else
    let midBitIdx := (lastScalarBitIdx / w) * w
    let leftBitNum := midBitIdx - firstScalarBitIdx
    let rightBitNum := lastScalarBitIdx - midBitIdx + 1
    let b ← loadB bs blockPrev
    let b ← shrShlB p b leftBitNum
    let bs ← storeB bs blockPrev b
    let b ← loadB bs blockNext
    let b ← shlShrB p b rightBitNum
    let bs ← storeB bs blockNext b
    let b ← loadB bs blockPrev
    let v ← shrB p value rightBitNum
    let bs ← storeB bs blockPrev (b ||| v)
    let b ← loadB bs blockNext
    let v ← shlB p value (w - rightBitNum)
    storeB bs blockNext (b ||| v)

/-- `getValue(index)`, `SimpleMatrix/MultiBitSet.hpp` lines 634-656. -/
def getValue (p e : Nat) (bs : List (BitVec w)) (index : Nat) : Out (BitVec w) := do
  let firstScalarBitIdx := e * index
  let lastScalarBitIdx := (index + 1) * e - 1
  let blockPrev := firstScalarBitIdx / w
  let blockNext := lastScalarBitIdx / w
  if blockPrev ≠ blockNext then
    let midBitIdx := (lastScalarBitIdx / w) * w
    let a ← loadB bs blockPrev
    let a ← shlB p a (lastScalarBitIdx - midBitIdx + 1)
    let b ← loadB bs blockNext
    let b ← shrB p b (midBitIdx + w - lastScalarBitIdx - 1)
    return (a ||| b) &&& blockMask w p e
  else
    let endBitIdx := (firstScalarBitIdx / w + 1) * w
    let b ← loadB bs blockPrev
    let b ← shrB p b (endBitIdx - lastScalarBitIdx - 1)
    return b &&& blockMask w p e

/-- The object: `_data .. _end` as a list of blocks and `_size`,
`SimpleMatrix/MultiBitSet.hpp` lines 590-592. -/
structure MBS (w : Nat) where
  blocks : List (BitVec w)
  size : Nat
  deriving DecidableEq, Repr

/-- Number of blocks requested for `n` elements:
`size_t(std::ceil(float(n * eleBits) / blockBits))`, lines 360, 465, 488, 501, 567.  The conversion to
`float` rounds to 24 bits; dividing by the power of two `blockBits` is exact. -/
def blocksFor (w e n : Nat) : Nat := (roundF32 (n * e) + (w - 1)) / w

/-- Default constructor, lines 343-347. -/
def mbsEmpty : MBS w := { blocks := [], size := 0 }

/-- Constructor with a size, lines 354-366.  For size 0 the members are left uninitialised: `garbage`
is whatever they then hold. -/
def mbsCtor (e : Nat) (garbage : MBS w) (n : Nat) : MBS w :=
  if n = 0 then garbage
  else { blocks := List.replicate (blocksFor w e n) 0#w, size := n }

/-- `capacity()`, lines 421-424. -/
def MBS.capacity (e : Nat) (s : MBS w) : Nat := s.blocks.length * w / e

/-- Freshly allocated memory of `n` blocks (`alloc().allocate(n)`).
(`MultiBitSet.hpp` lines 361, 467, 490 and 507.) -/
def freshBlocks (junk : Nat → BitVec w) (n : Nat) : List (BitVec w) := (List.range n).map junk

/-- The block whose `nb` low bits are those of `s` and whose other bits are those of `d`.
(Part of `memcpy`, `MultiBitSet.hpp` line 492.) -/
def mixLow (nb : Nat) (s d : BitVec w) : BitVec w :=
  ((d >>> nb) <<< nb) ||| ((s <<< (w - nb)) >>> (w - nb))

/-- `memcpy(dst, src, nbytes)` on little-endian memory: the first `nbytes` bytes of `dst` are replaced;
in block `k`, which starts at byte `k * (w / 8)`, these are the low `8 * (nbytes - k * (w / 8))` bits.
Undefined if either buffer is shorter than `nbytes`.  (`MultiBitSet.hpp` line 492.) -/
def memcpyB (dst src : List (BitVec w)) (nbytes : Nat) : Out (List (BitVec w)) :=
  if nbytes ≤ dst.length * (w / 8) ∧ nbytes ≤ src.length * (w / 8) then
    .ok (dst.mapIdx fun k d => mixLow (min w (8 * (nbytes - k * (w / 8)))) (src.getD k 0) d)
  else .ub

/-- `resize(newSize)`, lines 459-476 (growing throws the contents away). -/
def MBS.resize (e : Nat) (junk : Nat → BitVec w) (newSize : Nat) (s : MBS w) : MBS w :=
  if newSize ≤ s.capacity e then { s with size := newSize }
  else { blocks := freshBlocks junk (blocksFor w e newSize), size := newSize }

/-- `reserve(newCap)`, lines 483-498.  Line 492 copies `_end - _data` *bytes*. -/
def MBS.reserve (e : Nat) (junk : Nat → BitVec w) (newCap : Nat) (s : MBS w) : Out (MBS w) :=
  if newCap ≤ s.capacity e then .ok s
  else do
    let d ← memcpyB (freshBlocks junk (blocksFor w e newCap)) s.blocks s.blocks.length
    return { s with blocks := d }

/-- `shrink_to_fit()`, lines 500-515. -/
def MBS.shrinkToFit (e : Nat) (junk : Nat → BitVec w) (s : MBS w) : Out (MBS w) :=
  let blocksNeed := blocksFor w e s.size
  if blocksNeed = s.blocks.length then .ok s
  else do
    let d ← memcpyB (freshBlocks junk blocksNeed) s.blocks (w / 8 * blocksNeed)
    return { s with blocks := d }

/-- `push_back(val)`, lines 520-524 (`emplace_back`, line 529, is the same). -/
def MBS.pushBack (p e : Nat) (junk : Nat → BitVec w) (v : BitVec w) (s : MBS w) : Out (MBS w) := do
  let s ← s.reserve e junk (s.size + 1)
  let bs ← setValue p e s.blocks s.size v
  return { blocks := bs, size := s.size + 1 }

/-- `pop_back()`, lines 535-538 (asserts `_size > 0`). -/
def MBS.popBack (s : MBS w) : Out (MBS w) :=
  if 0 < s.size then .ok { s with size := s.size - 1 } else .ub

/-- `clear()`, lines 544-552. -/
def MBS.clear (_ : MBS w) : MBS w := { blocks := [], size := 0 }

/-- `b[i] = v`, `operator[]` lines 444-447 (asserts the index) and `reference_t::operator=` line 69. -/
def MBS.write (p e : Nat) (i : Nat) (v : BitVec w) (s : MBS w) : Out (MBS w) :=
  if i < s.size then do
    let bs ← setValue p e s.blocks i v
    return { s with blocks := bs }
  else .ub

/-- Reading `b[i]`, `operator[]` lines 444-452 and the conversion of `reference_t`, line 60. -/
def MBS.read (p e : Nat) (s : MBS w) (i : Nat) : Out (BitVec w) :=
  if i < s.size then getValue p e s.blocks i else .ub

/-- `b[i] = b[j]` through references, lines 77-79 (reads, then writes). -/
def MBS.assignRef (p e : Nat) (i j : Nat) (s : MBS w) : Out (MBS w) := do
  let v ← s.read p e j
  s.write p e i v

/-- `front()`, lines 573-575 (no check: reads block 0). -/
def MBS.front (p e : Nat) (s : MBS w) : Out (BitVec w) := getValue p e s.blocks 0

/-- `back()`, lines 577-579 (`size() - 1` wraps when empty: that read is undefined). -/
def MBS.back (p e : Nat) (s : MBS w) : Out (BitVec w) :=
  if s.size = 0 then .ub else getValue p e s.blocks (s.size - 1)

/-- Copy constructor, lines 373-382: `resize(b.size())` on an empty object, then all blocks of `b` are
copied. -/
def mbsCopy (e : Nat) (junk : Nat → BitVec w) (b : MBS w) : Out (MBS w) :=
  if 0 < b.size then do
    let s := (mbsEmpty : MBS w).resize e junk b.size
    let d ← memcpyB s.blocks b.blocks (b.blocks.length * (w / 8))
    return { s with blocks := d }
  else .ok mbsEmpty

/-- `operator=`, lines 560-571. -/
def MBS.assign (e : Nat) (junk : Nat → BitVec w) (s b : MBS w) : Out (MBS w) :=
  if b.size = 0 then .ok (s.resize e junk 0)
  else do
    let s := s.resize e junk b.size
    let blocksNeed := blocksFor w e s.size
    let d ← memcpyB s.blocks b.blocks (blocksNeed * (w / 8))
    return { s with blocks := d }

/-- `for (auto it = b.begin(); it != b.end(); ++it) out.push_back(*it)`: `begin`, `end` (lines 581-587),
`operator!=` (255-258, comparing source and index), `operator++` (143-146) and `operator*` (227, 301).
`n` bounds the number of steps; `i` is the index held by the iterator. -/
def MBS.iterate (p e : Nat) (s : MBS w) : Nat → Nat → Out (List (BitVec w))
  | 0, i => if i = s.size then .ok [] else .timeout
  | n + 1, i =>
    if i = s.size then .ok []
    else do
      let v ← getValue p e s.blocks i
      let vs ← s.iterate p e n (i + 1)
      return v :: vs

end Heu
