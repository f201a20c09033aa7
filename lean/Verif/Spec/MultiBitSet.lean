/-!
# Specification for packed elements

`n`-bit elements packed one after another, most significant bit first, into blocks of `w` bits.
-/

namespace Heu

/-- Bit number `k` of the packed bit string: bit `k % w`, counted from the most significant one, of
block `k / w`. -/
def packedBit {w : Nat} (bs : List (BitVec w)) (k : Nat) : Bool :=
  (bs.getD (k / w) 0).getMsbD (k % w)

/-! ## The sequence a `multiBitSet` stands for -/

/-- Operations a user performs on a set of `e`-bit values. -/
inductive SeqOp where
  | write (i v : Nat)
  | push (v : Nat)
  | pop
  | clear
  | reserve (n : Nat)
  | shrink
  | truncate (n : Nat)

/-- What each operation means for an ordinary list of `e`-bit values; `none` if its precondition
fails.  (`truncate n` is `resize n` to at most the current size.) -/
def SeqOp.apply (e : Nat) (l : List Nat) : SeqOp → Option (List Nat)
  | .write i v => if i < l.length then some (l.set i (v % 2 ^ e)) else none
  | .push v => some (l ++ [v % 2 ^ e])
  | .pop => if l = [] then none else some l.dropLast
  | .clear => some []
  | .reserve _ => some l
  | .shrink => some l
  | .truncate n => if n ≤ l.length then some (l.take n) else none

end Heu
