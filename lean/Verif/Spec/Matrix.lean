/-!
# Specification for matrices
-/

namespace Heu

/-- `addr` names the cells `0 .. rows*cols-1` of a `rows × cols` matrix one-to-one. -/
structure NamesCells (rows cols : Nat) (addr : Nat → Nat → Nat) : Prop where
  inside : ∀ r c, r < rows → c < cols → addr r c < rows * cols
  different : ∀ r c r' c', r < rows → c < cols → r' < rows → c' < cols →
    addr r c = addr r' c' → r = r' ∧ c = c'
  every : ∀ n, n < rows * cols → ∃ r c, r < rows ∧ c < cols ∧ addr r c = n

end Heu

namespace Heu.Spec

/-- In the memory every cell holds an object. -/
def AllLive {α : Type} (mem : List (Option α)) : Prop := ∀ c ∈ mem, c.isSome

/-- Which source element ends up as element `k` of the target: element `k` itself, except when the target
begins inside the source, `d > 0` cells after it; then `k` modulo `d`. -/
def copiedFrom (src dst : Nat) (k : Nat) : Nat := if src < dst then k % (dst - src) else k

end Heu.Spec
