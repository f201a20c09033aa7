import Verif.Spec.RefPoints
import Mathlib.Data.Finset.Card
import Mathlib.LinearAlgebra.Matrix.Determinant.Basic
import Mathlib.Algebra.Order.Group.Unbundled.Abs
import Mathlib.Order.Defs.LinearOrder

/-!
# Specification of niche preservation (independent of the model)
-/

namespace Heu.Spec

variable {α G : Type} [DecidableEq G] [LinearOrder α]

/-- How many members of `S` are associated with reference point `i`. -/
def nicheCount (closest : G → Nat) (S : Finset G) (i : Nat) : Nat :=
  (S.filter fun g => closest g = i).card

/-- `NicheFill closest dist S C F`: starting with the selected set `S` and the candidates `C`, the set `F`
arises by moving candidates into the selected set one at a time.  Every candidate that is moved belongs to
a reference point whose niche count (with respect to the set selected so far) is smallest among the
reference points of all candidates that are left; and if nobody is in that niche yet, it is one of those
with the smallest distance in the niche. -/
inductive NicheFill (closest : G → Nat) (dist : G → α) : Finset G → Finset G → Finset G → Prop
  | done (S C : Finset G) : NicheFill closest dist S C S
  | add (S C F : Finset G) (g : G) (hg : g ∈ C)
      (least : ∀ h ∈ C, nicheCount closest S (closest g) ≤ nicheCount closest S (closest h))
      (near : nicheCount closest S (closest g) = 0 →
        ∀ h ∈ C, closest h = closest g → dist g ≤ dist h)
      (rest : NicheFill closest dist (insert g S) (C.erase g) F) :
      NicheFill closest dist S C F

/-- `nf` is the normalisation of the fitness vectors of `S`: the ideal point (the smallest value of every
objective) is moved to the origin and every objective is divided by its intercept.  The columns of `P` are
the translated extreme points, one candidate per objective that is largest in it; the intercepts are those
of the plane through the extreme points, or the diagonal of `P` if `P` counts as singular. -/
def IsNormalisation {m : Nat} [Field α] (tiny : α) (fit : G → Fin m → α) (S : Finset G)
    (nf : G → Fin m → α) : Prop :=
  ∃ (ideal intercept : Fin m → α) (extreme : Fin m → G) (P : Matrix (Fin m) (Fin m) α),
    (∀ i, (∀ g ∈ S, ideal i ≤ fit g i) ∧ ∃ g ∈ S, fit g i = ideal i) ∧
    (∀ c, extreme c ∈ S ∧ ∀ g ∈ S, fit g c ≤ fit (extreme c) c) ∧
    (∀ r c, P r c = fit (extreme c) r - ideal r) ∧
    (|P.det| ≤ tiny → ∀ r, intercept r = P r r) ∧
    (tiny < |P.det| → ∀ c, ∑ r, P r c * (intercept r)⁻¹ = 1) ∧
    ∀ g i, nf g i = (fit g i - ideal i) / intercept i

/-- Reference point number `i` with squared distance `d` is the one whose line through the origin is
nearest to `s`. -/
def IsNearestLine {m : Nat} [Field α] (refs : List (Fin m → α)) (s : Fin m → α) (i : Nat) (d : α) : Prop :=
  ∃ w, refs[i]? = some w ∧ (∃ t, d = sqDist (fun j => t * w j) s) ∧
    ∀ w' ∈ refs, ∀ t, d ≤ sqDist (fun j => t * w' j) s

end Heu.Spec
