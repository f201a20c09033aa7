import Verif.Spec.NSGA2Fl
import Verif.Spec.Niche
import Verif.Model.NSGA3Fl

/-!
# Specification vocabulary for NSGA-III on IEEE data
-/

namespace Heu.Spec

variable {G : Type} [DecidableEq G] {m : Nat}

/-- Legal random draws: `randIdx(n) < n`, `randD()` is a number between 0 and 1, and `equal_range` visits exactly
the entries it should, in any order. -/
structure LegalDrawFl (F : Fmt) (d : NicheDraw Fl G) : Prop where
  idx : ∀ n, 0 < n → d.rIdx n < n
  unit : ∀ k, (d.draws k).Finite F ∧ 0 ≤ (d.draws k).number F ∧ (d.draws k).number F ≤ 1
  order : ∀ l, (d.order l).Perm l

/-- The niching rule as in `NicheFill`, with distances that are `double`s: candidates are moved into the selected set
one at a time; every candidate moved belongs to a reference point whose niche count is smallest among the
reference points of all candidates left; and if nobody is in that niche yet, no candidate of that niche has a
smaller distance. -/
inductive NicheFillFl (closest : G → Nat) (dist : G → Fl) : Finset G → Finset G → Finset G → Prop
  | done (S C : Finset G) : NicheFillFl closest dist S C S
  | add (S C T : Finset G) (g : G) (hg : g ∈ C)
      (least : ∀ h ∈ C, nicheCount closest S (closest g) ≤ nicheCount closest S (closest h))
      (near : nicheCount closest S (closest g) = 0 →
        ∀ h ∈ C, closest h = closest g → Fl.lt (dist h) (dist g) = false)
      (rest : NicheFillFl closest dist (insert g S) (C.erase g) T) :
      NicheFillFl closest dist S C T

/-- Reference point number `i`, at computed distance `d` from `s`, is one of those with no other at a smaller
computed distance. -/
def IsNearestFl (distance : (Fin m → Fl) → (Fin m → Fl) → Fl) (refs : List (Fin m → Fl)) (s : Fin m → Fl)
    (i : Nat) (d : Fl) : Prop :=
  ∃ w, refs[i]? = some w ∧ d = distance w s ∧ ∀ w' ∈ refs, Fl.lt (distance w' s) d = false

/-- `nf` is the normalised fitness NSGA-III uses for the individuals `S` (those already kept and those of the layer
to be cut): the ideal point is the coefficient-wise minimum over `S` (visited in some order); for every objective
there is an extreme individual of `S` such that nobody in `S` is larger in that objective; `P` has the extreme
individuals' fitness minus the ideal point as columns; the intercepts are the diagonal of `P` if the determinant's
absolute value is at most `tiny` and else those of the plane through the columns; and the fitness minus the ideal
point is divided by the intercepts, everything with one rounding per operation. -/
def NormalisedFl (F : Fmt) (E : Geometry m) (tiny : Fl) (fit : G → Fin m → Fl) (S : Finset G)
    (nf : G → Fin m → Fl) : Prop :=
  ∃ (visit : List G) (ideal : Fin m → Fl) (extreme : Fin m → G) (b : Fin m → Fl) (P : Fin m → Fin m → Fl),
    visit.toFinset = S ∧
    (∀ i, ideal i = (visit.map fun g => fit g i).foldl E.min (.inf false)) ∧
    (∀ c, extreme c ∈ S ∧ ∀ g ∈ S, Fl.lt (fit (extreme c) c) (fit g c) = false) ∧
    (∀ r c, P r c = Fl.sub F (fit (extreme c) r) (ideal r)) ∧
    (Fl.le (E.det P).abs tiny = true → ∀ r, b r = P r r) ∧
    (Fl.le (E.det P).abs tiny = false → b = E.intercepts P) ∧
    ∀ g i, nf g i = (Fl.sub F (fit g i) (ideal i)).div F (b i)

end Heu.Spec
