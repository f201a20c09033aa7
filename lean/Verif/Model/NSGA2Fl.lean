import Verif.Model.NSGA
import Verif.Model.Encode

/-!
# NSGA-II on real `double`s

`Model/Pareto` and `Model/NSGA` read `double` as an ordered field.  Here the same functions are modelled
over IEEE-754 data (`Fl`): NaN, infinities, signed zeros, rounding and overflow included.  `std::sort` with a
comparator that is not a strict weak order on the range is undefined behaviour.
-/

namespace Heu

variable {G : Type} [DecidableEq G] {m : Nat}

/-- `Pareto::isStrongDominate`, `EAGlobal/Pareto.hpp` lines 59-70, on IEEE data. -/
def isStrongDominateFl (o : FitnessOption) (A B : Fin m → Fl) : Bool :=
  let isNotWorse := match o with
    | .greaterBetter => (List.finRange m).all fun i => Fl.le (B i) (A i)
    | .lessBetter => (List.finRange m).all fun i => Fl.le (A i) (B i)
  let isBetter := match o with
    | .greaterBetter => (List.finRange m).any fun i => Fl.lt (B i) (A i)
    | .lessBetter => (List.finRange m).any fun i => Fl.lt (A i) (B i)
  isNotWorse && isBetter

/-- `std::abs(double)` (C++ standard library): clears the sign.  (Called in `Genetic/NSGA2.hpp` lines 231-243.) -/
def Fl.abs : Fl → Fl
  | .nan => .nan
  | .inf _ => .inf false
  | .fin _ n => .fin false n

/-- What `std::sort` demands of its comparator: a strict weak order on the elements of the range
(C++ standard library; not code of the repository).
(C++ standard library; the sorts of `Genetic/NSGA2.hpp` lines 228 and 249.) -/
def StrictWeakOn (lt : G → G → Bool) (l : List G) : Prop :=
  (∀ a ∈ l, lt a a = false) ∧
  (∀ a ∈ l, ∀ b ∈ l, ∀ c ∈ l, lt a b = true → lt b c = true → lt a c = true) ∧
  (∀ a ∈ l, ∀ b ∈ l, ∀ c ∈ l, lt a b = false → lt b c = false → lt a c = false)

instance (lt : G → G → Bool) (l : List G) : Decidable (StrictWeakOn lt l) :=
  inferInstanceAs (Decidable (_ ∧ _ ∧ _))

/-- The comparator as seen by `std::sort` on the range `l`: it is only applied to elements of the range
(elements outside come last).  (C++ standard library; the sorts of `Genetic/NSGA2.hpp` lines 228 and 249.) -/
def onRange (lt : G → G → Bool) (l : List G) (a b : G) : Bool :=
  if a ∈ l then (if b ∈ l then lt a b else true) else false

/-- A call of `std::sort(first, last, comp)` (C++ standard library; called in `Genetic/NSGA2.hpp` lines 228-229
and 249-250): undefined if the comparator is not a strict weak order on the range. -/
def sortRange (sort : Sorter G) (lt : G → G → Bool) (l : List G) : Out (List G) :=
  if StrictWeakOn lt l then .ok (sort.run (onRange lt l) l) else .ub

section
variable (F : Fmt)

/-- Inner loop of the congestion computation, `Genetic/NSGA2.hpp` lines 239-245. -/
def addInteriorFl (fit : G → Fin m → Fl) (obj : Fin m) (scale : Fl) :
    List G → (G → Fl) → (G → Fl)
  | a :: b :: c :: rest, cong =>
    addInteriorFl fit obj scale (b :: c :: rest)
      (Function.update cong b
        ((cong b).add F (((Fl.sub F (fit a obj) (fit c obj)).abs).div F scale)))
  | _, cong => cong

/-- One objective of the congestion computation, `Genetic/NSGA2.hpp` lines 228-245.  `eps` is the `double`
`1e-10`; `pinfD` is positive infinity. -/
def congestionStepFl (sort : Sorter G) (fit : G → Fin m → Fl) (eps : Fl)
    (s : List G × (G → Fl)) (obj : Fin m) : Out (List G × (G → Fl)) := do
  let sp ← sortRange sort (fun a b => Fl.lt (fit a obj) (fit b obj)) s.1
  match sp.head?, sp.getLast? with
  | some fr, some bk =>
    let scale := ((Fl.sub F (fit fr obj) (fit bk obj)).abs).add F eps
    let cong := Function.update (Function.update s.2 fr (.inf false)) bk (.inf false)
    .ok (sp, addInteriorFl F fit obj scale sp cong)
  | _, _ => .ub

/-- All objectives, `Genetic/NSGA2.hpp` lines 227-246; the congestion starts at 0 (line 194). -/
def congestionAllFl (sorts : Fin m → Sorter G) (fit : G → Fin m → Fl) (eps : Fl) (space : List G) :
    Out (List G × (G → Fl)) :=
  (List.finRange m).foldlM (fun s obj => congestionStepFl F (sorts obj) fit eps s obj)
    (space, fun _ => .fin false 0)

/-- `NSGA2::__impl_select`, `Genetic/NSGA2.hpp` lines 181-278, on IEEE data.  (Layers are sorted by integer
counters, lines 136-149 of `NSGABase.hpp`, for which the comparator is always a strict weak order.) -/
def nsga2SelectFl (o : FitnessOption) (K : Nat) (eps : Fl)
    (fit : G → Fin m → Fl)
    (sortD : Sorter G) (sortF : Fin m → Sorter G) (sortC : Sorter G)
    (pop : List G) : Out (SelectResult G) := do
  let num := calculateDominatedNum (fun a b => isStrongDominateFl o (fit a) (fit b)) pop
  let layers := divideLayers sortD num pop
  match layers with
  | [] => .ub
  | front :: _ =>
    let PFSize := front.length
    let (selected, needCongestion, rest) ← takeLayers K ∅ layers
    let sortSpace := sortD.run (fun a b => decide (num a < num b)) pop
    let (selected, sortSpace) ← (if needCongestion then
      match rest with
      | [] => .ub
      | layer :: _ => do
        let (sp, cong) ← congestionAllFl F sortF fit eps sortSpace
        let sorted ← sortRange sortC (fun a b => Fl.lt (cong b) (cong a)) layer
        let sel ← fillFrom K selected sorted
        .ok (sel, sp)
      else .ok (selected, sortSpace))
    let survivors := eraseUnselected selected sortSpace pop
    .ok { population := survivors
          pf := if PFSize ≤ K then front.toFinset else selected }

end

end Heu
