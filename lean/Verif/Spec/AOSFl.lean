import Verif.Model.AOSFl
import Verif.Spec.AOS
import Verif.Spec.SOFl

/-!
# Specification vocabulary for atomic orbital search on IEEE doubles
-/

namespace Heu.Spec

variable {F : Fmt}

/-- State after the `i`-th (counted from 0) evaluation of all electrons when the run is not stopped
before: between two evaluations, the electrons are selected and put into layers, and get children. -/
def aosEvalFl (impl : AOSImpl) (opt : FitnessOption) (o : AOSOption) (b : Box (Dbl F)) (f : List (Dbl F) → Dbl F)
    (env : Nat → AOSEnvFl F) (s : AOSState (Dbl F)) : Nat → Out (AOSState (Dbl F))
  | 0 => aosEvaluate opt f s
  | i + 1 => aosEvalFl impl opt o b f env s i >>= fun t =>
      selectAndMakeLayersFl opt o (env i).sort (env i).layerNum (env i).gauss (env i).total t >>= fun u =>
        aosChildren impl opt b (env i).toAOSEnv u >>= aosEvaluate opt f

/-- The extended rational an electron's energy denotes (NaN: see `NumericEnergies`). -/
def energyValue (g : Gene (List (Dbl F)) (Dbl F)) : WithBot (WithTop ℚ) := extended F g.fitness.val

/-- No electron has energy NaN (infinite energies are allowed). -/
def NumericEnergies (pop : Pop (Gene (List (Dbl F)) (Dbl F))) : Prop := ∀ c ∈ pop, c.2.fitness.val ≠ .nan

/-- `e` is the energy of a member of the population, and no member has a better one. -/
def BestEnergyFl (opt : FitnessOption) (pop : Pop (Gene (List (Dbl F)) (Dbl F))) (e : Dbl F) : Prop :=
  (∃ c ∈ pop, c.2.fitness = e) ∧ ∀ c ∈ pop, ¬ Better opt (energyValue c.2) (extended F e.val)

/-- Number of members whose energy no member beats. -/
noncomputable def tiedForBestFl (opt : FitnessOption) (pop : Pop (Gene (List (Dbl F)) (Dbl F))) : Nat :=
  open Classical in
  (pop.filter fun c => decide (∀ d ∈ pop, ¬ Better opt (energyValue d.2) (energyValue c.2))).length

/-- Each entry of the state is in its range, or NaN. -/
def InBoxOrNaN (b : Box (Dbl F)) (v : List (Dbl F)) : Prop :=
  v.length = b.dim ∧ ∀ i, ∀ h : i < v.length, (b.min i ≤ v[i] ∧ v[i] ≤ b.max i) ∨ v[i].val = .nan

/-- The draw of the number of layers, the weights of the layers and their computed sum are legal: between 1 and
`maxLayerNum` layers, weights finite and not negative, none larger than the sum, the sum finite and positive, and the
first weight at least their mean. -/
structure LegalLayersFl (o : AOSOption) (k : Nat) (g : Nat → Dbl F) (total : Dbl F) : Prop where
  one_le : 1 ≤ k
  le_max : k ≤ o.maxLayerNum
  weight : ∀ i, i < k → ∃ a, (g i).val = .fin false a
  share : ∀ i, i < k → g i ≤ total
  sum : ∃ t, 0 < t ∧ total.val = .fin false t
  first : total.val.number F ≤ k * (g 0).val.number F

/-- `n` electrons and `k` layers are no problem for the format and for `int` (for `double`: `k * n < 2^31`, see
`layerSizes_double`). -/
structure LayerSizes (F : Fmt) (k n : Nat) : Prop where
  range : 1 ≤ F.one ∧ F.one < F.top
  exact : n < 2 ^ (F.mb + 1)
  finite : n * 2 ^ F.one < 2 ^ F.top
  layers : k ≤ 2 ^ F.one
  int : k * n ≤ 2147483647

end Heu.Spec
