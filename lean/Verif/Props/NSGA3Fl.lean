import Verif.Lemmas.NSGA3FlSel
import Verif.Props.NSGA2Fl

/-! # C122: NSGA-III selection on real doubles; C123: what becomes of candidates whose fitness is NaN -/

set_option linter.unusedSectionVars false
set_option linter.unusedSimpArgs false

namespace Heu
open Spec

variable {G : Type} [DecidableEq G] {m : Nat}

section select
variable (F : Fmt) (E : Geometry m) (K : Nat) (fit : G → Fin m → Fl) (sortD : Sorter G) (tiny : Fl)
  (refs : List (Fin m → Fl)) (order : Finset G → List G) (ds : Nat → NicheDraw Fl G) (fuel : Nat) (pop : List G)

/-- C122: NSGA-III selection returns for *every* assignment of `double`s to the candidates, NaN and infinities
included, and whatever Eigen computes from them; it leaves exactly `populationSize` of the candidates, every
dominator of a survivor survives, and the reported front consists of survivors nobody dominates; it is the whole
non-dominated set if that fits, and all survivors otherwise. -/
theorem nsga3_ieee_result (hF : F.Good) (hK32 : K < 2 ^ 32) (hrefs : refs ≠ [])
    (hd : ∀ k, LegalDrawFl F (ds k)) (hfuel : pop.length + refs.length ≤ fuel)
    (hnd : pop.Nodup) (hne : pop ≠ []) (hK : K ≤ pop.length) :
    ∃ r, nsga3SelectFl F E K fit sortD tiny refs order ds fuel pop = .ok r ∧
    r.population.length = K ∧ r.population.Sublist pop ∧
    (∀ s ∈ r.population, ∀ x ∈ pop, DominatesFl F .lessBetter (fit x) (fit s) → x ∈ r.population) ∧
    (∀ g ∈ r.pf, g ∈ r.population ∧ NonDominatedFl F .lessBetter fit pop g) ∧
    (∀ nd : List G, nd.Nodup → (∀ g, g ∈ nd ↔ g ∈ pop ∧ NonDominatedFl F .lessBetter fit pop g) →
      (nd.length ≤ K → r.pf = nd.toFinset) ∧ (K < nd.length → r.pf = r.population.toFinset)) := by
  obtain ⟨r, hr, h⟩ := nsga3Fl_ok F E K (by omega) fit sortD tiny refs hrefs order ds hF hd fuel pop hfuel hnd hne hK
  have hndiff : ∀ g, (∀ y ∈ pop, domFl .lessBetter fit y g = false) ↔ NonDominatedFl F .lessBetter fit pop g := by
    intro g
    unfold NonDominatedFl
    simp only [← dominateFl_iff, Bool.not_eq_true]
  refine ⟨r, hr, h.size, h.sublist, fun s hs x hx hd => h.closed s hs x hx ((dominateFl_iff F _ _ _).2 hd),
    fun g hg => ⟨h.pf_sub g hg, (hndiff g).1 (h.pf_nd g hg)⟩, fun nd hn hall => h.pf_eq nd hn ?_⟩
  intro g; rw [hall, hndiff]

/-- C122: everybody with less than `n` dominators is kept; if these are not enough, the rest is filled up with
individuals that have exactly `n` dominators by the niching rule, where everybody belongs to a reference point with
no other at a smaller computed distance from its normalised fitness (`NormalisedFl`). -/
theorem nsga3_ieee_niching (hF : F.Good) (hrefs : refs ≠ [])
    (hord : ∀ S, (order S).Nodup ∧ ∀ a, a ∈ order S ↔ a ∈ S)
    (hd : ∀ k, LegalDrawFl F (ds k)) (hnd : pop.Nodup) (hne : pop ≠ []) (hK : K ≤ pop.length) (r : SelectResult G)
    (hr : nsga3SelectFl F E K fit sortD tiny refs order ds fuel pop = .ok r) :
    ∃ (n : Nat) (taken cut final : Finset G) (closest : G → Nat) (dist : G → Fl) (nf : G → Fin m → Fl),
      (∀ g, g ∈ taken ↔ g ∈ pop ∧ ∃ k < n, DominatorCountFl F .lessBetter fit pop g k) ∧
      (∀ g, g ∈ cut ↔ g ∈ pop ∧ DominatorCountFl F .lessBetter fit pop g n) ∧
      (taken.card < K → NormalisedFl F E tiny fit (taken ∪ cut) nf ∧
        ∀ g ∈ taken ∪ cut, IsNearestFl E.distance refs (nf g) (closest g) (dist g)) ∧
      NicheFillFl closest dist taken cut final ∧
      r.population = pop.filter (· ∈ final) := by
  have hcount : ∀ x n, DominatorCountFl F .lessBetter fit pop x n ↔
      n = calculateDominatedNum (domFl .lessBetter fit) pop x := by
    intro x n
    rw [← dominatorCountD (domFl_irrefl .lessBetter fit)]
    unfold DominatorCountFl
    simp only [← dominateFl_iff]
  obtain ⟨front, ls, sel, need, rest, n, hlay, htake, hsel, hcut, hno, hyes⟩ :=
    takeLayers_countsD (domFl_irrefl .lessBetter fit) (domFl_trans .lessBetter fit) K sortD pop hnd hne hK
  have hselS : ∀ g, g ∈ sel ↔ g ∈ pop ∧ ∃ k < n, DominatorCountFl F .lessBetter fit pop g k := by
    intro g
    rw [hsel]
    refine and_congr_right fun _ => ?_
    simp only [hcount, exists_eq_right]
  have hcutS : ∀ g, g ∈ (pop.filter fun g =>
      calculateDominatedNum (domFl .lessBetter fit) pop g = n).toFinset ↔
      g ∈ pop ∧ DominatorCountFl F .lessBetter fit pop g n := by
    intro g
    rw [List.mem_toFinset, List.mem_filter, hcount]
    simp [eq_comm]
  unfold nsga3SelectFl at hr
  simp only [hlay, htake, Out.ok_bind] at hr
  cases hneed : need with
  | false =>
    subst hneed
    simp at hr
    refine ⟨n, sel, _, sel, fun _ => 0, fun _ => .nan, fun _ _ => .nan, hselS, hcutS, ?_, NicheFillFl.done _ _, ?_⟩
    · intro h; have := hno rfl; omega
    · rw [← hr]
  | true =>
    subst hneed
    obtain ⟨hlt, layer, rest', hrest, hlne⟩ := hyes rfl
    subst hrest
    obtain ⟨hlnd, hl⟩ := hcut layer rest' rfl
    have he : layer.toFinset = (pop.filter fun g =>
        calculateDominatedNum (domFl .lessBetter fit) pop g = n).toFinset := by
      ext g; rw [List.mem_toFinset, hl, List.mem_toFinset, List.mem_filter]; simp
    obtain ⟨closest, dist, hassoc, hnear⟩ :=
      nsga3AssociateFl_spec F E tiny refs hrefs fit order sel layer hlne
    simp only [if_true, hassoc, Out.ok_bind] at hr
    obtain ⟨s1, hs1, hr⟩ := Out.bind_eq_ok.1 hr
    obtain ⟨s2, hs2, hs1⟩ := Out.bind_eq_ok.1 hs1
    cases hs1
    have := nicheLoopFl_started F K refs.length closest dist ds hF hd fuel pop hnd sel
      (fun g hg => ((hsel g).1 hg).1) layer hlnd
      (fun g hg hg' => by have h1 := ((hl g).1 hg).2; have h2 := ((hsel g).1 hg').2; omega)
      (fun g hg => by obtain ⟨w, hw', _⟩ := hnear g; exact (List.getElem?_eq_some_iff.1 hw').1) s2 hs2
    refine ⟨n, sel, layer.toFinset, s2.selected, closest, dist, _, hselS, ?_,
      fun _ => ⟨normalizeFl_spec F E tiny fit order hord sel layer hlne, fun g _ => hnear g⟩, this, ?_⟩
    · rw [he]; exact hcutS
    · cases hr; rfl

end select

/-! ### NaN -/

/-- A candidate with a NaN in its fitness is never dominated. -/
theorem nan_nonDominated (F : Fmt) (o : FitnessOption) (fit : G → Fin m → Fl) (pop : List G) (g : G) (i : Fin m)
    (h : fit g i = .nan) : NonDominatedFl F o fit pop g := by
  intro y _ hd
  exact (hd.1 i).2 h

/-- C123: as long as the front fits into the population, every candidate with a NaN survives NSGA-III selection and
is reported in the Pareto front. -/
theorem nsga3_nan_reported (F : Fmt) (E : Geometry m) (K : Nat) (fit : G → Fin m → Fl) (sortD : Sorter G) (tiny : Fl)
    (refs : List (Fin m → Fl)) (order : Finset G → List G) (ds : Nat → NicheDraw Fl G) (fuel : Nat) (pop : List G)
    (hF : F.Good) (hK32 : K < 2 ^ 32) (hrefs : refs ≠ [])
    (hd : ∀ k, LegalDrawFl F (ds k)) (hfuel : pop.length + refs.length ≤ fuel)
    (hnd : pop.Nodup) (hne : pop ≠ []) (hK : K ≤ pop.length)
    (front : List G) (hfn : front.Nodup) (hfr : ∀ g, g ∈ front ↔ g ∈ pop ∧ NonDominatedFl F .lessBetter fit pop g)
    (hfit : front.length ≤ K) :
    ∃ r, nsga3SelectFl F E K fit sortD tiny refs order ds fuel pop = .ok r ∧
      ∀ g ∈ pop, (∃ i, fit g i = .nan) → g ∈ r.population ∧ g ∈ r.pf := by
  obtain ⟨r, hr, -, -, -, hpf, heq⟩ := nsga3_ieee_result F E K fit sortD tiny refs order ds fuel pop hF hK32 hrefs hd
    hfuel hnd hne hK
  refine ⟨r, hr, fun g hg ⟨i, hi⟩ => ?_⟩
  have hm : g ∈ r.pf := by
    rw [(heq front hfn hfr).1 hfit, List.mem_toFinset, hfr]
    exact ⟨hg, nan_nonDominated F _ fit pop g i hi⟩
  exact ⟨(hpf g hm).1, hm⟩

/-- C123: the same for NSGA-II, whenever its selection returns. -/
theorem nsga2_nan_reported (F : Fmt) (o : FitnessOption) (K : Nat) (eps : Fl) (fit : G → Fin m → Fl)
    (sortD : Sorter G) (sortF : Fin m → Sorter G) (sortC : Sorter G) (pop : List G)
    (hnd : pop.Nodup) (hne : pop ≠ []) (hK : K ≤ pop.length)
    (front : List G) (hfn : front.Nodup) (hfr : ∀ g, g ∈ front ↔ g ∈ pop ∧ NonDominatedFl F o fit pop g)
    (hfit : front.length ≤ K) (r : SelectResult G)
    (hr : nsga2SelectFl F o K eps fit sortD sortF sortC pop = .ok r) :
    ∀ g ∈ pop, (∃ i, fit g i = .nan) → g ∈ r.population ∧ g ∈ r.pf := by
  obtain ⟨-, -, -, hpf, heq⟩ := nsga2_ieee_result F o K eps fit sortD sortF sortC pop hnd hne hK r hr
  rintro g hg ⟨i, hi⟩
  have hm : g ∈ r.pf := by
    rw [(heq front hfn hfr).1 hfit, List.mem_toFinset, hfr]
    exact ⟨hg, nan_nonDominated F _ fit pop g i hi⟩
  exact ⟨(hpf g hm).1, hm⟩

/-- C123: if every candidate has a NaN in its fitness, all of them are non-dominated: when there are more than
`populationSize`, NSGA-III reports all survivors, each with a NaN, as the Pareto front. -/
theorem nsga3_all_nan (F : Fmt) (E : Geometry m) (K : Nat) (fit : G → Fin m → Fl) (sortD : Sorter G) (tiny : Fl)
    (refs : List (Fin m → Fl)) (order : Finset G → List G) (ds : Nat → NicheDraw Fl G) (fuel : Nat) (pop : List G)
    (hF : F.Good) (hK32 : K < 2 ^ 32) (hrefs : refs ≠ [])
    (hd : ∀ k, LegalDrawFl F (ds k)) (hfuel : pop.length + refs.length ≤ fuel)
    (hnd : pop.Nodup) (hne : pop ≠ []) (hK : K < pop.length) (hall : ∀ g ∈ pop, ∃ i, fit g i = .nan) :
    ∃ r, nsga3SelectFl F E K fit sortD tiny refs order ds fuel pop = .ok r ∧
      r.population.length = K ∧ r.pf = r.population.toFinset := by
  obtain ⟨r, hr, hlen, -, -, -, heq⟩ := nsga3_ieee_result F E K fit sortD tiny refs order ds fuel pop hF hK32 hrefs hd
    hfuel hnd hne hK.le
  refine ⟨r, hr, hlen, (heq pop hnd ?_).2 hK⟩
  intro g
  refine ⟨fun hg => ⟨hg, ?_⟩, fun h => h.1⟩
  obtain ⟨i, hi⟩ := hall g hg
  exact nan_nonDominated F _ fit pop g i hi

/-! ### non-vacuity -/

theorem half_unit {F : Fmt} (hF : F.Good) : (Fl.fin false (2 ^ (F.one - 1))).Finite F ∧
    Fl.number F (.fin false (2 ^ (F.one - 1))) = 1 / 2 := by
  have h1 := hF.wide
  have h2 := hF.pow_eb
  have h0 : F.one = F.one - 1 + 1 := by simp only [Fmt.one]; omega
  constructor
  · exact ⟨false, _, rfl, ⟨1, _, Nat.one_lt_two_pow (by omega), (one_mul _).symm⟩,
      Nat.pow_lt_pow_right (by norm_num) (by simp only [Fmt.one, Fmt.top]; omega)⟩
  · rw [number_units]
    generalize F.one - 1 = k at h0
    rw [h0]
    simp only [Fl.units, Bool.false_eq_true, if_false, Int.cast_natCast, Nat.cast_pow, Nat.cast_ofNat]
    rw [zpow_neg, zpow_natCast, pow_succ]
    field_simp
    push_cast
    rfl

/-- A stand-in for Eigen's routines. -/
def demoGeometry : Geometry 2 where
  min := fun a b => if Fl.lt b a then b else a
  det := fun P => Fl.sub binary64 ((P 0 0).mul binary64 (P 1 1)) ((P 0 1).mul binary64 (P 1 0))
  intercepts := fun P r => P r r
  distance := fun w s =>
    let a := Fl.sub binary64 ((w 0).mul binary64 (s 1)) ((w 1).mul binary64 (s 0))
    a.mul binary64 a

/-- The draws: always the first reference point, always 0.5. -/
def demoNicheDraw (G : Type) : NicheDraw Fl G := ⟨fun _ => 0, fun _ => .fin false (2 ^ (binary64.one - 1)), id⟩

example : LegalDrawFl binary64 (demoNicheDraw G) := by
  refine ⟨fun n h => h, fun k => ?_, fun l => List.Perm.refl _⟩
  obtain ⟨hf, hn⟩ := half_unit binary64_good
  exact ⟨hf, le_of_le_of_eq (by norm_num) hn.symm, le_of_eq_of_le hn (by norm_num)⟩

/-- Four candidates on a front, one of them with a NaN and one with an infinite value; the population is cut to
two by niching. -/
example : (nsga3SelectFl binary64 demoGeometry 2
    (![![demoNum 1, demoNum 4], ![demoNum 2, .nan], ![.inf false, demoNum 2], ![demoNum 9, demoNum 1]] : Fin 4 → Fin 2 → Fl)
    insertionSorter demoEps [![demoNum 0, demoNum 1], ![demoNum 1, demoNum 0]] (fun S => S.sort (· ≤ ·))
    (fun _ => demoNicheDraw (Fin 4)) 6 [0, 1, 2, 3]).satisfies
      (fun r => decide (r.population.length = 2 ∧ r.pf = r.population.toFinset)) := by
  decide +kernel

end Heu
