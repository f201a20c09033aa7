import Verif.Lemmas.NSGA3
import Mathlib.Data.List.Sort
import Mathlib.Algebra.BigOperators.WithTop
import Mathlib.Tactic.NormNum
import Mathlib.Data.Fin.VecNotation
import Mathlib.Algebra.Order.Ring.Rat
import Mathlib.Algebra.Field.Rat

/-!
# C17–C22: non-dominated sorting, NSGA-II and NSGA-III selection

Throughout, `pop` is the candidate population (a duplicate-free list of addresses), `K` is
`populationSize`, `fit` the fitness vectors, and the `Sorter`s stand for `std::sort` with any
treatment of ties.
-/

set_option linter.unusedSectionVars false

namespace Heu

variable {α : Type} {G : Type} [DecidableEq G] {m : Nat}

/-- A concrete sorter (insertion sort), used to show that the hypotheses can be met. -/
def insertionSorter : Sorter G where
  run lt l := l.insertionSort (fun a b => lt b a = false)
  perm _ l := List.perm_insertionSort _ l
  sorted lt l irr tr ntr := by
    have : Std.Total (fun a b => lt b a = false) := ⟨by
      intro a b
      by_contra h
      push Not at h
      have h1 : lt b a = true := by simpa using h.1
      have h2 : lt a b = true := by simpa using h.2
      have := tr _ _ _ h1 h2
      rw [irr] at this
      exact Bool.noConfusion this⟩
    have : IsTrans G (fun a b => lt b a = false) := ⟨fun a b c h₁ h₂ => ntr _ _ _ h₂ h₁⟩
    exact List.pairwise_insertionSort _ l

/-! ## C17 -/

section C17
variable [LinearOrder α]

/-- C17: sorting into layers neither loses nor duplicates anybody, and no layer is empty. -/
theorem layers_partition (o : FitnessOption) (fit : G → Fin m → α) (sort : Sorter G)
    (pop : List G) :
    let num := calculateDominatedNum (fun a b => isStrongDominate o (fit a) (fit b)) pop
    (divideLayers sort num pop).flatten.Perm pop ∧ ∀ l ∈ divideLayers sort num pop, l ≠ [] := by
  intro num
  have h := divideLayers_ok sort num pop
  exact ⟨by rw [h.flat]; exact sort.perm _ _, h.nonempty⟩

/-- C17: the first layer is exactly the non-dominated set. -/
theorem first_layer_nondominated (o : FitnessOption) (fit : G → Fin m → α) (sort : Sorter G)
    (pop : List G) (hne : pop ≠ []) :
    let num := calculateDominatedNum (fun a b => isStrongDominate o (fit a) (fit b)) pop
    ∃ front rest, divideLayers sort num pop = front :: rest ∧
      ∀ x, x ∈ front ↔ x ∈ pop ∧ Spec.NonDominated o fit pop x := by
  intro num
  obtain ⟨front, ls, hl, hok, hf⟩ := layers_facts o fit sort pop hne
  refine ⟨front, ls, hl, ?_⟩
  intro x
  have hsub : x ∈ front → x ∈ pop := by
    intro hx
    have : x ∈ (front :: ls).flatten := by simp [hx]
    rw [hok.flat] at this
    exact (sort.perm _ _).mem_iff.1 this
  constructor
  · intro hx
    exact ⟨hsub hx, (domNum_eq_zero_iff o fit pop x).1 ((hf x (hsub hx)).1 hx)⟩
  · rintro ⟨hx, hn⟩
    exact (hf x hx).2 ((domNum_eq_zero_iff o fit pop x).2 hn)

/-- C17: whoever dominates an individual lies in an earlier layer; members of one layer never
dominate each other. -/
theorem dominators_in_earlier_layer (o : FitnessOption) (fit : G → Fin m → α) (sort : Sorter G)
    (pop : List G) :
    let num := calculateDominatedNum (fun a b => isStrongDominate o (fit a) (fit b)) pop
    ∀ (before : List (List G)) (layer : List G) (after : List (List G)),
      divideLayers sort num pop = before ++ layer :: after →
      ∀ x ∈ pop, ∀ y ∈ layer, Spec.Dominates o (fit x) (fit y) → x ∈ before.flatten := by
  intro num before layer after hl x hx y hy hd
  have hok := divideLayers_ok sort num pop
  rw [hl] at hok
  exact hok.mem_taken ((sort.perm _ _).mem_iff.2 hx) (Or.inr ⟨layer, after, rfl, hy⟩)
    (domNum_lt o fit pop hx hd)

/-- C17: the layer of an individual is determined by how many individuals dominate it, fewer
dominators meaning an earlier layer. -/
theorem layers_by_dominator_count (o : FitnessOption) (fit : G → Fin m → α) (sort : Sorter G)
    (pop : List G) :
    let num := calculateDominatedNum (fun a b => isStrongDominate o (fit a) (fit b)) pop
    ∀ (before : List (List G)) (layer : List G) (after : List (List G)),
      divideLayers sort num pop = before ++ layer :: after →
      ∀ x ∈ pop, ∀ y ∈ layer, ∀ nx ny, Spec.DominatorCount o fit pop x nx →
        Spec.DominatorCount o fit pop y ny →
        (x ∈ layer ↔ nx = ny) ∧ (x ∈ before.flatten ↔ nx < ny) := by
  intro num before layer after hl x hx y hy nx ny hnx hny
  rw [dominatorCount_iff] at hnx hny
  have hok := divideLayers_ok sort num pop
  rw [hl] at hok
  have hinc := List.pairwise_append.1 hok.incr
  have hxm : x ∈ (before ++ layer :: after).flatten := by
    rw [hok.flat]; exact (sort.perm _ _).mem_iff.2 hx
  have hb : x ∈ before.flatten → num x < num y := by
    intro h
    obtain ⟨l, hl1, hxl⟩ := List.mem_flatten.1 h
    exact hinc.2.2 l hl1 layer (by simp) x hxl y hy
  have hc : x ∈ layer → num x = num y := fun h => hok.const layer (by simp) x h y hy
  have ha : x ∈ after.flatten → num y < num x := by
    intro h
    obtain ⟨l, hl1, hxl⟩ := List.mem_flatten.1 h
    exact (List.pairwise_cons.1 hinc.2.1).1 l hl1 y hy x hxl
  have e1 : nx = num x := hnx
  have e2 : ny = num y := hny
  rw [List.flatten_append, List.flatten_cons, List.mem_append, List.mem_append] at hxm
  rw [e1, e2]
  constructor
  · constructor
    · exact hc
    · intro h
      rcases hxm with h' | h' | h'
      · have := hb h'; omega
      · exact h'
      · have := ha h'; omega
  · constructor
    · exact hb
    · intro h
      rcases hxm with h' | h' | h'
      · exact h'
      · have := hc h'; omega
      · have := ha h'; omega

/-- Five individuals in two objectives (minimised): two in the front, then three layers. -/
def demoFit : Fin 5 → Fin 2 → ℚ := ![![2, 2], ![0, 1], ![1, 0], ![3, 3], ![1, 2]]

example : divideLayers insertionSorter
    (calculateDominatedNum (fun a b => isStrongDominate .lessBetter (demoFit a) (demoFit b))
      [0, 1, 2, 3, 4]) [0, 1, 2, 3, 4] = [[1, 2], [4], [0], [3]] := by decide +kernel

end C17

section C18
variable [Field α] [LinearOrder α]

/-- C18: NSGA-II selection on at least `populationSize` candidates runs without undefined behaviour
and leaves exactly `populationSize` individuals, a sublist of the candidates. -/
theorem nsga2_exact_size (o : FitnessOption) (K : Nat) (eps : α) (fit : G → Fin m → α)
    (sortD : Sorter G) (sortF : Fin m → Sorter G) (sortC : Sorter G) (pop : List G)
    (hnd : pop.Nodup) (hne : pop ≠ []) (hK : K ≤ pop.length) :
    ∃ r, nsga2Select o K eps fit sortD sortF sortC pop = .ok r ∧
      r.population.length = K ∧ r.population.Sublist pop := by
  obtain ⟨r, h, hok, _⟩ := nsga2_main o K eps fit sortD sortF sortC pop hnd hne hK
  exact ⟨r, h, hok.size, hok.sublist⟩

/-- With fewer candidates than `populationSize` the selection loop runs off the end of the layer
list: undefined behaviour (so the hypothesis `K ≤ pop.length` above is needed). -/
theorem nsga2_ub_if_too_few (o : FitnessOption) (K : Nat) (eps : α) (fit : G → Fin m → α)
    (sortD : Sorter G) (sortF : Fin m → Sorter G) (sortC : Sorter G) (pop : List G)
    (hnd : pop.Nodup) (hK : pop.length < K) :
    nsga2Select o K eps fit sortD sortF sortC pop = .ub := by
  have key : ∀ (layers : List (List G)) (sel : Finset G), layers.flatten.Nodup →
      (∀ g ∈ layers.flatten, g ∉ sel) → sel.card + layers.flatten.length < K →
      takeLayers K sel layers = .ub := by
    intro layers
    induction layers with
    | nil => intro sel _ _ h; rw [takeLayers]; simp at h; simp [Nat.ne_of_lt h]
    | cons l ls ih =>
      intro sel hn hd h
      rw [List.flatten_cons] at hn hd h
      rw [List.length_append] at h
      rw [takeLayers]
      rw [if_neg (by omega), if_neg (by omega)]
      have hn' := List.nodup_append.1 hn
      have hcard : (sel ∪ l.toFinset).card = sel.card + l.length := by
        rw [Finset.card_union_of_disjoint, List.toFinset_card_of_nodup hn'.1]
        rw [Finset.disjoint_left]
        intro a ha hb
        exact hd a (List.mem_append_left _ (by simpa using hb)) ha
      apply ih _ hn'.2.1
      · intro g hg hm
        rcases Finset.mem_union.1 hm with hm | hm
        · exact hd g (List.mem_append_right _ hg) hm
        · exact hn'.2.2 g (by simpa using hm) g hg rfl
      · rw [hcard]; omega
  have hflat := (divideLayers_ok sortD (calculateDominatedNum (domB o fit) pop) pop).flat
  have hperm := sortD.perm (fun a b => decide (calculateDominatedNum (domB o fit) pop a
    < calculateDominatedNum (domB o fit) pop b)) pop
  unfold nsga2Select
  dsimp only
  split
  · rfl
  · rename_i front ls hl
    have h1 : (front :: ls).flatten.Perm pop := by
      rw [← hl, hflat]; exact hperm
    have h2 := key (front :: ls) ∅ (h1.nodup_iff.2 hnd) (by simp)
      (by rw [h1.length_eq]; simpa using hK)
    rw [hl] at *
    rw [h2]; rfl

/-- C19: every dominator of a survivor survives. -/
theorem nsga2_elitism (o : FitnessOption) (K : Nat) (eps : α) (fit : G → Fin m → α)
    (sortD : Sorter G) (sortF : Fin m → Sorter G) (sortC : Sorter G) (pop : List G)
    (hnd : pop.Nodup) (hne : pop ≠ []) (hK : K ≤ pop.length) (r : SelectResult G)
    (hr : nsga2Select o K eps fit sortD sortF sortC pop = .ok r) :
    ∀ s ∈ r.population, ∀ x ∈ pop, Spec.Dominates o (fit x) (fit s) → x ∈ r.population := by
  obtain ⟨r', h, hok, _⟩ := nsga2_main o K eps fit sortD sortF sortC pop hnd hne hK
  rw [hr] at h; cases h
  exact hok.closed

/-- C19: no survivor has more dominators than an eliminated individual; in particular a
non-dominated individual is eliminated only if every survivor is non-dominated. -/
theorem nsga2_rank_respected (o : FitnessOption) (K : Nat) (eps : α) (fit : G → Fin m → α)
    (sortD : Sorter G) (sortF : Fin m → Sorter G) (sortC : Sorter G) (pop : List G)
    (hnd : pop.Nodup) (hne : pop ≠ []) (hK : K ≤ pop.length) (r : SelectResult G)
    (hr : nsga2Select o K eps fit sortD sortF sortC pop = .ok r) :
    (∀ s ∈ r.population, ∀ e ∈ pop, e ∉ r.population → ∀ ns ne,
      Spec.DominatorCount o fit pop s ns → Spec.DominatorCount o fit pop e ne → ns ≤ ne) ∧
    (∀ e ∈ pop, Spec.NonDominated o fit pop e → e ∉ r.population →
      ∀ s ∈ r.population, Spec.NonDominated o fit pop s) := by
  obtain ⟨r', h, hok, _⟩ := nsga2_main o K eps fit sortD sortF sortC pop hnd hne hK
  rw [hr] at h; cases h
  refine ⟨?_, ?_⟩
  · intro s hs e he hne ns ne hns hne'
    rw [dominatorCount_iff] at hns hne'
    rw [hns, hne']
    exact hok.ranked s hs e he hne
  · intro e he hn hne s hs
    have := hok.ranked s hs e he hne
    rw [(domNum_eq_zero_iff o fit pop e).2 hn] at this
    exact (domNum_eq_zero_iff o fit pop s).1 (by omega)

/-- C20 (NSGA-II): the reported front consists of survivors, nobody among the candidates dominates
a member of it, it is complete when the non-dominated set fits into the population, and otherwise it
is the whole surviving population. -/
theorem nsga2_front_sound (o : FitnessOption) (K : Nat) (eps : α) (fit : G → Fin m → α)
    (sortD : Sorter G) (sortF : Fin m → Sorter G) (sortC : Sorter G) (pop : List G)
    (hnd : pop.Nodup) (hne : pop ≠ []) (hK : K ≤ pop.length) (r : SelectResult G)
    (hr : nsga2Select o K eps fit sortD sortF sortC pop = .ok r) :
    (∀ g ∈ r.pf, g ∈ r.population ∧ Spec.NonDominated o fit pop g) ∧
    (∀ nd : List G, nd.Nodup → (∀ g, g ∈ nd ↔ g ∈ pop ∧ Spec.NonDominated o fit pop g) →
      (nd.length ≤ K → r.pf = nd.toFinset) ∧
      (K < nd.length → r.pf = r.population.toFinset)) := by
  obtain ⟨r', h, hok, _⟩ := nsga2_main o K eps fit sortD sortF sortC pop hnd hne hK
  rw [hr] at h; cases h
  refine ⟨fun g hg => ⟨hok.pf_sub g hg, hok.pf_nd g hg⟩, fun nd hnod hall => ⟨fun hle => ?_, fun hlt => ?_⟩⟩
  · ext g
    rw [List.mem_toFinset, hall]
    constructor
    · intro hg
      exact ⟨hok.sublist.subset (hok.pf_sub g hg), hok.pf_nd g hg⟩
    · rintro ⟨hg, hn⟩
      refine hok.pf_all ?_ g hg hn
      intro nd' hnd' hall'
      have : nd'.toFinset ⊆ nd.toFinset := by
        intro x hx
        rw [List.mem_toFinset] at *
        exact (hall x).2 (hall' x hx)
      have := Finset.card_le_card this
      rw [List.toFinset_card_of_nodup hnod, List.toFinset_card_of_nodup hnd'] at this
      omega
  · exact hok.pf_full nd hnod (fun g hg => (hall g).1 hg) hlt

/-- C21: there is a crowding measure of the candidate population (see `Spec.IsCongestion`) such that
among individuals with the same number of dominators every survivor is at least as isolated as every
eliminated one. -/
theorem nsga2_prefers_isolated (o : FitnessOption) (K : Nat) (eps : α) (fit : G → Fin m → α)
    (sortD : Sorter G) (sortF : Fin m → Sorter G) (sortC : Sorter G) (pop : List G)
    (hnd : pop.Nodup) (hne : pop ≠ []) (hK : K ≤ pop.length) (r : SelectResult G)
    (hr : nsga2Select o K eps fit sortD sortF sortC pop = .ok r) :
    ∃ cong, Spec.IsCongestion fit eps pop cong ∧
      ∀ s ∈ r.population, ∀ e ∈ pop, e ∉ r.population → ∀ n,
        Spec.DominatorCount o fit pop s n → Spec.DominatorCount o fit pop e n →
        cong e ≤ cong s := by
  obtain ⟨r', h, _, cong, hc, hpref⟩ := nsga2_main o K eps fit sortD sortF sortC pop hnd hne hK
  rw [hr] at h; cases h
  refine ⟨cong, hc, ?_⟩
  intro s hs e he hne n hns hne'
  rw [dominatorCount_iff] at hns hne'
  exact hpref s hs e he hne (by rw [← hns, ← hne'])

/-- C21: in any crowding measure, each objective has a candidate with the smallest and one with the
largest value whose congestion is infinite. -/
theorem congestion_extremes (fit : G → Fin m → α) (eps : α) (pop : List G) (hne : pop ≠ [])
    (cong : G → WithTop α) (h : Spec.IsCongestion fit eps pop cong) (j : Fin m) :
    (∃ lo ∈ pop, cong lo = ⊤ ∧ ∀ g ∈ pop, fit lo j ≤ fit g j) ∧
    (∃ hi ∈ pop, cong hi = ⊤ ∧ ∀ g ∈ pop, fit g j ≤ fit hi j) := by
  obtain ⟨arr, t, h1, h2, h3⟩ := h
  have hp := (h1 j).1
  have hs := (h1 j).2
  have hane : arr j ≠ [] := by
    intro e; rw [e] at hp; exact hne (List.Perm.nil_eq hp).symm
  have htop : ∀ g ∈ pop, t j g = ⊤ → cong g = ⊤ := by
    intro g hg ht
    rw [h3 g hg, WithTop.sum_eq_top]
    exact ⟨j, Finset.mem_univ j, ht⟩
  constructor
  · have hm : (arr j).head hane ∈ pop := hp.mem_iff.1 (List.head_mem hane)
    refine ⟨(arr j).head hane, hm, ?_, ?_⟩
    · exact htop _ hm ((h2 j _ hm).ends (Or.inl (List.head?_eq_some_head hane)))
    · intro g hg
      have hg' := hp.mem_iff.2 hg
      generalize arr j = l at *
      cases l with
      | nil => exact absurd rfl hane
      | cons a l =>
        rcases List.mem_cons.1 hg' with rfl | hg'
        · exact le_refl _
        · exact (List.pairwise_cons.1 hs).1 g hg'
  · have hm : (arr j).getLast hane ∈ pop := hp.mem_iff.1 (List.getLast_mem hane)
    refine ⟨(arr j).getLast hane, hm, ?_, ?_⟩
    · exact htop _ hm ((h2 j _ hm).ends (Or.inr (List.getLast?_eq_some_getLast hane)))
    · intro g hg
      have hg' := hp.mem_iff.2 hg
      have hd := List.dropLast_append_getLast hane
      rw [← hd] at hg' hs
      rcases List.mem_append.1 hg' with h' | h'
      · exact (List.pairwise_append.1 hs).2.2 g h' _ (by simp)
      · simp at h'; rw [← h']

/-- Non-vacuity: the five candidates above, `populationSize` 3 (no cut) and a front of three
mutually non-dominated candidates cut to two. -/
example : nsga2Select .lessBetter 3 (1 / 10000000000 : ℚ) demoFit insertionSorter
    (fun _ => insertionSorter) insertionSorter [0, 1, 2, 3, 4]
    |>.satisfies (fun r => decide (r.population = [1, 2, 4] ∧ r.pf = {1, 2})) := by decide +kernel

example : nsga2Select .lessBetter 2 (1 / 10000000000 : ℚ)
    (![![0, 4], ![2, 2], ![4, 0]] : Fin 3 → Fin 2 → ℚ) insertionSorter
    (fun _ => insertionSorter) insertionSorter [0, 1, 2]
    |>.satisfies (fun r => decide (r.population = [0, 2] ∧ r.pf = {0, 2})) := by decide +kernel

end C18

section C22
variable [Field α] [LinearOrder α]

/-- C22: NSGA-III selection terminates (within `pop.length + nRef` rounds of niche preservation)
without undefined behaviour and leaves exactly `populationSize` individuals, a sublist of the
candidates; dominators of survivors survive.  `closest g` is the reference point assigned to `g`. -/
theorem nsga3_exact_size (K : Nat) (hK32 : K < 2 ^ 32) (fit : G → Fin m → α)
    (sortD : Sorter G) (nRef : Nat) (closest : G → Nat) (dist : G → α)
    (ds : Nat → NicheDraw α G) (hd : ∀ k, (ds k).Legal) (fuel : Nat) (pop : List G)
    (hcl : ∀ g ∈ pop, closest g < nRef) (hfuel : pop.length + nRef ≤ fuel)
    (hnd : pop.Nodup) (hne : pop ≠ []) (hK : K ≤ pop.length) :
    ∃ r, nsga3Select K fit sortD nRef closest dist ds fuel pop = .ok r ∧
      r.population.length = K ∧ r.population.Sublist pop ∧
      ∀ s ∈ r.population, ∀ x ∈ pop, Spec.Dominates .lessBetter (fit x) (fit s) →
        x ∈ r.population := by
  obtain ⟨r, h, hok⟩ := nsga3_main K (by omega) fit sortD nRef closest dist ds hd fuel pop hcl hfuel
    hnd hne hK
  exact ⟨r, h, hok.size, hok.sublist, hok.closed⟩

/-- C20 (NSGA-III): same statement as for NSGA-II. -/
theorem nsga3_front_sound (K : Nat) (hK32 : K < 2 ^ 32) (fit : G → Fin m → α)
    (sortD : Sorter G) (nRef : Nat) (closest : G → Nat) (dist : G → α)
    (ds : Nat → NicheDraw α G) (hd : ∀ k, (ds k).Legal) (fuel : Nat) (pop : List G)
    (hcl : ∀ g ∈ pop, closest g < nRef) (hfuel : pop.length + nRef ≤ fuel)
    (hnd : pop.Nodup) (hne : pop ≠ []) (hK : K ≤ pop.length) (r : SelectResult G)
    (hr : nsga3Select K fit sortD nRef closest dist ds fuel pop = .ok r) :
    (∀ g ∈ r.pf, g ∈ r.population ∧ Spec.NonDominated .lessBetter fit pop g) ∧
    (∀ nd : List G, nd.Nodup →
      (∀ g, g ∈ nd ↔ g ∈ pop ∧ Spec.NonDominated .lessBetter fit pop g) →
      (nd.length ≤ K → r.pf = nd.toFinset) ∧
      (K < nd.length → r.pf = r.population.toFinset)) := by
  obtain ⟨r', h, hok⟩ := nsga3_main K (by omega) fit sortD nRef closest dist ds hd fuel pop hcl
    hfuel hnd hne hK
  rw [hr] at h; cases h
  refine ⟨fun g hg => ⟨hok.pf_sub g hg, hok.pf_nd g hg⟩,
    fun nd hnod hall => ⟨fun hle => ?_, fun hlt => ?_⟩⟩
  · ext g
    rw [List.mem_toFinset, hall]
    constructor
    · intro hg
      exact ⟨hok.sublist.subset (hok.pf_sub g hg), hok.pf_nd g hg⟩
    · rintro ⟨hg, hn⟩
      refine hok.pf_all ?_ g hg hn
      intro nd' hnd' hall'
      have : nd'.toFinset ⊆ nd.toFinset := by
        intro x hx
        rw [List.mem_toFinset] at *
        exact (hall x).2 (hall' x hx)
      have := Finset.card_le_card this
      rw [List.toFinset_card_of_nodup hnod, List.toFinset_card_of_nodup hnd'] at this
      omega
  · exact hok.pf_full nd hnod (fun g hg => (hall g).1 hg) hlt

/-- C22: one round of niche preservation that adds an individual adds one that belongs to a
reference point no remaining reference point undercuts in niche count, and when that count is zero
it is a closest one among the candidates of that reference point. -/
theorem niche_round_rule (K : Nat) (dist : G → α) (d : NicheDraw α G) (hd : d.Legal)
    (s s' : NicheState G) (h : nicheStep K dist d s = .ok (some s'))
    (hgrow : s'.selected ≠ s.selected) :
    ∃ p ∈ s.fl, s'.selected = insert p.2 s.selected ∧ s'.fl = s.fl.erase p ∧
      ∃ c, (p.1, c) ∈ s.refPoints ∧ (∀ x ∈ s.refPoints, c ≤ x.2) ∧
        (c = 0 → ∀ q ∈ s.fl, q.1 = p.1 → dist p.2 ≤ dist q.2) := by
  unfold nicheStep at h
  split at h
  · dsimp only at h
    split at h
    · cases h
    · rename_i cur hcur
      have hcurm := findMinSet_mem (List.mem_of_getElem? hcur)
      set assoc := d.order (s.fl.filter fun e => e.1 == cur.1) with hassoc
      have hap : assoc.Perm (s.fl.filter fun e => e.1 == cur.1) := hd.order _
      have hmem : ∀ p, p ∈ assoc ↔ p ∈ s.fl ∧ p.1 = cur.1 := by
        intro p; rw [hap.mem_iff, List.mem_filter]; simp
      by_cases hne : assoc = []
      · simp only [hne, ne_eq, not_true_eq_false, if_false] at h
        cases h
        exact absurd rfl hgrow
      · simp only [hne, ne_eq, not_false_eq_true, if_true] at h
        obtain ⟨p, hp, hres⟩ := Out.bind_eq_ok.1 h
        cases hres
        have key : p ∈ assoc ∧ (cur.2 = 0 → ∀ y ∈ assoc, dist p.2 ≤ dist y.2) := by
          split at hp
          · obtain ⟨p', hp', he, hmin⟩ := pickClosest_spec dist assoc hne
            rw [he] at hp; cases hp
            exact ⟨hp', fun _ => hmin⟩
          · rename_i hc
            obtain ⟨p', hp', he⟩ := pickRandom_spec d.draws hd.unit assoc 0 hne
            rw [he] at hp; cases hp
            exact ⟨hp', fun h0 => absurd h0 hc⟩
        have hp1 := (hmem p).1 key.1
        refine ⟨p, hp1.1, rfl, rfl, cur.2, ?_, hcurm.2, ?_⟩
        · rw [hp1.2]; exact hcurm.1
        · intro h0 q hq hqk
          exact key.2 h0 q ((hmem q).2 ⟨hq, by rw [hqk, hp1.2]⟩)
  · cases h

/-- Non-vacuity: a front of four cut to two with two reference points. -/
example : nsga3Select 2 (![![0, 4], ![1, 3], ![3, 1], ![4, 0]] : Fin 4 → Fin 2 → ℚ)
    insertionSorter 2 (![0, 0, 1, 1]) ![0, 1, 1, 0]
    (fun _ => { rIdx := fun _ => 0, draws := fun _ => 1 / 2, order := id }) 6 [0, 1, 2, 3]
    |>.satisfies (fun r => decide (r.population = [0, 3] ∧ r.pf = {0, 3})) := by decide +kernel

example : (({ rIdx := fun _ => 0, draws := fun _ => 1 / 2, order := id } :
    NicheDraw ℚ (Fin 4))).Legal :=
  ⟨fun _ h => h, fun _ => by norm_num, fun l => List.Perm.refl l⟩

end C22

end Heu
