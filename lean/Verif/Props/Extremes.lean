import Verif.Props.NSGA
import Verif.Props.Niching

/-!
# C91: NSGA-II keeps the best individual of every objective
-/

set_option linter.unusedSectionVars false
set_option linter.unusedVariables false

namespace Heu
open Spec

variable {α : Type} {G : Type} [DecidableEq G] {m : Nat} [Field α] [LinearOrder α] [IsStrictOrderedRing α]

/-- At most two individuals per objective are infinitely isolated. -/
theorem congestion_top_card (fit : G → Fin m → α) (eps : α) (pop : List G) (cong : G → WithTop α)
    (h : IsCongestion fit eps pop cong) (S : Finset G) (hS : ∀ g ∈ S, g ∈ pop ∧ cong g = ⊤) :
    S.card ≤ 2 * m := by
  obtain ⟨arr, t, h1, h2, h3⟩ := h
  have hsub : S ⊆ Finset.univ.biUnion fun j : Fin m =>
      ((arr j).head?.toFinset ∪ (arr j).getLast?.toFinset) := by
    intro g hg
    obtain ⟨hgp, htop⟩ := hS g hg
    rw [h3 g hgp, WithTop.sum_eq_top] at htop
    obtain ⟨j, -, hj⟩ := htop
    rw [Finset.mem_biUnion]
    refine ⟨j, Finset.mem_univ j, ?_⟩
    rw [Finset.mem_union, Option.mem_toFinset, Option.mem_toFinset]
    have hga : g ∈ arr j := (h1 j).1.mem_iff.2 hgp
    obtain ⟨k, hk, hkg⟩ := List.getElem_of_mem hga
    rcases Nat.eq_zero_or_pos k with hk0 | hk0
    · left; subst hk0; rw [List.head?_eq_getElem?]; simp [hkg, hk]
    · rcases Nat.lt_or_ge (k + 1) (arr j).length with hk1 | hk1
      · exfalso
        obtain ⟨i, rfl⟩ : ∃ i, k = i + 1 := ⟨k - 1, by omega⟩
        have ha : (arr j).head? = some ((arr j)[0]'(by omega)) := by
          rw [List.head?_eq_getElem?]; simp
        have hz : (arr j).getLast? = some ((arr j)[(arr j).length - 1]'(by omega)) := by
          rw [List.getLast?_eq_getElem?, List.getElem?_eq_getElem]
        have := (h2 j g hgp).inner i _ _ _ _ (List.getElem?_eq_getElem (by omega))
          (by rw [List.getElem?_eq_getElem hk, hkg]) (List.getElem?_eq_getElem hk1) ha hz
        rw [hj] at this
        exact WithTop.top_ne_coe this
      · right
        rw [List.getLast?_eq_getElem?, show (arr j).length - 1 = k by omega, List.getElem?_eq_getElem hk, hkg]
        rfl
  calc S.card ≤ _ := Finset.card_le_card hsub
    _ ≤ ∑ j : Fin m, ((arr j).head?.toFinset ∪ (arr j).getLast?.toFinset).card := Finset.card_biUnion_le
    _ ≤ ∑ _j : Fin m, 2 := by
        apply Finset.sum_le_sum
        intro j _
        refine (Finset.card_union_le _ _).trans ?_
        have h1 : ∀ x : Option G, x.toFinset.card ≤ 1 := by intro x; cases x <;> simp
        have a := h1 (arr j).head?
        have b := h1 (arr j).getLast?
        omega
    _ = 2 * m := by simp [mul_comm]

/-- C91: with a population of at least twice the number of objectives, NSGA-II never eliminates an individual
that is alone best in some objective.  Missing: several individuals sharing the best value
(`nsga2_loses_tied_extreme`) and smaller populations (`nsga2_loses_unique_extreme`). -/
theorem nsga2_keeps_unique_best_partial (o : FitnessOption) (K : Nat) (hK2 : 2 * m ≤ K) (eps : α)
    (fit : G → Fin m → α) (sortD : Sorter G) (sortF : Fin m → Sorter G) (sortC : Sorter G) (pop : List G)
    (hnd : pop.Nodup) (hne : pop ≠ []) (hK : K ≤ pop.length) (r : SelectResult G)
    (hr : nsga2Select o K eps fit sortD sortF sortC pop = .ok r) (x : G) (hx : x ∈ pop) (j : Fin m)
    (hbest : ∀ y ∈ pop, y ≠ x → Better o (fit x j) (fit y j)) : x ∈ r.population := by
  by_contra hout
  have hxn : NonDominated o fit pop x := by
    intro y hy hdom
    by_cases hyx : y = x
    · subst hyx
      obtain ⟨h1, i, h2⟩ := hdom
      exact h1 i h2
    · exact hdom.1 j (hbest y hy hyx)
  obtain ⟨r', hr', hlen, hsub⟩ := nsga2_exact_size o K eps fit sortD sortF sortC pop hnd hne hK
  rw [hr] at hr'; cases hr'
  obtain ⟨-, hall⟩ := nsga2_rank_respected o K eps fit sortD sortF sortC pop hnd hne hK r hr
  obtain ⟨cong, hcong, hiso⟩ := nsga2_prefers_isolated o K eps fit sortD sortF sortC pop hnd hne hK r hr
  have hc0 : ∀ g, NonDominated o fit pop g → DominatorCount o fit pop g 0 := by
    intro g hg
    refine ⟨[], by simp, by simp, rfl, ?_⟩
    intro ds hds hd
    cases ds with
    | nil => simp
    | cons y ys => exact absurd (hd y (by simp)) (hg y (hds.subset (by simp)))
  have htopx : cong x = ⊤ := by
    obtain ⟨⟨lo, hlo, hlo1, hlo2⟩, hi, hhi, hhi1, hhi2⟩ := congestion_extremes fit eps pop hne cong hcong j
    cases o with
    | lessBetter =>
      by_cases e : lo = x
      · rw [← e]; exact hlo1
      · exact absurd (hbest lo hlo e) (not_lt.2 (hlo2 x hx))
    | greaterBetter =>
      by_cases e : hi = x
      · rw [← e]; exact hhi1
      · exact absurd (hbest hi hhi e) (not_lt.2 (hhi2 x hx))
  have hcard := congestion_top_card fit eps pop cong hcong (insert x r.population.toFinset) (by
    intro g hg
    rw [Finset.mem_insert, List.mem_toFinset] at hg
    rcases hg with rfl | hg
    · exact ⟨hx, htopx⟩
    · refine ⟨hsub.subset hg, ?_⟩
      have := hiso g hg x hx hout 0 (hc0 g (hall x hx hxn hout g hg)) (hc0 x hxn)
      rw [htopx] at this
      exact top_le_iff.1 this)
  rw [Finset.card_insert_of_notMem (by simpa using hout), List.card_toFinset,
    List.Nodup.dedup (List.Nodup.sublist hsub hnd), hlen] at hcard
  omega

/-- Non-vacuity: five mutually non-dominated candidates cut to four; the unique best ones of both objectives
(0 and 4) survive. -/
example : nsga2Select .lessBetter 4 (1 / 10000000000 : ℚ)
    (![![0, 9], ![1, 8], ![2, 7], ![5, 3], ![9, 0]] : Fin 5 → Fin 2 → ℚ) insertionSorter
    (fun _ => insertionSorter) insertionSorter [0, 1, 2, 3, 4]
    |>.satisfies (fun r => decide (r.population = [0, 2, 3, 4])) := by decide +kernel

/-- A lower bound on the population size is needed: with two objectives and room for one, the unique best of
the first objective is eliminated.  (The order among equally isolated candidates is whatever `std::sort` makes
of it; here the one it drops is candidate 0.) -/
theorem nsga2_loses_unique_extreme :
    ∃ (sortC : Sorter (Fin 3)), nsga2Select .lessBetter 1 (1 / 10000000000 : ℚ)
      (![![0, 9], ![4, 5], ![9, 0]] : Fin 3 → Fin 2 → ℚ) insertionSorter
      (fun _ => insertionSorter) sortC [0, 1, 2]
      |>.satisfies (fun r => decide (r.population = [2])) := by
  refine ⟨{ run := fun lt l => insertionSorter.run lt l.reverse
            perm := fun lt l => (insertionSorter.perm lt _).trans l.reverse_perm
            sorted := fun lt l => insertionSorter.sorted lt _ }, ?_⟩
  decide +kernel

/-- With a shared best value even `2·m ≤ K` does not help: maximising, candidates 0 and 1 have the best value
10 of the first objective, 0 is dominated by 1 but stands at the end of the sorted list, and 1 is eliminated
because it is crowded: the best value is lost. -/
theorem nsga2_loses_tied_extreme :
    nsga2Select .greaterBetter 4 (1 / 10000000000 : ℚ)
      (![![10, 1], ![10, 2], ![9, 3], ![6, 5], ![3, 7], ![0, 10]] : Fin 6 → Fin 2 → ℚ) insertionSorter
      (fun _ => insertionSorter) insertionSorter [0, 1, 2, 3, 4, 5]
      |>.satisfies (fun r => decide (r.population = [2, 3, 4, 5])) := by decide +kernel

end Heu
