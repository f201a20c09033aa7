import Verif.Lemmas.Wheel2
import Verif.Props.SOGA
import Mathlib.MeasureTheory.Measure.Lebesgue.Basic
import Mathlib.Analysis.SpecialFunctions.Exp

/-!
# C80–C84: who survives single-objective selection

`WheelRun u 0 sectors kept left` (see `Spec/Wheel.lean`) says that the individuals in `kept` are taken off
a roulette wheel one after the other.
-/

set_option linter.unusedSectionVars false

namespace Heu
open Spec

section
variable {γ α : Type} [Field α] [LinearOrder α] [IsStrictOrderedRing α]

/-! ## C80: Truncation and EliteReserved -/

/-- C80: after Truncation no eliminated individual is better than a survivor. -/
theorem truncation_keeps_the_best (o : FitnessOption) (fit : γ → α) (e : SelectEnv γ α) (K : Nat)
    (s s' : SOState γ) (hd : DistinctNodes s.pop) (h : runSelect o fit .Truncation e K s = .ok s') :
    ∀ c ∈ s'.pop, ∀ d ∈ s.pop, d ∉ s'.pop → ¬ Better o (fit d.2) (fit c.2) := by
  simp only [runSelect] at h
  obtain ⟨hperm, heq⟩ := selectTruncation_eq o fit e.sort (K := K) hd
  match hk : (e.sort.run (geneItCompare o fit) s.pop).take K with
  | [] => simp [selectTruncation, hk] at h
  | b :: l =>
    obtain ⟨hu, hbm, he⟩ := heq b l hk
    rw [he] at h
    obtain ⟨g, -, h1⟩ := updateFail1_ok o fit h
    have hpop : s'.pop.Perm ((e.sort.run (geneItCompare o fit) s.pop).take K) := by
      rw [h1]; exact hperm
    intro c hc d hdm hdn
    have hS := geneItCompare_sorted o fit e.sort s.pop
    rw [← List.take_append_drop K (e.sort.run (geneItCompare o fit) s.pop), List.pairwise_append] at hS
    refine hS.2.2 c (hpop.mem_iff.1 hc) d ?_
    have hdm' : d ∈ e.sort.run (geneItCompare o fit) s.pop := (e.sort.perm _ _).mem_iff.2 hdm
    rw [← List.take_append_drop K (e.sort.run (geneItCompare o fit) s.pop), List.mem_append] at hdm'
    rcases hdm' with hx | hx
    · exact absurd (hpop.mem_iff.2 hx) hdn
    · exact hx

/-- C80/C81: EliteReserved keeps the `eliteNum` best (in some ranking that sorts the population best
first) and fills up with individuals taken off a wheel whose sectors are the distances from the worst
individual (when the others are not all equally good). -/
theorem elite_survivors (o : FitnessOption) (fit : γ → α) (e : SelectEnv γ α)
    (hu : ∀ i, (e.ds i).u < 1) (K : Nat)
    (s s' : SOState γ) (hd : DistinctNodes s.pop) (hlt : K < s.pop.length)
    (h : runSelect o fit .EliteReserved e K s = .ok s') :
    ∃ ranking : List (Cell γ), ranking.Perm s.pop ∧
      ranking.Pairwise (fun a b => ¬ Better o (fit b.2) (fit a.2)) ∧
      ∃ kept left : List (Cell γ × α),
        ((kept ++ left).map (·.1)).Perm (ranking.drop e.eliteNum) ∧
        kept.length = min (K - e.eliteNum) (s.pop.length - e.eliteNum) ∧
        s'.pop.Perm (ranking.take e.eliteNum ++ kept.map (·.1)) ∧
        ((∃ a ∈ ranking.drop e.eliteNum, ∃ b ∈ ranking.drop e.eliteNum, fit a.2 ≠ fit b.2) →
          ∃ worst ∈ s.pop, (∀ c ∈ s.pop, ¬ Better o (fit worst.2) (fit c.2)) ∧
            WheelRun (fun i => (e.ds i).u) 0
              ((ranking.drop e.eliteNum).map fun c => (c, |fit c.2 - fit worst.2|)) kept left) := by
  simp only [runSelect, selectElite] at h
  rw [if_neg (by omega), Out.bind_eq_ok] at h
  obtain ⟨E, hE, h⟩ := h
  rw [Out.bind_eq_ok] at h
  obtain ⟨b, hb, h⟩ := h
  obtain ⟨S, hSdef⟩ : ∃ S, S = e.sort.run (geneItCompare o fit) s.pop := ⟨_, rfl⟩
  rw [← hSdef] at hE
  have hSp : S.Perm s.pop := hSdef ▸ e.sort.perm _ _
  have hsorted : S.Pairwise fun a b => ¬ Better o (fit b.2) (fit a.2) :=
    hSdef ▸ geneItCompare_sorted o fit e.sort s.pop
  have hpop' : s'.pop = applyErasement s.pop E := by
    obtain ⟨g, -, h1⟩ := updateFail1_ok o fit h
    rw [h1]; rfl
  have hmap := shiftedSpace_map o fit (S.drop e.eliteNum)
  have hl : (shiftedSpace o fit (S.drop e.eliteNum)).2.length = s.pop.length - e.eliteNum := by
    rw [← List.length_map (f := (·.1)), hmap, List.length_drop, hSp.length_eq]
  -- what is erased
  have hkey : ∃ kept, (kept ++ E).Perm (shiftedSpace o fit (S.drop e.eliteNum)).2 ∧
      kept.length = min (K - e.eliteNum) (s.pop.length - e.eliteNum) ∧
      (¬ (shiftedSpace o fit (S.drop e.eliteNum)).1 ≤ 0 →
        WheelRun (fun i => (e.ds i).u) 0 (shiftedSpace o fit (S.drop e.eliteNum)).2 kept E) := by
    by_cases hz : (shiftedSpace o fit (S.drop e.eliteNum)).1 ≤ 0
    · simp only [hz, if_true] at hE
      obtain ⟨e1, e2, e3⟩ := elimLoop_ok (fun it st st' hm hs => by
        simp only [Out.ok.injEq] at hs; subst hs
        obtain ⟨r1, r2, -⟩ := randomPass_spec (e.ds it).hit 0 st.2
        exact ⟨r1, r2⟩) hE
      obtain ⟨kept, hk⟩ := e1.exists_perm_append
      refine ⟨kept, List.perm_append_comm.trans hk.symm, ?_, fun h => absurd hz h⟩
      have hlen := hk.length_eq
      rw [List.length_append, hl] at hlen
      by_cases hc : s.pop.length - K ≤ s.pop.length - e.eliteNum
      · have := e2 (by rw [hl]; exact hc); omega
      · have := e3 (by rw [hl]; omega)
        rw [this, hl] at hlen; omega
    · simp only [hz, if_false] at hE
      have hw := shiftedSpace_nonneg o fit (S.drop e.eliteNum)
      have hsum := shiftedSpace_sum o fit (S.drop e.eliteNum)
      by_cases hc : s.pop.length - K ≤ s.pop.length - e.eliteNum
      · have hpair : shiftedSpace o fit (S.drop e.eliteNum) =
            (((shiftedSpace o fit (S.drop e.eliteNum)).2.map (·.2)).sum,
              (shiftedSpace o fit (S.drop e.eliteNum)).2) := by rw [← hsum]
        rw [hpair] at hE
        obtain ⟨kept, hk, hkl⟩ := elimLoop_wheel hu hw hE (by rw [hl]; exact hc)
        exact ⟨kept, wheelRun_perm hk, by omega, fun _ => hk⟩
      · obtain ⟨e1, e2, e3⟩ := elimLoop_ok (fun it st st' hm hs => step_roulette_shrinks hm hs) hE
        have := e3 (by rw [hl]; omega)
        refine ⟨[], by rw [this]; simp, by simp; omega, fun _ => by rw [this]; exact .stop _ _⟩
  obtain ⟨kept, hkp, hkl, hkw⟩ := hkey
  have hperm1 : ((kept ++ E).map (·.1)).Perm (S.drop e.eliteNum) := by
    rw [← hmap]; exact hkp.map _
  refine ⟨S, hSp, hsorted, kept, E, hperm1, hkl, ?_, ?_⟩
  · rw [hpop']
    have hes : (((S.take e.eliteNum).map (fun c => (c, (0 : α))) ++ (kept ++ E)).map (·.1)).Perm s.pop := by
      rw [List.map_append]
      have : ((S.take e.eliteNum).map (fun c => (c, (0 : α)))).map (·.1) = S.take e.eliteNum := by
        rw [List.map_map]
        exact List.map_id _
      rw [this]
      refine (hperm1.append_left _).trans ?_
      rw [List.take_append_drop]; exact hSp
    have := applyErasement_kept hd hes
      (kept := (S.take e.eliteNum).map (fun c => (c, (0 : α))) ++ kept) (left := E) (by
        rw [List.append_assoc])
    refine this.trans ?_
    rw [List.map_append, List.map_map]
    exact (List.Perm.of_eq (by rw [show ((fun x : Cell γ × α => x.1) ∘ fun c => (c, (0 : α))) = id from rfl, List.map_id]))
  · rintro ⟨a, ha, b', hb', hab⟩
    have hne : S.drop e.eliteNum ≠ [] := List.ne_nil_of_mem ha
    obtain ⟨w, hw, hworst, heq⟩ := shiftedSpace_eq o fit hne
    have hz : ¬ (shiftedSpace o fit (S.drop e.eliteNum)).1 ≤ 0 := by
      intro hle
      exact hab ((shiftedSpace_zero_iff o fit _).1 hle a ha b' hb')
    have hrun := hkw hz
    rw [heq] at hrun
    refine ⟨w, hSp.mem_iff.1 (List.mem_of_mem_drop hw), ?_, hrun⟩
    intro c hc
    have hc' : c ∈ S := hSp.mem_iff.2 hc
    rw [← List.take_append_drop e.eliteNum S, List.mem_append] at hc'
    rcases hc' with hc' | hc'
    · rw [← List.take_append_drop e.eliteNum S, List.pairwise_append] at hsorted
      exact hsorted.2.2 c hc' w hw
    · exact hworst c hc'

/-- C80: EliteReserved eliminates an individual only if `eliteNum` individuals that are not worse
survive. -/
theorem elites_survive (o : FitnessOption) (fit : γ → α) (e : SelectEnv γ α)
    (hu : ∀ i, (e.ds i).u < 1) (K : Nat)
    (s s' : SOState γ) (hd : DistinctNodes s.pop) (h : runSelect o fit .EliteReserved e K s = .ok s') :
    ∀ d ∈ s.pop, d ∉ s'.pop → ∃ elites : List (Cell γ), elites.Nodup ∧ elites.length = e.eliteNum ∧
      ∀ c ∈ elites, c ∈ s'.pop ∧ ¬ Better o (fit d.2) (fit c.2) := by
  intro d hdm hdn
  by_cases hlt : K < s.pop.length
  · obtain ⟨S, hSp, hsorted, kept, left, h1, h2, h3, -⟩ := elite_survivors o fit e hu K s s' hd hlt h
    have hdS : d ∈ S := hSp.mem_iff.2 hdm
    rw [← List.take_append_drop e.eliteNum S, List.mem_append] at hdS
    have hdd : d ∈ S.drop e.eliteNum := by
      rcases hdS with hx | hx
      · exact absurd (h3.mem_iff.2 (List.mem_append_left _ hx)) hdn
      · exact hx
    have hSn : S.Nodup := hSp.nodup_iff.2 (List.Nodup.of_map _ hd)
    refine ⟨S.take e.eliteNum, hSn.sublist (List.take_sublist _ _), ?_, ?_⟩
    · rw [List.length_take]
      have := List.length_pos_of_mem hdd
      rw [List.length_drop] at this
      omega
    · intro c hc
      refine ⟨h3.mem_iff.2 (List.mem_append_left _ hc), ?_⟩
      rw [← List.take_append_drop e.eliteNum S, List.pairwise_append] at hsorted
      exact hsorted.2.2 c hc d hdd
  · exfalso
    have hsize := elite_keeps_all_elites o fit e K s s' hd h
    simp only [runSelect, selectElite] at h
    rw [if_pos (by omega), Out.bind_eq_ok] at h
    obtain ⟨b, hb, h⟩ := h
    obtain ⟨g, -, h1⟩ := updateFail1_ok o fit h
    rw [h1] at hdn
    exact hdn hdm

/-! ## C81: the wheel methods -/

/-- C81, RouletteWheel: individuals are taken off a wheel whose sectors are the distances of the fitness
from the worst fitness; only when all that are left are as bad as the worst is the rest of the places
given to (any) `extra` ones among these. -/
theorem roulette_survivors (o : FitnessOption) (fit : γ → α) (e : SelectEnv γ α)
    (hu : ∀ i, (e.ds i).u < 1) (K : Nat)
    (s s' : SOState γ) (hd : DistinctNodes s.pop) (hlt : K < s.pop.length)
    (h : runSelect o fit .RouletteWheel e K s = .ok s') :
    ∃ worst ∈ s.pop, (∀ c ∈ s.pop, ¬ Better o (fit worst.2) (fit c.2)) ∧
      ∃ kept extra mid left : List (Cell γ × α),
        WheelRun (fun i => (e.ds i).u) 0 (s.pop.map fun c => (c, |fit c.2 - fit worst.2|)) kept mid ∧
        (extra ++ left).Perm mid ∧ (extra ≠ [] → ∀ x ∈ mid, fit x.1.2 = fit worst.2) ∧
        kept.length + extra.length = K ∧ s'.pop.Perm ((kept ++ extra).map (·.1)) := by
  simp only [runSelect, selectRoulette] at h
  rw [Out.bind_eq_ok] at h
  obtain ⟨old, hold, h⟩ := h
  rw [if_neg (by omega), Out.bind_eq_ok] at h
  obtain ⟨E, hE, h⟩ := h
  have hne : s.pop ≠ [] := by rintro h0; rw [h0] at hlt; simp at hlt
  obtain ⟨w, hwm, hworst, heq⟩ := shiftedSpace_eq o fit hne
  have hw := shiftedSpace_nonneg o fit s.pop
  have hpair : shiftedSpace o fit s.pop =
      (((shiftedSpace o fit s.pop).2.map (·.2)).sum, (shiftedSpace o fit s.pop).2) := by
    rw [← shiftedSpace_sum]
  have hmap := shiftedSpace_map o fit s.pop
  have hl : (shiftedSpace o fit s.pop).2.length = s.pop.length := by
    rw [← List.length_map (f := (·.1)), hmap]
  rw [hpair] at hE
  obtain ⟨kept, mid, extra, hk, hp, hz, hkl⟩ := elimLoop_mixed hu hw hE (by omega)
  have hpop' := (finish_spec (o := o) (fit := fit) hd hold h).2
  refine ⟨w, hwm, hworst, kept, extra, mid, E, by rw [← heq]; exact hk, hp, ?_, by omega, ?_⟩
  · intro hx x hxm
    have h0 := hz hx x hxm
    have hxs : x ∈ (shiftedSpace o fit s.pop).2 :=
      (wheelRun_perm hk).mem_iff.1 (List.mem_append_right _ hxm)
    rw [heq] at hxs
    obtain ⟨c, -, rfl⟩ := List.mem_map.1 hxs
    simp only [abs_eq_zero] at h0
    simp only
    linarith
  · rw [hpop']
    refine applyErasement_kept hd (es := (shiftedSpace o fit s.pop).2) (by rw [hmap]) ?_
    rw [List.append_assoc]
    exact (hp.append_left _).trans (wheelRun_perm hk)

/-- C81, Boltzmann: a wheel with sectors `exp (strength * fitness)`. -/
theorem boltzmann_survivors (o : FitnessOption) (fit : γ → α) (e : SelectEnv γ α)
    (hu : ∀ i, (e.ds i).u < 1) (hexp : ∀ x, 0 ≤ e.exp x) (K : Nat)
    (s s' : SOState γ) (hd : DistinctNodes s.pop) (hlt : K < s.pop.length)
    (h : runSelect o fit .Boltzmann e K s = .ok s') :
    ∃ kept left : List (Cell γ × α),
      WheelRun (fun i => (e.ds i).u) 0 (s.pop.map fun c => (c, e.exp (e.strength * fit c.2))) kept left ∧
      kept.length = K ∧ s'.pop.Perm (kept.map (·.1)) := by
  simp only [runSelect, selectBoltzmann] at h
  rw [Out.bind_eq_ok] at h
  obtain ⟨old, hold, h⟩ := h
  rw [if_neg (by omega), foldl_add_eq_sum, zero_add] at h
  refine byWeights_wheel (es := s.pop.map fun c => (c, e.exp (e.strength * fit c.2))) hd hu ?_ hold
    (by omega) ?_ h
  · intro x hx
    obtain ⟨c, -, rfl⟩ := List.mem_map.1 hx
    exact hexp _
  · rw [List.map_map]
    show (s.pop.map fun c => c).Perm _
    simp

/-- C81, ExponentialRank with a base in `(0,1)`: a wheel in which the individual of rank `r` (from the
best, 0) has the sector `base ^ r`, up to a common factor that makes all sectors together 1. -/
theorem exponentialRank_survivors (o : FitnessOption) (fit : γ → α) (e : SelectEnv γ α)
    (hu : ∀ i, (e.ds i).u < 1) (hb0 : 0 < e.base) (hb1 : e.base < 1) (K : Nat)
    (s s' : SOState γ) (hd : DistinctNodes s.pop) (hlt : K < s.pop.length)
    (h : runSelect o fit .ExponentialRank e K s = .ok s') :
    ∃ (ranking : List (Cell γ)) (factor : α), ranking.Perm s.pop ∧
      ranking.Pairwise (fun a b => ¬ Better o (fit b.2) (fit a.2)) ∧ 0 < factor ∧
      ((ranking.zipIdx.map fun p => factor * e.base ^ p.2)).sum = 1 ∧
      ∃ kept left : List (Cell γ × α),
        WheelRun (fun i => (e.ds i).u) 0 (ranking.zipIdx.map fun p => (p.1, factor * e.base ^ p.2))
          kept left ∧
        kept.length = K ∧ s'.pop.Perm (kept.map (·.1)) := by
  simp only [runSelect, selectExponentialRank] at h
  rw [Out.bind_eq_ok] at h
  obtain ⟨old, hold, h⟩ := h
  rw [if_neg (by omega)] at h
  obtain ⟨S, hSdef⟩ : ∃ S, S = e.sort.run (geneItCompare o fit) s.pop := ⟨_, rfl⟩
  rw [← hSdef] at h
  have hSp : S.Perm s.pop := hSdef ▸ e.sort.perm _ _
  have hSl := hSp.length_eq
  have hSne : S ≠ [] := by rintro h0; rw [h0] at hSl; simp at hSl; omega
  have hsum := exp_weights_sum hb0 hb1 hSne
  rw [hSl] at hsum
  have hpow : e.base ^ s.pop.length < 1 := pow_lt_one₀ hb0.le hb1 (by omega)
  have hfac : 0 < (e.base - 1) / (e.base ^ s.pop.length - 1) :=
    div_pos_of_neg_of_neg (by linarith) (by linarith)
  refine ⟨S, (e.base - 1) / (e.base ^ s.pop.length - 1), hSp,
    hSdef ▸ geneItCompare_sorted o fit e.sort s.pop, hfac, ?_, ?_⟩
  · rw [List.map_map] at hsum; exact hsum
  · refine byWeights_wheel hd hu ?_ hold (by omega) ?_ (by rw [hsum]; exact h)
    · intro x hx
      obtain ⟨p, -, rfl⟩ := List.mem_map.1 hx
      exact mul_nonneg hfac.le (pow_nonneg hb0.le _)
    · rw [zipIdx_map_fst _ (fun i => (e.base - 1) / (e.base ^ s.pop.length - 1) * e.base ^ i)]
      exact hSp

/-- C81, Probability: with `p c` the share of `c` in the total distance from the worst (or `1/n` if all
are equal), a wheel with sectors `big * (p c)^K * (1 - p c)^(n-K)`. -/
theorem probability_survivors (o : FitnessOption) (fit : γ → α) (e : SelectEnv γ α)
    (hu : ∀ i, (e.ds i).u < 1) (hbig : 0 ≤ e.big) (K : Nat)
    (s s' : SOState γ) (hd : DistinctNodes s.pop) (hlt : K < s.pop.length)
    (h : runSelect o fit .Probability e K s = .ok s') :
    ∃ worst ∈ s.pop, (∀ c ∈ s.pop, ¬ Better o (fit worst.2) (fit c.2)) ∧
      ∃ p : Cell γ → α,
        (p = if (s.pop.map fun c => |fit c.2 - fit worst.2|).sum ≤ 0
          then fun _ => 1 / (s.pop.length : α)
          else fun c => |fit c.2 - fit worst.2| / (s.pop.map fun c => |fit c.2 - fit worst.2|).sum) ∧
      ∃ kept left : List (Cell γ × α),
        WheelRun (fun i => (e.ds i).u) 0
          (s.pop.map fun c => (c, e.big * p c ^ K * (1 - p c) ^ (s.pop.length - K))) kept left ∧
        kept.length = K ∧ s'.pop.Perm (kept.map (·.1)) := by
  simp only [runSelect, selectProbability] at h
  rw [Out.bind_eq_ok] at h
  obtain ⟨old, hold, h⟩ := h
  rw [if_neg (by omega), foldl_add_eq_sum, zero_add] at h
  have hne : s.pop ≠ [] := by rintro h0; rw [h0] at hlt; simp at hlt
  have hn : (0 : α) < (s.pop.length : α) := by exact_mod_cast (by omega : 0 < s.pop.length)
  have hn1 : (1 : α) ≤ (s.pop.length : α) := by exact_mod_cast (by omega : 1 ≤ s.pop.length)
  obtain ⟨w, hwm, hworst, heq⟩ := shiftedSpace_eq o fit hne
  have hsum : (shiftedSpace o fit s.pop).1 = (s.pop.map fun c => |fit c.2 - fit w.2|).sum := by
    rw [shiftedSpace_sum, heq, List.map_map]; rfl
  refine ⟨w, hwm, hworst, _, rfl, ?_⟩
  rw [hsum, heq] at h
  obtain ⟨T, hT⟩ : ∃ T, T = (s.pop.map fun c => |fit c.2 - fit w.2|).sum := ⟨_, rfl⟩
  rw [← hT] at h ⊢
  have hle : ∀ c ∈ s.pop, |fit c.2 - fit w.2| ≤ T := by
    intro c hc
    rw [hT]
    refine List.single_le_sum ?_ _ (List.mem_map_of_mem hc)
    intro x hx
    obtain ⟨y, -, rfl⟩ := List.mem_map.1 hx
    exact abs_nonneg _
  have hform : (if T ≤ 0 then (s.pop.map fun c => (c, |fit c.2 - fit w.2|)).map
        (fun p => (p.1, 1 / (s.pop.length : α)))
      else (s.pop.map fun c => (c, |fit c.2 - fit w.2|)).map (fun p => (p.1, p.2 / T))).map
      (fun p => (p.1, e.big * p.2 ^ K * (1 - p.2) ^ (s.pop.length - K))) =
      s.pop.map fun c => (c, e.big *
        (if T ≤ 0 then fun _ => 1 / (s.pop.length : α) else fun c : Cell γ => |fit c.2 - fit w.2| / T) c ^ K *
        (1 - (if T ≤ 0 then fun _ => 1 / (s.pop.length : α)
          else fun c : Cell γ => |fit c.2 - fit w.2| / T) c) ^ (s.pop.length - K)) := by
    split <;> simp [List.map_map, Function.comp_def]
  rw [hform] at h
  refine byWeights_wheel hd hu ?_ hold (by omega) ?_ h
  · intro x hx
    obtain ⟨c, hc, rfl⟩ := List.mem_map.1 hx
    simp only
    have : 0 ≤ (if T ≤ 0 then fun _ => 1 / (s.pop.length : α)
          else fun c : Cell γ => |fit c.2 - fit w.2| / T) c ∧
        (if T ≤ 0 then fun _ => 1 / (s.pop.length : α)
          else fun c : Cell γ => |fit c.2 - fit w.2| / T) c ≤ 1 := by
      split
      · exact ⟨by positivity, by rw [div_le_one hn]; exact hn1⟩
      · rename_i hpos
        have hpos := not_le.1 hpos
        exact ⟨div_nonneg (abs_nonneg _) hpos.le, by rw [div_le_one hpos]; exact hle c hc⟩
    exact mul_nonneg (mul_nonneg hbig (pow_nonneg this.1 _)) (pow_nonneg (by linarith [this.2]) _)
  · rw [List.map_map]
    show (s.pop.map fun c => c).Perm _
    simp

/-! ## C83: StochasticUniversal, MonteCarlo -/

/-- C83, StochasticUniversal: an individual whose distance from the worst is at least `1/K` of the total
distance always survives. -/
theorem sus_keeps_heavy (o : FitnessOption) (fit : γ → α) (e : SelectEnv γ α) (he : ValidEnv e) (K : Nat)
    (hK : 0 < K) (s s' : SOState γ) (hd : DistinctNodes s.pop)
    (h : runSelect o fit .StochasticUniversal e K s = .ok s') (worst : Cell γ) (hw : worst ∈ s.pop)
    (hworst : ∀ c ∈ s.pop, ¬ Better o (fit worst.2) (fit c.2)) (c : Cell γ) (hc : c ∈ s.pop)
    (hheavy : (s.pop.map fun c => |fit c.2 - fit worst.2|).sum / (K : α) ≤ |fit c.2 - fit worst.2|) :
    c ∈ s'.pop := by
  simp only [runSelect, selectSUS] at h
  rw [Out.bind_eq_ok] at h
  obtain ⟨old, hold, h⟩ := h
  split at h
  · rw [(keepAll_spec hd hold h).2]; exact hc
  · have hpop := (finish_spec (o := o) (fit := fit) hd hold h).2
    have hne : s.pop ≠ [] := List.ne_nil_of_mem hc
    obtain ⟨w, hwm, hworst', heq⟩ := shiftedSpace_eq o fit hne
    have hww : fit w.2 = fit worst.2 := by
      have h1 := hworst w hwm
      have h2 := hworst' worst hw
      cases o <;> simp only [Better, not_lt] at h1 h2 <;> linarith
    rw [hww] at heq
    have hsum : (shiftedSpace o fit s.pop).1 = (s.pop.map fun c => |fit c.2 - fit worst.2|).sum := by
      rw [shiftedSpace_sum, heq, List.map_map]; rfl
    by_cases hz : (shiftedSpace o fit s.pop).1 ≤ 0
    · simp only [hz, if_true] at hpop
      rw [susEqualPass_nil (by omega) (fun i => (he.u i).2)] at hpop
      rw [hpop]
      exact List.mem_filter.2 ⟨hc, by simp⟩
    · simp only [hz, if_false] at hpop
      rw [hpop]
      refine List.mem_filter.2 ⟨hc, ?_⟩
      rw [Bool.not_eq_true', ← Bool.not_eq_true, List.contains_iff_mem]
      intro hmem
      obtain ⟨x, hx, hxe⟩ := List.mem_map.1 hmem
      have hx1 := (List.take_sublist _ _).subset hx
      have hx2 := (susPass_sublist _ _ _).subset hx1
      have hpos := not_le.1 hz
      have hKpos : (0 : α) < (K : α) := by exact_mod_cast hK
      have hlt := susPass_heavy (by
          have := he.u0.1
          have h3 : 0 ≤ (shiftedSpace o fit s.pop).1 / (K : α) := div_nonneg hpos.le hKpos.le
          nlinarith) (shiftedSpace_nonneg o fit s.pop) hx1
      rw [heq] at hx2
      obtain ⟨d, hd', rfl⟩ := List.mem_map.1 hx2
      have : d = c := List.inj_on_of_nodup_map hd hd' hc hxe
      subst this
      rw [hsum] at hlt
      simp only at hlt
      linarith

/-- C83, MonteCarlo is blind to fitness: the survivors are the same whatever the fitness values and the
optimisation direction are; they are the individuals the shuffle puts in the last `K` places. -/
theorem montecarlo_blind (o o' : FitnessOption) (fit fit' : γ → α) (e : SelectEnv γ α) (he : ValidEnv e)
    (K : Nat) (s s1 s2 : SOState γ) (hd : DistinctNodes s.pop)
    (h1 : runSelect o fit .MonteCarlo e K s = .ok s1)
    (h2 : runSelect o' fit' .MonteCarlo e K s = .ok s2) :
    s1.pop = s2.pop ∧
    (K < s.pop.length → s1.pop.Perm ((e.shuffle s.pop).drop (s.pop.length - K))) := by
  have key : ∀ (o : FitnessOption) (fit : γ → α) (s' : SOState γ),
      runSelect o fit .MonteCarlo e K s = .ok s' →
      s'.pop = if s.pop.length ≤ K then s.pop else
        applyErasement s.pop (((e.shuffle s.pop).take (s.pop.length - K)).map fun c => (c, (0 : α))) := by
    intro o fit s' h
    simp only [runSelect, selectMonteCarlo] at h
    rw [Out.bind_eq_ok] at h
    obtain ⟨old, hold, h⟩ := h
    split at h
    · rename_i hle
      rw [(keepAll_spec hd hold h).2, if_pos hle]
    · rename_i hle
      rw [(finish_spec (o := o) (fit := fit) hd hold h).2, if_neg hle]
  refine ⟨by rw [key o fit s1 h1, key o' fit' s2 h2], ?_⟩
  intro hlt
  rw [key o fit s1 h1, if_neg (by omega)]
  have := applyErasement_kept (α := α) hd
    (es := ((e.shuffle s.pop).drop (s.pop.length - K)).map (fun c => (c, (0 : α))) ++
      ((e.shuffle s.pop).take (s.pop.length - K)).map (fun c => (c, (0 : α))))
    (kept := ((e.shuffle s.pop).drop (s.pop.length - K)).map (fun c => (c, (0 : α))))
    (left := ((e.shuffle s.pop).take (s.pop.length - K)).map (fun c => (c, (0 : α))))
    (by
      rw [List.map_append, List.map_map, List.map_map]
      show (List.map (fun c => c) _ ++ List.map (fun c => c) _).Perm _
      rw [List.map_id', List.map_id']
      refine List.perm_append_comm.trans ?_
      rw [List.take_append_drop]; exact he.shuffle _)
    (List.Perm.refl _)
  refine this.trans ?_
  rw [List.map_map]
  show (List.map (fun c => c) _).Perm _
  rw [List.map_id']

/-! ## C84: LinearRank -/

/-- C84: once the weights of the `K` best ranks add up to 1 or more, LinearRank selection does not
depend on the draws: it keeps exactly the `K` best ranks. -/
theorem linearRank_is_truncation (o : FitnessOption) (fit : γ → α) (e : SelectEnv γ α)
    (hu : ∀ i, 0 ≤ (e.ds i).u ∧ (e.ds i).u < 1) (K : Nat)
    (s s' : SOState γ) (hd : DistinctNodes s.pop) (hlt : K < s.pop.length)
    (hw0 : 0 ≤ e.worst) (hwb : e.worst ≤ e.best)
    (hsum : 1 ≤ ((List.range K).map fun r => e.worst + (e.best - e.worst) *
      ((s.pop.length - 1 - r : Nat) : α) / ((s.pop.length - 1 : Nat) : α)).sum)
    (h : runSelect o fit .LinearRank e K s = .ok s') :
    ∃ ranking : List (Cell γ), ranking.Perm s.pop ∧
      ranking.Pairwise (fun a b => ¬ Better o (fit b.2) (fit a.2)) ∧
      s'.pop.Perm (ranking.take K) := by
  simp only [runSelect, selectLinearRank] at h
  rw [Out.bind_eq_ok] at h
  obtain ⟨old, hold, h⟩ := h
  rw [if_neg (by omega)] at h
  obtain ⟨S, hSdef⟩ : ∃ S, S = e.sort.run (geneItCompare o fit) s.pop := ⟨_, rfl⟩
  rw [← hSdef] at h
  have hSp : S.Perm s.pop := hSdef ▸ e.sort.perm _ _
  have hSl := hSp.length_eq
  have hK1 : 1 ≤ K := by
    by_contra h0
    have : K = 0 := by omega
    rw [this] at hsum
    simp at hsum
    linarith [zero_lt_one (α := α)]
  have hnpos : (0 : α) < (s.pop.length : α) := by exact_mod_cast (by omega : 0 < s.pop.length)
  have hform : ∀ r : Nat, linearWeight e.worst e.best s.pop.length r = e.worst + (e.best - e.worst) *
      ((s.pop.length - 1 - r : Nat) : α) / ((s.pop.length - 1 : Nat) : α) := by
    intro r
    unfold linearWeight
    rw [show s.pop.length - r - 1 = s.pop.length - 1 - r by omega]
    field_simp
  unfold selectByWeights at h
  rw [Out.bind_eq_ok] at h
  obtain ⟨E, hE, h⟩ := h
  obtain ⟨W, hWdef⟩ : ∃ W : List (Cell γ × α), W = S.zipIdx.map
      (fun p => (p.1, linearWeight e.worst e.best s.pop.length p.2)) := ⟨_, rfl⟩
  rw [← hWdef] at hE
  have hWl : W.length = s.pop.length := by rw [hWdef]; simp [hSl]
  have hWmap : W.map (·.1) = S := by
    rw [hWdef]; exact zipIdx_map_fst S (fun i => linearWeight e.worst e.best s.pop.length i)
  have hWsnd : W.map (·.2) = (List.range s.pop.length).map fun r =>
      linearWeight e.worst e.best s.pop.length r := by
    rw [hWdef]
    apply List.ext_getElem
    · simp [hSl]
    · intro i h1 h2; simp
  have hnn : ∀ x ∈ W, 0 ≤ x.2 := by
    intro x hx
    have : x.2 ∈ W.map (·.2) := List.mem_map_of_mem hx
    rw [hWsnd] at this
    obtain ⟨r, -, hr⟩ := List.mem_map.1 this
    rw [← hr, hform]
    have : 0 ≤ (e.best - e.worst) * ((s.pop.length - 1 - r : Nat) : α) /
        ((s.pop.length - 1 : Nat) : α) :=
      div_nonneg (mul_nonneg (by linarith) (Nat.cast_nonneg _)) (Nat.cast_nonneg _)
    linarith
  rw [show s.pop.length - K = (W.drop K).length by rw [List.length_drop, hWl],
    ← List.take_append_drop K W] at hE
  have hEeq := elimLoop_linear hu (T := 1) (pre := W.take K) (suf := W.drop K)
    (by rw [List.take_append_drop]; exact hnn)
    (by
      rw [List.map_take, hWsnd, ← List.map_take, List.take_range, Nat.min_eq_left (by omega)]
      rw [show (fun r => linearWeight e.worst e.best s.pop.length r) = fun r => e.worst +
        (e.best - e.worst) * ((s.pop.length - 1 - r : Nat) : α) / ((s.pop.length - 1 : Nat) : α) from
        funext hform]
      exact hsum) (by simpa using hE)
  refine ⟨S, hSp, hSdef ▸ geneItCompare_sorted o fit e.sort s.pop, ?_⟩
  rw [(finish_spec (o := o) (fit := fit) hd hold h).2, hEeq]
  have := applyErasement_kept hd (es := W) (by rw [hWmap]; exact hSp) (kept := W.take K)
    (left := W.drop K) (by rw [List.take_append_drop])
  rwa [List.map_take, hWmap] at this

/-- C84, with the default probabilities 0.1 and 0.9: for every `populationSize ≥ 2` LinearRank keeps
exactly the `K` best ranks, whatever the draws: no survivor is worse than an eliminated individual. -/
theorem linearRank_default_is_truncation (o : FitnessOption) (fit : γ → α) (e : SelectEnv γ α)
    (hu : ∀ i, 0 ≤ (e.ds i).u ∧ (e.ds i).u < 1) (K : Nat) (hK : 2 ≤ K)
    (s s' : SOState γ) (hd : DistinctNodes s.pop) (hlt : K < s.pop.length)
    (hw : e.worst = 1 / 10) (hb : e.best = 9 / 10)
    (h : runSelect o fit .LinearRank e K s = .ok s') :
    ∀ c ∈ s'.pop, ∀ d ∈ s.pop, d ∉ s'.pop → ¬ Better o (fit d.2) (fit c.2) := by
  have hsum : 1 ≤ ((List.range K).map fun r => e.worst + (e.best - e.worst) *
      ((s.pop.length - 1 - r : Nat) : α) / ((s.pop.length - 1 : Nat) : α)).sum := by
    obtain ⟨k, rfl⟩ : ∃ k, K = 2 + k := ⟨K - 2, by omega⟩
    obtain ⟨n, hn⟩ : ∃ n, s.pop.length = n + 3 := ⟨s.pop.length - 3, by omega⟩
    rw [hn]
    have hnn : ∀ x ∈ ((List.range k).map (2 + ·)).map fun r => e.worst + (e.best - e.worst) *
      ((n + 3 - 1 - r : Nat) : α) / ((n + 3 - 1 : Nat) : α), 0 ≤ x := by
      intro x hx
      obtain ⟨r, -, rfl⟩ := List.mem_map.1 hx
      rw [hw, hb]
      have h1 : (0 : α) ≤ ((n + 3 - 1 - r : Nat) : α) / ((n + 3 - 1 : Nat) : α) :=
        div_nonneg (Nat.cast_nonneg _) (Nat.cast_nonneg _)
      have h2 : (9 / 10 - 1 / 10 : α) * ((n + 3 - 1 - r : Nat) : α) / ((n + 3 - 1 : Nat) : α) =
        (9 / 10 - 1 / 10) * (((n + 3 - 1 - r : Nat) : α) / ((n + 3 - 1 : Nat) : α)) := by ring
      rw [h2]
      nlinarith
    rw [List.range_add, List.map_append, List.sum_append]
    have h0 := List.sum_nonneg hnn
    have hd0 : ((n + 3 - 1 : Nat) : α) = (n : α) + 2 := by push_cast; rfl
    have hpos : (0 : α) < (n : α) + 2 := by positivity
    have hfirst : 1 ≤ ((List.range 2).map fun r => e.worst + (e.best - e.worst) *
      ((n + 3 - 1 - r : Nat) : α) / ((n + 3 - 1 : Nat) : α)).sum := by
      simp only [List.range_succ, List.range_zero, List.nil_append, List.cons_append, List.map_cons,
        List.map_nil, List.sum_cons, List.sum_nil]
      rw [hd0, show n + 3 - 1 - 0 = n + 2 by omega, show n + 3 - 1 - 1 = n + 1 by omega, hw, hb]
      push_cast
      rw [mul_div_assoc, mul_div_assoc, div_self hpos.ne']
      have : (1 : α) / 2 ≤ ((n : α) + 1) / ((n : α) + 2) := by
        rw [div_le_div_iff₀ (by norm_num) hpos]
        have : (0 : α) ≤ (n : α) := Nat.cast_nonneg _
        linarith
      linarith
    linarith
  obtain ⟨S, hSp, hS, hpop⟩ := linearRank_is_truncation o fit e hu K s s' hd hlt
    (by rw [hw]; norm_num) (by rw [hw, hb]; norm_num) hsum h
  intro c hc d hdm hdn
  rw [← List.take_append_drop K S, List.pairwise_append] at hS
  refine hS.2.2 c (hpop.mem_iff.1 hc) d ?_
  have hdm' : d ∈ S := hSp.mem_iff.2 hdm
  rw [← List.take_append_drop K S, List.mem_append] at hdm'
  rcases hdm' with hx | hx
  · exact absurd (hpop.mem_iff.2 hx) hdn
  · exact hx

end

/-! ## C82: probabilities and selection pressure -/

/-- C82: in one spin with a uniformly distributed draw, the probability (Lebesgue measure of the draws in
`[0,1)`) that sector `i` is hit is its share of the wheel. -/
theorem wheel_probability (sizes : List ℝ) (hw : ∀ x ∈ sizes, 0 ≤ x) (hS : 0 < sizes.sum) (i : Nat)
    (hi : i < sizes.length) :
    MeasureTheory.volume {u : ℝ | 0 ≤ u ∧ u < 1 ∧ InSector sizes (u * sizes.sum) i} =
      ENNReal.ofReal (sizes[i] / sizes.sum) := by
  have hstep : (sizes.take (i + 1)).sum = (sizes.take i).sum + sizes[i] := by
    rw [List.take_succ_eq_append_getElem hi, List.sum_append]; simp
  have hmono : ∀ j, (sizes.take j).sum ≤ sizes.sum := by
    intro j
    have h1 : (sizes.take j).sum + (sizes.drop j).sum = sizes.sum := by
      rw [← List.sum_append, List.take_append_drop]
    have h2 : 0 ≤ (sizes.drop j).sum := List.sum_nonneg fun x hx => hw x (List.mem_of_mem_drop hx)
    linarith
  have hnn : ∀ j, 0 ≤ (sizes.take j).sum := fun j =>
    List.sum_nonneg fun x hx => hw x (List.mem_of_mem_take hx)
  have hmono2 : ∀ j, j < i → (sizes.take (j + 1)).sum ≤ (sizes.take i).sum := by
    intro j hj
    have h1 : sizes.take i = sizes.take (j + 1) ++ (sizes.take i).drop (j + 1) := by
      conv_lhs => rw [← List.take_append_drop (j + 1) (sizes.take i)]
      rw [List.take_take, Nat.min_eq_left (by omega)]
    rw [h1, List.sum_append]
    have h2 : 0 ≤ ((sizes.take i).drop (j + 1)).sum :=
      List.sum_nonneg fun x hx => hw x (List.mem_of_mem_take (List.mem_of_mem_drop hx))
    linarith
  obtain ⟨S, hSd⟩ : ∃ S, S = sizes.sum := ⟨_, rfl⟩
  obtain ⟨A, hA⟩ : ∃ A, A = (sizes.take i).sum := ⟨_, rfl⟩
  obtain ⟨B, hB⟩ : ∃ B, B = (sizes.take (i + 1)).sum := ⟨_, rfl⟩
  have hdiff : sizes[i] / S = B / S - A / S := by rw [hB, hA, hstep]; ring
  rw [← hSd, hdiff]
  rw [← hSd] at hS
  apply le_antisymm
  · rw [← Real.volume_Icc]
    apply MeasureTheory.measure_mono
    rintro u ⟨h0, h1, -, h2, h3⟩
    rw [← hB] at h2
    refine ⟨?_, by rw [le_div_iff₀ hS]; exact h2⟩
    rw [div_le_iff₀ hS]
    by_cases hi0 : i = 0
    · subst hi0
      simp only [List.take_zero, List.sum_nil] at hA
      rw [hA]; exact mul_nonneg h0 hS.le
    · have := h3 (i - 1) (by omega)
      rw [show i - 1 + 1 = i by omega, ← hA] at this
      exact this.le
  · rw [← Real.volume_Ioo]
    apply MeasureTheory.measure_mono
    rintro u ⟨h1, h2⟩
    rw [div_lt_iff₀ hS] at h1
    rw [lt_div_iff₀ hS] at h2
    have hA0 : 0 ≤ A := hA ▸ hnn i
    have hBS : B ≤ S := by rw [hB, hSd]; exact hmono _
    refine ⟨?_, ?_, hi, by rw [← hB]; exact h2.le, ?_⟩
    · by_contra hneg
      have := not_le.1 hneg
      nlinarith
    · by_contra hge
      have := not_lt.1 hge
      nlinarith
    · intro j hj
      have := hmono2 j hj
      rw [← hA] at this
      linarith

/-- C82: exactly one sector is hit. -/
theorem wheel_unique {α : Type} [Field α] [LinearOrder α] (sizes : List α) (r : α) (i j : Nat)
    (hi : InSector sizes r i) (hj : InSector sizes r j) : i = j := by
  rcases lt_trichotomy i j with h | h | h
  · exact absurd (hj.2.2 i h) (not_lt.2 hi.2.1)
  · exact h
  · exact absurd (hi.2.2 j h) (not_lt.2 hj.2.1)

/-- C82, RouletteWheel: the better of two individuals has the greater sector. -/
theorem roulette_pressure {γ α : Type} [Field α] [LinearOrder α] [IsStrictOrderedRing α]
    (o : FitnessOption) (fit : γ → α) (worst a b : γ) (ha : ¬ Better o (fit worst) (fit a))
    (hb : ¬ Better o (fit worst) (fit b)) (hab : Better o (fit a) (fit b)) :
    |fit b - fit worst| < |fit a - fit worst| := by
  cases o <;> simp only [Better, not_lt] at ha hb hab
  · rw [abs_of_nonpos (by linarith), abs_of_nonpos (by linarith)]; linarith
  · rw [abs_of_nonneg (by linarith), abs_of_nonneg (by linarith)]; linarith

/-- C82, ExponentialRank: the better rank has the greater sector. -/
theorem exponentialRank_pressure {α : Type} [Field α] [LinearOrder α] [IsStrictOrderedRing α]
    (base factor : α) (h0 : 0 < base) (h1 : base < 1) (hf : 0 < factor) (r r' : Nat) (h : r < r') :
    factor * base ^ r' < factor * base ^ r :=
  mul_lt_mul_of_pos_left (pow_lt_pow_right_of_lt_one₀ h0 h1 h) hf

/-- C82, Boltzmann with the strength the constructor chooses for the direction: the better of two
individuals has the greater sector, and all sectors are positive. -/
theorem boltzmann_pressure (o : FitnessOption) (strength : Int)
    (hs : sogaInitialStrength .Boltzmann o = some strength) (a b : ℝ) (hab : Better o a b) :
    Real.exp ((strength : ℝ) * b) < Real.exp ((strength : ℝ) * a) ∧
      0 < Real.exp ((strength : ℝ) * b) := by
  refine ⟨?_, Real.exp_pos _⟩
  rw [Real.exp_lt_exp]
  cases o <;> simp only [sogaInitialStrength, Better, if_true, reduceCtorEq, if_false,
    Option.some.injEq] at hs hab <;> subst hs <;> push_cast <;> linarith

/-! ## C82, negation for Probability -/

theorem wheelRun_zero {α β : Type} [Field α] [LinearOrder α] [IsStrictOrderedRing α] {u : Nat → α}
    {it : Nat} {es kept left : List (β × α)} (h : WheelRun u it es kept left)
    (hz : ∀ x ∈ es, x.2 = 0) : kept = es.take kept.length := by
  induction h with
  | stop => simp
  | spin it es i hi kept left hit rest ih =>
    have hsum : ∀ k, ((es.map (·.2)).take k).sum = 0 := by
      intro k
      apply List.sum_eq_zero
      intro x hx
      obtain ⟨y, hy, rfl⟩ := List.mem_map.1 (List.mem_of_mem_take hx)
      exact hz y hy
    have hs0 : (es.map (·.2)).sum = 0 := by
      have := hsum (es.map (·.2)).length
      rwa [List.take_length] at this
    have hi0 : i = 0 := by
      by_contra h0
      have := hit.2.2 0 (by omega)
      rw [hsum, hs0, mul_zero] at this
      exact lt_irrefl _ this
    subst hi0
    have ih := ih fun x hx => hz x (mem_of_mem_eraseIdx' hx)
    cases es with
    | nil => simp at hi
    | cons x xs =>
      simp only [List.eraseIdx_zero, List.tail_cons] at ih
      simp only [List.getElem_cons_zero, List.length_cons, List.take_succ_cons]
      rw [← ih]

/-- C82, negation for Probability: if exactly one individual is better than the others, which are all
equal, it has no advantage: all sectors vanish and the first `K` individuals of the list are kept, whatever
the draws. -/
theorem probability_ignores_unique_best {γ α : Type} [Field α] [LinearOrder α] [IsStrictOrderedRing α]
    (o : FitnessOption) (fit : γ → α) (e : SelectEnv γ α)
    (hu : ∀ i, (e.ds i).u < 1) (hbig : 0 ≤ e.big) (K : Nat) (hK : 0 < K)
    (s s' : SOState γ) (hd : DistinctNodes s.pop) (hlt : K < s.pop.length)
    (best : Cell γ) (pre post : List (Cell γ)) (hpop : s.pop = pre ++ best :: post)
    (heq : ∀ c ∈ pre ++ post, ∀ d ∈ pre ++ post, fit c.2 = fit d.2)
    (hbest : ∀ c ∈ pre ++ post, Better o (fit best.2) (fit c.2))
    (h : runSelect o fit .Probability e K s = .ok s') :
    s'.pop.Perm (s.pop.take K) := by
  obtain ⟨w, hw, hworst, p, hp, kept, left, hrun, hkl, hperm⟩ :=
    probability_survivors o fit e hu hbig K s s' hd hlt h
  have hne : pre ++ post ≠ [] := by
    intro h0
    have h1 : (pre ++ post).length = 0 := by rw [h0]; rfl
    rw [hpop] at hlt
    rw [List.length_append] at h1
    rw [List.length_append, List.length_cons] at hlt
    omega
  have hbm : best ∈ s.pop := by rw [hpop]; simp
  have hmem : ∀ c ∈ s.pop, c = best ∨ c ∈ pre ++ post := by
    intro c hc
    rw [hpop] at hc
    simp at hc ⊢
    tauto
  have hwo : w ∈ pre ++ post := by
    rcases hmem w hw with h1 | h1
    · obtain ⟨d, hdm⟩ := List.exists_mem_of_ne_nil _ hne
      have hd' : d ∈ s.pop := by rw [hpop]; simp at hdm ⊢; tauto
      have := hworst d hd'
      rw [h1] at this
      exact absurd (hbest d hdm) this
    · exact h1
  have hzero : ∀ c ∈ pre ++ post, |fit c.2 - fit w.2| = 0 := by
    intro c hc
    rw [heq c hc w hwo, sub_self, abs_zero]
  have hsumz : ∀ l : List (Cell γ), (∀ c ∈ l, |fit c.2 - fit w.2| = 0) →
      (l.map fun c => |fit c.2 - fit w.2|).sum = 0 := by
    intro l hl
    apply List.sum_eq_zero
    intro x hx
    obtain ⟨c, hc, rfl⟩ := List.mem_map.1 hx
    exact hl c hc
  have hT : (s.pop.map fun c => |fit c.2 - fit w.2|).sum = |fit best.2 - fit w.2| := by
    rw [hpop, List.map_append, List.map_cons, List.sum_append, List.sum_cons,
      hsumz pre fun c hc => hzero c (by simp [hc]), hsumz post fun c hc => hzero c (by simp [hc])]
    ring
  have hTpos : 0 < |fit best.2 - fit w.2| := by
    rw [abs_pos, sub_ne_zero]
    intro h0
    have := hbest w hwo
    rw [h0] at this
    exact better_irrefl _ _ this
  rw [hT, if_neg (not_le.2 hTpos)] at hp
  have hz : ∀ x ∈ s.pop.map fun c => (c, e.big * p c ^ K * (1 - p c) ^ (s.pop.length - K)), x.2 = 0 := by
    intro x hx
    obtain ⟨c, hc, rfl⟩ := List.mem_map.1 hx
    simp only
    rcases hmem c hc with h1 | h1
    · rw [h1, hp]
      simp only
      rw [div_self hTpos.ne', sub_self, zero_pow (by omega), mul_zero]
    · rw [hp]
      simp only
      rw [hzero c h1, zero_div, zero_pow (by omega), mul_zero, zero_mul]
  have := wheelRun_zero hrun hz
  rw [hkl] at this
  refine hperm.trans ?_
  rw [this, List.map_take, List.map_map]
  show (List.take K (List.map (fun c => c) s.pop)).Perm _
  rw [List.map_id']

/-! ## Concrete cases -/

/-- Five individuals, all draws 1/2: the premises of the theorems above are met, and every method
returns. -/
example : ValidEnv (demoEnv ℚ) ∧ (∀ i, 0 ≤ ((demoEnv ℚ).ds i).u ∧ ((demoEnv ℚ).ds i).u < 1) ∧
    (∀ x, 0 ≤ (demoEnv ℚ).exp x) ∧ 0 < (demoEnv ℚ).base ∧ (demoEnv ℚ).base < 1 ∧ 0 ≤ (demoEnv ℚ).big ∧
    (demoEnv ℚ).worst = 1 / 10 ∧ (demoEnv ℚ).best = 9 / 10 ∧ 3 < demoState.pop.length := by
  refine ⟨demoEnv_valid ℚ, ?_, ?_, ?_, ?_, ?_, rfl, rfl, by decide +kernel⟩
  · intro i; constructor <;> norm_num [demoEnv]
  · intro x; simp only [demoEnv]; positivity
  · norm_num [demoEnv]
  · norm_num [demoEnv]
  · norm_num [demoEnv]

/-- A wheel with sectors 1 and 3: the second one is hit with probability 3/4. -/
example : MeasureTheory.volume {u : ℝ | 0 ≤ u ∧ u < 1 ∧ InSector [1, 3] (u * ([1, 3] : List ℝ).sum) 1} =
    ENNReal.ofReal (3 / 4) := by
  rw [wheel_probability [1, 3] (by simp) (by norm_num) 1 (by simp)]
  norm_num

/-- Probability selection loses the only good individual (minimising 9, 9, 1; `K = 1`). -/
example : (runSelect .lessBetter id .Probability (demoEnv ℚ) 1
    { pop := [(0, 9), (1, 9), (2, 1)], best := 0, fail := 0 }).satisfies
    (fun r => r.pop == [(0, 9)]) = true := by decide +kernel

/-- StochasticUniversal: an individual that is at least half of the total (minimising, `K = 2`). -/
example : ((([(0, 9), (1, 8), (2, 1)] : List (Nat × ℚ)).map fun c => |c.2 - 9|).sum / (2 : ℚ) ≤
    |(1 : ℚ) - 9|) := by norm_num [abs_of_nonneg, abs_of_nonpos]

end Heu
