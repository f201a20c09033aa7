import Verif.Lemmas.GA
import Mathlib.Algebra.Order.BigOperators.Group.List
import Mathlib.Algebra.Order.Field.Basic

/-! # The ten selection methods: size, survivors, termination -/

set_option linter.unusedSectionVars false
set_option linter.unusedSimpArgs false

namespace Heu
open Spec

variable {γ α : Type}

theorem deref_sublist {p q : Pop γ} (hd : DistinctNodes q) (hs : ∀ c ∈ p, c ∈ q) {a : Addr} {g : γ}
    (h : deref p a = .ok g) : deref q a = .ok g :=
  deref_of_mem hd (hs _ (deref_ok h))

theorem geneItCompare_sorted [LinearOrder α] (o : FitnessOption) (fit : γ → α) (sort : Sorter (Cell γ))
    (l : List (Cell γ)) :
    (sort.run (geneItCompare o fit) l).Pairwise fun a b => ¬ Better o (fit b.2) (fit a.2) := by
  have := sort.sorted (geneItCompare o fit) l
    (fun a => (isBetter_false_iff _ _ _).2 (better_irrefl _ _))
    (fun a b c h1 h2 => (isBetter_iff _ _ _).2
      (Better.trans ((isBetter_iff _ _ _).1 h1) ((isBetter_iff _ _ _).1 h2)))
    (fun a b c h1 h2 => (isBetter_false_iff _ _ _).2
      (not_better_trans ((isBetter_false_iff _ _ _).1 h1) ((isBetter_false_iff _ _ _).1 h2)))
  exact this.imp fun h => (isBetter_false_iff _ _ _).1 h

/-! ### Truncation -/

section truncation
variable [LinearOrder α] (o : FitnessOption) (fit : γ → α) (sort : Sorter (Cell γ))

/-- erasing the tail of a sorted copy leaves the head -/
theorem filter_erased_perm {pop S : List (Cell γ)} (hd : DistinctNodes pop) (hp : S.Perm pop) (K : Nat) :
    (pop.filter fun c => !((S.drop K).map (·.1)).contains c.1).Perm (S.take K) := by
  have hS : (S.map (·.1)).Nodup := (hp.map _).nodup_iff.2 hd
  refine (hp.symm.filter _).trans ?_
  have hsplit : S = S.take K ++ S.drop K := (List.take_append_drop K S).symm
  have h1 : S.filter (fun c => !((S.drop K).map (·.1)).contains c.1) = S.take K := by
    conv_lhs => rw [hsplit]
    rw [List.filter_append]
    rw [hsplit, List.map_append, List.nodup_append] at hS
    have ha : (S.take K).filter (fun c => !(((S.take K ++ S.drop K).drop K).map (·.1)).contains c.1)
        = S.take K := by
      rw [List.filter_eq_self]
      intro c hc
      rw [← hsplit]
      rw [Bool.not_eq_true', ← Bool.not_eq_true, List.contains_iff_mem]
      intro hc'
      exact hS.2.2 c.1 (List.mem_map_of_mem hc) c.1 hc' rfl
    have hb : (S.drop K).filter (fun c => !(((S.take K ++ S.drop K).drop K).map (·.1)).contains c.1)
        = [] := by
      rw [List.filter_eq_nil_iff]
      intro c hc
      rw [← hsplit]
      rw [Bool.not_eq_true', ← Bool.not_eq_true, not_not, List.contains_iff_mem]
      exact List.mem_map_of_mem hc
    rw [ha, hb, List.append_nil]
  rw [h1]

theorem selectTruncation_eq {K : Nat} {s : SOState γ} (hd : DistinctNodes s.pop) :
    let S := sort.run (geneItCompare o fit) s.pop
    let pop' := s.pop.filter fun c => !((S.drop K).map (·.1)).contains c.1
    pop'.Perm (S.take K) ∧
    (∀ b l, S.take K = b :: l →
      Unbeaten o fit s.pop b ∧ b ∈ pop' ∧
      selectTruncation o fit sort K s = updateFail1 o fit { s with pop := pop' } b) := by
  intro S pop'
  have hp : S.Perm s.pop := sort.perm _ _
  have hperm : pop'.Perm (S.take K) := filter_erased_perm hd hp K
  refine ⟨hperm, ?_⟩
  intro b l hbl
  have hsorted := geneItCompare_sorted o fit sort s.pop
  have hS : S = b :: (l ++ S.drop K) := by
    rw [← List.cons_append, ← hbl, List.take_append_drop]
  refine ⟨⟨hp.mem_iff.1 (by rw [hS]; simp), ?_⟩, hperm.mem_iff.2 (by rw [hbl]; simp), ?_⟩
  · intro c hc
    have hc' := hp.mem_iff.2 hc
    change S.Pairwise _ at hsorted
    rw [hS] at hc' hsorted
    rcases List.mem_cons.1 hc' with rfl | hc'
    · exact better_irrefl _ _
    · exact (List.pairwise_cons.1 hsorted).1 c hc'
  · show (match S.take K with
      | [] => (Out.ub : Out (SOState γ))
      | b :: _ => updateFail1 o fit { s with pop := pop' } b) = _
    rw [hbl]

theorem updateFail1_ok {s : SOState γ} {b : Cell γ} {s' : SOState γ}
    (h : updateFail1 o fit s b = .ok s') :
    ∃ g, deref s.pop s.best = .ok g ∧ s' = updateFail o fit s b (fit g) := by
  unfold updateFail1 at h
  rw [Out.bind_eq_ok] at h
  obtain ⟨g, hg, h⟩ := h
  simp only [Out.ok.injEq] at h
  exact ⟨g, hg, h.symm⟩

/-- Tail of the two methods that read the old best after erasing. -/
theorem tail1_spec {s s' : SOState γ} {pop' : Pop γ} {b : Cell γ} (hd : DistinctNodes s.pop)
    (hd' : DistinctNodes pop') (hsub : ∀ c ∈ pop', c ∈ s.pop) (hb : Unbeaten o fit pop' b)
    (h : updateFail1 o fit { s with pop := pop' } b = .ok s') :
    SelectSpec o fit s s' ∧ s'.pop = pop' ∧ s'.best = b.1 ∧ s.best ∈ pop'.map (·.1) := by
  obtain ⟨g, hg, rfl⟩ := updateFail1_ok o fit h
  refine ⟨selectSpec_of hd' (fun c hc => ⟨c, hsub c hc, rfl⟩) hb (deref_sublist hd hsub hg), rfl, rfl, ?_⟩
  exact List.mem_map.2 ⟨_, deref_ok hg, rfl⟩

theorem truncation_spec {K : Nat} {s s' : SOState γ} (hd : DistinctNodes s.pop)
    (h : selectTruncation o fit sort K s = .ok s') :
    SelectSpec o fit s s' ∧ s'.pop.length = min K s.pop.length ∧ s.best ∈ s'.pop.map (·.1) ∧
    (∃ c, c.1 = s'.best ∧ c ∈ s'.pop ∧ Unbeaten o fit s.pop c) ∧ (∀ c ∈ s'.pop, c ∈ s.pop) := by
  obtain ⟨hperm, heq⟩ := selectTruncation_eq o fit sort (K := K) hd
  have hl : ((sort.run (geneItCompare o fit) s.pop).take K).length = min K s.pop.length := by
    rw [List.length_take, (sort.perm _ _).length_eq]
  match hk : (sort.run (geneItCompare o fit) s.pop).take K with
  | [] => simp [selectTruncation, hk] at h
  | b :: l =>
    obtain ⟨hu, hbm, he⟩ := heq b l hk
    rw [he] at h
    have hsub : ∀ c ∈ s.pop.filter (fun c =>
        !(((sort.run (geneItCompare o fit) s.pop).drop K).map (·.1)).contains c.1), c ∈ s.pop :=
      fun c hc => (List.mem_filter.1 hc).1
    obtain ⟨h1, h2, h3, h4⟩ := tail1_spec o fit hd (distinct_filter hd _) hsub
      ⟨hbm, fun c hc => hu.2 c (hsub c hc)⟩ h
    rw [h2]
    exact ⟨h1, by rw [hperm.length_eq, hl], h4, ⟨b, h3.symm, hbm, hu⟩, hsub⟩

end truncation

/-! ### generic roulette over weights -/

theorem sub_of_perm {pop : Pop γ} {es E : List (Cell γ × α)} (hp : (es.map (·.1)).Perm pop)
    (hs : E.Sublist es) : (E.map (·.1)).Subperm pop :=
  ((hs.map _).subperm).trans hp.subperm

theorem map_fst_map {β : Type} (l : List (Cell γ × β)) {δ : Type} (g : Cell γ × β → δ) :
    (l.map fun p => (p.1, g p)).map (·.1) = l.map (·.1) := by
  simp [List.map_map, Function.comp_def]

theorem zipIdx_map_fst (l : List (Cell γ)) (g : Nat → α) :
    (l.zipIdx.map fun p => (p.1, g p.2)).map (·.1) = l := by
  rw [List.map_map]
  show l.zipIdx.map (fun p => p.1) = l
  exact List.zipIdx_map_fst 0 l

section weights
variable [Field α] [LinearOrder α] [IsStrictOrderedRing α] (o : FitnessOption) (fit : γ → α)

theorem step_roulette_shrinks {β : Type} {u : α} {st st' : α × List (β × α)} {m : Nat}
    (hm : m < st.2.length) (h : rouletteStep u st = .ok st') :
    st'.2.Sublist st.2 ∧ st.2.length ≤ st'.2.length + 1 := by
  obtain ⟨st'', h1, h2, h3, -⟩ := rouletteStep_spec u st (by intro h0; simp [h0] at hm)
  rw [h1] at h
  simp only [Out.ok.injEq] at h
  subst h
  exact ⟨h2, by omega⟩

/-- a roulette or random-pass step -/
theorem step_mixed_shrinks {β : Type} {d : RouletteDraw α} {b : Prop} [Decidable b]
    {st st' : α × List (β × α)} {m : Nat} (hm : m < st.2.length)
    (h : (if b then rouletteStep d.u st else .ok (st.1, randomPass d.hit 0 st.2)) = .ok st') :
    st'.2.Sublist st.2 ∧ st.2.length ≤ st'.2.length + 1 := by
  split at h
  · exact step_roulette_shrinks hm h
  · simp only [Out.ok.injEq] at h
    subst h
    obtain ⟨h1, h2, -⟩ := randomPass_spec d.hit 0 st.2
    exact ⟨h1, h2⟩

theorem finish_size {s s' : SOState γ} {old : γ} {E : List (Cell γ × α)} (hd : DistinctNodes s.pop)
    (hold : deref s.pop s.best = .ok old) (hE : (E.map (·.1)).Subperm s.pop)
    (h : finish o fit s E (fit old) = .ok s') :
    SelectSpec o fit s s' ∧ s'.pop.length + E.length = s.pop.length := by
  obtain ⟨h1, h2⟩ := finish_spec hd hold h
  exact ⟨h1, by rw [h2]; exact applyErasement_length hd hE⟩

theorem finish_total {s : SOState γ} (prev : α) {E : List (Cell γ × α)} (hd : DistinctNodes s.pop)
    (hE : (E.map (·.1)).Subperm s.pop) (hlt : E.length < s.pop.length) :
    ∃ s', finish o fit s E prev = .ok s' := by
  apply finish_ok
  intro h0
  have := applyErasement_length hd hE
  rw [h0] at this
  simp at this
  omega

theorem byWeights_spec {ds : Nat → RouletteDraw α} {fuel K : Nat} {s s' : SOState γ} {old : γ} {rMax : α}
    {es : List (Cell γ × α)} (hd : DistinctNodes s.pop) (hold : deref s.pop s.best = .ok old)
    (hK : K < s.pop.length) (hp : (es.map (·.1)).Perm s.pop)
    (h : selectByWeights o fit ds fuel K s old rMax es = .ok s') :
    SelectSpec o fit s s' ∧ s'.pop.length = K := by
  unfold selectByWeights at h
  rw [Out.bind_eq_ok] at h
  obtain ⟨E, hE, h⟩ := h
  obtain ⟨h1, h2, -⟩ := elimLoop_ok (fun it st st' hm hs => step_roulette_shrinks hm hs) hE
  have hl : es.length = s.pop.length := by rw [← hp.length_eq, List.length_map]
  obtain ⟨h3, h4⟩ := finish_size o fit hd hold (sub_of_perm hp h1) h
  have := h2 (by simp [hl])
  exact ⟨h3, by omega⟩

theorem byWeights_total {ds : Nat → RouletteDraw α} {fuel K : Nat} {s : SOState γ} {old : γ} {rMax : α}
    {es : List (Cell γ × α)} (hd : DistinctNodes s.pop) (hK : K < s.pop.length) (hK0 : 0 < K)
    (hp : (es.map (·.1)).Perm s.pop) (hf : K ≤ fuel) :
    ∃ s', selectByWeights o fit ds fuel K s old rMax es = .ok s' := by
  have hl : es.length = s.pop.length := by rw [← hp.length_eq, List.length_map]
  obtain ⟨E, hE⟩ := elimLoop_finishes (eliminateNum := s.pop.length - K)
    (step := fun it st => rouletteStep (ds it).u st)
    (fun it st hm => by
      obtain ⟨st', h1, -, h3, -⟩ := rouletteStep_spec (ds it).u st (by intro h0; simp [h0] at hm)
      exact ⟨st', h1, h3⟩) fuel 0 (rMax, es) (by simp only [hl]; omega)
  obtain ⟨h1, h2, -⟩ := elimLoop_ok (fun it st st' hm hs => step_roulette_shrinks hm hs) hE
  have := h2 (by simp [hl])
  obtain ⟨s', hs'⟩ := finish_total o fit (fit old) hd (sub_of_perm hp h1) (by omega)
  exact ⟨s', by unfold selectByWeights; rw [hE]; exact hs'⟩

theorem byWeights_no_ub {ds : Nat → RouletteDraw α} {fuel K : Nat} {s : SOState γ} {old : γ} {rMax : α}
    {es : List (Cell γ × α)} (hd : DistinctNodes s.pop) (hK : K < s.pop.length) (hK0 : 0 < K)
    (hp : (es.map (·.1)).Perm s.pop) :
    selectByWeights o fit ds fuel K s old rMax es ≠ .ub := by
  have hl : es.length = s.pop.length := by rw [← hp.length_eq, List.length_map]
  unfold selectByWeights
  cases hE : elimLoop (s.pop.length - K) (fun it st => rouletteStep (ds it).u st) fuel 0 (rMax, es) with
  | timeout => simp
  | ub =>
    refine absurd hE (elimLoop_no_ub (fun it st hm => ?_) _ _ _)
    obtain ⟨st', h1, -⟩ := rouletteStep_spec (ds it).u st (by intro h0; simp [h0] at hm)
    exact ⟨st', h1⟩
  | ok E =>
    obtain ⟨h1, h2, -⟩ := elimLoop_ok (fun it st st' hm hs => step_roulette_shrinks hm hs) hE
    have := h2 (by simp [hl])
    obtain ⟨s', hs'⟩ := finish_total o fit (fit old) hd (sub_of_perm hp h1) (by omega)
    simp [hs']

theorem shiftedSpace_map (l : List (Cell γ)) : (shiftedSpace o fit l).2.map (·.1) = l := by
  simp [shiftedSpace, List.map_map, Function.comp_def]

/-! ### roulette wheel -/

theorem roulette_spec {ds : Nat → RouletteDraw α} {fuel K : Nat} {s s' : SOState γ}
    (hd : DistinctNodes s.pop) (h : selectRoulette o fit ds fuel K s = .ok s') :
    SelectSpec o fit s s' ∧ s'.pop.length = min K s.pop.length := by
  unfold selectRoulette at h
  rw [Out.bind_eq_ok] at h
  obtain ⟨old, hold, h⟩ := h
  split at h
  · obtain ⟨h1, h2⟩ := keepAll_spec hd hold h
    exact ⟨h1, by rw [h2]; omega⟩
  · rw [Out.bind_eq_ok] at h
    obtain ⟨E, hE, h⟩ := h
    obtain ⟨h1, h2, -⟩ := elimLoop_ok (fun it st st' hm hs => step_mixed_shrinks hm hs) hE
    have hp := shiftedSpace_map o fit s.pop
    have hl : (shiftedSpace o fit s.pop).2.length = s.pop.length := by
      rw [← List.length_map (f := (·.1)), hp]
    obtain ⟨h3, h4⟩ := finish_size o fit hd hold (sub_of_perm (by rw [hp]) h1) h
    have := h2 (by rw [hl]; omega)
    exact ⟨h3, by omega⟩

theorem roulette_total {ds : Nat → RouletteDraw α} {fuel K : Nat} {s : SOState γ}
    (hd : DistinctNodes s.pop) (hold : s.best ∈ s.pop.map (·.1)) (hK0 : 0 < K) (hf : K ≤ fuel)
    (hhit : ∀ it, ∃ j, j ≤ s.pop.length - K ∧ (ds it).hit j = true) :
    ∃ s', selectRoulette o fit ds fuel K s = .ok s' := by
  obtain ⟨c, hc, hcb⟩ := List.mem_map.1 hold
  have hold := deref_of_mem hd hc
  rw [hcb] at hold
  unfold selectRoulette
  rw [hold]
  simp only [Out.ok_bind]
  split
  · exact keepAll_ok o fit _ (by intro h0; rw [h0] at hc; simp at hc)
  · have hp := shiftedSpace_map o fit s.pop
    have hl : (shiftedSpace o fit s.pop).2.length = s.pop.length := by
      rw [← List.length_map (f := (·.1)), hp]
    obtain ⟨E, hE⟩ := elimLoop_finishes (eliminateNum := s.pop.length - K)
      (step := fun it st => if st.1 > 0 then rouletteStep (ds it).u st
        else .ok (st.1, randomPass (ds it).hit 0 st.2))
      (fun it st hm => by
        split
        · obtain ⟨st', h1, -, h3, -⟩ := rouletteStep_spec (ds it).u st (by intro h0; simp [h0] at hm)
          exact ⟨st', h1, h3⟩
        · obtain ⟨j, hj, hjh⟩ := hhit it
          refine ⟨_, rfl, ?_⟩
          exact (randomPass_spec (ds it).hit 0 st.2).2.2 ⟨j, by omega, by simpa using hjh⟩)
      fuel 0 (shiftedSpace o fit s.pop) (by rw [hl]; omega)
    obtain ⟨h1, h2, -⟩ := elimLoop_ok (fun it st st' hm hs => step_mixed_shrinks hm hs) hE
    have := h2 (by rw [hl]; omega)
    obtain ⟨s', hs'⟩ := finish_total o fit (fit c.2) hd (sub_of_perm (by rw [hp]) h1) (by omega)
    exact ⟨s', by rw [hE]; exact hs'⟩

theorem roulette_no_ub {ds : Nat → RouletteDraw α} {fuel K : Nat} {s : SOState γ}
    (hd : DistinctNodes s.pop) (hold : s.best ∈ s.pop.map (·.1)) (hK0 : 0 < K) :
    selectRoulette o fit ds fuel K s ≠ .ub := by
  obtain ⟨c, hc, hcb⟩ := List.mem_map.1 hold
  have hold := deref_of_mem hd hc
  rw [hcb] at hold
  unfold selectRoulette
  rw [hold]
  simp only [Out.ok_bind]
  split
  · obtain ⟨s', hs'⟩ := keepAll_ok o fit (s := s) (fit c.2) (by intro h0; rw [h0] at hc; simp at hc)
    simp [hs']
  · have hp := shiftedSpace_map o fit s.pop
    have hl : (shiftedSpace o fit s.pop).2.length = s.pop.length := by
      rw [← List.length_map (f := (·.1)), hp]
    cases hE : elimLoop (s.pop.length - K)
      (fun it st => if st.1 > 0 then rouletteStep (ds it).u st
        else .ok (st.1, randomPass (ds it).hit 0 st.2)) fuel 0 (shiftedSpace o fit s.pop) with
    | timeout => simp
    | ub =>
      refine absurd hE (elimLoop_no_ub (fun it st hm => ?_) _ _ _)
      split
      · obtain ⟨st', h1, -⟩ := rouletteStep_spec (ds it).u st (by intro h0; simp [h0] at hm)
        exact ⟨st', h1⟩
      · exact ⟨_, rfl⟩
    | ok E =>
      obtain ⟨h1, h2, -⟩ := elimLoop_ok (fun it st st' hm hs => step_mixed_shrinks hm hs) hE
      have := h2 (by rw [hl]; omega)
      obtain ⟨s', hs'⟩ := finish_total o fit (fit c.2) hd (sub_of_perm (by rw [hp]) h1) (by omega)
      simp [hs']

/-! ### the four weighted methods share this shape -/

/-- `keepAll` when small, otherwise a roulette over weights for all members. -/
theorem weighted_shape {ds : Nat → RouletteDraw α} {fuel K : Nat} {s : SOState γ} {rMax : γ → α}
    {es : γ → List (Cell γ × α)} (hp : ∀ old, ((es old).map (·.1)).Perm s.pop)
    (hd : DistinctNodes s.pop) :
    let sel : Out (SOState γ) := deref s.pop s.best >>= fun old =>
      if s.pop.length ≤ K then keepAll o fit s (fit old)
      else selectByWeights o fit ds fuel K s old (rMax old) (es old)
    (∀ s', sel = .ok s' → SelectSpec o fit s s' ∧ s'.pop.length = min K s.pop.length) ∧
    (s.best ∈ s.pop.map (·.1) → 0 < K → K ≤ fuel → ∃ s', sel = .ok s') ∧
    (s.best ∈ s.pop.map (·.1) → 0 < K → sel ≠ .ub) := by
  intro sel
  refine ⟨?_, ?_, ?_⟩
  · intro s' h
    simp only [sel, Out.bind_eq_ok] at h
    obtain ⟨old, hold, h⟩ := h
    split at h
    · obtain ⟨h1, h2⟩ := keepAll_spec hd hold h
      exact ⟨h1, by rw [h2]; omega⟩
    · obtain ⟨h1, h2⟩ := byWeights_spec o fit hd hold (by omega) (hp old) h
      exact ⟨h1, by omega⟩
  · intro hb hK0 hf
    obtain ⟨c, hc, hcb⟩ := List.mem_map.1 hb
    have hold := deref_of_mem hd hc
    rw [hcb] at hold
    simp only [sel, hold, Out.ok_bind]
    split
    · exact keepAll_ok o fit _ (by intro h0; rw [h0] at hc; simp at hc)
    · exact byWeights_total o fit hd (by omega) hK0 (hp _) hf
  · intro hb hK0
    obtain ⟨c, hc, hcb⟩ := List.mem_map.1 hb
    have hold := deref_of_mem hd hc
    rw [hcb] at hold
    simp only [sel, hold, Out.ok_bind]
    split
    · obtain ⟨s', hs'⟩ := keepAll_ok o fit (s := s) (fit c.2) (by intro h0; rw [h0] at hc; simp at hc)
      simp [hs']
    · exact byWeights_no_ub o fit hd (by omega) hK0 (hp _)

/-! ### Monte Carlo -/

theorem montecarlo_spec {shuffle : List (Cell γ) → List (Cell γ)} (hsh : ∀ l, (shuffle l).Perm l)
    {K : Nat} {s s' : SOState γ} (hd : DistinctNodes s.pop)
    (h : selectMonteCarlo o fit shuffle K s = .ok s') :
    SelectSpec o fit s s' ∧ s'.pop.length = min K s.pop.length := by
  unfold selectMonteCarlo at h
  rw [Out.bind_eq_ok] at h
  obtain ⟨old, hold, h⟩ := h
  split at h
  · obtain ⟨h1, h2⟩ := keepAll_spec hd hold h
    exact ⟨h1, by rw [h2]; omega⟩
  · obtain ⟨h1, h2⟩ := finish_size o fit hd hold (by
      rw [List.map_map]
      show (((shuffle s.pop).take _).map (fun c => c)).Subperm _
      rw [List.map_id']
      exact (List.take_sublist _ _).subperm.trans (hsh _).subperm) h
    have hl : (shuffle s.pop).length = s.pop.length := (hsh _).length_eq
    simp only [List.length_map, List.length_take, hl] at h2
    exact ⟨h1, by omega⟩

theorem montecarlo_total {shuffle : List (Cell γ) → List (Cell γ)} (hsh : ∀ l, (shuffle l).Perm l)
    {K : Nat} {s : SOState γ} (hd : DistinctNodes s.pop) (hb : s.best ∈ s.pop.map (·.1)) (hK0 : 0 < K) :
    ∃ s', selectMonteCarlo o fit shuffle K s = .ok s' := by
  obtain ⟨c, hc, hcb⟩ := List.mem_map.1 hb
  have hold := deref_of_mem hd hc
  rw [hcb] at hold
  unfold selectMonteCarlo
  simp only [hold, Out.ok_bind]
  split
  · exact keepAll_ok o fit _ (by intro h0; rw [h0] at hc; simp at hc)
  · have hl : (shuffle s.pop).length = s.pop.length := (hsh _).length_eq
    apply finish_total o fit (fit c.2) hd
    · rw [List.map_map]
      show (((shuffle s.pop).take _).map (fun c => c)).Subperm _
      rw [List.map_id']
      exact (List.take_sublist _ _).subperm.trans (hsh _).subperm
    · simp only [List.length_map, List.length_take, hl]; omega

end weights

end Heu
