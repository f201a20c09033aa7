import Verif.Model.MORunFl
import Verif.Spec.MORunFl
import Verif.Lemmas.MORun
import Verif.Props.MORun

/-! Whole multi-objective runs for any dominance relation; used for `double`s. -/

set_option linter.unusedSectionVars false
set_option linter.unusedVariables false
set_option linter.unusedSimpArgs false

namespace Heu
open Spec

section
variable {V α : Type} {m : Nat} [Zero α]

/-- What both multi-objective selections guarantee on at least `K` candidates. -/
def GoodSelectionG (D : (Fin m → α) → (Fin m → α) → Prop) (Q : (Fin m → α) → Prop) (K : Nat)
    (sel : (Addr → Fin m → α) → List Addr → Out (SelectResult Addr)) : Prop :=
  ∀ fit pop, pop.Nodup → pop ≠ [] → K ≤ pop.length → (∀ a ∈ pop, Q (fit a)) →
    ∃ r, sel fit pop = .ok r ∧ r.population.length = K ∧ r.population.Sublist pop ∧
      (∀ s ∈ r.population, ∀ x ∈ pop, D (fit x) (fit s) → x ∈ r.population) ∧
      (∀ g ∈ r.pf, g ∈ r.population ∧ NonDominatedBy D fit pop g) ∧
      (∀ nd : List Addr, nd.Nodup → (∀ g, g ∈ nd ↔ g ∈ pop ∧ NonDominatedBy D fit pop g) →
        (nd.length ≤ K → r.pf = nd.toFinset) ∧ (K < nd.length → r.pf = r.population.toFinset))

theorem fitAt_of_memG {pop : Pop (Gene V (Fin m → α))} (hd : DistinctNodes pop)
    {c : Cell (Gene V (Fin m → α))} (hc : c ∈ pop) : fitAt pop c.1 = c.2.fitness := by
  have h := deref_of_mem hd hc
  unfold deref at h
  unfold fitAt
  split at h
  · next d hd' => rw [hd']; simp only [Out.ok.injEq] at h; rw [← h]
  · cases h

/-- Everybody is evaluated, correctly. -/
def MOEvaluatedG (f : V → Fin m → α) (pop : Pop (Gene V (Fin m → α))) : Prop :=
  ∀ c ∈ pop, c.2.computed = true ∧ c.2.fitness = f c.2.var

/-- What one selection does, in terms of individuals. -/
structure MOStepG (D : (Fin m → α) → (Fin m → α) → Prop) (K : Nat) (f : V → Fin m → α) (s t : MOState V m α) : Prop where
  sub : t.pop.Sublist s.pop
  size : t.pop.length = K
  fail : t.fail = s.fail
  elitism : ∀ x ∈ s.pop, ∀ y ∈ t.pop, D (f x.2.var) (f y.2.var) → x ∈ t.pop
  front : ∀ a, a ∈ t.pf ↔ ∃ c ∈ t.pop, c.1 = a ∧ ∀ d ∈ t.pop, ¬ D (f d.2.var) (f c.2.var)
  complete : t.pf.card < K → ∀ c ∈ s.pop, (∀ d ∈ s.pop, ¬ D (f d.2.var) (f c.2.var)) →
    c ∈ t.pop ∧ c.1 ∈ t.pf

theorem moSelect_stepG {D : (Fin m → α) → (Fin m → α) → Prop} {Q : (Fin m → α) → Prop} {K : Nat} (hK : 1 ≤ K) {f : V → Fin m → α} (hQ : ∀ x, Q (f x))
    {sel : (Addr → Fin m → α) → List Addr → Out (SelectResult Addr)} (hg : GoodSelectionG D Q K sel)
    (s : MOState V m α) (hd : DistinctNodes s.pop) (hev : MOEvaluatedG f s.pop) (hlen : K ≤ s.pop.length) :
    ∃ t, moSelect sel s = .ok t ∧ MOStepG D K f s t := by
  have hne : s.pop.map (·.1) ≠ [] := by
    intro h
    have : s.pop.length = 0 := by simpa using congrArg List.length h
    omega
  have hd' : (s.pop.map (·.1)).Nodup := hd
  have hfit : ∀ c ∈ s.pop, fitAt s.pop c.1 = f c.2.var := fun c hc =>
    (fitAt_of_memG hd hc).trans (hev c hc).2
  obtain ⟨r, hr, h1, h2, h3, h4, h5⟩ := hg (fitAt s.pop) _ hd' hne (by simpa using hlen) (by
    intro a ha
    obtain ⟨c, hc, rfl⟩ := List.mem_map.1 ha
    rw [hfit c hc]; exact hQ _)
  have hmap : (s.pop.filter (fun c => c.1 ∈ r.population)).map (·.1) = r.population := by
    have := filter_sublist_eq hd h2
    rw [List.filter_map] at this
    exact this
  have hmem : ∀ c, c ∈ s.pop.filter (fun c => c.1 ∈ r.population) ↔ c ∈ s.pop ∧ c.1 ∈ r.population := by
    intro c; simp [List.mem_filter]
  have hrm : ∀ a ∈ r.population, ∃ c ∈ s.pop, c.1 = a := fun a ha => List.mem_map.1 (h2.subset ha)
  have hnd : ∀ c ∈ s.pop, (NonDominatedBy D (fitAt s.pop) (s.pop.map (·.1)) c.1 ↔
      ∀ d ∈ s.pop, ¬ D (f d.2.var) (f c.2.var)) := by
    intro c hc
    constructor
    · intro h d hdm
      have := h d.1 (List.mem_map_of_mem hdm)
      rwa [hfit d hdm, hfit c hc] at this
    · intro h y hy
      obtain ⟨d, hdm, rfl⟩ := List.mem_map.1 hy
      rw [hfit d hdm, hfit c hc]; exact h d hdm
  refine ⟨{ s with pop := s.pop.filter (fun c => c.1 ∈ r.population), pf := r.pf }, ?_, ?_⟩
  · unfold moSelect; rw [hr]; rfl
  have hel : ∀ x ∈ s.pop, ∀ y ∈ s.pop.filter (fun c => c.1 ∈ r.population),
      D (f x.2.var) (f y.2.var) → x ∈ s.pop.filter (fun c => c.1 ∈ r.population) := by
    intro x hx y hy hdom
    obtain ⟨hy1, hy2⟩ := (hmem y).1 hy
    refine (hmem x).2 ⟨hx, h3 y.1 hy2 x.1 (List.mem_map_of_mem hx) ?_⟩
    rw [hfit x hx, hfit y hy1]; exact hdom
  classical
  obtain ⟨nd, hndef⟩ : ∃ nd, nd = (s.pop.map (·.1)).filter
      (fun g => decide (NonDominatedBy D (fitAt s.pop) (s.pop.map (·.1)) g)) := ⟨_, rfl⟩
  have hndm : ∀ g, g ∈ nd ↔ g ∈ s.pop.map (·.1) ∧ NonDominatedBy D (fitAt s.pop) (s.pop.map (·.1)) g := by
    intro g; rw [hndef, List.mem_filter]; simp
  obtain ⟨h6, h7⟩ := h5 nd (by rw [hndef]; exact List.Nodup.filter _ hd) hndm
  constructor
  · exact List.filter_sublist
  · have := congrArg List.length hmap
    simpa [h1] using this
  · rfl
  · exact hel
  · intro a
    constructor
    · intro ha
      obtain ⟨hp, hn⟩ := h4 a ha
      obtain ⟨c, hc, rfl⟩ := hrm a hp
      exact ⟨c, (hmem c).2 ⟨hc, hp⟩, rfl, fun d hdm => (hnd c hc).1 hn d ((hmem d).1 hdm).1⟩
    · rintro ⟨c, hc, rfl, hcn⟩
      obtain ⟨hc1, hc2⟩ := (hmem c).1 hc
      have hn : NonDominatedBy D (fitAt s.pop) (s.pop.map (·.1)) c.1 := by
        rw [hnd c hc1]
        intro d hdm hdom
        exact hcn d (hel d hdm c hc hdom) hdom
      rcases le_or_gt nd.length K with h | h
      · rw [h6 h, List.mem_toFinset, hndm]; exact ⟨List.mem_map_of_mem hc1, hn⟩
      · rw [h7 h, List.mem_toFinset]; exact hc2
  · intro hcard c hc hcn
    have hle : nd.length ≤ K := by
      by_contra hcon
      have := h7 (by omega)
      dsimp only at hcard
      rw [this, List.card_toFinset, List.Nodup.dedup (List.Nodup.sublist h2 hd), h1] at hcard
      omega
    have hin : c.1 ∈ r.pf := by
      rw [h6 hle, List.mem_toFinset, hndm]; exact ⟨List.mem_map_of_mem hc, (hnd c hc).2 hcn⟩
    exact ⟨(hmem c).2 ⟨hc, (h4 _ hin).1⟩, hin⟩

variable (D : (Fin m → α) → (Fin m → α) → Prop) (Q : (Fin m → α) → Prop) (best : List (Fin m → α) → Out (Fin m → α)) (f : V → Fin m → α) (K : Nat)
variable (sel : Nat → (Addr → Fin m → α) → List Addr → Out (SelectResult Addr))
variable (v : Nat → MOVary V m α)

/-- A legitimate starting point. -/
structure MOReadyG (K : Nat) (f : V → Fin m → α) (s : MOState V m α) : Prop where
  distinct : DistinctNodes s.pop
  cache : CacheCorrect f s.pop
  enough : K ≤ s.pop.length

theorem moReady_initG (init : Nat → V) (junk : Fin m → α) : MOReadyG K f (moInit K init junk) := by
  refine ⟨?_, ?_, ?_⟩
  · unfold DistinctNodes moInit initializePop
    rw [List.map_map]
    have : ((fun x : Cell (Gene V (Fin m → α)) => x.1) ∘ fun i =>
      ((i, { var := init i, fitness := junk, computed := false }) : Cell (Gene V (Fin m → α)))) = id := rfl
    rw [this, List.map_id]
    exact List.nodup_range
  · intro c hc hcomp
    simp only [moInit, initializePop, List.mem_map] at hc
    obtain ⟨i, -, rfl⟩ := hc
    simp at hcomp
  · simp [moInit, initializePop]

theorem moReady_computeG {s : MOState V m α} (h : MOReadyG K f s) :
    let s' := (moSolverBy best f sel v).computeAllFitness s
    MOReadyG K f s' ∧ MOEvaluatedG f s'.pop ∧ s'.fail = s.fail := by
  intro s'
  have h1 := (evaluation_complete f s.pop h.cache).1
  refine ⟨⟨?_, fun c hc _ => (h1 c hc).2, ?_⟩, h1, rfl⟩
  · show DistinctNodes (computeAllFitness f s.pop)
    unfold DistinctNodes; rw [distinct_computeAllFitness]; exact h.distinct
  · show K ≤ (computeAllFitness f s.pop).length
    simpa [computeAllFitness] using h.enough

theorem mo_varyG (g : Nat) (t : MOState V m α) :
    let t' := (moSolverBy best f sel v).mutate g ((moSolverBy best f sel v).crossover g t)
    (∃ k, Appends t.pop t'.pop k) ∧ t'.fail = t.fail :=
  ⟨⟨_, (crossoverLoop_appends _ _ _ _ _).trans (mutate_fold_appends _ _ _ _)⟩, rfl⟩

theorem mo_nextG {t : MOState V m α} {g : Nat} (h : MOReadyG K f t) (ha : MOEvaluatedG f t.pop) :
    let S := moSolverBy best f sel v
    let s1 := S.mutate g (S.crossover g t)
    MOReadyG K f s1 ∧ s1.fail = t.fail ∧ ∀ c ∈ t.pop, c ∈ (S.computeAllFitness s1).pop := by
  intro S s1
  obtain ⟨⟨k, hk⟩, hf⟩ := mo_varyG best f sel v g t
  have hr : MOReadyG K f s1 := by
    refine ⟨hk.distinct h.distinct, cacheCorrect_appends hk h.cache, ?_⟩
    obtain ⟨⟨new, hnew, -⟩, -⟩ := hk
    have := h.enough
    have e : s1.pop.length = t.pop.length + new.length := by
      show s1.pop.length = _
      rw [show s1.pop = _ from hnew, List.length_append]
    omega
  refine ⟨hr, hf, ?_⟩
  intro c hc
  obtain ⟨⟨new, hnew, -⟩, -⟩ := hk
  refine List.mem_map.2 ⟨c, ?_, ?_⟩
  · show c ∈ s1.pop
    rw [show s1.pop = _ from hnew]; exact List.mem_append_left _ hc
  · simp [evalGene, (ha c hc).1]

theorem moStep_readyG {s t : MOState V m α} (h : MOReadyG K f s) (ha : MOEvaluatedG f s.pop)
    (hs : MOStepG D K f s t) : MOReadyG K f t ∧ MOEvaluatedG f t.pop := by
  have hm : ∀ c ∈ t.pop, c ∈ s.pop := fun c hc => hs.sub.subset hc
  refine ⟨⟨?_, fun c hc _ => (ha c (hm c hc)).2, hs.size.ge⟩, fun c hc => ha c (hm c hc)⟩
  exact List.Nodup.sublist (hs.sub.map _) h.distinct

/-- Every selection of the run is a good one. -/
theorem mo_afterG (hQ : ∀ x, Q (f x)) (hbest : ∀ l, l ≠ [] → ∃ b, best l = .ok b)
    (hK : 1 ≤ K) (hg : ∀ g, GoodSelectionG D Q K (sel g)) {s : MOState V m α}
    (h : MOReadyG K f s) (i : Nat) :
    ∃ t c, stateAfter (moSolverBy best f sel v) s i = .ok t ∧ candidatesAt (moSolverBy best f sel v) s i = .ok c ∧
      MOReadyG K f c ∧ MOEvaluatedG f c.pop ∧ c.fail = 0 ∧ MOStepG D K f c t ∧
      (∀ j, i = j + 1 → ∀ t', stateAfter (moSolverBy best f sel v) s j = .ok t' → ∀ x ∈ t'.pop, x ∈ c.pop) := by
  induction i with
  | zero =>
    obtain ⟨h1, h2, h3⟩ := moReady_computeG best f K sel v
      (s := (moSolverBy best f sel v).resetFailTimes s) ⟨h.distinct, h.cache, h.enough⟩
    obtain ⟨t, ht, hst⟩ := moSelect_stepG hK hQ (hg 1) _ h1.distinct h2 h1.enough
    exact ⟨t, _, ht, rfl, h1, h2, h3, hst, by simp⟩
  | succ i ih =>
    obtain ⟨t, c, ht, -, hc1, hc2, hc3, hst, -⟩ := ih
    obtain ⟨ht1, ht2⟩ := moStep_readyG D f K hc1 hc2 hst
    obtain ⟨n1, n2, n3⟩ := mo_nextG best f K sel v (g := i + 1) ht1 ht2
    obtain ⟨h1, h2, h3⟩ := moReady_computeG best f K sel v n1
    obtain ⟨t', ht', hst'⟩ := moSelect_stepG hK hQ (hg (i + 2)) _ h1.distinct h2 h1.enough
    refine ⟨t', _, ?_, ?_, h1, h2, ?_, hst', ?_⟩
    · simp only [stateAfter, ht, Out.ok_bind]; exact ht'
    · simp only [candidatesAt, ht, Out.ok_bind]
    · rw [h3, n2, hst.fail, hc3]
    · intro j hj t'' ht''
      obtain rfl : i = j := by omega
      rw [ht] at ht''
      cases ht''
      exact n3

theorem mo_run_totalG (hQ : ∀ x, Q (f x)) (hbest : ∀ l, l ≠ [] → ∃ b, best l = .ok b)
    (hK : 1 ≤ K) (hg : ∀ g, GoodSelectionG D Q K (sel g)) {s : MOState V m α}
    (h : MOReadyG K f s) (maxGen maxFail : Nat) :
    ∃ r, gaRun (moSolverBy best f sel v) maxGen maxFail (maxGen + 1) s = .ok r := by
  unfold gaRun
  refine gaLoop_total (I := MOReadyG K f) _ ?_ (by omega) (by omega) ⟨h.distinct, h.cache, h.enough⟩
  intro g s hs
  obtain ⟨h1, h2, h3⟩ := moReady_computeG best f K sel v hs
  obtain ⟨t, ht, hst⟩ := moSelect_stepG hK hQ (hg (g + 1)) _ h1.distinct h2 h1.enough
  obtain ⟨t1, t2⟩ := moStep_readyG D f K h1 h2 hst
  refine ⟨t, ht, ?_, (mo_nextG best f K sel v t1 t2).1⟩
  have hne : (t.pop.map fun c => c.2.fitness) ≠ [] := by
    intro h
    have : t.pop.length = 0 := by simpa using congrArg List.length h
    have := hst.size
    omega
  exact hbest _ hne

theorem mo_generationG (hQ : ∀ x, Q (f x)) (hbest : ∀ l, l ≠ [] → ∃ b, best l = .ok b)
    (hK : 1 ≤ K) (hg : ∀ g, GoodSelectionG D Q K (sel g)) {s : MOState V m α}
    (h : MOReadyG K f s) (maxGen maxFail fuel : Nat) (r : RunResult (MOState V m α) (Fin m → α))
    (hr : gaRun (moSolverBy best f sel v) maxGen maxFail fuel s = .ok r) : r.generation = maxGen := by
  obtain ⟨h1, h2, -, -⟩ := run_stops _ maxGen maxFail fuel s r hr
  obtain ⟨-, h3, -⟩ := run_record _ maxGen maxFail fuel s r hr
  obtain ⟨t, c, ht, -, -, -, hc, hst, -⟩ := mo_afterG D Q best f K sel v hQ hbest hK hg h r.generation
  rw [h3] at ht
  cases ht
  by_contra hne
  have := (h2 (by omega)).2
  have h0 : (moSolverBy best f sel v).failTimes r.state = 0 := hst.fail.trans hc
  omega

open Classical in
theorem paretoFront_isFrontG {s t : MOState V m α} (hst : MOStepG D K f s t)
    (hd : DistinctNodes t.pop) (hev : MOEvaluatedG f t.pop) (order : Finset Addr → List Addr)
    (hord : ∀ S, (order S).Nodup ∧ ∀ a, a ∈ order S ↔ a ∈ S) :
    ∃ front, paretoFront order t = .ok front ∧ IsFrontBy D f (t.pop.map fun c => c.2.var) front := by
  have hfit : ∀ a ∈ order t.pf, (deref t.pop a >>= fun g => Out.ok g.fitness) = .ok (fitAt t.pop a) := by
    intro a ha
    rw [(hord _).2, hst.front] at ha
    obtain ⟨c, hc, rfl, -⟩ := ha
    rw [deref_of_mem hd hc, Out.ok_bind, fitAt_of_memG hd hc]
  refine ⟨(order t.pf).map (fitAt t.pop), ?_, ?_⟩
  · unfold paretoFront
    revert hfit
    generalize order t.pf = l
    intro hfit
    induction l with
    | nil => rfl
    | cons a l ih =>
      rw [List.mapM_cons, hfit a (by simp), Out.ok_bind, ih (fun x hx => hfit x (by simp [hx]))]
      rfl
  · unfold IsFrontBy
    obtain ⟨nd, hnd⟩ : ∃ nd, nd = t.pop.filter fun c =>
      decide (∀ z ∈ t.pop, ¬ D (f z.2.var) (f c.2.var)) := ⟨_, rfl⟩
    suffices hs : ((order t.pf).map (fitAt t.pop)).Perm ((nd.map fun c => c.2.var).map f) by
      convert hs using 2
      rw [hnd, List.filter_map]
      congr 1
      apply List.filter_congr
      intro c _
      simp only [Function.comp, List.forall_mem_map]
    rw [List.map_map]
    have e2 : nd.map (f ∘ fun c => c.2.var) = (nd.map (·.1)).map (fitAt t.pop) := by
      rw [List.map_map]
      apply List.map_congr_left
      intro c hc
      have hc' : c ∈ t.pop := by rw [hnd] at hc; exact (List.mem_filter.1 hc).1
      show f c.2.var = fitAt t.pop c.1
      rw [fitAt_of_memG hd hc', (hev c hc').2]
    rw [e2]
    apply List.Perm.map
    apply (List.perm_ext_iff_of_nodup (hord _).1 ?_).2
    · intro a
      rw [(hord _).2, hst.front, hnd]
      simp only [List.mem_map, List.mem_filter, decide_eq_true_eq]
      constructor
      · rintro ⟨c, h1, h2, h3⟩; exact ⟨c, ⟨h1, h3⟩, h2⟩
      · rintro ⟨c, ⟨h1, h3⟩, h2⟩; exact ⟨c, h1, h2, h3⟩
    · rw [hnd]; exact List.Nodup.sublist (List.filter_sublist.map _) hd

/-- What is true at the end of every multi-objective run. -/
theorem mo_runG (hQ : ∀ x, Q (f x)) (hbest : ∀ l, l ≠ [] → ∃ b, best l = .ok b)
    (hK : 1 ≤ K) (hg : ∀ g, GoodSelectionG D Q K (sel g)) (s : MOState V m α)
    (h : MOReadyG K f s) (maxGen maxFail : Nat) (order : Finset Addr → List Addr)
    (hord : ∀ S, (order S).Nodup ∧ ∀ a, a ∈ order S ↔ a ∈ S) :
    ∃ r, gaRun (moSolverBy best f sel v) maxGen maxFail (maxGen + 1) s = .ok r ∧
      r.generation = maxGen ∧ r.state.pop.length = K ∧
      (∀ c ∈ r.state.pop, c.2.fitness = f c.2.var) ∧
      (∃ front, paretoFront order r.state = .ok front ∧
        IsFrontBy D f (r.state.pop.map fun c => c.2.var) front) ∧
      ∃ b, r.record.getLast? = some b ∧ best (r.state.pop.map fun c => f c.2.var) = .ok b := by
  obtain ⟨r, hr⟩ := mo_run_totalG D Q best f K sel v hQ hbest hK hg h maxGen maxFail
  obtain ⟨h1, h2, h3⟩ := run_record _ maxGen maxFail _ s r hr
  obtain ⟨t, c, ht, -, hc1, hc2, -, hst, -⟩ := mo_afterG D Q best f K sel v hQ hbest hK hg h r.generation
  rw [h2] at ht
  cases ht
  obtain ⟨t1, t2⟩ := moStep_readyG D f K hc1 hc2 hst
  refine ⟨r, hr, mo_generationG D Q best f K sel v hQ hbest hK hg h _ _ _ r hr, hst.size, fun c hc => (t2 c hc).2,
    paretoFront_isFrontG D f K hst t1.distinct t2 order hord, r.record[r.generation], ?_, ?_⟩
  · have e : r.record.length - 1 = r.generation := by omega
    rw [List.getLast?_eq_getElem?, e, List.getElem?_eq_getElem]
  · obtain ⟨t, ht, hb⟩ := h3 r.generation (by omega)
    rw [h2] at ht
    cases ht
    have e : (r.state.pop.map fun c => f c.2.var) = r.state.pop.map fun c => c.2.fitness :=
      List.map_congr_left fun c hc => ((t2 c hc).2).symm
    rw [e]; exact hb

theorem mo_elitismG (hQ : ∀ x, Q (f x)) (hbest : ∀ l, l ≠ [] → ∃ b, best l = .ok b)
    (hK : 1 ≤ K) (hg : ∀ g, GoodSelectionG D Q K (sel g)) (s : MOState V m α)
    (h : MOReadyG K f s) (i : Nat) (c t : MOState V m α)
    (hc : candidatesAt (moSolverBy best f sel v) s i = .ok c)
    (ht : stateAfter (moSolverBy best f sel v) s i = .ok t) :
    t.pop.length = K ∧ t.pop.Sublist c.pop ∧
    ∀ x ∈ c.pop, ∀ y ∈ t.pop, D (f x.2.var) (f y.2.var) → x ∈ t.pop := by
  obtain ⟨t', c', ht', hc', -, -, -, hst, -⟩ := mo_afterG D Q best f K sel v hQ hbest hK hg h i
  rw [hc] at hc'; cases hc'
  rw [ht] at ht'; cases ht'
  exact ⟨hst.size, hst.sub, hst.elitism⟩

variable (hirr : ∀ A, ¬ D A A) (htr : ∀ A B C, D A B → D B C → D A C)
include hirr htr

open Classical in
/-- In a finite set everybody who is dominated is dominated by a non-dominated one. -/
theorem dominated_by_nondominatedG (F : Cell (Gene V (Fin m → α)) → Fin m → α)
    (l : List (Cell (Gene V (Fin m → α)))) (n : Nat) :
    ∀ x ∈ l, (l.filter fun y => decide (D (F y) (F x))).length ≤ n →
      ∃ y ∈ l, (∀ d ∈ l, ¬ D (F d) (F y)) ∧ (y = x ∨ D (F y) (F x)) := by
  induction n with
  | zero =>
    intro x hx h
    refine ⟨x, hx, ?_, Or.inl rfl⟩
    intro d hd hdom
    have hm : d ∈ l.filter fun y => decide (D (F y) (F x)) := by
      rw [List.mem_filter]; exact ⟨hd, by simpa using hdom⟩
    have := List.length_pos_of_mem hm
    omega
  | succ n ih =>
    intro x hx h
    by_cases hn : ∀ d ∈ l, ¬ D (F d) (F x)
    · exact ⟨x, hx, hn, Or.inl rfl⟩
    · push Not at hn
      obtain ⟨d, hd, hdom⟩ := hn
      have hlt : (l.filter fun y => decide (D (F y) (F d))).length <
          (l.filter fun y => decide (D (F y) (F x))).length := by
        have e : (l.filter fun y => decide (D (F y) (F d))) =
            ((l.filter fun y => decide (D (F y) (F x))).filter
              fun y => decide (D (F y) (F d))) := by
          rw [List.filter_filter]
          apply List.filter_congr
          intro y _
          by_cases hy : D (F y) (F d)
          · simp [hy, htr _ _ _ hy hdom]
          · simp [hy]
        rw [e]
        apply List.length_filter_lt_length_iff_exists.2
        refine ⟨d, ?_, ?_⟩
        · rw [List.mem_filter]; exact ⟨hd, by simpa using hdom⟩
        · simpa using hirr (F d)
      obtain ⟨y, hy, hy1, hy2⟩ := ih d hd (by omega)
      refine ⟨y, hy, hy1, Or.inr ?_⟩
      rcases hy2 with rfl | hy2
      · exact hdom
      · exact htr _ _ _ hy2 hdom

theorem mo_coversG (hQ : ∀ x, Q (f x)) (hbest : ∀ l, l ≠ [] → ∃ b, best l = .ok b)
    (hK : 1 ≤ K) (hg : ∀ g, GoodSelectionG D Q K (sel g)) (s : MOState V m α)
    (h : MOReadyG K f s) (i j : Nat) (hij : i ≤ j)
    (hroom : ∀ k, i ≤ k → k ≤ j → ∀ t, stateAfter (moSolverBy best f sel v) s k = .ok t → t.pf.card < K)
    (c t : MOState V m α) (hc : candidatesAt (moSolverBy best f sel v) s i = .ok c)
    (ht : stateAfter (moSolverBy best f sel v) s j = .ok t) :
    ∀ x ∈ c.pop, ∃ y ∈ t.pop, y.1 ∈ t.pf ∧
      (f y.2.var = f x.2.var ∨ D (f y.2.var) (f x.2.var)) := by
  classical
  induction j, hij using Nat.le_induction generalizing t with
  | base =>
    obtain ⟨t', c', ht', hc', -, -, -, hst, -⟩ := mo_afterG D Q best f K sel v hQ hbest hK hg h i
    rw [hc] at hc'; cases hc'
    rw [ht] at ht'; cases ht'
    intro x hx
    obtain ⟨y, hy, hy1, hy2⟩ := dominated_by_nondominatedG D hirr htr (fun c => f c.2.var) c.pop _ x hx le_rfl
    obtain ⟨hy3, hy4⟩ := hst.complete (hroom i le_rfl le_rfl t ht) y hy hy1
    refine ⟨y, hy3, hy4, ?_⟩
    rcases hy2 with rfl | hy2
    · exact Or.inl rfl
    · exact Or.inr hy2
  | succ j hij ih =>
    obtain ⟨t0, -, ht0, -⟩ := mo_afterG D Q best f K sel v hQ hbest hK hg h j
    obtain ⟨t', c', ht', hc', -, -, -, hst, hnext⟩ := mo_afterG D Q best f K sel v hQ hbest hK hg h (j + 1)
    rw [ht] at ht'; cases ht'
    intro x hx
    obtain ⟨y0, hy0, -, hy0x⟩ := ih (fun k hk hk' => hroom k hk (by omega)) t0 ht0 x hx
    have hy0c := hnext j rfl t0 ht0 y0 hy0
    obtain ⟨y, hy, hy1, hy2⟩ := dominated_by_nondominatedG D hirr htr (fun c => f c.2.var) c'.pop _ y0 hy0c le_rfl
    obtain ⟨hy3, hy4⟩ := hst.complete (hroom (j + 1) (by omega) le_rfl t ht) y hy hy1
    refine ⟨y, hy3, hy4, ?_⟩
    rcases hy2 with rfl | hy2
    · exact hy0x
    · rcases hy0x with e | e
      · rw [← e]; exact Or.inr hy2
      · exact Or.inr (htr _ _ _ hy2 e)


end

end Heu
