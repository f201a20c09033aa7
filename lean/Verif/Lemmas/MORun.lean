import Verif.Model.MORun
import Verif.Props.NSGA
import Verif.Props.Niching
import Verif.Props.RefPoints
import Verif.Props.SOGARun
import Verif.Props.Pareto
import Verif.Spec.MORun

/-! Lemmas about whole runs of the multi-objective solvers. -/

set_option linter.unusedSectionVars false
set_option linter.unusedVariables false
set_option linter.unusedSimpArgs false

namespace Heu
open Spec

section
variable {V α : Type} {m : Nat} [Field α] [LinearOrder α] [IsStrictOrderedRing α]

/-- What both multi-objective selections guarantee on at least `K` candidates. -/
def GoodSelection (o : FitnessOption) (K : Nat)
    (sel : (Addr → Fin m → α) → List Addr → Out (SelectResult Addr)) : Prop :=
  ∀ fit pop, pop.Nodup → pop ≠ [] → K ≤ pop.length →
    ∃ r, sel fit pop = .ok r ∧ r.population.length = K ∧ r.population.Sublist pop ∧
      (∀ s ∈ r.population, ∀ x ∈ pop, Dominates o (fit x) (fit s) → x ∈ r.population) ∧
      (∀ g ∈ r.pf, g ∈ r.population ∧ NonDominated o fit pop g) ∧
      (∀ nd : List Addr, nd.Nodup → (∀ g, g ∈ nd ↔ g ∈ pop ∧ NonDominated o fit pop g) →
        (nd.length ≤ K → r.pf = nd.toFinset) ∧ (K < nd.length → r.pf = r.population.toFinset))

theorem good_nsga2 (o : FitnessOption) (K : Nat) (eps : α) (e : NSGA2Env m) :
    GoodSelection o K (fun fit => nsga2Select o K eps fit e.sortD e.sortF e.sortC) := by
  intro fit pop hnd hne hK
  obtain ⟨r, hr, h1, h2⟩ := nsga2_exact_size o K eps fit e.sortD e.sortF e.sortC pop hnd hne hK
  obtain ⟨h3, h4⟩ := nsga2_front_sound o K eps fit e.sortD e.sortF e.sortC pop hnd hne hK r hr
  exact ⟨r, hr, h1, h2, nsga2_elitism o K eps fit e.sortD e.sortF e.sortC pop hnd hne hK r hr, h3, h4⟩

/-- The draws and the iteration order of one NSGA-III selection are possible ones. -/
structure NSGA3Env.Legal (e : NSGA3Env α) : Prop where
  order : ∀ S g, g ∈ e.order S ↔ g ∈ S
  draws : ∀ k, (e.ds k).Legal

theorem nsga3Full_eq {G : Type} [DecidableEq G] (K : Nat) (fit : G → Fin m → α)
    (sortD : Sorter G) (tiny : α) (ht : 0 ≤ tiny) (refs : List (Fin m → α)) (hrefs : refs ≠ [])
    (hw : ∀ w ∈ refs, ∃ i, w i ≠ 0)
    (order : Finset G → List G) (hord : ∀ S g, g ∈ order S ↔ g ∈ S)
    (ds : Nat → NicheDraw α G) (fuel : Nat) (pop : List G)
    (hnd : pop.Nodup) (hne : pop ≠ []) (hK : K ≤ pop.length) :
    ∃ closest dist, (∀ g ∈ pop, closest g < refs.length) ∧
      nsga3SelectFull K fit sortD tiny refs order ds fuel pop =
        nsga3Select K fit sortD refs.length closest dist ds fuel pop := by
  obtain ⟨front, ls, sel, need, rest, n, hlay, htake, hsel, hcut, hno, hyes⟩ :=
    takeLayers_counts .lessBetter K fit sortD pop hnd hne hK
  cases hneed : need with
  | false =>
    subst hneed
    refine ⟨fun _ => 0, fun _ => 0, fun _ _ => List.length_pos_of_ne_nil hrefs, ?_⟩
    unfold nsga3SelectFull nsga3Select
    simp only [hlay, htake, Out.ok_bind]
    simp
  | true =>
    subst hneed
    obtain ⟨hlt, Fl, rest', hrest, hFlne⟩ := hyes rfl
    subst hrest
    obtain ⟨closest, dist, nf, hassoc, hnf, hnear⟩ :=
      nsga3Associate_spec tiny ht refs hrefs hw fit order hord sel Fl hFlne
    refine ⟨closest, dist, ?_, ?_⟩
    · intro g _
      obtain ⟨w, hw', _⟩ := hnear g
      exact (List.getElem?_eq_some_iff.1 hw').1
    · unfold nsga3SelectFull nsga3Select
      simp only [hlay, htake, Out.ok_bind, if_true, hassoc]

theorem good_nsga3 (K : Nat) (hK32 : K < 2 ^ 32) (tiny : α) (ht : 0 ≤ tiny) (refs : List (Fin m → α))
    (hrefs : refs ≠ []) (hw : ∀ w ∈ refs, ∃ i, w i ≠ 0) (e : NSGA3Env α) (he : e.Legal)
    (fuel : Nat → Nat) (hfuel : ∀ n, n + refs.length ≤ fuel n) :
    GoodSelection .lessBetter K (fun fit pop =>
      nsga3SelectFull K fit e.sortD tiny refs e.order e.ds (fuel pop.length) pop) := by
  intro fit pop hnd hne hK
  obtain ⟨closest, dist, hcl, heq⟩ := nsga3Full_eq K fit e.sortD tiny ht refs hrefs hw e.order he.order e.ds
    (fuel pop.length) pop hnd hne hK
  obtain ⟨r, hr, h1, h2, h3⟩ := nsga3_exact_size K hK32 fit e.sortD refs.length closest dist e.ds he.draws
    (fuel pop.length) pop hcl (hfuel _) hnd hne hK
  obtain ⟨h4, h5⟩ := nsga3_front_sound K hK32 fit e.sortD refs.length closest dist e.ds he.draws
    (fuel pop.length) pop hcl (hfuel _) hnd hne hK r hr
  exact ⟨r, heq.trans hr, h1, h2, h3, h4, h5⟩

theorem filter_sublist_eq {β : Type} [DecidableEq β] {l p : List β} (hnd : p.Nodup) (h : l.Sublist p) :
    p.filter (· ∈ l) = l := by
  induction h with
  | slnil => simp
  | @cons l p a h ih =>
    rw [List.nodup_cons] at hnd
    rw [List.filter_cons_of_neg (by simpa using fun hm => hnd.1 (h.subset hm)), ih hnd.2]
  | @cons_cons l p a h ih =>
    rw [List.nodup_cons] at hnd
    rw [List.filter_cons_of_pos (by simp)]
    congr 1
    conv_rhs => rw [← ih hnd.2]
    apply List.filter_congr
    intro x hx
    have : x ≠ a := fun hxa => hnd.1 (hxa ▸ hx)
    simp [this]

theorem fitAt_of_mem {pop : Pop (Gene V (Fin m → α))} (hd : DistinctNodes pop)
    {c : Cell (Gene V (Fin m → α))} (hc : c ∈ pop) : fitAt pop c.1 = c.2.fitness := by
  have h := deref_of_mem hd hc
  unfold deref at h
  unfold fitAt
  split at h
  · next d hd' => rw [hd']; simp only [Out.ok.injEq] at h; rw [← h]
  · cases h

/-- Everybody is evaluated, correctly. -/
def MOEvaluated (f : V → Fin m → α) (pop : Pop (Gene V (Fin m → α))) : Prop :=
  ∀ c ∈ pop, c.2.computed = true ∧ c.2.fitness = f c.2.var

/-- What one selection does, in terms of individuals. -/
structure MOStep (o : FitnessOption) (K : Nat) (f : V → Fin m → α) (s t : MOState V m α) : Prop where
  sub : t.pop.Sublist s.pop
  size : t.pop.length = K
  fail : t.fail = s.fail
  elitism : ∀ x ∈ s.pop, ∀ y ∈ t.pop, Dominates o (f x.2.var) (f y.2.var) → x ∈ t.pop
  front : ∀ a, a ∈ t.pf ↔ ∃ c ∈ t.pop, c.1 = a ∧ ∀ d ∈ t.pop, ¬ Dominates o (f d.2.var) (f c.2.var)
  complete : t.pf.card < K → ∀ c ∈ s.pop, (∀ d ∈ s.pop, ¬ Dominates o (f d.2.var) (f c.2.var)) →
    c ∈ t.pop ∧ c.1 ∈ t.pf

theorem moSelect_step {o : FitnessOption} {K : Nat} (hK : 1 ≤ K) {f : V → Fin m → α}
    {sel : (Addr → Fin m → α) → List Addr → Out (SelectResult Addr)} (hg : GoodSelection o K sel)
    (s : MOState V m α) (hd : DistinctNodes s.pop) (hev : MOEvaluated f s.pop) (hlen : K ≤ s.pop.length) :
    ∃ t, moSelect sel s = .ok t ∧ MOStep o K f s t := by
  have hne : s.pop.map (·.1) ≠ [] := by
    intro h
    have : s.pop.length = 0 := by simpa using congrArg List.length h
    omega
  have hd' : (s.pop.map (·.1)).Nodup := hd
  obtain ⟨r, hr, h1, h2, h3, h4, h5⟩ := hg (fitAt s.pop) _ hd' hne (by simpa using hlen)
  have hmap : (s.pop.filter (fun c => c.1 ∈ r.population)).map (·.1) = r.population := by
    have := filter_sublist_eq hd h2
    rw [List.filter_map] at this
    exact this
  have hfit : ∀ c ∈ s.pop, fitAt s.pop c.1 = f c.2.var := fun c hc =>
    (fitAt_of_mem hd hc).trans (hev c hc).2
  have hmem : ∀ c, c ∈ s.pop.filter (fun c => c.1 ∈ r.population) ↔ c ∈ s.pop ∧ c.1 ∈ r.population := by
    intro c; simp [List.mem_filter]
  have hrm : ∀ a ∈ r.population, ∃ c ∈ s.pop, c.1 = a := fun a ha => List.mem_map.1 (h2.subset ha)
  have hnd : ∀ c ∈ s.pop, (NonDominated o (fitAt s.pop) (s.pop.map (·.1)) c.1 ↔
      ∀ d ∈ s.pop, ¬ Dominates o (f d.2.var) (f c.2.var)) := by
    intro c hc
    constructor
    · intro h d hdm
      have := h d.1 (List.mem_map_of_mem hdm)
      rwa [hfit d hdm, hfit c hc] at this
    · intro h y hy
      obtain ⟨d, hdm, rfl⟩ := List.mem_map.1 hy
      rw [hfit d hdm, hfit c hc]; exact h d hdm
  refine ⟨{ s with pop := s.pop.filter (fun c => c.1 ∈ r.population), pf := r.pf }, ?_, ?_⟩
  · unfold moSelect; rw [hr]; rfl
  have hel : ∀ x ∈ s.pop, ∀ y ∈ s.pop.filter (fun c => c.1 ∈ r.population),
      Dominates o (f x.2.var) (f y.2.var) → x ∈ s.pop.filter (fun c => c.1 ∈ r.population) := by
    intro x hx y hy hdom
    obtain ⟨hy1, hy2⟩ := (hmem y).1 hy
    refine (hmem x).2 ⟨hx, h3 y.1 hy2 x.1 (List.mem_map_of_mem hx) ?_⟩
    rw [hfit x hx, hfit y hy1]; exact hdom
  classical
  obtain ⟨nd, hndef⟩ : ∃ nd, nd = (s.pop.map (·.1)).filter
      (fun g => decide (NonDominated o (fitAt s.pop) (s.pop.map (·.1)) g)) := ⟨_, rfl⟩
  have hndm : ∀ g, g ∈ nd ↔ g ∈ s.pop.map (·.1) ∧ NonDominated o (fitAt s.pop) (s.pop.map (·.1)) g := by
    intro g; rw [hndef, List.mem_filter]; simp
  obtain ⟨h6, h7⟩ := h5 nd (by rw [hndef]; exact List.Nodup.filter _ hd) hndm
  constructor
  · exact List.filter_sublist
  · have := congrArg List.length hmap
    simpa [h1] using this
  · rfl
  · exact hel
  · intro a
    constructor
    · intro ha
      obtain ⟨hp, hn⟩ := h4 a ha
      obtain ⟨c, hc, rfl⟩ := hrm a hp
      exact ⟨c, (hmem c).2 ⟨hc, hp⟩, rfl, fun d hdm => (hnd c hc).1 hn d ((hmem d).1 hdm).1⟩
    · rintro ⟨c, hc, rfl, hcn⟩
      obtain ⟨hc1, hc2⟩ := (hmem c).1 hc
      have hn : NonDominated o (fitAt s.pop) (s.pop.map (·.1)) c.1 := by
        rw [hnd c hc1]
        intro d hdm hdom
        exact hcn d (hel d hdm c hc hdom) hdom
      rcases le_or_gt nd.length K with h | h
      · rw [h6 h, List.mem_toFinset, hndm]; exact ⟨List.mem_map_of_mem hc1, hn⟩
      · rw [h7 h, List.mem_toFinset]; exact hc2
  · intro hcard c hc hcn
    have hle : nd.length ≤ K := by
      by_contra hcon
      have := h7 (by omega)
      dsimp only at hcard
      rw [this, List.card_toFinset, List.Nodup.dedup (List.Nodup.sublist h2 hd), h1] at hcard
      omega
    have hin : c.1 ∈ r.pf := by
      rw [h6 hle, List.mem_toFinset, hndm]; exact ⟨List.mem_map_of_mem hc, (hnd c hc).2 hcn⟩
    exact ⟨(hmem c).2 ⟨hc, (h4 _ hin).1⟩, hin⟩

variable (o : FitnessOption) (f : V → Fin m → α) (K : Nat)
variable (sel : Nat → (Addr → Fin m → α) → List Addr → Out (SelectResult Addr))
variable (v : Nat → MOVary V m α)

/-- A legitimate starting point. -/
structure MOReady (K : Nat) (f : V → Fin m → α) (s : MOState V m α) : Prop where
  distinct : DistinctNodes s.pop
  cache : CacheCorrect f s.pop
  enough : K ≤ s.pop.length

theorem moReady_init (init : Nat → V) (junk : Fin m → α) : MOReady K f (moInit K init junk) := by
  refine ⟨?_, ?_, ?_⟩
  · unfold DistinctNodes moInit initializePop
    rw [List.map_map]
    have : ((fun x : Cell (Gene V (Fin m → α)) => x.1) ∘ fun i =>
      ((i, { var := init i, fitness := junk, computed := false }) : Cell (Gene V (Fin m → α)))) = id := rfl
    rw [this, List.map_id]
    exact List.nodup_range
  · intro c hc hcomp
    simp only [moInit, initializePop, List.mem_map] at hc
    obtain ⟨i, -, rfl⟩ := hc
    simp at hcomp
  · simp [moInit, initializePop]

theorem moReady_compute {s : MOState V m α} (h : MOReady K f s) :
    let s' := (moSolver o f sel v).computeAllFitness s
    MOReady K f s' ∧ MOEvaluated f s'.pop ∧ s'.fail = s.fail := by
  intro s'
  have h1 := (evaluation_complete f s.pop h.cache).1
  refine ⟨⟨?_, fun c hc _ => (h1 c hc).2, ?_⟩, h1, rfl⟩
  · show DistinctNodes (computeAllFitness f s.pop)
    unfold DistinctNodes; rw [distinct_computeAllFitness]; exact h.distinct
  · show K ≤ (computeAllFitness f s.pop).length
    simpa [computeAllFitness] using h.enough

theorem mo_vary (g : Nat) (t : MOState V m α) :
    let t' := (moSolver o f sel v).mutate g ((moSolver o f sel v).crossover g t)
    (∃ k, Appends t.pop t'.pop k) ∧ t'.fail = t.fail :=
  ⟨⟨_, (crossoverLoop_appends _ _ _ _ _).trans (mutate_fold_appends _ _ _ _)⟩, rfl⟩

theorem mo_next {t : MOState V m α} {g : Nat} (h : MOReady K f t) (ha : MOEvaluated f t.pop) :
    let S := moSolver o f sel v
    let s1 := S.mutate g (S.crossover g t)
    MOReady K f s1 ∧ s1.fail = t.fail ∧ ∀ c ∈ t.pop, c ∈ (S.computeAllFitness s1).pop := by
  intro S s1
  obtain ⟨⟨k, hk⟩, hf⟩ := mo_vary o f sel v g t
  have hr : MOReady K f s1 := by
    refine ⟨hk.distinct h.distinct, cacheCorrect_appends hk h.cache, ?_⟩
    obtain ⟨⟨new, hnew, -⟩, -⟩ := hk
    have := h.enough
    have e : s1.pop.length = t.pop.length + new.length := by
      show s1.pop.length = _
      rw [show s1.pop = _ from hnew, List.length_append]
    omega
  refine ⟨hr, hf, ?_⟩
  intro c hc
  obtain ⟨⟨new, hnew, -⟩, -⟩ := hk
  refine List.mem_map.2 ⟨c, ?_, ?_⟩
  · show c ∈ s1.pop
    rw [show s1.pop = _ from hnew]; exact List.mem_append_left _ hc
  · simp [evalGene, (ha c hc).1]

theorem moStep_ready {s t : MOState V m α} (h : MOReady K f s) (ha : MOEvaluated f s.pop)
    (hs : MOStep o K f s t) : MOReady K f t ∧ MOEvaluated f t.pop := by
  have hm : ∀ c ∈ t.pop, c ∈ s.pop := fun c hc => hs.sub.subset hc
  refine ⟨⟨?_, fun c hc _ => (ha c (hm c hc)).2, hs.size.ge⟩, fun c hc => ha c (hm c hc)⟩
  exact List.Nodup.sublist (hs.sub.map _) h.distinct

/-- Every selection of the run is a good one. -/
theorem mo_after (hK : 1 ≤ K) (hg : ∀ g, GoodSelection o K (sel g)) {s : MOState V m α}
    (h : MOReady K f s) (i : Nat) :
    ∃ t c, stateAfter (moSolver o f sel v) s i = .ok t ∧ candidatesAt (moSolver o f sel v) s i = .ok c ∧
      MOReady K f c ∧ MOEvaluated f c.pop ∧ c.fail = 0 ∧ MOStep o K f c t ∧
      (∀ j, i = j + 1 → ∀ t', stateAfter (moSolver o f sel v) s j = .ok t' → ∀ x ∈ t'.pop, x ∈ c.pop) := by
  induction i with
  | zero =>
    obtain ⟨h1, h2, h3⟩ := moReady_compute o f K sel v
      (s := (moSolver o f sel v).resetFailTimes s) ⟨h.distinct, h.cache, h.enough⟩
    obtain ⟨t, ht, hst⟩ := moSelect_step hK (hg 1) _ h1.distinct h2 h1.enough
    exact ⟨t, _, ht, rfl, h1, h2, h3, hst, by simp⟩
  | succ i ih =>
    obtain ⟨t, c, ht, -, hc1, hc2, hc3, hst, -⟩ := ih
    obtain ⟨ht1, ht2⟩ := moStep_ready o f K hc1 hc2 hst
    obtain ⟨n1, n2, n3⟩ := mo_next o f K sel v (g := i + 1) ht1 ht2
    obtain ⟨h1, h2, h3⟩ := moReady_compute o f K sel v n1
    obtain ⟨t', ht', hst'⟩ := moSelect_step hK (hg (i + 2)) _ h1.distinct h2 h1.enough
    refine ⟨t', _, ?_, ?_, h1, h2, ?_, hst', ?_⟩
    · simp only [stateAfter, ht, Out.ok_bind]; exact ht'
    · simp only [candidatesAt, ht, Out.ok_bind]
    · rw [h3, n2, hst.fail, hc3]
    · intro j hj t'' ht''
      obtain rfl : i = j := by omega
      rw [ht] at ht''
      cases ht''
      exact n3

theorem mo_run_total (hK : 1 ≤ K) (hg : ∀ g, GoodSelection o K (sel g)) {s : MOState V m α}
    (h : MOReady K f s) (maxGen maxFail : Nat) :
    ∃ r, gaRun (moSolver o f sel v) maxGen maxFail (maxGen + 1) s = .ok r := by
  unfold gaRun
  refine gaLoop_total (I := MOReady K f) _ ?_ (by omega) (by omega) ⟨h.distinct, h.cache, h.enough⟩
  intro g s hs
  obtain ⟨h1, h2, h3⟩ := moReady_compute o f K sel v hs
  obtain ⟨t, ht, hst⟩ := moSelect_step hK (hg (g + 1)) _ h1.distinct h2 h1.enough
  obtain ⟨t1, t2⟩ := moStep_ready o f K h1 h2 hst
  refine ⟨t, ht, ?_, (mo_next o f K sel v t1 t2).1⟩
  have hne : (t.pop.map fun c => c.2.fitness) ≠ [] := by
    intro h
    have : t.pop.length = 0 := by simpa using congrArg List.length h
    have := hst.size
    omega
  obtain ⟨b, hb, -⟩ := bestFitness_ideal o _ hne
  exact ⟨b, hb⟩

theorem dominates_trans' {o : FitnessOption} {A B C : Fin m → α} (h1 : Dominates o A B) (h2 : Dominates o B C) :
    Dominates o A C := by
  rw [← isStrongDominate_iff] at *
  exact dominate_trans o A B C h1 h2

theorem dominates_irrefl' (o : FitnessOption) (A : Fin m → α) : ¬ Dominates o A A := by
  rw [← isStrongDominate_iff, dominate_irrefl]; simp

open Classical in
/-- In a finite set everybody who is dominated is dominated by a non-dominated one. -/
theorem dominated_by_nondominated (F : Cell (Gene V (Fin m → α)) → Fin m → α)
    (l : List (Cell (Gene V (Fin m → α)))) (n : Nat) :
    ∀ x ∈ l, (l.filter fun y => decide (Dominates o (F y) (F x))).length ≤ n →
      ∃ y ∈ l, (∀ d ∈ l, ¬ Dominates o (F d) (F y)) ∧ (y = x ∨ Dominates o (F y) (F x)) := by
  induction n with
  | zero =>
    intro x hx h
    refine ⟨x, hx, ?_, Or.inl rfl⟩
    intro d hd hdom
    have hm : d ∈ l.filter fun y => decide (Dominates o (F y) (F x)) := by
      rw [List.mem_filter]; exact ⟨hd, by simpa using hdom⟩
    have := List.length_pos_of_mem hm
    omega
  | succ n ih =>
    intro x hx h
    by_cases hn : ∀ d ∈ l, ¬ Dominates o (F d) (F x)
    · exact ⟨x, hx, hn, Or.inl rfl⟩
    · push Not at hn
      obtain ⟨d, hd, hdom⟩ := hn
      have hlt : (l.filter fun y => decide (Dominates o (F y) (F d))).length <
          (l.filter fun y => decide (Dominates o (F y) (F x))).length := by
        have e : (l.filter fun y => decide (Dominates o (F y) (F d))) =
            ((l.filter fun y => decide (Dominates o (F y) (F x))).filter
              fun y => decide (Dominates o (F y) (F d))) := by
          rw [List.filter_filter]
          apply List.filter_congr
          intro y _
          by_cases hy : Dominates o (F y) (F d)
          · simp [hy, dominates_trans' hy hdom]
          · simp [hy]
        rw [e]
        apply List.length_filter_lt_length_iff_exists.2
        refine ⟨d, ?_, ?_⟩
        · rw [List.mem_filter]; exact ⟨hd, by simpa using hdom⟩
        · simpa using dominates_irrefl' o (F d)
      obtain ⟨y, hy, hy1, hy2⟩ := ih d hd (by omega)
      refine ⟨y, hy, hy1, Or.inr ?_⟩
      rcases hy2 with rfl | hy2
      · exact hdom
      · exact dominates_trans' hy2 hdom

end

end Heu
