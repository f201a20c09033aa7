import Verif.Model.Session
import Verif.Spec.Session
import Verif.Lemmas.MORun
import Verif.Lemmas.AOSRun
import Verif.Props.SOGARun

/-! # Lemmas about sequences of API calls -/

set_option linter.unusedSectionVars false
set_option linter.unusedVariables false
set_option linter.unusedSimpArgs false

namespace Heu
open Spec

section
variable {V F : Type}

theorem emplaceBack_fold_distinct {γ : Type} (l : List γ) : ∀ (p : Pop γ), DistinctNodes p →
    DistinctNodes (l.foldl emplaceBack p) ∧ (l.foldl emplaceBack p).length = p.length + l.length ∧
      ∃ more, l.foldl emplaceBack p = p ++ more := by
  induction l with
  | nil => intro p h; exact ⟨h, rfl, [], by simp⟩
  | cons a l ih =>
    intro p h
    have hd : DistinctNodes (emplaceBack p a) := distinct_emplaceBack h a
    obtain ⟨h1, h2, more, h3⟩ := ih _ hd
    refine ⟨h1, ?_, (freshAddr p, a) :: more, ?_⟩
    · rw [List.foldl_cons, h2]; simp [emplaceBack]; omega
    · rw [List.foldl_cons, h3]; simp [emplaceBack]

theorem resizePop_spec (K : Nat) (blank : Gene V F) (pop : Pop (Gene V F)) (h : DistinctNodes pop) :
    DistinctNodes (resizePop K blank pop) ∧ (resizePop K blank pop).length = K ∧
      pop.take K <+: resizePop K blank pop := by
  have hd : DistinctNodes (pop.take K) := h.sublist ((List.take_sublist _ _).map _)
  obtain ⟨h1, h2, more, h3⟩ := emplaceBack_fold_distinct (List.replicate (K - pop.length) blank) _ hd
  refine ⟨h1, ?_, more, h3.symm⟩
  unfold resizePop
  rw [h2, List.length_take, List.length_replicate]; omega

theorem reinit_fst (K : Nat) (init : Nat → V) (blank : Gene V F) (pop : Pop (Gene V F)) :
    (reinitializePop K init blank pop).map (·.1) = (resizePop K blank pop).map (·.1) := by
  unfold reinitializePop
  rw [List.map_map]
  conv_rhs => rw [← List.zipIdx_map_fst 0 (resizePop K blank pop), List.map_map]
  rfl

theorem reinit_spec (K : Nat) (init : Nat → V) (blank : Gene V F) (pop : Pop (Gene V F))
    (h : DistinctNodes pop) :
    DistinctNodes (reinitializePop K init blank pop) ∧ (reinitializePop K init blank pop).length = K ∧
      (∀ c ∈ reinitializePop K init blank pop, c.2.computed = false) ∧
      (reinitializePop K init blank pop).map (·.2.var) = (List.range K).map init := by
  obtain ⟨h1, h2, -⟩ := resizePop_spec K blank pop h
  refine ⟨?_, ?_, ?_, ?_⟩
  · unfold DistinctNodes; rw [reinit_fst]; exact h1
  · simp [reinitializePop, h2]
  · intro c hc
    obtain ⟨p, -, rfl⟩ := List.mem_map.1 hc
    rfl
  · unfold reinitializePop
    rw [List.map_map]
    show (resizePop K blank pop).zipIdx.map (fun p => init p.2) = _
    have : (resizePop K blank pop).zipIdx.map (fun p => init p.2) =
        ((resizePop K blank pop).zipIdx.map Prod.snd).map init := by rw [List.map_map]; rfl
    rw [this, List.zipIdx_map_snd, h2, List.range_eq_range']

theorem cacheCorrect_uncomputed {f : V → F} {pop : Pop (Gene V F)} (h : ∀ c ∈ pop, c.2.computed = false) :
    CacheCorrect f pop := by
  intro c hc hcc
  rw [h c hc] at hcc; cases hcc

end

section
variable {V α : Type} [Field α] [LinearOrder α] [IsStrictOrderedRing α]
variable (o : FitnessOption) (f : V → α) (m : SelectMethod) (K : Nat)
variable (e : Nat → SelectEnv (Gene V α) α) (v : Nat → VaryEnv V α)

/-- Without any assumption on the cached fitness. -/
structure Sound (s : SOState (Gene V α)) : Prop where
  distinct : DistinctNodes s.pop
  best : s.best ∈ s.pop.map (·.1)

theorem sound_compute {s : SOState (Gene V α)} (h : Sound s) :
    Sound ((sogaSolver o f m K e v).computeAllFitness s) := by
  refine ⟨?_, ?_⟩
  · show DistinctNodes (computeAllFitness f s.pop)
    unfold DistinctNodes; rw [distinct_computeAllFitness]; exact h.distinct
  · show s.best ∈ (computeAllFitness f s.pop).map (·.1)
    rw [distinct_computeAllFitness]; exact h.best

theorem sound_select (he : ∀ g, ValidEnv (e g)) {s s' : SOState (Gene V α)} {g : Nat}
    (h : DistinctNodes s.pop) (hs : (sogaSolver o f m K e v).select g s = .ok s') : Sound s' := by
  have hsp := runSelect_spec o Gene.fitness m (e g) (he g) K s s' h hs
  obtain ⟨c, hcb, hc, -⟩ := hsp.best
  exact ⟨hsp.distinct, List.mem_map.2 ⟨c, hc, hcb⟩⟩

theorem sound_vary {t : SOState (Gene V α)} {g : Nat} (h : Sound t) :
    Sound ((sogaSolver o f m K e v).mutate g ((sogaSolver o f m K e v).crossover g t)) := by
  obtain ⟨⟨k, hk⟩, hb, -⟩ := vary_pop o f m K e v g t
  refine ⟨hk.distinct h.distinct, ?_⟩
  obtain ⟨⟨new, hnew, -⟩, -⟩ := hk
  rw [hb, hnew, List.map_append, List.mem_append]
  exact Or.inl h.best

theorem sound_after (he : ∀ g, ValidEnv (e g)) {s : SOState (Gene V α)} (h : DistinctNodes s.pop) (i : Nat)
    {t : SOState (Gene V α)} (ht : stateAfter (sogaSolver o f m K e v) s i = .ok t) : Sound t := by
  induction i generalizing t with
  | zero =>
    refine sound_select o f m K e v he (s := (sogaSolver o f m K e v).computeAllFitness
      ((sogaSolver o f m K e v).resetFailTimes s)) ?_ ht
    show DistinctNodes (computeAllFitness f s.pop)
    unfold DistinctNodes; rw [distinct_computeAllFitness]; exact h
  | succ i ih =>
    simp only [stateAfter, Out.bind_eq_ok] at ht
    obtain ⟨t0, ht0, ht⟩ := ht
    exact sound_select o f m K e v he (sound_compute o f m K e v (sound_vary o f m K e v (ih ht0))).distinct ht

/-- A run that returns started from a population with the provisional best in it. -/
theorem run_needs_population (he : ∀ g, ValidEnv (e g)) {s : SOState (Gene V α)} (h : DistinctNodes s.pop)
    {maxGen maxFail fuel : Nat} {r : RunResult (SOState (Gene V α)) α}
    (hr : gaRun (sogaSolver o f m K e v) maxGen maxFail fuel s = .ok r) : s.pop ≠ [] := by
  obtain ⟨h1, -, h3⟩ := run_record _ maxGen maxFail fuel s r hr
  obtain ⟨t, ht, -⟩ := h3 0 (by omega)
  intro hnil
  have hsel : runSelect o Gene.fitness m (e 1) K
      { pop := computeAllFitness f s.pop, best := s.best, fail := 0 } = .ok t := ht
  have hsp := runSelect_spec o Gene.fitness m (e 1) (he 1) K _ t
    (by show DistinctNodes (computeAllFitness f s.pop)
        unfold DistinctNodes; rw [distinct_computeAllFitness]; exact h) hsel
  obtain ⟨c, -, hc, -⟩ := hsp.best
  obtain ⟨d, hd, -⟩ := hsp.noInvention c hc
  simp [hnil, computeAllFitness] at hd

end

end Heu

namespace Heu
open Spec

section
variable {V α : Type} {m : Nat} [Field α] [LinearOrder α] [IsStrictOrderedRing α]
variable (o : FitnessOption) (f : V → Fin m → α) (K : Nat)
variable (sel : Nat → (Addr → Fin m → α) → List Addr → Out (SelectResult Addr))
variable (v : Nat → MOVary V m α)

/-- Enough different individuals, no assumption on the cached fitness. -/
structure MOSound (K : Nat) (s : MOState V m α) : Prop where
  distinct : DistinctNodes s.pop
  enough : K ≤ s.pop.length

/-- After a selection. -/
structure MOSelected (K : Nat) (s : MOState V m α) : Prop where
  distinct : DistinctNodes s.pop
  size : s.pop.length = K
  front : ∀ a ∈ s.pf, a ∈ s.pop.map (·.1)

theorem moSelect_sound {o : FitnessOption} {K : Nat} (hK : 1 ≤ K)
    {sel : (Addr → Fin m → α) → List Addr → Out (SelectResult Addr)} (hg : GoodSelection o K sel)
    {s : MOState V m α} (h : MOSound K s) : ∃ t, moSelect sel s = .ok t ∧ MOSelected K t := by
  have hne : s.pop.map (·.1) ≠ [] := by
    intro he
    have : s.pop.length = 0 := by simpa using congrArg List.length he
    have := h.enough
    omega
  obtain ⟨r, hr, h1, h2, -, h4, -⟩ := hg (fitAt s.pop) _ h.distinct hne (by simpa using h.enough)
  have hmap : (s.pop.filter (fun c => c.1 ∈ r.population)).map (·.1) = r.population := by
    have := filter_sublist_eq h.distinct h2
    rw [List.filter_map] at this
    exact this
  refine ⟨{ s with pop := s.pop.filter (fun c => c.1 ∈ r.population), pf := r.pf }, ?_, ?_, ?_, ?_⟩
  · unfold moSelect; rw [hr]; rfl
  · exact distinct_filter h.distinct _
  · have := congrArg List.length hmap
    simpa [h1] using this
  · intro a ha
    show a ∈ (s.pop.filter (fun c => c.1 ∈ r.population)).map (·.1)
    rw [hmap]; exact (h4 a ha).1

theorem moSound_next {t : MOState V m α} {g : Nat} (h : MOSelected K t) :
    MOSound K ((moSolver o f sel v).mutate g ((moSolver o f sel v).crossover g t)) := by
  obtain ⟨⟨k, hk⟩, -⟩ := mo_vary o f sel v g t
  refine ⟨hk.distinct h.distinct, ?_⟩
  obtain ⟨⟨new, hnew, -⟩, -⟩ := hk
  rw [hnew, List.length_append, h.size]; omega

theorem moSound_compute {s : MOState V m α} (h : MOSound K s) :
    MOSound K ((moSolver o f sel v).computeAllFitness s) := by
  refine ⟨?_, ?_⟩
  · show DistinctNodes (computeAllFitness f s.pop)
    unfold DistinctNodes; rw [distinct_computeAllFitness]; exact h.distinct
  · show K ≤ (computeAllFitness f s.pop).length
    simpa [computeAllFitness] using h.enough

theorem moSelected_after (hK : 1 ≤ K) (hg : ∀ g, GoodSelection o K (sel g)) {s : MOState V m α}
    (h : MOSound K s) (i : Nat) : ∃ t, stateAfter (moSolver o f sel v) s i = .ok t ∧ MOSelected K t := by
  induction i with
  | zero =>
    exact moSelect_sound hK (hg 1) (moSound_compute o f K sel v
      (s := (moSolver o f sel v).resetFailTimes s) ⟨h.distinct, h.enough⟩)
  | succ i ih =>
    obtain ⟨t, ht, h1⟩ := ih
    obtain ⟨t', ht', h2⟩ := moSelect_sound hK (hg (i + 2))
      (moSound_compute o f K sel v (moSound_next o f K sel v (g := i + 1) h1))
    refine ⟨t', ?_, h2⟩
    simp only [stateAfter, ht, Out.ok_bind]; exact ht'

theorem moSound_run (hK : 1 ≤ K) (hg : ∀ g, GoodSelection o K (sel g)) {s : MOState V m α}
    (h : MOSound K s) (maxGen maxFail : Nat) :
    ∃ r, gaRun (moSolver o f sel v) maxGen maxFail (maxGen + 1) s = .ok r ∧ MOSelected K r.state := by
  have ht : ∃ r, gaRun (moSolver o f sel v) maxGen maxFail (maxGen + 1) s = .ok r := by
    unfold gaRun
    refine gaLoop_total (I := MOSound K) _ ?_ (by omega) (by omega) ⟨h.distinct, h.enough⟩
    intro g s hs
    obtain ⟨t, ht, hst⟩ := moSelect_sound hK (hg (g + 1)) (moSound_compute o f K sel v hs)
    refine ⟨t, ht, ?_, moSound_next o f K sel v hst⟩
    have hne : (t.pop.map fun c => c.2.fitness) ≠ [] := by
      intro h
      have : t.pop.length = 0 := by simpa using congrArg List.length h
      have := hst.size
      omega
    obtain ⟨b, hb, -⟩ := bestFitness_ideal o _ hne
    exact ⟨b, hb⟩
  obtain ⟨r, hr⟩ := ht
  obtain ⟨-, h2, -⟩ := run_record _ maxGen maxFail _ s r hr
  obtain ⟨t, ht, hst⟩ := moSelected_after o f K sel v hK hg h r.generation
  rw [h2] at ht
  cases ht
  exact ⟨r, hr, hst⟩

/-- What both selections do with fewer candidates than `populationSize`. -/
def ShortIsUB (K : Nat) (sel : (Addr → Fin m → α) → List Addr → Out (SelectResult Addr)) : Prop :=
  ∀ fit pop, pop.length < K → sel fit pop = .ub

theorem takeLayers_short {G : Type} [DecidableEq G] (K : Nat) :
    ∀ (ls : List (List G)) (s : Finset G), s.card + (ls.map List.length).sum < K →
      takeLayers K s ls = .ub := by
  intro ls
  induction ls with
  | nil => intro s h; unfold takeLayers; rw [if_neg (by simp at h; omega)]
  | cons l ls ih =>
    intro s h
    simp only [List.map_cons, List.sum_cons] at h
    unfold takeLayers
    rw [if_neg (by omega)]
    dsimp only
    rw [if_neg (by omega)]
    apply ih
    have h1 : (s ∪ l.toFinset).card ≤ s.card + l.toFinset.card := Finset.card_union_le _ _
    have h2 : l.toFinset.card ≤ l.length := List.toFinset_card_le l
    omega

theorem divideLayers_total {G : Type} [DecidableEq G] (sort : Sorter G) (num : G → Nat) (pop : List G) :
    ((divideLayers sort num pop).map List.length).sum = pop.length := by
  unfold divideLayers
  have hp := (sort.perm (fun a b => decide (num a < num b)) pop).length_eq
  rw [← hp]
  have key : ∀ (l : List G) (st : Option Nat × List (List G)), (st.1 ≠ none → st.2 ≠ []) →
      ((l.foldl (divideLayersStep num) st).2.map List.length).sum =
        (st.2.map List.length).sum + l.length := by
    intro l
    induction l with
    | nil => intro st _; simp
    | cons a l ih =>
      intro st hst
      rw [List.foldl_cons]
      have hlast : ∀ ls : List (List G), ls ≠ [] → emplaceBackLast ls a ≠ [] ∧
          ((emplaceBackLast ls a).map List.length).sum = (ls.map List.length).sum + 1 := by
        intro ls hls
        obtain ⟨xs, x, rfl⟩ : ∃ xs x, ls = xs ++ [x] := ⟨_, _, (List.dropLast_append_getLast hls).symm⟩
        rw [emplaceBackLast_append]
        simp; omega
      have hne : (if st.1 ≠ some (num a) then (some (num a), st.2 ++ [[]]) else st).2 ≠ [] := by
        split
        · simp
        · next h => exact hst (by rw [not_not] at h; rw [h]; simp)
      have hs : ((if st.1 ≠ some (num a) then (some (num a), st.2 ++ [[]]) else st).2.map List.length).sum
          = (st.2.map List.length).sum := by
        split <;> simp
      obtain ⟨e1, e2⟩ := hlast _ hne
      rw [ih]
      · show ((emplaceBackLast _ a).map List.length).sum + _ = _
        rw [e2, hs, List.length_cons]; omega
      · intro _; exact e1
  simpa using key _ (none, []) (by simp)

theorem short_nsga2 (K : Nat) (eps : α) (e : NSGA2Env m) :
    ShortIsUB K (fun fit => nsga2Select o K eps fit e.sortD e.sortF e.sortC) := by
  intro fit pop h
  unfold nsga2Select
  dsimp only
  split
  · rfl
  · next front ls hl =>
    have := divideLayers_total e.sortD
      (calculateDominatedNum (fun a b => isStrongDominate o (fit a) (fit b)) pop) pop
    rw [hl] at this
    rw [hl, takeLayers_short K _ ∅ (by rw [this]; simpa using h)]
    rfl

theorem short_nsga3 (K : Nat) (tiny : α) (refs : List (Fin m → α)) (e : NSGA3Env α) (fuel : Nat → Nat) :
    ShortIsUB K (fun fit pop =>
      nsga3SelectFull K fit e.sortD tiny refs e.order e.ds (fuel pop.length) pop) := by
  intro fit pop h
  unfold nsga3SelectFull
  dsimp only
  split
  · rfl
  · next front ls hl =>
    have := divideLayers_total e.sortD
      (calculateDominatedNum (fun a b => isStrongDominate .lessBetter (fit a) (fit b)) pop) pop
    rw [hl] at this
    rw [hl, takeLayers_short K _ ∅ (by rw [this]; simpa using h)]
    rfl

/-- A run on too small a population is undefined behaviour in the first selection. -/
theorem short_run (hs : ShortIsUB K (sel 1)) {s : MOState V m α} (h : s.pop.length < K)
    (maxGen maxFail fuel : Nat) :
    gaRun (moSolver o f sel v) maxGen maxFail (fuel + 1) s = .ub := by
  have : moSelect (sel 1) ((moSolver o f sel v).computeAllFitness ((moSolver o f sel v).resetFailTimes s)) = .ub := by
    unfold moSelect
    rw [hs _ _ (by simpa [moSolver, computeAllFitness] using h)]
    rfl
  unfold gaRun gaLoop
  show (moSelect (sel 1) _ >>= _) = _
  rw [this]
  rfl

end

end Heu
