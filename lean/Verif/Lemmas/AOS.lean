import Verif.Lemmas.AOSLayers
import Verif.Lemmas.SOSelect
import Verif.Lemmas.Trailing
import Verif.Props.Box

/-! # Atomic orbital search: helper lemmas -/

set_option linter.unusedSectionVars false
set_option linter.unusedSimpArgs false
set_option linter.unusedVariables false
set_option linter.unnecessarySimpa false

namespace Heu
open Spec

variable {α : Type}

/-! ### evaluation -/

section evaluate
variable [Field α] [LinearOrder α]

theorem energyBetter_eq (opt : FitnessOption) (a b : α) : energyBetter opt a b = isBetter opt a b := by
  cases opt <;> rfl

theorem atomScan_spec (opt : FitnessOption) (l : List (Cell (Gene (List α) α)))
    (c : Cell (Gene (List α) α)) :
    (atomScan opt c l = c ∨ atomScan opt c l ∈ l) ∧
    ∀ x ∈ c :: l, ¬ Better opt x.2.fitness (atomScan opt c l).2.fitness := by
  have h := foldBest_spec opt (fun g : Gene (List α) α => g.fitness) l c
  have e : atomScan opt c l = l.foldl (fun g it =>
      if geneItCompare opt (fun g : Gene (List α) α => g.fitness) it g then it else g) c := by
    unfold atomScan
    congr 1
    funext g it
    rw [energyBetter_eq]; rfl
  rw [e]
  refine ⟨h.1, ?_⟩
  intro x hx
  rcases List.mem_cons.1 hx with rfl | hx
  · exact h.2.1
  · exact h.2.2 x hx

/-- All electrons evaluated, and stored where they can be found. -/
structure Evaluated {α : Type} (f : List α → α) (s : AOSState α) : Prop where
  distinct : DistinctNodes s.electrons
  computed : ∀ c ∈ s.electrons, c.2.computed = true ∧ c.2.fitness = f c.2.var

theorem computeAllFitness_mem {V F : Type} {f : V → F} {pop : Pop (Gene V F)}
    (hc : CacheCorrect f pop) : ∀ c ∈ computeAllFitness f pop,
      c.2.computed = true ∧ c.2.fitness = f c.2.var ∧ ∃ d ∈ pop, d.1 = c.1 ∧ d.2.var = c.2.var := by
  intro c hcm
  obtain ⟨d, hd, rfl⟩ := List.mem_map.1 hcm
  simp only [evalGene]
  by_cases h : d.2.computed = true
  · rw [if_pos h]; exact ⟨h, hc d hd h, d, hd, rfl, rfl⟩
  · rw [if_neg h]; exact ⟨rfl, rfl, d, hd, rfl, rfl⟩

theorem computeAllFitness_id {V F : Type} {f : V → F} {pop : Pop (Gene V F)}
    (hc : ∀ c ∈ pop, c.2.computed = true) : computeAllFitness f pop = pop := by
  unfold computeAllFitness
  conv_rhs => rw [← List.map_id pop]
  apply List.map_congr_left
  intro c hcm
  simp only [evalGene, if_pos (hc c hcm), id]

theorem computeAllFitness_append {V F : Type} (f : V → F) (p q : Pop (Gene V F)) :
    computeAllFitness f (p ++ q) = computeAllFitness f p ++ computeAllFitness f q := by
  unfold computeAllFitness; rw [List.map_append]

theorem computeAllFitness_addr {V F : Type} (f : V → F) (p : Pop (Gene V F)) :
    (computeAllFitness f p).map (·.1) = p.map (·.1) := by
  unfold computeAllFitness; rw [List.map_map]; rfl

theorem sumStates_length {α : Type} [Add α] (dim : Nat) (l : List (List α)) (h : ∀ v ∈ l, v.length = dim)
    (acc : List α) (ha : acc.length = dim) :
    (l.foldl (fun acc v => List.zipWith (· + ·) acc v) acc).length = dim := by
  induction l generalizing acc with
  | nil => exact ha
  | cons v l ih =>
    rw [List.foldl_cons]
    refine ih (fun w hw => h w (List.mem_cons_of_mem _ hw)) _ ?_
    rw [List.length_zipWith, ha, h v List.mem_cons_self, Nat.min_self]

/-- What one evaluation does. -/
theorem aosEvaluate_ok {opt : FitnessOption} {f : List α → α} {s t : AOSState α}
    (h : aosEvaluate opt f s = .ok t) (hd : DistinctNodes s.electrons)
    (hc : CacheCorrect f s.electrons) :
    t.electrons = computeAllFitness f s.electrons ∧ t.layers = s.layers ∧ Evaluated f t ∧
    (∃ c, c.1 = t.best ∧ Unbeaten opt (fun g => g.fitness) t.electrons c) ∧
    (∃ prev bst, deref t.electrons s.best = .ok prev ∧ deref t.electrons t.best = .ok bst ∧
      t.early = if prev.fitness = bst.fitness then s.early + 1 else 0) ∧
    (∀ dim, (∀ c ∈ s.electrons, c.2.var.length = dim) → t.bindingState.length = dim) := by
  unfold aosEvaluate computeAtomBSBELE aosComputeFitness at h
  simp only at h
  cases he : computeAllFitness f s.electrons with
  | nil => rw [he] at h; cases h
  | cons front rest =>
    rw [he] at h
    dsimp only at h
    rw [Out.bind_eq_ok] at h
    obtain ⟨prev, hprev, h⟩ := h
    simp only [Out.ok.injEq] at h
    have hd' : DistinctNodes (front :: rest) := by rw [← he]; exact (by unfold DistinctNodes; rw [distinct_computeAllFitness]; exact hd)
    have hscan := atomScan_spec opt (front :: rest) front
    have hmem : atomScan opt front (front :: rest) ∈ front :: rest := by
      rcases hscan.1 with h | h
      · rw [h]; exact List.mem_cons_self
      · exact h
    subst h
    refine ⟨rfl, rfl, ⟨hd', ?_⟩, ⟨_, rfl, hmem, ?_⟩, ⟨prev, _, hprev, deref_of_mem hd' hmem, by simp only [← le_antisymm_iff]⟩, ?_⟩
    · intro c hcm
      have := computeAllFitness_mem hc c (by rw [he]; exact hcm)
      exact ⟨this.1, this.2.1⟩
    · intro c hcm
      exact hscan.2 c (List.mem_cons_of_mem _ hcm)
    · intro dim hdim
      have hv : ∀ c ∈ front :: rest, c.2.var.length = dim := by
        intro c hcm
        obtain ⟨-, -, d, hdm, -, hdv⟩ := computeAllFitness_mem hc c (by rw [he]; exact hcm)
        rw [← hdv]; exact hdim d hdm
      dsimp only
      rw [List.length_map]
      unfold sumStates
      refine sumStates_length dim _ ?_ _ (by rw [List.length_replicate]; exact hv front (by simp))
      intro v hvm
      obtain ⟨c, hcm, rfl⟩ := List.mem_map.1 hvm
      exact hv c hcm

theorem aosEvaluate_total {opt : FitnessOption} {f : List α → α} {s : AOSState α}
    (hb : s.best ∈ s.electrons.map (·.1)) : ∃ t, aosEvaluate opt f s = .ok t := by
  unfold aosEvaluate computeAtomBSBELE aosComputeFitness
  simp only
  cases he : computeAllFitness f s.electrons with
  | nil =>
    have := computeAllFitness_addr f s.electrons
    rw [he] at this
    rw [← this] at hb; simp at hb
  | cons front rest =>
    dsimp only
    rcases deref_ok_or_ub (front :: rest) s.best with ⟨g, hg⟩ | hub
    · rw [hg]; exact ⟨_, rfl⟩
    · rw [deref_ub, ← he, computeAllFitness_addr] at hub
      exact absurd hb hub

end evaluate

/-! ### selection and layers -/

section select
variable [Field α] [LinearOrder α] [FloorSemiring α]

theorem electronCompare_eq (opt : FitnessOption) :
    (electronCompare opt : Cell (Gene (List α) α) → Cell (Gene (List α) α) → Bool) =
      geneItCompare opt (fun g : Gene (List α) α => g.fitness) := by
  funext a b; exact energyBetter_eq opt _ _

/-- The nodes kept by the selection, in order of energy. -/
def keptNodes (opt : FitnessOption) (o : AOSOption) (sort : Sorter (Cell (Gene (List α) α)))
    (s : AOSState α) : List (Cell (Gene (List α) α)) :=
  (sort.run (electronCompare opt) s.electrons).take o.electronNum

/-- The electrons left in the list by the selection. -/
def keptElectrons (opt : FitnessOption) (o : AOSOption) (sort : Sorter (Cell (Gene (List α) α)))
    (s : AOSState α) : Pop (Gene (List α) α) :=
  s.electrons.filter fun c =>
    !(((sort.run (electronCompare opt) s.electrons).drop o.electronNum).map (·.1)).contains c.1

theorem kept_perm {opt : FitnessOption} {o : AOSOption} {sort : Sorter (Cell (Gene (List α) α))}
    {s : AOSState α} (hd : DistinctNodes s.electrons) :
    (keptElectrons opt o sort s).Perm (keptNodes opt o sort s) :=
  filter_erased_perm hd (sort.perm _ _) _

theorem kept_length {opt : FitnessOption} {o : AOSOption} {sort : Sorter (Cell (Gene (List α) α))}
    {s : AOSState α} (hd : DistinctNodes s.electrons) :
    (keptElectrons opt o sort s).length = min o.electronNum s.electrons.length := by
  rw [(kept_perm hd).length_eq, keptNodes, List.length_take, (sort.perm _ _).length_eq]

theorem keptNodes_sorted {opt : FitnessOption} {o : AOSOption}
    {sort : Sorter (Cell (Gene (List α) α))} {s : AOSState α} :
    (keptNodes opt o sort s).Pairwise fun a b => ¬ Better opt b.2.fitness a.2.fitness := by
  unfold keptNodes
  rw [electronCompare_eq]
  exact (geneItCompare_sorted opt (fun g : Gene (List α) α => g.fitness) sort s.electrons).sublist
    (List.take_sublist _ _)

theorem kept_sub {opt : FitnessOption} {o : AOSOption} {sort : Sorter (Cell (Gene (List α) α))}
    {s : AOSState α} : ∀ c ∈ keptElectrons opt o sort s, c ∈ s.electrons :=
  fun c hc => (List.mem_filter.1 hc).1

/-- Nothing kept is worse than anything erased. -/
theorem kept_best {opt : FitnessOption} {o : AOSOption} {sort : Sorter (Cell (Gene (List α) α))}
    {s : AOSState α} (hd : DistinctNodes s.electrons) :
    ∀ c ∈ keptElectrons opt o sort s, ∀ d ∈ s.electrons, d ∉ keptElectrons opt o sort s →
      ¬ Better opt d.2.fitness c.2.fitness := by
  intro c hc d hdm hdk
  have hc' := (kept_perm (opt := opt) (o := o) (sort := sort) hd).mem_iff.1 hc
  have hs := geneItCompare_sorted opt (fun g : Gene (List α) α => g.fitness) sort s.electrons
  rw [← electronCompare_eq] at hs
  obtain ⟨S, hS⟩ : ∃ S, S = sort.run (electronCompare opt) s.electrons := ⟨_, rfl⟩
  unfold keptNodes at hc'
  rw [← hS] at hc' hs
  have hdS : d ∈ S := by rw [hS]; exact (sort.perm _ _).mem_iff.2 hdm
  have hsplit : S = S.take o.electronNum ++ S.drop o.electronNum := (List.take_append_drop _ S).symm
  have hdd : d ∈ S.drop o.electronNum := by
    rw [hsplit] at hdS
    rcases List.mem_append.1 hdS with h | h
    · exact absurd ((kept_perm (opt := opt) (o := o) (sort := sort) hd).mem_iff.2
        (by unfold keptNodes; rw [← hS]; exact h)) hdk
    · exact h
  rw [hsplit, List.pairwise_append] at hs
  exact hs.2.2 c hc' d hdd

/-- What a successful selection does. -/
theorem select_ok {opt : FitnessOption} {o : AOSOption} {sort : Sorter (Cell (Gene (List α) α))}
    {k : Nat} {g : Nat → α} {s u : AOSState α}
    (h : selectAndMakeLayers opt o sort k g s = .ok u) :
    u.electrons = keptElectrons opt o sort s ∧ u.best = s.best ∧ u.early = s.early ∧
    u.bindingState = s.bindingState ∧ u.bindingEnergy = s.bindingEnergy ∧
    makeLayers (layerLimits (keptElectrons opt o sort s).length
      (layerCounts g k (keptElectrons opt o sort s).length)) ((keptNodes opt o sort s).map (·.1))
      = .ok (u.layers.map (·.members)) := by
  unfold selectAndMakeLayers at h
  simp only [Out.bind_eq_ok] at h
  obtain ⟨ls, hls, h⟩ := h
  simp only [Out.ok.injEq] at h
  subst h
  refine ⟨rfl, rfl, rfl, rfl, rfl, ?_⟩
  have : List.map (fun x : Layer α => x.members) (List.map (fun m => (⟨m, [], 0, 0⟩ : Layer α)) ls) = ls := by
    rw [List.map_map]; exact List.map_id _
  dsimp only
  rw [this]
  exact hls

theorem select_of_layers {opt : FitnessOption} {o : AOSOption}
    {sort : Sorter (Cell (Gene (List α) α))} {k : Nat} {g : Nat → α} {s : AOSState α}
    {L : List (List Addr)}
    (h : makeLayers (layerLimits (keptElectrons opt o sort s).length
      (layerCounts g k (keptElectrons opt o sort s).length)) ((keptNodes opt o sort s).map (·.1))
      = .ok L) : ∃ u, selectAndMakeLayers opt o sort k g s = .ok u := by
  unfold selectAndMakeLayers
  simp only
  unfold keptElectrons keptNodes at h
  rw [h]
  exact ⟨_, rfl⟩

theorem select_ub_of {opt : FitnessOption} {o : AOSOption}
    {sort : Sorter (Cell (Gene (List α) α))} {k : Nat} {g : Nat → α} {s : AOSState α}
    (h : makeLayers (layerLimits (keptElectrons opt o sort s).length
      (layerCounts g k (keptElectrons opt o sort s).length)) ((keptNodes opt o sort s).map (·.1))
      = .ub) : selectAndMakeLayers opt o sort k g s = .ub := by
  unfold selectAndMakeLayers
  simp only
  unfold keptElectrons keptNodes at h
  rw [h]; rfl

theorem select_no_timeout {opt : FitnessOption} {o : AOSOption}
    {sort : Sorter (Cell (Gene (List α) α))} {k : Nat} {g : Nat → α} {s : AOSState α} :
    selectAndMakeLayers opt o sort k g s ≠ .timeout := by
  unfold selectAndMakeLayers makeLayers popEmptyLayers
  simp only
  intro h
  rcases fillLayers_ub_or_ok (layerLimits (keptElectrons opt o sort s).length
      (layerCounts g k (keptElectrons opt o sort s).length)) ((keptNodes opt o sort s).map (·.1)) 0 0
      ((layerLimits (keptElectrons opt o sort s).length
      (layerCounts g k (keptElectrons opt o sort s).length)).map fun _ => []) with ⟨L, hL⟩ | hub
  · unfold keptElectrons keptNodes at hL
    rw [hL] at h
    rw [Out.ok_bind] at h
    split at h <;> cases h
  · unfold keptElectrons keptNodes at hub
    rw [hub] at h; cases h

/-- Energy order: a best electron survives when at most `electronNum` electrons share its energy. -/
theorem best_survives {opt : FitnessOption} {o : AOSOption}
    {sort : Sorter (Cell (Gene (List α) α))} {s : AOSState α} (hd : DistinctNodes s.electrons)
    {c : Cell (Gene (List α) α)} (hc : Unbeaten opt (fun g => g.fitness) s.electrons c)
    (ht : tiedForBest opt s.electrons ≤ o.electronNum) : c ∈ keptElectrons opt o sort s := by
  by_contra hk
  have hkp := kept_perm (opt := opt) (o := o) (sort := sort) hd
  have hsub : (keptElectrons opt o sort s).Sublist s.electrons := List.filter_sublist
  -- all kept ones are tied for best
  have htied : ∀ d ∈ keptElectrons opt o sort s,
      ∀ e ∈ s.electrons, ¬ Better opt e.2.fitness d.2.fitness := by
    intro d hdk e he
    exact not_better_trans (hc.2 e he) (kept_best hd d hdk c hc.1 hk)
  obtain ⟨p, hp⟩ : ∃ p : Cell (Gene (List α) α) → Bool, p = fun c => decide (∀ d ∈ s.electrons,
      ¬ Better opt d.2.fitness c.2.fitness) := ⟨_, rfl⟩
  have h1 : (keptElectrons opt o sort s).filter p = keptElectrons opt o sort s := by
    rw [List.filter_eq_self]
    intro d hdk
    rw [hp]; simpa using htied d hdk
  -- kept plus `c` are pairwise different members of the tied ones
  have hlt : (keptElectrons opt o sort s).length + 1 ≤ (s.electrons.filter p).length := by
    have hs2 : (c :: keptElectrons opt o sort s).Subperm (s.electrons.filter p) := by
      refine List.subperm_of_subset ?_ ?_
      · rw [List.nodup_cons]
        refine ⟨hk, ?_⟩
        have := distinct_filter hd (fun c =>
          !(((sort.run (electronCompare opt) s.electrons).drop o.electronNum).map (·.1)).contains c.1)
        exact List.Nodup.of_map _ this
      · intro d hdm
        rw [List.mem_filter]
        rcases List.mem_cons.1 hdm with rfl | hdm
        · exact ⟨hc.1, by rw [hp]; simpa using hc.2⟩
        · exact ⟨kept_sub d hdm, by rw [hp]; simpa using htied d hdm⟩
    simpa using hs2.length_le
  have hl := kept_length (opt := opt) (o := o) (sort := sort) hd
  have ht' : (s.electrons.filter p).length ≤ o.electronNum := by
    rw [hp]; unfold tiedForBest at ht; exact ht
  have hn : (s.electrons.filter p).length ≤ s.electrons.length := List.length_filter_le _ _
  omega

/-- The best energy survives in any case. -/
theorem bestEnergy_survives {opt : FitnessOption} {o : AOSOption}
    {sort : Sorter (Cell (Gene (List α) α))} {s : AOSState α} (hd : DistinctNodes s.electrons)
    (hn : 0 < o.electronNum) {c : Cell (Gene (List α) α)}
    (hc : Unbeaten opt (fun g => g.fitness) s.electrons c) :
    ∃ d ∈ keptElectrons opt o sort s, d.2.fitness = c.2.fitness := by
  have hl := kept_length (opt := opt) (o := o) (sort := sort) hd
  have hp : 0 < s.electrons.length := List.length_pos_of_mem hc.1
  obtain ⟨d, hdk⟩ : ∃ d, d ∈ keptElectrons opt o sort s := List.exists_mem_of_length_pos (by omega)
  by_cases hk : c ∈ keptElectrons opt o sort s
  · exact ⟨c, hk, rfl⟩
  · refine ⟨d, hdk, ?_⟩
    have h1 := kept_best hd d hdk c hc.1 hk
    have h2 := hc.2 d (kept_sub d hdk)
    cases opt <;> simp only [Better, not_lt] at h1 h2
    · exact le_antisymm h1 h2
    · exact le_antisymm h2 h1

end select

/-! ### layer averages -/

section layers
variable [Add α] [Sub α] [Mul α] [Div α] [NatCast α] [LT α] [DecidableLT α]

theorem layerBest_range {β : Type} (test : Nat → Nat → Bool) (n : Nat) (hn : 0 < n) :
    (List.range n).foldl (fun best idx => if test idx best then idx else best) 0 < n := by
  have h : ∀ (l : List Nat) (b : Nat), b < n → (∀ x ∈ l, x < n) →
      l.foldl (fun best idx => if test idx best then idx else best) b < n := by
    intro l
    induction l with
    | nil => intro b hb _; exact hb
    | cons x l ih =>
      intro b hb hx
      rw [List.foldl_cons]
      by_cases ht : test x b = true
      · rw [if_pos ht]; exact ih _ (hx x (by simp)) fun y hy => hx y (by simp [hy])
      · rw [if_neg ht]; exact ih _ hb fun y hy => hx y (by simp [hy])
  exact h _ 0 hn fun x hx => List.mem_range.1 hx

theorem layerBestEigen_lt (opt : FitnessOption) (m : List Addr) (hm : m ≠ []) :
    layerBestEigen opt m < m.length := by
  have h := layerBest_range (β := Unit) (fun idx best => match m[idx]?, m[best]? with
    | some a, some b => (match opt with | .lessBetter => decide (a < b) | .greaterBetter => decide (b < a))
    | _, _ => false) m.length (List.length_pos_of_ne_nil hm)
  unfold layerBestEigen
  convert h using 4
  split
  · cases opt <;> simp_all
  · simp_all

theorem layerBestStd_lt (opt : FitnessOption) (m : List α) (hm : m ≠ []) :
    layerBestStd opt m < m.length := by
  have h := layerBest_range (β := Unit) (fun idx best => match m[idx]?, m[best]? with
    | some a, some b => energyBetter opt a b
    | _, _ => false) m.length (List.length_pos_of_ne_nil hm)
  unfold layerBestStd
  convert h using 4
  split <;> simp_all

theorem Out.mapM_length {β γ : Type} {f : β → Out γ} {l : List β} {r : List γ} (h : l.mapM f = .ok r) :
    r.length = l.length ∧ ∀ (i : Nat) (x : β) (y : γ), l[i]? = some x → r[i]? = some y → f x = .ok y := by
  induction l generalizing r with
  | nil => cases h; simp
  | cons a l ih =>
    rw [List.mapM_cons, Out.bind_eq_ok] at h
    obtain ⟨y, hy, h⟩ := h
    rw [Out.bind_eq_ok] at h
    obtain ⟨ys, hys, h⟩ := h
    cases h
    obtain ⟨h1, h2⟩ := ih hys
    refine ⟨by simp [h1], ?_⟩
    intro i x z hx hz
    cases i with
    | zero => simp at hx hz; subst hx hz; exact hy
    | succ i => simp at hx hz; exact h2 i x z hx hz

theorem Out.mapM_total {β γ : Type} {f : β → Out γ} {l : List β} (h : ∀ x ∈ l, ∃ y, f x = .ok y) :
    ∃ r, l.mapM f = .ok r := by
  induction l with
  | nil => exact ⟨[], rfl⟩
  | cons a l ih =>
    obtain ⟨y, hy⟩ := h a (by simp)
    obtain ⟨ys, hys⟩ := ih fun x hx => h x (by simp [hx])
    exact ⟨y :: ys, by rw [List.mapM_cons, hy, Out.ok_bind, hys, Out.ok_bind]; rfl⟩

theorem Out.mapM_no_timeout {β γ : Type} {f : β → Out γ} {l : List β} (h : ∀ x ∈ l, f x ≠ .timeout) :
    l.mapM f ≠ .timeout := by
  induction l with
  | nil => intro h; cases h
  | cons a l ih =>
    rw [List.mapM_cons]
    cases ha : f a with
    | ub => simp
    | timeout => exact absurd ha (h a (by simp))
    | ok y =>
      rw [Out.ok_bind]
      cases hl : l.mapM f with
      | ub => simp
      | timeout => exact absurd hl (ih fun x hx => h x (by simp [hx]))
      | ok ys => simp

theorem derefAll_ok {pop : Pop (Gene (List α) α)} {l : List Addr} {es : List (Gene (List α) α)}
    (h : derefAll pop l = .ok es) : es.length = l.length ∧
      ∀ (i : Nat) (a : Addr) (e : Gene (List α) α), l[i]? = some a → es[i]? = some e → (a, e) ∈ pop := by
  obtain ⟨h1, h2⟩ := Out.mapM_length h
  exact ⟨h1, fun i a e ha he => deref_ok (h2 i a e ha he)⟩

theorem deref_total {pop : Pop (Gene (List α) α)} {a : Addr} (h : a ∈ pop.map (·.1)) :
    ∃ g, deref pop a = .ok g := by
  rcases deref_ok_or_ub pop a with h' | h'
  · exact h'
  · exact absurd h (deref_ub.1 h')

theorem deref_no_timeout {γ : Type} {pop : Pop γ} {a : Addr} : deref pop a ≠ .timeout := by
  unfold deref; split <;> simp

/-- What one layer computation yields. -/
theorem computeLayer_ok {impl : AOSImpl} {opt : FitnessOption} {pop : Pop (Gene (List α) α)}
    {l l' : Layer α}
    (h : computeLayer impl opt pop l = .ok l') :
    l'.members = l.members ∧ l'.bestIdx < l'.members.length ∧
    ∃ e rest, derefAll pop l.members = .ok (e :: rest) ∧
      l'.bindingState = (rest.foldl (fun acc (x : Gene (List α) α) =>
        List.zipWith (· + ·) acc x.var) e.var).map (· / (((e :: rest).length : Nat) : α)) ∧
      l'.bindingEnergy = (if impl = .eigen then
          (rest.foldl (fun acc x => acc + x.fitness) e.fitness) / (((e :: rest).length : Nat) : α)
        else e.fitness / (((e :: rest).length : Nat) : α)) ∧
      l'.bestIdx = (if impl = .eigen then layerBestEigen opt l.members
        else layerBestStd opt ((e :: rest).map (·.fitness))) := by
  cases impl
  all_goals
    simp only [computeLayer, computeLayerEigen, computeLayerStd, Out.bind_eq_ok] at h
    obtain ⟨es, hes, h⟩ := h
    have hlen := (derefAll_ok hes).1
    cases es with
    | nil => cases h
    | cons e rest =>
      simp only [Out.ok.injEq] at h
      subst h
      have hm : l.members ≠ [] := by
        intro h0; rw [h0] at hlen; simp at hlen
      have hstd := layerBestStd_lt opt ((e :: rest).map (·.fitness)) (by simp)
      rw [List.length_map, hlen] at hstd
      first
        | exact ⟨rfl, layerBestEigen_lt opt _ hm, e, rest, hes, rfl, by rw [if_pos rfl],
            by rw [if_pos rfl]⟩
        | exact ⟨rfl, hstd, e, rest, hes, rfl, by rw [if_neg (by decide)], by rw [if_neg (by decide)]⟩

theorem computeLayer_total {impl : AOSImpl} {opt : FitnessOption} {pop : Pop (Gene (List α) α)}
    {l : Layer α} (hm : l.members ≠ []) (hall : ∀ a ∈ l.members, a ∈ pop.map (·.1)) :
    ∃ l', computeLayer impl opt pop l = .ok l' := by
  obtain ⟨es, hes⟩ : ∃ es, derefAll pop l.members = .ok es :=
    Out.mapM_total fun a ha => deref_total (hall a ha)
  have hlen := (derefAll_ok hes).1
  cases es with
  | nil => simp at hlen; exact absurd hlen.symm (by simpa using hm)
  | cons e rest =>
    cases impl
    · exact ⟨_, by simp only [computeLayer, computeLayerEigen, hes, Out.ok_bind]; rfl⟩
    · exact ⟨_, by simp only [computeLayer, computeLayerStd, hes, Out.ok_bind]; rfl⟩

theorem computeLayer_no_timeout {impl : AOSImpl} {opt : FitnessOption} {pop : Pop (Gene (List α) α)}
    {l : Layer α} : computeLayer impl opt pop l ≠ .timeout := by
  have : derefAll pop l.members ≠ .timeout := Out.mapM_no_timeout fun x _ => deref_no_timeout
  cases impl
  all_goals
    simp only [computeLayer, computeLayerEigen, computeLayerStd]
    cases hd : derefAll pop l.members with
    | ub => simp
    | timeout => exact absurd hd this
    | ok es => cases es <;> simp

end layers

/-! ### children -/

section children

theorem confine_inBox [Field α] [LinearOrder α] (b : Box α) (hb : NonEmptyBox b) (v : List α) (hv : v.length = b.dim) :
    InBox b (confine b v) := by
  refine ⟨by simp [confine, hv], ?_⟩
  intro i hi
  simp only [confine, List.getElem_mapIdx]
  simp only [confine, List.length_mapIdx] at hi
  exact clampTo_mem _ _ _ (hb i (by omega))

variable [Add α] [Sub α] [Mul α] [Div α] [NatCast α] [LT α] [DecidableLT α]

/-- `s'` is `s` with new, not yet evaluated electrons whose states satisfy `P`. -/
structure Grown (P : List α → Prop) (n : Nat) (s s' : AOSState α) : Prop where
  new : ∃ new, s'.electrons = s.electrons ++ new ∧ new.length = n ∧
    (∀ c ∈ new, c.2.computed = false ∧ P c.2.var ∧ c.1 ≠ s.best)
  distinct : DistinctNodes s.electrons → DistinctNodes s'.electrons
  best : s'.best = s.best
  early : s'.early = s.early
  layers : s'.layers = s.layers
  bindingState : s'.bindingState = s.bindingState
  bindingEnergy : s'.bindingEnergy = s.bindingEnergy

theorem Grown.refl (P : List α → Prop) (s : AOSState α) : Grown P 0 s s :=
  ⟨⟨[], by simp, rfl, by simp⟩, id, rfl, rfl, rfl, rfl, rfl⟩

theorem Grown.trans {P : List α → Prop} {m n : Nat} {s t u : AOSState α} (h1 : Grown P m s t)
    (h2 : Grown P n t u) : Grown P (m + n) s u := by
  obtain ⟨new1, e1, l1, a1⟩ := h1.new
  obtain ⟨new2, e2, l2, a2⟩ := h2.new
  refine ⟨⟨new1 ++ new2, by rw [e2, e1, List.append_assoc], by simp [l1, l2], ?_⟩,
    fun h => h2.distinct (h1.distinct h), h2.best.trans h1.best, h2.early.trans h1.early,
    h2.layers.trans h1.layers, h2.bindingState.trans h1.bindingState,
    h2.bindingEnergy.trans h1.bindingEnergy⟩
  intro c hc
  rcases List.mem_append.1 hc with h | h
  · exact a1 c h
  · have := a2 c h; rw [h1.best] at this; exact this

theorem Grown.add {P : List α → Prop} (s : AOSState α) (v : List α) (j : α) (hv : P v) :
    Grown P 1 s (addElectron s ⟨v, j, false⟩) := by
  refine ⟨⟨[_], rfl, rfl, ?_⟩, ?_, rfl, rfl, rfl, rfl, rfl⟩
  · intro c hc
    rw [List.mem_singleton.1 hc]
    refine ⟨rfl, hv, ?_⟩
    show (max (freshAddr s.electrons) (s.best + 1) : Nat) ≠ s.best
    have : (s.best + 1 : Nat) ≤ max (freshAddr s.electrons) (s.best + 1) := le_max_right _ _
    exact Nat.ne_of_gt this
  · intro hd
    show ((s.electrons ++ [(max (freshAddr s.electrons) (s.best + 1), (⟨v, j, false⟩ : Gene (List α) α))]).map
      (·.1)).Nodup
    rw [List.map_append, List.nodup_append]
    refine ⟨hd, by simp, ?_⟩
    intro a ha b hb
    simp only [List.map_cons, List.map_nil, List.mem_singleton] at hb
    obtain ⟨c, hc, rfl⟩ := List.mem_map.1 ha
    have h1 := freshAddr_gt s.electrons c hc
    have h2 : freshAddr s.electrons ≤ max (freshAddr s.electrons) (s.best + 1) := le_max_left _ _
    rw [hb]
    exact Nat.ne_of_lt (lt_of_lt_of_le h1 h2)

theorem Grown.sub {P : List α → Prop} {n : Nat} {s s' : AOSState α} (h : Grown P n s s') :
    ∀ c ∈ s.electrons, c ∈ s'.electrons := by
  obtain ⟨new, e, -, -⟩ := h.new
  intro c hc; rw [e]; exact List.mem_append_left _ hc

theorem deref_append_left {γ : Type} {p q : Pop γ} {a : Addr} {g : γ} (h : deref p a = .ok g) :
    deref (p ++ q) a = .ok g := by
  unfold deref at *
  rw [List.find?_append]
  split at h
  · next c hc => rw [hc]; exact h
  · cases h

/-- A property of all the states of children of one layer. -/
theorem updateLayer_ok {opt : FitnessOption} {b : Box α} {draw : Nat → AOSDraw α} {junk : α}
    {layer : Layer α} {idx : Nat} {P : List α → Prop} {s0 : AOSState α}
    (hP : ∀ (n m : Nat) (s : AOSState α), Grown P m s0 s → ∀ a parent st, a ∈ layer.members →
      deref s.electrons a = .ok parent →
      childState opt b (draw n) s layer idx parent = .ok st → P st)
    (ps : List Addr) (hps : ∀ a ∈ ps, a ∈ layer.members) (n m : Nat) (s : AOSState α) (r : Nat × AOSState α)
    (hg : Grown P m s0 s) (h : updateLayer opt b draw junk layer idx ps (n, s) = .ok r) :
    Grown P ps.length s r.2 ∧ r.1 = n + ps.length := by
  induction ps generalizing n m s with
  | nil =>
    simp only [updateLayer, Out.ok.injEq] at h
    subst h
    exact ⟨Grown.refl P s, rfl⟩
  | cons p ps ih =>
    simp only [updateLayer] at h
    rw [Out.bind_eq_ok] at h
    obtain ⟨parent, hp, h⟩ := h
    rw [Out.bind_eq_ok] at h
    obtain ⟨st, hst, h⟩ := h
    have hadd := Grown.add (P := P) s st junk (hP n m s hg p parent st (hps p (by simp)) hp hst)
    obtain ⟨h1, h2⟩ := ih (fun a ha => hps a (by simp [ha])) (n + 1) (m + 1) _ (hg.trans hadd) h
    have := hadd.trans h1
    rw [Nat.add_comm] at this
    exact ⟨this, by simp [h2]; omega⟩

theorem updateElectrons_ok {opt : FitnessOption} {b : Box α} {draw : Nat → AOSDraw α} {junk : α}
    {P : List α → Prop} {s0 t : AOSState α}
    (hP : ∀ (n m : Nat) (s : AOSState α), Grown P m s0 s → ∀ (layer : Layer α) (idx : Nat),
      s0.layers[idx]? = some layer → ∀ a parent st, a ∈ layer.members →
      deref s.electrons a = .ok parent →
      childState opt b (draw n) s layer idx parent = .ok st → P st)
    (h : updateElectrons opt b draw junk s0 = .ok t) :
    Grown P ((s0.layers.map (·.members.length)).sum) s0 t := by
  unfold updateElectrons at h
  rw [Out.bind_eq_ok] at h
  obtain ⟨r, hr, h⟩ := h
  cases h
  have key : ∀ (L : List (Layer α × Nat)) (_ : ∀ x ∈ L, s0.layers[x.2]? = some x.1) (n m : Nat)
      (s : AOSState α) (r : Nat × AOSState α), Grown P m s0 s →
      L.foldlM (fun (ns : Nat × AOSState α) (l : Layer α × Nat) =>
        updateLayer opt b draw junk l.1 l.2 l.1.members ns) (n, s) = .ok r →
      Grown P ((L.map fun x => x.1.members.length).sum) s r.2 := by
    intro L
    induction L with
    | nil =>
      intro _ n m s r hg h
      cases h
      exact Grown.refl P s
    | cons x L ih =>
      intro hx n m s r hg h
      rw [List.foldlM_cons, Out.bind_eq_ok] at h
      obtain ⟨⟨n', s'⟩, h1, h2⟩ := h
      obtain ⟨hg1, -⟩ := updateLayer_ok (P := P) (s0 := s0)
        (fun n m s hg a parent st ha hd hc =>
          hP n m s hg x.1 x.2 (hx x (by simp)) a parent st ha hd hc)
        x.1.members (fun _ h => h) n m s (n', s') hg h1
      have := ih (fun y hy => hx y (by simp [hy])) n' _ s' r (hg.trans hg1) h2
      simpa using hg1.trans this
  have := key s0.layers.zipIdx (by
    intro x hx
    have := List.mem_zipIdx_iff_getElem?.1 hx
    simpa using this) 0 0 s0 r (Grown.refl P s0) hr
  have e : (s0.layers.zipIdx.map fun x => x.1.members.length) = s0.layers.map (·.members.length) := by
    rw [show (fun x : Layer α × Nat => x.1.members.length) = (fun l : Layer α => l.members.length) ∘ Prod.fst
      from rfl, ← List.map_map, List.zipIdx_map_fst]
  rwa [e] at this

theorem childState_total {opt : FitnessOption} {b : Box α} {d : AOSDraw α} {s : AOSState α}
    {layer : Layer α} {idx : Nat} {parent : Gene (List α) α}
    (hbest : s.best ∈ s.electrons.map (·.1)) (hidx : layer.bestIdx < layer.members.length)
    (hall : ∀ a ∈ layer.members, a ∈ s.electrons.map (·.1)) :
    ∃ st, childState opt b d s layer idx parent = .ok st := by
  unfold childState
  by_cases hp : d.photon = true
  · rw [if_pos hp]
    by_cases he : energyBetter opt parent.fitness layer.bindingEnergy = true
    · rw [if_pos he, List.getElem?_eq_getElem hidx]
      obtain ⟨g, hg⟩ := deref_total (hall _ (List.getElem_mem hidx))
      exact ⟨_, by dsimp only; rw [hg]; rfl⟩
    · rw [if_neg he]
      obtain ⟨g, hg⟩ := deref_total hbest
      exact ⟨_, by rw [hg]; rfl⟩
  · rw [if_neg hp]; exact ⟨_, rfl⟩

theorem childState_no_timeout {opt : FitnessOption} {b : Box α} {d : AOSDraw α} {s : AOSState α}
    {layer : Layer α} {idx : Nat} {parent : Gene (List α) α} :
    childState opt b d s layer idx parent ≠ .timeout := by
  unfold childState
  split
  · split
    · split
      · simp
      · rename_i a _
        have := deref_no_timeout (pop := s.electrons) (a := a)
        cases hd : deref s.electrons a <;> simp_all
    · have := deref_no_timeout (pop := s.electrons) (a := s.best)
      cases hd : deref s.electrons s.best <;> simp_all
  · simp

theorem updateElectrons_total {opt : FitnessOption} {b : Box α} {draw : Nat → AOSDraw α} {junk : α}
    {s0 : AOSState α} (hbest : s0.best ∈ s0.electrons.map (·.1))
    (hidx : ∀ l ∈ s0.layers, l.bestIdx < l.members.length)
    (hall : ∀ l ∈ s0.layers, ∀ a ∈ l.members, a ∈ s0.electrons.map (·.1)) :
    ∃ t, updateElectrons opt b draw junk s0 = .ok t := by
  unfold updateElectrons
  have hsub : ∀ {m : Nat} {s : AOSState α}, Grown (fun _ => True) m s0 s →
      ∀ a ∈ s0.electrons.map (·.1), a ∈ s.electrons.map (·.1) := by
    intro m s hg a ha
    obtain ⟨c, hc, rfl⟩ := List.mem_map.1 ha
    exact List.mem_map_of_mem (hg.sub c hc)
  have h1 : ∀ (l : Layer α) (idx : Nat), l ∈ s0.layers → ∀ (ps : List Addr),
      (∀ a ∈ ps, a ∈ l.members) → ∀ (n m : Nat) (s : AOSState α), Grown (fun _ => True) m s0 s →
      ∃ r, updateLayer opt b draw junk l idx ps (n, s) = .ok r ∧
        ∃ m', Grown (fun _ => True) m' s0 r.2 := by
    intro l idx hl ps
    induction ps with
    | nil => intro _ n m s hg; exact ⟨_, rfl, m, hg⟩
    | cons p ps ih =>
      intro hps n m s hg
      obtain ⟨parent, hp⟩ := deref_total (hsub hg _ (hall l hl p (hps p (by simp))))
      obtain ⟨st, hst⟩ := childState_total (opt := opt) (b := b) (d := draw n) (s := s) (layer := l)
        (idx := idx) (parent := parent) (by rw [hg.best]; exact hsub hg _ hbest) (hidx l hl)
        (fun a ha => hsub hg _ (hall l hl a ha))
      simp only [updateLayer, hp, Out.ok_bind, hst]
      exact ih (fun a ha => hps a (by simp [ha])) (n + 1) (m + 1) _
        (hg.trans (Grown.add (P := fun _ => True) s st junk trivial))
  have key : ∀ (L : List (Layer α × Nat)) (_ : ∀ x ∈ L, x.1 ∈ s0.layers) (n m : Nat)
      (s : AOSState α), Grown (fun _ => True) m s0 s →
      ∃ r, L.foldlM (fun (ns : Nat × AOSState α) (l : Layer α × Nat) =>
        updateLayer opt b draw junk l.1 l.2 l.1.members ns) (n, s) = .ok r := by
    intro L
    induction L with
    | nil => intro _ n m s hg; exact ⟨_, rfl⟩
    | cons x L ih =>
      intro hx n m s hg
      obtain ⟨⟨n', s'⟩, hr, m', hg'⟩ := h1 x.1 x.2 (hx x (by simp)) x.1.members (fun _ h => h) n m s hg
      rw [List.foldlM_cons, hr, Out.ok_bind]
      exact ih (fun y hy => hx y (by simp [hy])) n' m' s' hg'
  obtain ⟨r, hr⟩ := key s0.layers.zipIdx (by
    intro x hx
    exact List.fst_mem_of_mem_zipIdx hx) 0 0 s0 (Grown.refl _ s0)
  rw [hr]
  exact ⟨_, rfl⟩

theorem updateElectrons_no_timeout {opt : FitnessOption} {b : Box α} {draw : Nat → AOSDraw α} {junk : α}
    {s0 : AOSState α} : updateElectrons opt b draw junk s0 ≠ .timeout := by
  have h1 : ∀ (l : Layer α) (idx : Nat) (ps : List Addr) (r : Nat × AOSState α),
      updateLayer opt b draw junk l idx ps r ≠ .timeout := by
    intro l idx ps
    induction ps with
    | nil => intro r; simp [updateLayer]
    | cons p ps ih =>
      intro r
      obtain ⟨n, s⟩ := r
      simp only [updateLayer]
      have h2 := deref_no_timeout (pop := s.electrons) (a := p)
      cases hd : deref s.electrons p with
      | ub => simp
      | timeout => exact absurd hd h2
      | ok parent =>
        rw [Out.ok_bind]
        cases hc : childState opt b (draw n) s l idx parent with
        | ub => simp
        | timeout => exact absurd hc childState_no_timeout
        | ok st => rw [Out.ok_bind]; exact ih _
  have h2 : ∀ (L : List (Layer α × Nat)) (r : Nat × AOSState α),
      L.foldlM (fun (ns : Nat × AOSState α) (l : Layer α × Nat) =>
        updateLayer opt b draw junk l.1 l.2 l.1.members ns) r ≠ .timeout := by
    intro L
    induction L with
    | nil => intro r h; cases h
    | cons x L ih =>
      intro r
      rw [List.foldlM_cons]
      cases hu : updateLayer opt b draw junk x.1 x.2 x.1.members r with
      | ub => simp
      | timeout => exact absurd hu (h1 _ _ _ _)
      | ok r' => rw [Out.ok_bind]; exact ih r'
  unfold updateElectrons
  intro h
  cases hf : s0.layers.zipIdx.foldlM (fun (ns : Nat × AOSState α) (l : Layer α × Nat) =>
        updateLayer opt b draw junk l.1 l.2 l.1.members ns) (0, s0) with
  | ub => rw [hf] at h; cases h
  | timeout => exact h2 _ _ hf
  | ok r => rw [hf] at h; cases h

/-- States computed from states of the right dimension have it too. -/
theorem childState_form {opt : FitnessOption} {b : Box α} {d : AOSDraw α} {s : AOSState α}
    {layer : Layer α} {idx : Nat} {parent : Gene (List α) α} {st : List α}
    (h : childState opt b d s layer idx parent = .ok st)
    (hpar : parent.var.length = b.dim) (hlb : layer.bindingState.length = b.dim)
    (hsb : s.bindingState.length = b.dim) (hmem : ∀ a ∈ layer.members, ∀ g, deref s.electrons a = .ok g →
      g.var.length = b.dim) (hbest : ∀ g, deref s.electrons s.best = .ok g → g.var.length = b.dim) :
    (∃ v, v.length = b.dim ∧ st = confine b v) ∧
    (d.photon = false → st = confine b (parent.var.mapIdx fun i x => x + d.step i)) := by
  unfold childState at h
  by_cases hp : d.photon = true
  · rw [if_pos hp] at h
    refine ⟨?_, by rw [hp]; simp⟩
    by_cases he : energyBetter opt parent.fitness layer.bindingEnergy = true
    · rw [if_pos he] at h
      cases hm : layer.members[layer.bestIdx]? with
      | none => rw [hm] at h; cases h
      | some a =>
        rw [hm] at h
        dsimp only at h
        rw [Out.bind_eq_ok] at h
        obtain ⟨lb, hlbd, h⟩ := h
        cases h
        refine ⟨_, ?_, rfl⟩
        have := hmem a (List.mem_of_getElem? hm) lb hlbd
        simp [photonState, hpar, hlb, this]
    · rw [if_neg he, Out.bind_eq_ok] at h
      obtain ⟨ab, hab, h⟩ := h
      cases h
      refine ⟨_, ?_, rfl⟩
      have := hbest ab hab
      simp [photonState, hpar, hsb, this]
  · rw [if_neg hp] at h
    cases h
    exact ⟨⟨_, by simp [restState, hpar], rfl⟩, fun _ => rfl⟩

/-- What computing the layers and adding the children does. -/
theorem children_ok {impl : AOSImpl} {opt : FitnessOption} {b : Box α} {e : AOSEnv α}
    {u v : AOSState α} (h : aosChildren impl opt b e u = .ok v) :
    ∃ w, w.electrons = u.electrons ∧ w.best = u.best ∧ w.early = u.early ∧
      w.bindingState = u.bindingState ∧ w.bindingEnergy = u.bindingEnergy ∧
      u.layers.mapM (computeLayer impl opt u.electrons) = .ok w.layers ∧
      updateElectrons opt b e.draw e.junk w = .ok v := by
  unfold aosChildren computeLayerBSBELE at h
  simp only [Out.bind_eq_ok] at h
  obtain ⟨w, ⟨ls, hls, hw⟩, h⟩ := h
  cases hw
  exact ⟨{ u with layers := ls }, rfl, rfl, rfl, rfl, rfl, hls, h⟩

theorem layers_members {impl : AOSImpl} {opt : FitnessOption} {pop : Pop (Gene (List α) α)}
    {ls ls' : List (Layer α)} (h : ls.mapM (computeLayer impl opt pop) = .ok ls') :
    ls'.map (·.members) = ls.map (·.members) := by
  obtain ⟨h1, h2⟩ := Out.mapM_length h
  apply List.ext_getElem? 
  intro i
  rw [List.getElem?_map, List.getElem?_map]
  by_cases hi : i < ls.length
  · rw [List.getElem?_eq_getElem hi, List.getElem?_eq_getElem (by omega : i < ls'.length)]
    have := h2 i _ _ (List.getElem?_eq_getElem hi) (List.getElem?_eq_getElem (by omega : i < ls'.length))
    simp only [Option.map_some, Option.some.injEq]
    exact (computeLayer_ok this).1
  · rw [List.getElem?_eq_none (by omega), List.getElem?_eq_none (by omega)]

end children

end Heu
