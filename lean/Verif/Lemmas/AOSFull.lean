import Verif.Spec.AOSFull
import Verif.Lemmas.AOSRun
import Verif.Lemmas.AOSLayers
import Verif.Lemmas.Trailing
import Mathlib.Data.List.TakeWhile

/-!
# Lemmas on AOS objects
-/

set_option linter.unusedVariables false
set_option linter.unusedSectionVars false
set_option linter.unusedSimpArgs false

namespace Heu
open Spec

section gen
variable {α : Type}

/-- What evaluating does to single electrons, whatever is cached. -/
theorem computeAllFitness_each {V F : Type} (f : V → F) (pop : Pop (Gene V F)) :
    ∀ c ∈ computeAllFitness f pop, c.2.computed = true ∧ ∃ d ∈ pop, d.1 = c.1 ∧ d.2.var = c.2.var ∧
      (d.2.computed = true → c = d) ∧ (d.2.computed = false → c.2.fitness = f c.2.var) := by
  intro c hc
  simp only [computeAllFitness, List.mem_map] at hc
  obtain ⟨d, hd, rfl⟩ := hc
  cases h : d.2.computed with
  | true =>
    have he : evalGene f d.2 = d.2 := by simp [evalGene, h]
    rw [he]
    exact ⟨h, d, hd, rfl, rfl, fun _ => rfl, fun h' => by simp [h] at h'⟩
  | false =>
    have he : evalGene f d.2 = { d.2 with fitness := f d.2.var, computed := true } := by simp [evalGene, h]
    rw [he]
    exact ⟨rfl, d, hd, rfl, rfl, fun h' => by simp [h] at h', fun _ => rfl⟩

theorem computeAllFitness_keeps {V F : Type} (f : V → F) (pop : Pop (Gene V F)) :
    ∀ c ∈ pop, c.2.computed = true → c ∈ computeAllFitness f pop := by
  intro c hc h
  simp only [computeAllFitness, List.mem_map]
  exact ⟨c, hc, by simp [evalGene, h]⟩

section evaluate
variable [Field α] [LinearOrder α]

/-- What one evaluation does, whatever is cached. -/
theorem aosEvaluate_any {opt : FitnessOption} {f : List α → α} {s t : AOSState α}
    (h : aosEvaluate opt f s = .ok t) (hd : DistinctNodes s.electrons) :
    t.electrons = computeAllFitness f s.electrons ∧ DistinctNodes t.electrons ∧
    (∃ c, c.1 = t.best ∧ Unbeaten opt (fun g => g.fitness) t.electrons c ∧ deref t.electrons t.best = .ok c.2) ∧
    s.best ∈ s.electrons.map (·.1) ∧
    (∃ prev bst, deref t.electrons s.best = .ok prev ∧ deref t.electrons t.best = .ok bst ∧
      t.early = if prev.fitness = bst.fitness then s.early + 1 else 0) ∧
    (∀ dim, (∀ c ∈ s.electrons, c.2.var.length = dim) → t.bindingState.length = dim) := by
  unfold aosEvaluate computeAtomBSBELE aosComputeFitness at h
  simp only at h
  cases he : computeAllFitness f s.electrons with
  | nil => rw [he] at h; cases h
  | cons front rest =>
    rw [he] at h
    dsimp only at h
    rw [Out.bind_eq_ok] at h
    obtain ⟨prev, hprev, h⟩ := h
    simp only [Out.ok.injEq] at h
    have hd' : DistinctNodes (front :: rest) := by rw [← he]; exact (by unfold DistinctNodes; rw [distinct_computeAllFitness]; exact hd)
    have hscan := atomScan_spec opt (front :: rest) front
    have hmem : atomScan opt front (front :: rest) ∈ front :: rest := by
      rcases hscan.1 with h | h
      · rw [h]; exact List.mem_cons_self
      · exact h
    subst h
    refine ⟨rfl, hd', ⟨_, rfl, ⟨hmem, ?_⟩, deref_of_mem hd' hmem⟩, ?_,
      ⟨prev, _, hprev, deref_of_mem hd' hmem, by simp only [← le_antisymm_iff]⟩, ?_⟩
    · intro c hcm
      exact hscan.2 c (List.mem_cons_of_mem _ hcm)
    · have h1 := List.mem_map_of_mem (f := (·.1)) (deref_ok hprev)
      rw [← he, computeAllFitness_addr] at h1
      exact h1
    · intro dim hdim
      have hv : ∀ c ∈ front :: rest, c.2.var.length = dim := by
        intro c hcm
        obtain ⟨-, d, hdm, -, hdv, -⟩ := computeAllFitness_each f _ c (by rw [he]; exact hcm)
        rw [← hdv]; exact hdim d hdm
      dsimp only
      rw [List.length_map]
      unfold sumStates
      refine sumStates_length dim _ ?_ _ (by rw [List.length_replicate]; exact hv front (by simp))
      intro v hvm
      obtain ⟨c, hcm, rfl⟩ := List.mem_map.1 hvm
      exact hv c hcm

/-- Where the pointer to the previous best is dangling, evaluation is undefined. -/
theorem aosEvaluate_ub {opt : FitnessOption} {f : List α → α} {s : AOSState α}
    (hb : s.best ∉ s.electrons.map (·.1)) : aosEvaluate opt f s = .ub := by
  unfold aosEvaluate computeAtomBSBELE aosComputeFitness
  simp only
  cases he : computeAllFitness f s.electrons with
  | nil => rfl
  | cons front rest =>
    dsimp only
    have hub : deref (front :: rest) s.best = .ub := by
      rw [deref_ub, ← he, computeAllFitness_addr]; exact hb
    rw [hub]; rfl

end evaluate

section children
variable [Field α] [LinearOrder α] [FloorSemiring α]

/-- The number of dimensions of the box is not used. -/
theorem aosChildren_dim (impl : AOSImpl) (opt : FitnessOption) (d d' : Nat) (mn mx : Nat → α) (e : AOSEnv α)
    (u : AOSState α) : aosChildren impl opt ⟨d, mn, mx⟩ e u = aosChildren impl opt ⟨d', mn, mx⟩ e u := by
  have h1 : ∀ (layer : Layer α) (idx : Nat) (ps : List Addr) (ns : Nat × AOSState α),
      updateLayer opt ⟨d, mn, mx⟩ e.draw e.junk layer idx ps ns =
        updateLayer opt ⟨d', mn, mx⟩ e.draw e.junk layer idx ps ns := by
    intro layer idx ps
    induction ps with
    | nil => intro ns; rfl
    | cons p ps ih =>
      rintro ⟨n, s⟩
      simp only [updateLayer, ih]
      rfl
  unfold aosChildren updateElectrons
  simp only [h1]

/-- Children are appended; their states are confined to the box. -/
theorem children_confined {impl : AOSImpl} {opt : FitnessOption} {b : Box α} {e : AOSEnv α} {u v : AOSState α}
    (hlen : ∀ c ∈ u.electrons, c.2.var.length = b.dim) (hbs : u.bindingState.length = b.dim)
    (hd : DistinctNodes u.electrons) (h : aosChildren impl opt b e u = .ok v) :
    (∃ new, v.electrons = u.electrons ++ new ∧ new.length = (u.layers.map (·.members.length)).sum ∧
      ∀ c ∈ new, c.2.computed = false ∧ (∃ st, st.length = b.dim ∧ c.2.var = confine b st) ∧ c.1 ≠ u.best) ∧
    DistinctNodes v.electrons ∧ v.best = u.best ∧ v.early = u.early := by
  obtain ⟨w, hw1, hw2, hwe, hw3, -, hw4, hw5⟩ := children_ok h
  have hlb : ∀ l ∈ w.layers, l.bindingState.length = b.dim := by
    intro l hl
    obtain ⟨hlen', hpt⟩ := Out.mapM_length hw4
    obtain ⟨j, hj, rfl⟩ := List.getElem_of_mem hl
    have hc := hpt j _ _ (List.getElem?_eq_getElem (by omega)) (List.getElem?_eq_getElem hj)
    obtain ⟨-, -, e', rest, hde, hbst, -⟩ := computeLayer_ok hc
    have hmem : ∀ x ∈ e' :: rest, x.var.length = b.dim := by
      intro x hx
      obtain ⟨hl1, hl2⟩ := derefAll_ok hde
      obtain ⟨m, hm, rfl⟩ := List.getElem_of_mem hx
      have := hl2 m _ _ (List.getElem?_eq_getElem (by omega)) (List.getElem?_eq_getElem hm)
      exact hlen _ this
    rw [hbst, List.length_map]
    have : ∀ (rest : List (Gene (List α) α)) (acc : List α), acc.length = b.dim →
        (∀ x ∈ rest, x.var.length = b.dim) →
        (rest.foldl (fun acc (x : Gene (List α) α) => List.zipWith (· + ·) acc x.var) acc).length
          = b.dim := by
      intro rest
      induction rest with
      | nil => intro acc h _; exact h
      | cons y ys ih2 =>
        intro acc h hy
        rw [List.foldl_cons]
        refine ih2 _ ?_ fun x hx => hy x (by simp [hx])
        rw [List.length_zipWith, h, hy y (by simp), Nat.min_self]
    exact this rest e'.var (hmem e' (by simp)) fun x hx => hmem x (by simp [hx])
  have hgrow := updateElectrons_ok (P := fun st => ∃ st', st'.length = b.dim ∧ st = confine b st') (by
    intro n m s hg layer idx hidx a parent st ham hdp hcs
    obtain ⟨new, e1, -, e3⟩ := hg.new
    have hall : ∀ a g, deref s.electrons a = .ok g → g.var.length = b.dim := by
      intro a g h
      have := deref_ok h
      rw [e1] at this
      rcases List.mem_append.1 this with h | h
      · rw [hw1] at h; exact hlen _ h
      · obtain ⟨st', h1, h2⟩ := (e3 _ h).2.1
        rw [h2]; simp [confine, h1]
    exact (childState_form hcs (hall _ _ hdp)
      (hlb layer (List.mem_of_getElem? hidx)) (by rw [hg.bindingState, hw3]; exact hbs)
      (fun a _ g h => hall a g h) (fun g h => hall _ g h)).1) hw5
  obtain ⟨new, hn1, hn2, hn3⟩ := hgrow.new
  have hsum : (w.layers.map (·.members.length)).sum = (u.layers.map (·.members.length)).sum := by
    have := layers_members hw4
    have h2 := congrArg (List.map List.length) this
    rw [List.map_map, List.map_map] at h2
    exact congrArg List.sum h2
  refine ⟨⟨new, by rw [hn1, hw1], by rw [hn2, hsum], fun c hc => ?_⟩, hgrow.distinct (by rw [hw1]; exact hd),
    by rw [hgrow.best, hw2], by rw [hgrow.early, hwe]⟩
  obtain ⟨h1, h2, h3⟩ := hn3 c hc
  exact ⟨h1, h2, by rw [← hw2]; exact h3⟩

end children
end gen

section full
variable {A α : Type} [Field α] [LinearOrder α] [FloorSemiring α]
variable (opt : FitnessOption) (gauss : Nat → Nat → α)

theorem evaluate_some {x : AOSFull A α} {f : A → List α → α} (hf : x.fFun = some f) (s : AOSState α) :
    x.evaluate opt s = aosEvaluate opt (f x.arg) s := by
  unfold AOSFull.evaluate
  split
  · rename_i h
    have hc : ∀ c ∈ s.electrons, c.2.computed = true := by simpa using h
    unfold aosEvaluate aosComputeFitness
    rw [computeAllFitness_id hc, computeAllFitness_id hc]
  · simp [AOSFull.fitness, hf, readMember]

/-- The function used in an evaluation. -/
theorem evaluate_ok {x : AOSFull A α} {s t : AOSState α} (h : x.evaluate opt s = .ok t) :
    ∃ f, aosEvaluate opt f s = .ok t ∧ (∀ g, x.fFun = some g → f = g x.arg) ∧
      ((∃ c ∈ s.electrons, c.2.computed = false) → x.fFun ≠ none) := by
  cases hf : x.fFun with
  | some g =>
    rw [evaluate_some opt hf] at h
    exact ⟨_, h, fun g' hg => by cases hg; rfl, fun _ => by simp⟩
  | none =>
    unfold AOSFull.evaluate at h
    split at h
    · rename_i hc
      refine ⟨_, h, (fun g hg => by cases hg), ?_⟩
      rintro ⟨c, hcm, hc'⟩
      have := List.all_eq_true.1 hc c hcm
      rw [hc'] at this; cases this
    · simp [AOSFull.fitness, hf, readMember] at h

theorem evaluate_no_timeout {x : AOSFull A α} {s : AOSState α} : x.evaluate opt s ≠ .timeout := by
  unfold AOSFull.evaluate
  split
  · exact aosEvaluate_no_timeout
  · cases hf : x.fFun with
    | none => simp [AOSFull.fitness, hf, readMember]
    | some f =>
      simp only [AOSFull.fitness, hf, readMember, Out.ok_bind]
      exact aosEvaluate_no_timeout

/-- What making the children needs, and which step of `Model/AOS` it is. -/
theorem fullChildren_ok {x : AOSFull A α} {e : AOSRawEnv α} {u v : AOSState α} (h : x.children opt e u = .ok v) :
    ∃ mn mx delta, x.box.mn = some mn ∧ x.box.mx = some mx ∧
      ∀ d, aosChildren .eigen opt ⟨d, fun _ => mn, fun _ => mx⟩
        ⟨e.sort, 0, fun _ => 0, fun i => (e.draw i).draw x.photonRate delta, e.junk⟩ u = .ok v := by
  unfold AOSFull.children at h
  cases hmn : x.box.mn with
  | none => simp [hmn, readMember] at h
  | some mn =>
    cases hmx : x.box.mx with
    | none => simp [hmn, hmx, readMember] at h
    | some mx =>
      simp only [hmn, hmx, readMember, Out.ok_bind] at h
      split at h
      · exact ⟨mn, mx, _, rfl, rfl, fun d => (aosChildren_dim _ opt d 0 _ _ _ u).trans h⟩
      · rw [Out.bind_eq_ok] at h
        obtain ⟨delta, -, h⟩ := h
        exact ⟨mn, mx, delta, rfl, rfl, fun d => (aosChildren_dim _ opt d 0 _ _ _ u).trans h⟩

theorem fullChildren_no_timeout {x : AOSFull A α} {e : AOSRawEnv α} {u : AOSState α} :
    x.children opt e u ≠ .timeout := by
  unfold AOSFull.children
  cases hmn : x.box.mn with
  | none => simp [readMember]
  | some mn =>
    cases hmx : x.box.mx with
    | none => simp [readMember]
    | some mx =>
      simp only [readMember, Out.ok_bind]
      split
      · exact aosChildren_no_timeout
      · cases hd : x.box.delta with
        | none => simp
        | some d => simp only [Out.ok_bind]; exact aosChildren_no_timeout

theorem fullChildren_total {x : AOSFull A α} {e : AOSRawEnv α} {u : AOSState α} {mn mx : α}
    (h1 : x.box.mn = some mn) (h2 : x.box.mx = some mx)
    (h3 : x.box.delta ≠ none ∨ ∀ i, x.photonRate ≤ (e.draw i).u) :
    ∃ delta, x.children opt e u = aosChildren .eigen opt ⟨0, fun _ => mn, fun _ => mx⟩
        ⟨e.sort, 0, fun _ => 0, fun i => (e.draw i).draw x.photonRate delta, e.junk⟩ u := by
  unfold AOSFull.children
  simp only [h1, h2, readMember, Out.ok_bind]
  split
  · exact ⟨_, rfl⟩
  · rename_i h
    cases hd : x.box.delta with
    | some d => exact ⟨d, by simp only [Out.ok_bind]⟩
    | none =>
      rcases h3 with h3 | h3
      · exact absurd hd h3
      · exact absurd (List.all_eq_true.2 fun i _ => decide_eq_true (h3 i)) h

/-- Proof rule for the loop. -/
theorem fullLoop_rule (x : AOSFull A α) (env : Nat → AOSRawEnv α)
    (Pre : Nat → AOSState α → List α → Prop) (Post : RunResult (AOSState α) α → Prop)
    (step : ∀ gen s rec t g u, Pre gen s rec → x.evaluate opt s = .ok t → deref t.electrons t.best = .ok g →
      x.select opt gauss (env gen) t = .ok u →
      ((gen ≥ x.option.maxGeneration ∨ u.early ≥ x.option.maxEarlyStop) → Post ⟨u, gen, rec ++ [g.fitness]⟩) ∧
      (gen < x.option.maxGeneration → u.early < x.option.maxEarlyStop → ∀ v, x.children opt (env gen) u = .ok v →
        Pre (gen + 1) v (rec ++ [g.fitness]))) :
    ∀ (fuel gen : Nat) (s : AOSState α) (rec : List α) r, Pre gen s rec →
      x.loop opt gauss env fuel gen s rec = .ok r → Post r := by
  intro fuel
  induction fuel with
  | zero => intro gen s rec r _ h; cases h
  | succ fuel ih =>
    intro gen s rec r hp h
    simp only [AOSFull.loop, Out.bind_eq_ok] at h
    obtain ⟨t, ht, g, hg, u, hu, h⟩ := h
    obtain ⟨h1, h2⟩ := step gen s rec t g u hp ht hg hu
    by_cases hstop : gen ≥ x.option.maxGeneration ∨ u.early ≥ x.option.maxEarlyStop
    · rw [if_pos hstop] at h; cases h; exact h1 hstop
    · rw [if_neg hstop, Out.bind_eq_ok] at h
      obtain ⟨v, hv, h⟩ := h
      exact ih _ _ _ r (h2 (by omega) (by omega) v hv) h

theorem fullLoop_no_timeout (x : AOSFull A α) (env : Nat → AOSRawEnv α) :
    ∀ (fuel gen : Nat) (s : AOSState α) (rec : List α), 0 < fuel → x.option.maxGeneration < gen + fuel →
      x.loop opt gauss env fuel gen s rec ≠ .timeout := by
  intro fuel
  induction fuel with
  | zero => intro gen s rec h _; omega
  | succ fuel ih =>
    intro gen s rec _ hf
    simp only [AOSFull.loop]
    cases h1 : x.evaluate opt s with
    | ub => simp
    | timeout => exact absurd h1 (evaluate_no_timeout opt)
    | ok t =>
      rw [Out.ok_bind]
      cases h2 : Heu.deref t.electrons t.best with
      | ub => simp
      | timeout => exact absurd h2 deref_no_timeout
      | ok g =>
        rw [Out.ok_bind]
        cases h3 : x.select opt gauss (env gen) t with
        | ub => simp
        | timeout => exact absurd h3 select_no_timeout
        | ok u =>
          rw [Out.ok_bind]
          by_cases hstop : gen ≥ x.option.maxGeneration ∨ u.early ≥ x.option.maxEarlyStop
          · rw [if_pos hstop]; simp
          · rw [if_neg hstop]
            cases h4 : x.children opt (env gen) u with
            | ub => simp
            | timeout => exact absurd h4 (fullChildren_no_timeout opt)
            | ok v =>
              rw [Out.ok_bind]
              exact ih (gen + 1) v (rec ++ [g.fitness]) (by omega) (by omega)

/-- All electrons are distinct nodes with states of the same length. -/
structure AOSUniform (dim : Nat) (s : AOSState α) : Prop where
  distinct : DistinctNodes s.electrons
  size : ∀ c ∈ s.electrons, c.2.var.length = dim

/-- One iteration: what it does to the electrons. -/
theorem fullStep {x : AOSFull A α} {e : AOSRawEnv α} {dim : Nat} {s t u : AOSState α} (hs : AOSUniform dim s)
    (ht : x.evaluate opt s = .ok t) (hu : x.select opt gauss e t = .ok u) :
    -- evaluation
    (∃ f, t.electrons = computeAllFitness f s.electrons ∧ (∀ g, x.fFun = some g → f = g x.arg)) ∧
    ((∃ c ∈ s.electrons, c.2.computed = false) → x.fFun ≠ none) ∧
    (∃ c, c.1 = t.best ∧ Unbeaten opt (fun g => g.fitness) t.electrons c ∧ deref t.electrons t.best = .ok c.2 ∧
      ∃ d ∈ u.electrons, d.2.fitness = c.2.fitness) ∧
    AOSUniform dim t ∧
    -- selection
    0 < x.option.electronNum ∧ s.electrons ≠ [] ∧ s.best ∈ s.electrons.map (·.1) ∧
    u.electrons.length = min x.option.electronNum s.electrons.length ∧
    (∀ c ∈ u.electrons, c ∈ t.electrons) ∧ AOSUniform dim u ∧ u.best = t.best ∧ u.early = t.early ∧
    (∃ prev bst, deref t.electrons s.best = .ok prev ∧ deref t.electrons t.best = .ok bst ∧
      t.early = if prev.fitness = bst.fitness then s.early + 1 else 0) ∧
    -- children
    (∀ v, x.children opt e u = .ok v → AOSUniform dim v ∧ v.best = u.best ∧ v.early = u.early ∧
      ∃ mn mx new, x.box.mn = some mn ∧ x.box.mx = some mx ∧ v.electrons = u.electrons ++ new ∧
        new.length = (u.layers.map (·.members.length)).sum ∧
        ∀ c ∈ new, c.2.computed = false ∧ c.1 ≠ u.best ∧
          ∃ st, st.length = dim ∧ c.2.var = confine ⟨dim, fun _ => mn, fun _ => mx⟩ st) := by
  obtain ⟨f, hf, hfx, hfn⟩ := evaluate_ok opt ht
  obtain ⟨h1, h2, ⟨c, hc1, hc2, hc3⟩, h4, h5, h6⟩ := aosEvaluate_any hf hs.distinct
  have hsel : selectAndMakeLayers opt x.option e.sort (x.layerNum e.v) (gauss (x.layerNum e.v)) t = .ok u := hu
  obtain ⟨hu1, hu2, hu3, hu4, -, hmk⟩ := select_ok hsel
  have htl : t.electrons.length = s.electrons.length := by
    rw [h1]; simp [computeAllFitness]
  have hne : s.electrons ≠ [] := by
    intro h; rw [h] at h4; simp at h4
  have hts : ∀ c ∈ t.electrons, c.2.var.length = dim := by
    intro c hc
    rw [h1] at hc
    obtain ⟨-, d, hd, -, hv, -⟩ := computeAllFitness_each f _ c hc
    rw [← hv]; exact hs.size d hd
  have hpos : 0 < x.option.electronNum := by
    by_contra h0
    have h0 : x.option.electronNum = 0 := by omega
    have hn : keptNodes opt x.option e.sort t = [] := by unfold keptNodes; rw [h0]; rfl
    rw [hn] at hmk
    unfold makeLayers at hmk
    rw [Out.bind_eq_ok] at hmk
    obtain ⟨L, hL, hmk⟩ := hmk
    simp only [List.map_nil, fillLayers, Out.ok.injEq] at hL
    subst hL
    unfold popEmptyLayers at hmk
    have : (List.map (fun (_ : Nat) => ([] : List Addr)) (layerLimits (keptElectrons opt x.option e.sort t).length
        (layerCounts (gauss (x.layerNum e.v)) (x.layerNum e.v)
          (keptElectrons opt x.option e.sort t).length))).reverse.dropWhile (·.isEmpty) = [] := by
      rw [List.dropWhile_eq_nil_iff]
      intro l hl
      rw [List.mem_reverse, List.mem_map] at hl
      obtain ⟨_, -, rfl⟩ := hl
      rfl
    rw [this] at hmk
    cases hmk
  have hul : u.electrons.length = min x.option.electronNum s.electrons.length := by
    rw [hu1, kept_length h2, htl]
  have hu' : AOSUniform dim u := ⟨by rw [hu1]; exact distinct_filter h2 _, fun c hc => by
    rw [hu1] at hc; exact hts c (kept_sub c hc)⟩
  refine ⟨⟨f, h1, hfx⟩, hfn, ⟨c, hc1, hc2, hc3, ?_⟩, ⟨h2, hts⟩, hpos, hne, h4, hul,
    (fun c hc => by rw [hu1] at hc; exact kept_sub c hc), hu', hu2, hu3, h5, ?_⟩
  · rw [hu1]; exact bestEnergy_survives h2 hpos hc2
  · intro v hv
    obtain ⟨mn, mx, delta, e1, e2, hch⟩ := fullChildren_ok opt hv
    obtain ⟨⟨new, n1, n2, n3⟩, hdv, hvb, hve⟩ := children_confined (b := ⟨dim, fun _ => mn, fun _ => mx⟩)
      hu'.size (by rw [hu4]; exact h6 dim hs.size) hu'.distinct (hch dim)
    refine ⟨⟨hdv, ?_⟩, hvb, hve, mn, mx, new, e1, e2, n1, n2, fun c hc => ?_⟩
    · intro c hc
      rw [n1] at hc
      rcases List.mem_append.1 hc with h | h
      · exact hu'.size c h
      · obtain ⟨-, ⟨st, h7, h8⟩, -⟩ := n3 c h
        rw [h8]; simp [confine]; exact h7
    · obtain ⟨h7, h8, h9⟩ := n3 c hc
      exact ⟨h7, h9, h8⟩

/-! ### Whole runs -/

theorem fullRun_eq {x y : AOSFull A α} {env : Nat → AOSRawEnv α} (h : x.run opt gauss env = .ok y) :
    ∃ r, x.loop opt gauss env (x.option.maxGeneration + 1) x.generation x.st x.record = .ok r ∧
      y = { x with st := r.state, generation := r.generation, record := r.record } := by
  unfold AOSFull.run at h
  rw [Out.bind_eq_ok] at h
  obtain ⟨r, hr, h⟩ := h
  exact ⟨r, hr, (Out.ok.inj h).symm⟩

theorem fullRun_first {x y : AOSFull A α} {env : Nat → AOSRawEnv α} (h : x.run opt gauss env = .ok y) :
    ∃ t u, x.evaluate opt x.st = .ok t ∧ x.select opt gauss (env x.generation) t = .ok u := by
  obtain ⟨r, hr, -⟩ := fullRun_eq opt gauss h
  simp only [AOSFull.loop, Out.bind_eq_ok] at hr
  obtain ⟨t, ht, g, hg, u, hu, -⟩ := hr
  exact ⟨t, u, ht, hu⟩

theorem fullRun_no_timeout (x : AOSFull A α) (env : Nat → AOSRawEnv α) : x.run opt gauss env ≠ .timeout := by
  unfold AOSFull.run
  have := fullLoop_no_timeout opt gauss x env (x.option.maxGeneration + 1) x.generation x.st x.record (by omega)
    (by omega)
  cases h : x.loop opt gauss env (x.option.maxGeneration + 1) x.generation x.st x.record with
  | ub => simp
  | timeout => exact absurd h this
  | ok r => simp

/-- Settings, sizes, counters and record of a run. -/
theorem fullRun_frame {x y : AOSFull A α} {env : Nat → AOSRawEnv α} {dim : Nat} (hx : AOSUniform dim x.st)
    (h : x.run opt gauss env = .ok y) :
    (y.option = x.option ∧ y.photonRate = x.photonRate ∧ y.fFun = x.fFun ∧ y.arg = x.arg ∧ y.box = x.box) ∧
    AOSUniform dim y.st ∧ (∀ c ∈ y.st.electrons, c.2.computed = true) ∧ y.st.electrons ≠ [] ∧
    y.st.electrons.length ≤ x.option.electronNum ∧
    x.generation ≤ y.generation ∧ (y.generation = x.generation ∨ y.generation ≤ x.option.maxGeneration) ∧
    (x.option.maxGeneration ≤ y.generation ∨ x.option.maxEarlyStop ≤ y.st.early) ∧
    ∃ bs, y.record = x.record ++ bs ∧ bs.length = y.generation - x.generation + 1 := by
  obtain ⟨r, hr, rfl⟩ := fullRun_eq opt gauss h
  refine ⟨⟨rfl, rfl, rfl, rfl, rfl⟩, ?_⟩
  refine fullLoop_rule opt gauss x env
    (fun gen s rec => AOSUniform dim s ∧ x.generation ≤ gen ∧
      (gen = x.generation ∨ gen ≤ x.option.maxGeneration) ∧
      ∃ bs, rec = x.record ++ bs ∧ bs.length = gen - x.generation)
    (fun r => AOSUniform dim r.state ∧ (∀ c ∈ r.state.electrons, c.2.computed = true) ∧ r.state.electrons ≠ [] ∧
      r.state.electrons.length ≤ x.option.electronNum ∧
      x.generation ≤ r.generation ∧ (r.generation = x.generation ∨ r.generation ≤ x.option.maxGeneration) ∧
      (x.option.maxGeneration ≤ r.generation ∨ x.option.maxEarlyStop ≤ r.state.early) ∧
      ∃ bs, r.record = x.record ++ bs ∧ bs.length = r.generation - x.generation + 1)
    ?_ _ _ _ _ r ⟨hx, le_rfl, .inl rfl, [], by simp, by simp⟩ hr
  rintro gen s rec t g u ⟨hs, hg1, hg2, bs, rfl, hbs⟩ ht hg hu
  obtain ⟨⟨f, hf, -⟩, -, -, -, h0, hne, -, hl, hsub, hu', -, -, -, hch⟩ := fullStep opt gauss hs ht hu
  refine ⟨fun hstop => ⟨hu', ?_, ?_, ?_, hg1, hg2, hstop, bs ++ [g.fitness], by simp, by simp [hbs]⟩, ?_⟩
  · intro c hc
    have := hsub c hc
    rw [hf] at this
    exact (computeAllFitness_each f _ c this).1
  · rw [← List.length_pos_iff]
    have := List.length_pos_iff.2 hne
    show 0 < u.electrons.length
    omega
  · show u.electrons.length ≤ _
    omega
  · intro hlt _ v hv
    exact ⟨(hch v hv).1, by omega, .inr (by omega), bs ++ [g.fitness], by simp, by simp [hbs]; omega⟩

/-- The last entry of the record is the energy of an electron. -/
def LastKept (rec : List α) (s : AOSState α) : Prop :=
  ∀ e, rec.getLast? = some e → ∃ c ∈ s.electrons, c.2.computed = true ∧ c.2.fitness = e

/-- The record never gets worse. -/
def NeverWorse (rec : List α) : Prop := rec.Pairwise fun a b => ¬ Better opt a b

theorem neverWorse_snoc {rec : List α} {e : α} (h : NeverWorse opt rec)
    (he : ∀ l, rec.getLast? = some l → ¬ Better opt l e) : NeverWorse opt (rec ++ [e]) := by
  unfold NeverWorse
  rw [List.pairwise_append]
  refine ⟨h, by simp, ?_⟩
  intro a ha b hb
  rw [List.mem_singleton] at hb; subst hb
  rcases List.eq_nil_or_concat rec with rfl | ⟨l, y, rfl⟩
  · simp at ha
  · have h1 := he y (by simp)
    rw [List.concat_eq_append] at ha h
    rcases List.mem_append.1 ha with h2 | h2
    · exact not_better_trans ((List.pairwise_append.1 h).2.2 a h2 y (by simp)) h1
    · rw [List.mem_singleton] at h2; subst h2; exact h1

/-- The record of a run. -/
theorem fullRun_record {x y : AOSFull A α} {env : Nat → AOSRawEnv α} {dim : Nat} (hx : AOSUniform dim x.st)
    (h : x.run opt gauss env = .ok y) (h1 : NeverWorse opt x.record) (h2 : LastKept x.record x.st) :
    NeverWorse opt y.record ∧ LastKept y.record y.st ∧
      ∃ e, y.record.getLast? = some e ∧ BestEnergy opt y.st.electrons e := by
  obtain ⟨r, hr, rfl⟩ := fullRun_eq opt gauss h
  refine fullLoop_rule opt gauss x env
    (fun gen s rec => AOSUniform dim s ∧ NeverWorse opt rec ∧ LastKept rec s)
    (fun r => NeverWorse opt r.record ∧ LastKept r.record r.state ∧
      ∃ e, r.record.getLast? = some e ∧ BestEnergy opt r.state.electrons e)
    ?_ _ _ _ _ r ⟨hx, h1, h2⟩ hr
  rintro gen s rec t g u ⟨hs, hn, hk⟩ ht hg hu
  obtain ⟨⟨f, hf, -⟩, -, ⟨c, hc1, hc2, hc3, d, hd, hde⟩, ht', h0, hne, -, hl, hsub, hu', -, -, -, hch⟩ :=
    fullStep opt gauss hs ht hu
  rw [hg] at hc3; cases hc3
  have hn' : NeverWorse opt (rec ++ [c.2.fitness]) := by
    refine neverWorse_snoc opt hn fun l hl => ?_
    obtain ⟨b, hb, hbc, rfl⟩ := hk l hl
    exact hc2.2 b (by rw [hf]; exact computeAllFitness_keeps f _ b hb hbc)
  have hcomp : ∀ c ∈ u.electrons, c.2.computed = true := by
    intro c hc
    have := hsub c hc
    rw [hf] at this
    exact (computeAllFitness_each f _ c this).1
  refine ⟨fun hstop => ⟨hn', ?_, c.2.fitness, by simp, ⟨d, hd, hde⟩, ?_⟩, ?_⟩
  · intro e he
    simp at he; subst he
    exact ⟨d, hd, hcomp d hd, hde⟩
  · intro b hb
    exact hc2.2 b (hsub b hb)
  · intro _ _ v hv
    obtain ⟨hv', -, -, mn, mx, new, -, -, hve, -⟩ := hch v hv
    refine ⟨hv', hn', ?_⟩
    intro e he
    simp at he; subst he
    exact ⟨d, by rw [hve]; exact List.mem_append_left _ hd, hcomp d hd, hde⟩

/-- Energies are values of the fitness function. -/
theorem fullRun_true {x y : AOSFull A α} {env : Nat → AOSRawEnv α} {dim : Nat} (hx : AOSUniform dim x.st)
    (h : x.run opt gauss env = .ok y) (F : List α → α) (hF : ∀ g, x.fFun = some g → g x.arg = F)
    (hc : CacheCorrect F x.st.electrons) : CacheCorrect F y.st.electrons := by
  obtain ⟨r, hr, rfl⟩ := fullRun_eq opt gauss h
  refine fullLoop_rule opt gauss x env
    (fun gen s rec => AOSUniform dim s ∧ CacheCorrect F s.electrons)
    (fun r => CacheCorrect F r.state.electrons)
    ?_ _ _ _ _ r ⟨hx, hc⟩ hr
  rintro gen s rec t g u ⟨hs, hc⟩ ht hg hu
  obtain ⟨⟨f, hf, hfx⟩, hfn, -, ht', h0, hne, -, hl, hsub, hu', -, -, -, hch⟩ := fullStep opt gauss hs ht hu
  have htc : ∀ c ∈ t.electrons, c.2.fitness = F c.2.var := by
    intro c hcm
    rw [hf] at hcm
    obtain ⟨-, d, hd, -, -, e1, e2⟩ := computeAllFitness_each f _ c hcm
    cases hdc : d.2.computed with
    | true => rw [e1 hdc]; exact hc d hd hdc
    | false =>
      obtain ⟨k, hk⟩ := Option.ne_none_iff_exists'.1 (hfn ⟨d, hd, hdc⟩)
      rw [e2 hdc, hfx k hk, hF k hk]
  refine ⟨fun _ c hcm _ => htc c (hsub c hcm), fun _ _ v hv => ?_⟩
  obtain ⟨hv', -, -, mn, mx, new, -, -, hve, -, hnew⟩ := hch v hv
  refine ⟨hv', ?_⟩
  intro c hcm hcc
  rw [hve] at hcm
  rcases List.mem_append.1 hcm with h1 | h1
  · exact htc c (hsub c h1)
  · rw [(hnew c h1).1] at hcc; cases hcc

/-- Where the electrons come from. -/
def FromBefore (s0 : AOSState α) (c : Cell (Gene (List α) α)) : Prop :=
  ∃ d ∈ s0.electrons, d.1 = c.1 ∧ d.2.var = c.2.var ∧ (d.2.computed = true → c = d)

theorem fullRun_origin {x y : AOSFull A α} {env : Nat → AOSRawEnv α} {dim : Nat} (hx : AOSUniform dim x.st)
    (h : x.run opt gauss env = .ok y) :
    ∀ c ∈ y.st.electrons, FromBefore x.st c ∨
      (x.generation < x.option.maxGeneration ∧ ∃ mn mx st, x.box.mn = some mn ∧ x.box.mx = some mx ∧
        st.length = dim ∧ c.2.var = confine ⟨dim, fun _ => mn, fun _ => mx⟩ st) := by
  obtain ⟨r, hr, rfl⟩ := fullRun_eq opt gauss h
  have key : ∀ (s t : AOSState α) (f : List α → α), t.electrons = computeAllFitness f s.electrons →
      ∀ P : Cell (Gene (List α) α) → Prop, (∀ c d, d.1 = c.1 → d.2.var = c.2.var →
        (d.2.computed = true → c = d) → P d → P c) → (∀ c ∈ s.electrons, P c) → ∀ c ∈ t.electrons, P c := by
    intro s t f hf P hP hs c hc
    rw [hf] at hc
    obtain ⟨-, d, hd, e1, e2, e3, -⟩ := computeAllFitness_each f _ c hc
    exact hP c d e1 e2 e3 (hs d hd)
  refine fullLoop_rule opt gauss x env
    (fun gen s rec => x.generation ≤ gen ∧ AOSUniform dim s ∧ ∀ c ∈ s.electrons, FromBefore x.st c ∨
      (x.generation < x.option.maxGeneration ∧ ∃ mn mx st, x.box.mn = some mn ∧ x.box.mx = some mx ∧
        st.length = dim ∧ c.2.var = confine ⟨dim, fun _ => mn, fun _ => mx⟩ st))
    (fun r => ∀ c ∈ r.state.electrons, FromBefore x.st c ∨
      (x.generation < x.option.maxGeneration ∧ ∃ mn mx st, x.box.mn = some mn ∧ x.box.mx = some mx ∧
        st.length = dim ∧ c.2.var = confine ⟨dim, fun _ => mn, fun _ => mx⟩ st))
    ?_ _ _ _ _ r ⟨le_rfl, hx, fun c hc => .inl ⟨c, hc, rfl, rfl, fun _ => rfl⟩⟩ hr
  rintro gen s rec t g u ⟨hgen, hs, hc⟩ ht hg hu
  obtain ⟨⟨f, hf, hfx⟩, hfn, -, ht', h0, hne, -, hl, hsub, hu', -, -, -, hch⟩ := fullStep opt gauss hs ht hu
  have ho := key s t f hf _ (by
    rintro c d e1 e2 e3 (⟨b, hb, b1, b2, b3⟩ | ⟨hlt, mn, mx, st, q1, q2, q3, q4⟩)
    · refine .inl ⟨b, hb, b1.trans e1, b2.trans e2, fun hbc => ?_⟩
      have hdb := b3 hbc
      rw [hdb] at e3; exact e3 hbc
    · exact .inr ⟨hlt, mn, mx, st, q1, q2, q3, e2 ▸ q4⟩) hc
  refine ⟨fun _ c hcm => ho c (hsub c hcm), fun hlt _ v hv => ⟨by omega, ?_⟩⟩
  obtain ⟨hv', -, -, mn, mx, new, e1, e2, hve, -, hnew⟩ := hch v hv
  refine ⟨hv', ?_⟩
  intro c hcm
  rw [hve] at hcm
  rcases List.mem_append.1 hcm with h1 | h1
  · exact ho c (hsub c h1)
  · obtain ⟨-, -, st, h3, h4⟩ := hnew c h1
    exact .inr ⟨by omega, mn, mx, st, e1, e2, h3, h4⟩

/-- What the pointer to the best electron refers to, if it is valid: the electron whose energy was recorded last;
before the first evaluation, an electron not evaluated whose energy is going to be `e0`. -/
def RefOK (F : List α → α) (e0 : α) (rec : List α) (s : AOSState α) : Prop :=
  ∀ c ∈ s.electrons, c.1 = s.best →
    (∀ e, rec.getLast? = some e → c.2.computed = true ∧ c.2.fitness = e) ∧
    (rec = [] → c.2.computed = false ∧ F c.2.var = e0)

/-- The early-stop counter. -/
theorem fullRun_early {x y : AOSFull A α} {env : Nat → AOSRawEnv α} {dim : Nat} (hx : AOSUniform dim x.st)
    (h : x.run opt gauss env = .ok y) (F : List α → α) (hF : ∀ g, x.fFun = some g → g x.arg = F) (e0 : α)
    (h1 : RefOK F e0 x.record x.st) (h2 : x.st.early = trailingFails opt e0 x.record) :
    RefOK F e0 y.record y.st ∧ y.st.early = trailingFails opt e0 y.record := by
  obtain ⟨r, hr, rfl⟩ := fullRun_eq opt gauss h
  refine fullLoop_rule opt gauss x env
    (fun gen s rec => AOSUniform dim s ∧ RefOK F e0 rec s ∧ s.early = trailingFails opt e0 rec)
    (fun r => RefOK F e0 r.record r.state ∧ r.state.early = trailingFails opt e0 r.record)
    ?_ _ _ _ _ r ⟨hx, h1, h2⟩ hr
  rintro gen s rec t g u ⟨hs, hk, hearly⟩ ht hg hu
  obtain ⟨⟨f, hf, hfx⟩, hfn, ⟨c, hc1, hc2, hc3, -⟩, ht', h0, hne, hbm, hl, hsub, hu', hub, hue,
    ⟨prev, bst, e1, e2, e3⟩, hch⟩ := fullStep opt gauss hs ht hu
  rw [hg] at hc3 e2; cases hc3; cases e2
  -- the previous best
  have hpm := deref_ok e1
  have hprev : prev.fitness = (e0 :: rec).getLast (by simp) := by
    have hpm' := hpm
    rw [hf] at hpm'
    obtain ⟨-, d, hd, q1, q2, q3, q4⟩ := computeAllFitness_each f _ _ hpm'
    obtain ⟨k1, k2⟩ := hk d hd q1
    rcases List.eq_nil_or_concat rec with rfl | ⟨l, e, rfl⟩
    · obtain ⟨k3, k4⟩ := k2 rfl
      obtain ⟨k, hkk⟩ := Option.ne_none_iff_exists'.1 (hfn ⟨d, hd, k3⟩)
      have := q4 k3
      dsimp only at this q2
      rw [this, hfx k hkk, hF k hkk, ← q2, k4]
      rfl
    · obtain ⟨k3, k4⟩ := k1 e (by simp)
      have hdp := q3 k3
      have : prev.fitness = e := by rw [← k4, ← hdp]
      rw [this]; simp
  have hnb := hc2.2 _ hpm
  dsimp only at hnb
  have htr : t.early = trailingFails opt e0 (rec ++ [c.2.fitness]) := by
    have hta := trailingFails_append opt e0 rec c.2.fitness _ hprev.symm
    rw [e3]
    by_cases hbt : Better opt c.2.fitness prev.fitness
    · rw [hta.1 hbt, if_neg]
      intro heq; rw [heq] at hbt; exact better_irrefl _ _ hbt
    · rw [hta.2 hbt, if_pos, hearly]
      cases opt <;> simp only [Better, not_lt] at hnb hbt
      · exact le_antisymm hbt hnb
      · exact le_antisymm hnb hbt
  have href : ∀ s' : AOSState α, (∀ d ∈ s'.electrons, d.1 = t.best → d ∈ t.electrons) → s'.best = t.best →
      RefOK F e0 (rec ++ [c.2.fitness]) s' := by
    intro s' hsub' hb' d hd hdb
    rw [hb'] at hdb
    refine ⟨?_, by simp⟩
    intro e he
    simp at he; subst he
    have hdt := hsub' d hd hdb
    have h3 := deref_of_mem ht'.distinct (show (t.best, d.2) ∈ t.electrons by rw [← hdb]; exact hdt)
    rw [hg] at h3
    have h4 : c.2 = d.2 := Out.ok.inj h3
    rw [h4]
    refine ⟨?_, rfl⟩
    rw [hf] at hdt
    exact (computeAllFitness_each f _ d hdt).1
  refine ⟨fun _ => ⟨href u (fun d hd _ => hsub d hd) hub, ?_⟩, fun _ _ v hv => ?_⟩
  · show u.early = _
    rw [hue, htr]
  · obtain ⟨hv', hvb, hve, mn, mx, new, -, -, hvel, -, hnew⟩ := hch v hv
    refine ⟨hv', href v ?_ (by rw [hvb, hub]), by rw [hve, hue, htr]⟩
    intro d hd hdb
    rw [hvel] at hd
    rcases List.mem_append.1 hd with h3 | h3
    · exact hsub d h3
    · exact absurd (by rw [hub]; exact hdb) (hnew d h3).2.1

end full

end Heu
