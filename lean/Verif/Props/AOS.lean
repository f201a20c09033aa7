import Verif.Lemmas.AOSRun
import Verif.Props.NSGA
import Mathlib.Data.Rat.Floor
import Mathlib.Tactic.IntervalCases

/-!
# C48–C53, C68: atomic orbital search

Exact arithmetic in an ordered field; every draw, the ties of `std::sort` and the uninitialised energies
are arbitrary.
-/

set_option linter.unusedSectionVars false
set_option linter.unusedSimpArgs false
set_option linter.unusedVariables false

namespace Heu
open Spec

variable {α : Type} [Field α] [LinearOrder α] [IsStrictOrderedRing α] [FloorSemiring α]

/-! ### C49: selection -/

/-- **C49**.  After a successful selection exactly `min(electronNum, n)` electrons are left, all of them
unchanged, none worse than an erased one. -/
theorem aos_selection_keeps_best (opt : FitnessOption) (o : AOSOption)
    (sort : Sorter (Cell (Gene (List α) α))) (k : Nat) (g : Nat → α) (s u : AOSState α)
    (hd : DistinctNodes s.electrons) (h : selectAndMakeLayers opt o sort k g s = .ok u) :
    u.electrons.length = min o.electronNum s.electrons.length ∧
    u.electrons.Sublist s.electrons ∧
    (∀ c ∈ u.electrons, ∀ d ∈ s.electrons, d ∉ u.electrons → ¬ Better opt d.2.fitness c.2.fitness) := by
  obtain ⟨h1, -, -, -, -, -⟩ := select_ok h
  rw [h1]
  exact ⟨kept_length hd, List.filter_sublist, kept_best hd⟩

/-! ### C50: layers -/

/-- The draw of the number of layers and the weights of the layers are legal: between 1 and
`maxLayerNum` layers, positive weights, the first one largest (`gaussianCurve_legal` shows this for the
weights of the code). -/
structure LegalLayers (o : AOSOption) (k : Nat) (g : Nat → α) : Prop where
  one_le : 1 ≤ k
  le_max : k ≤ o.maxLayerNum
  pos : ∀ i, i < k → 0 < g i
  first : ∀ i, i < k → g i ≤ g 0

theorem aos_foldl_add_eq_sum (l : List α) (a : α) : l.foldl (· + ·) a = a + l.sum := by
  induction l generalizing a with
  | nil => simp
  | cons x l ih => rw [List.foldl_cons, ih, List.sum_cons, add_assoc]

/-- The first layer is planned to have an electron. -/
theorem layerCounts_first (g : Nat → α) (k n : Nat) (hk : 1 ≤ k) (hn : k ≤ n)
    (hpos : ∀ i, i < k → 0 < g i) (hfirst : ∀ i, i < k → g i ≤ g 0) :
    ∃ c0, (layerCounts g k n)[0]? = some c0 ∧ 0 < c0 := by
  unfold layerCounts
  simp only
  rw [List.getElem?_map, List.getElem?_range (by omega)]
  refine ⟨_, rfl, ?_⟩
  rw [aos_foldl_add_eq_sum, zero_add]
  have hsum : ((List.range k).map g).sum ≤ (k : α) * g 0 := by
    have h := List.sum_le_card_nsmul ((List.range k).map g) (g 0) (by
      intro x hx
      obtain ⟨i, hi, rfl⟩ := List.mem_map.1 hx
      exact hfirst i (List.mem_range.1 hi))
    rw [List.length_map, List.length_range, nsmul_eq_mul] at h
    exact h
  have hs0 : 0 < ((List.range k).map g).sum := by
    refine List.sum_pos _ ?_ ?_
    · intro x hx
      obtain ⟨i, hi, rfl⟩ := List.mem_map.1 hx
      exact hpos i (List.mem_range.1 hi)
    · intro h0
      have := congrArg List.length h0
      simp at this; omega
  have hg0 := hpos 0 (by omega)
  have hone : (1 : α) ≤ g 0 / ((List.range k).map g).sum * (n : α) := by
    rw [div_mul_eq_mul_div, le_div_iff₀ hs0, one_mul]
    refine hsum.trans ?_
    rw [mul_comm]
    exact mul_le_mul_of_nonneg_left (by exact_mod_cast hn) hg0.le
  have : 1 ≤ ⌊g 0 / ((List.range k).map g).sum * (n : α) + 1 / 2⌋₊ := by
    rw [Nat.le_floor_iff (by positivity)]
    push_cast
    linarith [show (0 : α) < 1 / 2 by norm_num]
  exact this

theorem layerCounts_length (g : Nat → α) (k n : Nat) : (layerCounts g k n).length = k := by
  simp [layerCounts]

/-- **C50** (in range, exactly).  Starting from at least one electron, making the layers has undefined
behaviour (an access past the last layer) exactly when the plan made by rounding the weights is too
small. -/
theorem aos_layers_out_of_range_iff (opt : FitnessOption) (o : AOSOption)
    (sort : Sorter (Cell (Gene (List α) α))) (k : Nat) (g : Nat → α) (s : AOSState α)
    (hd : DistinctNodes s.electrons) (hl : LegalLayers o k g)
    (hko : k ≤ min o.electronNum s.electrons.length) :
    (selectAndMakeLayers opt o sort k g s = .ub ↔
      PlanTooSmall (min o.electronNum s.electrons.length)
        (layerCounts g k (min o.electronNum s.electrons.length))) ∧
    (selectAndMakeLayers opt o sort k g s ≠ .ub → ∃ u, selectAndMakeLayers opt o sort k g s = .ok u) := by
  have hlen := kept_length (opt := opt) (o := o) (sort := sort) hd
  have hlen2 : ((keptNodes opt o sort s).map (·.1)).length = min o.electronNum s.electrons.length := by
    rw [List.length_map, ← (kept_perm hd).length_eq, hlen]
  obtain ⟨h1, h2⟩ := plan_spec (min o.electronNum s.electrons.length)
    (layerCounts g k (min o.electronNum s.electrons.length)) ((keptNodes opt o sort s).map (·.1)) hlen2
    (by have := hl.one_le; omega) (layerCounts_first g k _ hl.one_le hko hl.pos hl.first)
  rw [← hlen] at h1 h2
  rw [← hlen]
  by_cases hp : PlanTooSmall (keptElectrons opt o sort s).length
      (layerCounts g k (keptElectrons opt o sort s).length)
  · have := select_ub_of (h1.2 hp)
    exact ⟨⟨fun _ => hp, fun _ => this⟩, fun h => absurd this h⟩
  · obtain ⟨L, hL, -⟩ := h2 hp
    obtain ⟨u, hu⟩ := select_of_layers hL
    refine ⟨⟨fun h => ?_, fun h => absurd h hp⟩, fun _ => ⟨u, hu⟩⟩
    rw [hu] at h; cases h

/-- **C50** (partition in order of energy).  When it succeeds, every electron left is in exactly one
layer, no layer is empty, there are between 1 and the drawn number of layers, and no electron has a
better energy than one of an inner layer or one before it in the same layer. -/
theorem aos_layers_partition (opt : FitnessOption) (o : AOSOption)
    (sort : Sorter (Cell (Gene (List α) α))) (k : Nat) (g : Nat → α) (s u : AOSState α)
    (hd : DistinctNodes s.electrons) (hl : LegalLayers o k g)
    (hko : k ≤ min o.electronNum s.electrons.length)
    (h : selectAndMakeLayers opt o sort k g s = .ok u) :
    ((u.layers.map (·.members)).flatten).Perm (u.electrons.map (·.1)) ∧
    (∀ l ∈ u.layers, l.members ≠ []) ∧ 1 ≤ u.layers.length ∧ u.layers.length ≤ k ∧
    ((u.layers.map (·.members)).flatten).Pairwise (fun a a' => ∀ g g' : Gene (List α) α,
      (a, g) ∈ u.electrons → (a', g') ∈ u.electrons → ¬ Better opt g'.fitness g.fitness) := by
  obtain ⟨h1, -, -, -, -, hm⟩ := select_ok h
  have hlen := kept_length (opt := opt) (o := o) (sort := sort) hd
  have hlen2 : ((keptNodes opt o sort s).map (·.1)).length = min o.electronNum s.electrons.length := by
    rw [List.length_map, ← (kept_perm hd).length_eq, hlen]
  obtain ⟨h2, h3⟩ := plan_spec (min o.electronNum s.electrons.length)
    (layerCounts g k (min o.electronNum s.electrons.length)) ((keptNodes opt o sort s).map (·.1)) hlen2
    (by have := hl.one_le; omega) (layerCounts_first g k _ hl.one_le hko hl.pos hl.first)
  rw [hlen] at hm
  have hnp : ¬ PlanTooSmall (min o.electronNum s.electrons.length)
      (layerCounts g k (min o.electronNum s.electrons.length)) := by
    intro hp; rw [h2.2 hp] at hm; cases hm
  obtain ⟨L, hL, ⟨hflat, hne⟩, hlp, hlk⟩ := h3 hnp
  rw [hm] at hL
  cases hL
  rw [List.length_map] at hlp hlk
  rw [layerCounts_length] at hlk
  have hdk : DistinctNodes (keptElectrons opt o sort s) := distinct_filter hd _
  refine ⟨?_, ?_, hlp, hlk, ?_⟩
  · rw [hflat, h1]
    exact ((kept_perm hd).map _).symm
  · intro l hl
    exact hne _ (List.mem_map_of_mem hl)
  · rw [hflat, h1, List.pairwise_map]
    refine (keptNodes_sorted (opt := opt) (o := o) (sort := sort) (s := s)).imp_of_mem ?_
    intro a a' ha ha' hb g g' hg hg'
    have e1 := deref_of_mem hdk hg
    have e2 := deref_of_mem hdk ((kept_perm hd).mem_iff.2 ha)
    have e3 := deref_of_mem hdk hg'
    have e4 := deref_of_mem hdk ((kept_perm hd).mem_iff.2 ha')
    rw [e2] at e1; rw [e4] at e3
    cases e1; cases e3
    exact hb

/-! ### rounding: how much a plan can lose -/

theorem floor_half_gt (x : α) (hx : 0 ≤ x) : x < (⌊x + 1 / 2⌋₊ : α) + 1 / 2 := by
  have := Nat.lt_floor_add_one (x + 1 / 2)
  linarith

/-- Rounding `k` numbers that add up to `n` loses less than `k / 2`. -/
theorem layerCounts_deficit (g : Nat → α) (k n : Nat) (hk : 1 ≤ k) (hpos : ∀ i, i < k → 0 < g i) :
    2 * n < 2 * (layerCounts g k n).sum + k := by
  have hs0 : 0 < ((List.range k).map g).sum := by
    refine List.sum_pos _ ?_ ?_
    · intro x hx
      obtain ⟨i, hi, rfl⟩ := List.mem_map.1 hx
      exact hpos i (List.mem_range.1 hi)
    · intro h0
      have := congrArg List.length h0
      simp at this; omega
  obtain ⟨S, hS⟩ : ∃ S, S = ((List.range k).map g).sum := ⟨_, rfl⟩
  have hc : layerCounts g k n = (List.range k).map fun i => ⌊g i / S * (n : α) + 1 / 2⌋₊ := by
    unfold layerCounts
    simp only
    rw [aos_foldl_add_eq_sum, zero_add, hS]
  rw [hc]
  rw [← hS] at hs0
  have hsum : ((List.range k).map fun i => g i / S * (n : α)).sum = n := by
    have e : ((List.range k).map fun i => g i / S * (n : α)) =
        ((List.range k).map g).map (fun x => x * ((n : α) / S)) := by
      rw [List.map_map]; apply List.map_congr_left; intro i _
      simp only [Function.comp]
      ring
    rw [e, List.sum_map_mul_right, List.map_id', ← hS]
    field_simp
  have key : ∀ (l : List Nat), l ≠ [] → (∀ i ∈ l, 0 < g i) →
      (l.map fun i => g i / S * (n : α)).sum <
        (((l.map fun i => ⌊g i / S * (n : α) + 1 / 2⌋₊).sum : Nat) : α) + (l.length : α) / 2 := by
    intro l
    induction l with
    | nil => intro h; exact absurd rfl h
    | cons a l ih =>
      intro _ hp
      have h1 := floor_half_gt (g a / S * (n : α)) (by
        have := hp a (by simp); positivity)
      by_cases hl : l = []
      · subst hl; simpa using h1
      · have h2 := ih hl fun i hi => hp i (by simp [hi])
        simp only [List.map_cons, List.sum_cons, List.length_cons, Nat.cast_add, Nat.cast_one]
        have : ((l.length : α) + 1) / 2 = (l.length : α) / 2 + 1 / 2 := by ring
        rw [this]
        linarith
  have := key (List.range k) (by intro h; have := congrArg List.length h; simp at this; omega)
    (fun i hi => hpos i (List.mem_range.1 hi))
  rw [hsum, List.length_range] at this
  have h2 : (2 * (n : α)) < 2 * ((((List.range k).map fun i => ⌊g i / S * (n : α) + 1 / 2⌋₊).sum : Nat) : α)
      + (k : α) := by linarith
  exact_mod_cast h2

/-- **C50** (safe cases).  When the last `z` layers are planned empty and `k ≤ 2 z + 2`, the plan is large
enough: making the layers does not leave the range. -/
theorem aos_plan_fits (g : Nat → α) (k n z : Nat) (hk : 1 ≤ k) (hz : z < k)
    (hpos : ∀ i, i < k → 0 < g i) (hzero : ∀ i, k - z ≤ i → i < k → (layerCounts g k n).getD i 0 = 0)
    (hkz : k ≤ 2 * z + 2) : ¬ PlanTooSmall n (layerCounts g k n) := by
  intro hp
  have hd := layerCounts_deficit g k n hk hpos
  have hlen := layerCounts_length g k n
  obtain ⟨cs, hcs⟩ : ∃ cs, cs = layerCounts g k n := ⟨_, rfl⟩
  rw [← hcs] at hp hd hzero hlen
  have h := hp (k - 1 - z) (by rw [hlen]; omega)
  rw [hlen] at h
  have htake : (cs.take (k - 1 - z + 1)).sum = cs.sum := by
    have hdrop : (cs.drop (k - 1 - z + 1)).sum = 0 := by
      rw [List.sum_eq_zero]
      intro x hx
      obtain ⟨i, hi, rfl⟩ := List.getElem_of_mem hx
      rw [List.length_drop, hlen] at hi
      rw [List.getElem_drop]
      have := hzero (k - 1 - z + 1 + i) (by omega) (by omega)
      rwa [List.getD_eq_getElem?_getD, List.getElem?_eq_getElem (by rw [hlen]; omega)] at this
    have := congrArg List.sum (List.take_append_drop (k - 1 - z + 1) cs)
    rw [List.sum_append, hdrop, Nat.add_zero] at this
    exact this
  unfold planned at h
  rw [htake] at h
  have : min cs.sum n + z < n := by
    have : k - 1 - (k - 1 - z) = z := by omega
    omega
  omega

/-- One or two layers are always safe. -/
theorem aos_two_layers_fit (g : Nat → α) (k n : Nat) (hk : 1 ≤ k) (hk2 : k ≤ 2)
    (hpos : ∀ i, i < k → 0 < g i) : ¬ PlanTooSmall n (layerCounts g k n) :=
  aos_plan_fits g k n 0 hk (by omega) hpos (by intro i h1 h2; omega) (by omega)

/-- A layer with a small weight is planned empty. -/
theorem layerCounts_zero (g : Nat → α) (k n i : Nat) (hi : i < k) (hpos : ∀ i, i < k → 0 < g i)
    (h : 2 * (n : α) * g i < g 0) : (layerCounts g k n).getD i 0 = 0 := by
  have hle : g 0 ≤ ((List.range k).map g).sum := by
    refine List.single_le_sum ?_ _ ?_
    · intro x hx
      obtain ⟨j, hj, rfl⟩ := List.mem_map.1 hx
      exact (hpos j (List.mem_range.1 hj)).le
    · exact List.mem_map_of_mem (List.mem_range.2 (by omega))
  have h0 := hpos 0 (by omega)
  have hS : 0 < ((List.range k).map g).sum := lt_of_lt_of_le h0 hle
  unfold layerCounts
  simp only
  rw [aos_foldl_add_eq_sum, zero_add, List.getD_eq_getElem?_getD, List.getElem?_map,
    List.getElem?_range hi]
  simp only [Option.map_some, Option.getD_some]
  rw [Nat.floor_eq_zero]
  have : g i / ((List.range k).map g).sum * (n : α) < 1 / 2 := by
    rw [div_mul_eq_mul_div, div_lt_iff₀ hS]
    nlinarith
  linarith

/-! ### initial population -/

theorem aosInit_spec {o : AOSOption} {init : Nat → List α} {junk : α} {s0 : AOSState α}
    (h : aosInitializePop o init junk = .ok s0) :
    o.maxLayerNum ≤ o.electronNum ∧ 0 < o.electronNum ∧ s0.electrons.length = o.electronNum ∧
    DistinctNodes s0.electrons ∧ (∀ c ∈ s0.electrons, c.2.computed = false ∧ c.2.var = init c.1) ∧
    s0.best ∈ s0.electrons.map (·.1) ∧ s0.best = 0 ∧ s0.early = 0 := by
  unfold aosInitializePop at h
  split at h
  · rename_i hc
    cases h
    have hmap : (initializePop o.electronNum init junk).map (·.1) = List.range o.electronNum := by
      simp [initializePop, List.map_map, Function.comp_def]
    refine ⟨hc.1, hc.2, by simp [initializePop], ?_, ?_, ?_, rfl, rfl⟩
    · unfold DistinctNodes; dsimp only; rw [hmap]; exact List.nodup_range
    · intro c hcm
      obtain ⟨i, -, rfl⟩ := List.mem_map.1 hcm
      exact ⟨rfl, rfl⟩
    · dsimp only; rw [hmap]; exact List.mem_range.2 hc.2
  · cases h

theorem aosInit_ready {o : AOSOption} {init : Nat → List α} {junk : α} {s0 : AOSState α}
    (f : List α → α) (h : aosInitializePop o init junk = .ok s0) : AOSReady f s0 := by
  obtain ⟨-, -, -, h1, h2, -⟩ := aosInit_spec h
  exact ⟨h1, fun c hc hcomp => by rw [(h2 c hc).1] at hcomp; cases hcomp⟩

/-! ### C52 and C48: runs -/

section run
variable (impl : AOSImpl) (opt : FitnessOption) (o : AOSOption) (b : Box α) (f : List α → α)
  (env : Nat → AOSEnv α)

/-- **C52** (termination).  `run()` makes at most `maxGeneration + 1` iterations of its loop. -/
theorem aos_run_terminates (fuel : Nat) (hf : o.maxGeneration < fuel) (s : AOSState α) :
    aosRun impl opt o b f env fuel s ≠ .timeout := by
  rcases aosLoop_no_timeout (impl := impl) (opt := opt) (o := o) (b := b) (f := f) (env := env)
    fuel 0 s [] (by omega) with h | h
  · exact h
  · omega

/-- **C52** (result).  When `run()` returns, `generation()` is at most `maxGeneration`; the run stopped
because that number is reached or because the early-stop counter reached `maxEarlyStop`; no earlier
generation met the second criterion; the record has `generation() + 1` entries, the `i`-th of which is the
energy of the best electron after the `i`-th evaluation. -/
theorem aos_run_result (fuel : Nat) (s0 : AOSState α) (r : RunResult (AOSState α) α)
    (hr : aosRun impl opt o b f env fuel s0 = .ok r) :
    r.generation ≤ o.maxGeneration ∧
    (r.generation = o.maxGeneration ∨ o.maxEarlyStop ≤ r.state.early) ∧
    (∀ i, i < r.generation → ∃ t, aosEval impl opt o b f env s0 i = .ok t ∧ t.early < o.maxEarlyStop) ∧
    r.record.length = r.generation + 1 ∧
    (∀ (i : Nat) (e : α), r.record[i]? = some e → ∃ t g, aosEval impl opt o b f env s0 i = .ok t ∧
      deref t.electrons t.best = .ok g ∧ g.fitness = e) ∧
    ∃ t, aosEval impl opt o b f env s0 r.generation = .ok t ∧
      selectAndMakeLayers opt o (env r.generation).sort (env r.generation).layerNum
        (env r.generation).gauss t = .ok r.state := by
  obtain ⟨h1, h2, h3, h4, h5, bs, h6, h7, h8⟩ := aosLoop_spec (s0 := s0) fuel 0 s0 [] r rfl
    (Nat.zero_le _) hr
  rw [List.nil_append] at h6
  subst h6
  refine ⟨h2, h4, fun i hi => h5 i (Nat.zero_le _) hi, by omega, ?_, h3⟩
  intro i e he
  have := h8 i e he
  rwa [Nat.zero_add] at this

/-- **C48** (the record).  In every run of an initialised solver that returns, the `i`-th entry of the
record is the best energy present in generation `i`; all energies are values of the objective
function. -/
theorem aos_record_best (init : Nat → List α) (junk : α) (fuel : Nat) (s0 : AOSState α)
    (hi : aosInitializePop o init junk = .ok s0) (r : RunResult (AOSState α) α)
    (hr : aosRun impl opt o b f env fuel s0 = .ok r) (i : Nat) (e : α) (he : r.record[i]? = some e) :
    ∃ t, aosEval impl opt o b f env s0 i = .ok t ∧ BestEnergy opt t.electrons e ∧
      ∀ c ∈ t.electrons, c.2.fitness = f c.2.var := by
  obtain ⟨-, -, -, -, h, -⟩ := aos_run_result impl opt o b f env fuel s0 r hr
  obtain ⟨t, g, ht, hg, rfl⟩ := h i e he
  have ha := aosEval_after (aosInit_ready f hi) i t ht
  obtain ⟨g', hg1, hg2, hg3⟩ := ha.deref
  rw [hg] at hg1
  cases hg1
  exact ⟨t, ht, ⟨⟨_, hg2, rfl⟩, hg3⟩, fun c hc => (ha.computed c hc).2⟩

/-- **C48**.  The best energy never gets worse, and it is the best ever present: no electron of an earlier
or the same generation has a better value. -/
theorem aos_best_ever (init : Nat → List α) (junk : α) (fuel : Nat) (s0 : AOSState α)
    (hi : aosInitializePop o init junk = .ok s0) (r : RunResult (AOSState α) α)
    (hr : aosRun impl opt o b f env fuel s0 = .ok r) (i j : Nat) (hij : i ≤ j) (e e' : α)
    (he : r.record[i]? = some e) (he' : r.record[j]? = some e') :
    ¬ Better opt e e' ∧
    ∀ t, aosEval impl opt o b f env s0 i = .ok t → ∀ c ∈ t.electrons, ¬ Better opt (f c.2.var) e' := by
  obtain ⟨t1, h1, hb1, hc1⟩ := aos_record_best impl opt o b f env init junk fuel s0 hi r hr i e he
  obtain ⟨t2, h2, hb2, -⟩ := aos_record_best impl opt o b f env init junk fuel s0 hi r hr j e' he'
  have hm := aosEval_mono (aosInit_ready f hi) (aosInit_spec hi).2.1 hij h1 h2 hb1 hb2
  refine ⟨hm, ?_⟩
  intro t ht c hc
  rw [h1] at ht
  cases ht
  rw [← hc1 c hc]
  exact not_better_trans (hb1.2 c hc) hm

/-- **C68**.  The early-stop counter is the number of generations at the end of the run in which the best
energy did not improve (the reference before the first generation is the energy of the first
electron). -/
theorem aos_early_stop_counter (init : Nat → List α) (junk : α) (fuel : Nat) (s0 : AOSState α)
    (hi : aosInitializePop o init junk = .ok s0) (r : RunResult (AOSState α) α)
    (hr : aosRun impl opt o b f env fuel s0 = .ok r) :
    r.state.early = trailingFails opt (f (init 0)) r.record := by
  have hrdy := aosInit_ready f hi
  obtain ⟨-, h0n, -, hdist, hvar, hbm, hb0, he0⟩ := aosInit_spec hi
  obtain ⟨-, -, -, hlen, hrec, t, ht, hsel⟩ := aos_run_result impl opt o b f env fuel s0 r hr
  have key : ∀ i, i < r.record.length → ∀ t, aosEval impl opt o b f env s0 i = .ok t →
      t.early = trailingFails opt (f (init 0)) (r.record.take (i + 1)) := by
    intro i
    induction i with
    | zero =>
      intro hi0 t ht
      obtain ⟨t', g, ht', hg, hge⟩ := hrec 0 _ (List.getElem?_eq_getElem hi0)
      rw [ht] at ht'
      cases ht'
      obtain ⟨e1, -, -, -, ⟨prev, bst, e5, e6, e7⟩, -⟩ := aosEvaluate_ok ht hrdy.distinct hrdy.cache
      rw [hg] at e6
      cases e6
      have ha := aosEval_after (impl := impl) (o := o) (b := b) (env := env) hrdy 0 t ht
      have hprev : prev.fitness = f (init 0) := by
        have hm := deref_ok e5
        have h2 := ha.computed _ hm
        rw [e1] at hm
        obtain ⟨-, -, d, hd, hd1, hd2⟩ := computeAllFitness_mem hrdy.cache _ hm
        have := (hvar d hd).2
        rw [hd1] at this
        dsimp only at this hd2 h2
        rw [h2.2, ← hd2, this, hb0]
      have htake : r.record.take (0 + 1) = [] ++ [r.record[0]] := by
        rw [List.take_succ_eq_append_getElem hi0]; simp
      have hta := trailingFails_append opt (f (init 0)) [] r.record[0] (f (init 0)) rfl
      rw [htake, e7, hprev, hge]
      by_cases hbt : Better opt r.record[0] (f (init 0))
      · rw [hta.1 hbt, if_neg]
        intro heq; rw [heq] at hbt; exact better_irrefl _ _ hbt
      · rw [hta.2 hbt, if_pos, he0]
        · rfl
        · obtain ⟨c, hc, hu⟩ := ha.best
          have h1 := hu.2 _ (deref_ok e5)
          rw [← hc, deref_of_mem ha.distinct hu.1] at hg
          cases hg
          dsimp only at h1
          rw [hprev, hge] at h1
          cases opt <;> simp only [Better, not_lt] at h1 hbt
          · exact le_antisymm hbt h1
          · exact le_antisymm h1 hbt
    | succ i ih =>
      intro hi1 t ht
      obtain ⟨t1, u, v, h1, h2, h3, h4⟩ := aosEval_succ ht
      have ha := aosEval_after hrdy i t1 h1
      obtain ⟨ha', hkeep, -, -, -, -, g, g', hg, hg', hearly⟩ := generation_spec ha h2 h3 h4
      obtain ⟨t1', x, h1', hx, hxe⟩ := hrec i _ (List.getElem?_eq_getElem (by omega))
      rw [h1] at h1'; cases h1'
      rw [hg] at hx; cases hx
      obtain ⟨t2', y, h2', hy, hye⟩ := hrec (i + 1) _ (List.getElem?_eq_getElem hi1)
      rw [ht] at h2'; cases h2'
      rw [hg'] at hy; cases hy
      have htake : r.record.take (i + 1 + 1) = r.record.take (i + 1) ++ [r.record[i + 1]] := by
        rw [List.take_succ_eq_append_getElem hi1]
      have hlast : (f (init 0) :: r.record.take (i + 1)).getLast (by simp) = r.record[i]'(by omega) := by
        rw [List.getLast_cons (by simp; intro h; rw [h] at hi1; simp at hi1)]
        rw [List.getLast_eq_getElem, List.getElem_take]
        congr 1
        rw [List.length_take]; omega
      have hta := trailingFails_append opt (f (init 0)) (r.record.take (i + 1)) r.record[i + 1] _ hlast
      have hmono : ¬ Better opt g.fitness g'.fitness := by
        obtain ⟨g1, hg1, hg2, hg3⟩ := ha.deref
        rw [hg] at hg1; cases hg1
        obtain ⟨g2, hg4, hg5, hg6⟩ := ha'.deref
        rw [hg'] at hg4; cases hg4
        exact aosEval_mono (impl := impl) (b := b) (env := env) hrdy h0n (Nat.le_succ i) h1 ht
          ⟨⟨_, hg2, rfl⟩, hg3⟩ ⟨⟨_, hg5, rfl⟩, hg6⟩
      rw [htake, hearly, ih (by omega) t1 h1, hxe, hye]
      rw [hxe, hye] at hmono
      by_cases hbt : Better opt r.record[i + 1] (r.record[i]'(by omega))
      · rw [hta.1 hbt, if_neg]
        intro heq; rw [heq] at hbt; exact better_irrefl _ _ hbt
      · rw [hta.2 hbt, if_pos]
        cases opt <;> simp only [Better, not_lt] at hmono hbt
        · exact le_antisymm hbt hmono
        · exact le_antisymm hmono hbt
  have := key r.generation (by omega) t ht
  rw [(select_ok hsel).2.2.1, this, List.take_of_length_le (by omega)]

/-- **C48** (the pointer).  The electron returned by `bestElectron()` after the run: when at most
`electronNum` electrons share the best energy in the last generation, it exists and has the last
recorded energy. -/
theorem aos_bestElectron_partial (init : Nat → List α) (junk : α) (fuel : Nat) (s0 : AOSState α)
    (hi : aosInitializePop o init junk = .ok s0) (r : RunResult (AOSState α) α)
    (hr : aosRun impl opt o b f env fuel s0 = .ok r)
    (hties : ∀ t, aosEval impl opt o b f env s0 r.generation = .ok t →
      tiedForBest opt t.electrons ≤ o.electronNum) :
    ∃ g, deref r.state.electrons r.state.best = .ok g ∧ r.record.getLast? = some g.fitness ∧
      g.fitness = f g.var := by
  obtain ⟨-, -, -, hlen, hrec, t, ht, hsel⟩ := aos_run_result impl opt o b f env fuel s0 r hr
  have ha := aosEval_after (aosInit_ready f hi) _ t ht
  obtain ⟨h1, h2, -⟩ := select_ok hsel
  obtain ⟨c, hc, hu⟩ := ha.best
  have hk := best_survives (opt := opt) (o := o) (sort := (env r.generation).sort) ha.distinct hu (hties t ht)
  refine ⟨c.2, ?_, ?_, (ha.computed c hu.1).2⟩
  · rw [h1, h2, ← hc]
    exact deref_of_mem (distinct_filter ha.distinct _) hk
  · obtain ⟨t', g, ht', hg, hge⟩ := hrec r.generation _ (List.getElem?_eq_getElem (by omega))
    rw [ht] at ht'; cases ht'
    rw [← hc, deref_of_mem ha.distinct hu.1] at hg
    cases hg
    rw [hge, List.getLast?_eq_getElem?]
    have e : r.record.length - 1 = r.generation := by omega
    simp only [e]
    exact List.getElem?_eq_getElem (by omega)

/-- Sizes along a run: `electronNum` electrons at the first evaluation, twice as many at the later
ones. -/
theorem aosEval_length (init : Nat → List α) (junk : α) (s0 : AOSState α)
    (hi : aosInitializePop o init junk = .ok s0)
    (hl : ∀ i, LegalLayers o (env i).layerNum (env i).gauss) :
    ∀ (i : Nat) (t : AOSState α), aosEval impl opt o b f env s0 i = .ok t →
      t.electrons.length = if i = 0 then o.electronNum else 2 * o.electronNum := by
  obtain ⟨hmax, hpos, hlen, -⟩ := aosInit_spec hi
  have hrdy := aosInit_ready f hi
  intro i
  induction i with
  | zero =>
    intro t ht
    obtain ⟨h1, -⟩ := aosEvaluate_ok ht hrdy.distinct hrdy.cache
    rw [h1, if_pos rfl, ← hlen]
    simp [computeAllFitness]
  | succ i ih =>
    intro t ht
    obtain ⟨t0, u, v, h1, h2, h3, h4⟩ := aosEval_succ ht
    have ha := aosEval_after hrdy i t0 h1
    obtain ⟨-, -, hu1, -, -, ⟨new, -, hn2, hn3, -⟩, -⟩ := generation_spec ha h2 h3 h4
    have hl0 := ih t0 h1
    have hmin : min o.electronNum t0.electrons.length = o.electronNum := by
      rw [hl0]; split <;> omega
    have hlu : u.electrons.length = o.electronNum := by
      rw [(aos_selection_keeps_best opt o _ _ _ t0 u ha.distinct h2).1, hmin]
    have hpart := aos_layers_partition opt o _ _ _ t0 u ha.distinct (hl i)
      (by rw [hmin]; exact (hl i).le_max.trans hmax) h2
    have hsum : (u.layers.map (·.members.length)).sum = o.electronNum := by
      have := hpart.1.length_eq
      rw [List.length_flatten, List.map_map, List.length_map, hlu] at this
      exact this
    rw [hn2, List.length_append, hlu, if_neg (by omega)]
    have : (computeAllFitness f new).length = new.length := by simp [computeAllFitness]
    rw [this, hn3, hsum]
    omega

/-- **C48/C50/C52** (no undefined behaviour).  If in every generation the plan of the layers is large
enough and at most `electronNum` electrons share the best energy, then `run()` of an initialised solver
returns. -/
theorem aos_run_ok (init : Nat → List α) (junk : α) (fuel : Nat) (hf : o.maxGeneration < fuel)
    (s0 : AOSState α) (hi : aosInitializePop o init junk = .ok s0)
    (hl : ∀ i, LegalLayers o (env i).layerNum (env i).gauss)
    (hplan : ∀ i, ¬ PlanTooSmall o.electronNum (layerCounts (env i).gauss (env i).layerNum o.electronNum))
    (hties : ∀ i t, aosEval impl opt o b f env s0 i = .ok t → tiedForBest opt t.electrons ≤ o.electronNum) :
    ∃ r, aosRun impl opt o b f env fuel s0 = .ok r := by
  obtain ⟨hmax, hpos, hlen, hdist, -, hbest, -⟩ := aosInit_spec hi
  have hrdy := aosInit_ready f hi
  have key : ∀ (fuel gen : Nat) (s : AOSState α) (rec : List α), o.maxGeneration < gen + fuel →
      aosEvaluate opt f s = aosEval impl opt o b f env s0 gen → s.best ∈ s.electrons.map (·.1) →
      gen ≤ o.maxGeneration → ∃ r, aosLoop impl opt o b f env fuel gen s rec = .ok r := by
    intro fuel
    induction fuel with
    | zero => intro gen s rec h1 _ _ h2; omega
    | succ fuel ih =>
      intro gen s rec hfu hs hb hg
      obtain ⟨t, ht⟩ := aosEvaluate_total (opt := opt) (f := f) hb
      have ht' : aosEval impl opt o b f env s0 gen = .ok t := by rw [← hs]; exact ht
      have ha := aosEval_after hrdy gen t ht'
      obtain ⟨g, hgd, -, -⟩ := ha.deref
      have hl0 := aosEval_length impl opt o b f env init junk s0 hi hl gen t ht'
      have hmin : min o.electronNum t.electrons.length = o.electronNum := by
        rw [hl0]; split <;> omega
      obtain ⟨hiff, hokk⟩ := aos_layers_out_of_range_iff opt o (env gen).sort (env gen).layerNum
        (env gen).gauss t ha.distinct (hl gen) (by rw [hmin]; exact (hl gen).le_max.trans hmax)
      rw [hmin] at hiff
      obtain ⟨u, hu⟩ := hokk fun h => hplan gen (hiff.1 h)
      have hpart := aos_layers_partition opt o _ _ _ t u ha.distinct (hl gen)
        (by rw [hmin]; exact (hl gen).le_max.trans hmax) hu
      simp only [aosLoop, ht, Out.ok_bind, hgd, hu]
      by_cases hstop : gen ≥ o.maxGeneration ∨ u.early ≥ o.maxEarlyStop
      · rw [if_pos hstop]; exact ⟨_, rfl⟩
      · rw [if_neg hstop]
        have hflat : (u.layers.map (·.members)).flatten = (keptNodes opt o (env gen).sort t).map (·.1) := by
          obtain ⟨-, -, -, -, -, hm⟩ := select_ok hu
          have hlen := kept_length (opt := opt) (o := o) (sort := (env gen).sort) ha.distinct
          have hlen2 : ((keptNodes opt o (env gen).sort t).map (·.1)).length = o.electronNum := by
            rw [List.length_map, ← (kept_perm ha.distinct).length_eq, hlen, hmin]
          obtain ⟨-, h3⟩ := plan_spec o.electronNum
            (layerCounts (env gen).gauss (env gen).layerNum o.electronNum)
            ((keptNodes opt o (env gen).sort t).map (·.1)) hlen2 hpos
            (layerCounts_first _ _ _ (hl gen).one_le ((hl gen).le_max.trans hmax) (hl gen).pos (hl gen).first)
          obtain ⟨L, hL, ⟨hfl, -⟩, -⟩ := h3 (hplan gen)
          rw [hlen, hmin, hL] at hm
          cases hm
          exact hfl
        obtain ⟨v, hv, hvb⟩ := children_total (impl := impl) (b := b) (e := env gen) ha (hties gen t ht') hu
          hpart.2.1 hflat
        rw [hv, Out.ok_bind]
        refine ih (gen + 1) v _ (by omega) ?_ hvb (by omega)
        simp only [aosEval, ht', Out.ok_bind, hu, hv]
  exact key fuel 0 s0 [] (by omega) rfl hbest (by omega)

/-! ### C51: the box -/

theorem aosEval_inBox (init : Nat → List α) (junk : α) (s0 : AOSState α) (hb : NonEmptyBox b)
    (hin : ∀ i, InBox b (init i)) (hi : aosInitializePop o init junk = .ok s0) :
    ∀ (i : Nat) (t : AOSState α), aosEval impl opt o b f env s0 i = .ok t →
      (∀ c ∈ t.electrons, InBox b c.2.var) ∧ t.bindingState.length = b.dim := by
  obtain ⟨-, -, -, -, hvar, -⟩ := aosInit_spec hi
  have hrdy := aosInit_ready f hi
  intro i
  induction i with
  | zero =>
    intro t ht
    obtain ⟨h1, -, -, -, -, h2⟩ := aosEvaluate_ok ht hrdy.distinct hrdy.cache
    refine ⟨?_, h2 _ fun c hc => by rw [(hvar c hc).2]; exact (hin _).1⟩
    intro c hc
    rw [h1] at hc
    obtain ⟨-, -, d, hd, -, hdv⟩ := computeAllFitness_mem hrdy.cache c hc
    rw [← hdv, (hvar d hd).2]
    exact hin _
  | succ i ih =>
    intro t ht
    obtain ⟨t0, u, v, h1, h2, h3, h4⟩ := aosEval_succ ht
    obtain ⟨hbox, hbs⟩ := ih t0 h1
    have ha := aosEval_after hrdy i t0 h1
    obtain ⟨-, -, hu1, hu2, hready, -⟩ := generation_spec ha h2 h3 h4
    obtain ⟨-, -, -, hubs, -⟩ := select_ok h2
    obtain ⟨w, hw1, hw2, -, hw3, -, hw4, hw5⟩ := children_ok h3
    have hwbox : ∀ c ∈ w.electrons, InBox b c.2.var := by
      intro c hc
      rw [hw1, hu1] at hc
      exact hbox c (kept_sub c hc)
    have hwd : DistinctNodes w.electrons := by rw [hw1, hu1]; exact distinct_filter ha.distinct _
    have hlb : ∀ l ∈ w.layers, l.bindingState.length = b.dim := by
      intro l hl
      obtain ⟨hlen, hpt⟩ := Out.mapM_length hw4
      obtain ⟨j, hj, rfl⟩ := List.getElem_of_mem hl
      have hc := hpt j _ _ (List.getElem?_eq_getElem (by omega)) (List.getElem?_eq_getElem hj)
      obtain ⟨-, -, e, rest, hd, hbst, -⟩ := computeLayer_ok hc
      have hmem : ∀ x ∈ e :: rest, x.var.length = b.dim := by
        intro x hx
        obtain ⟨hl1, hl2⟩ := derefAll_ok hd
        obtain ⟨m, hm, rfl⟩ := List.getElem_of_mem hx
        have := hl2 m _ _ (List.getElem?_eq_getElem (by omega)) (List.getElem?_eq_getElem hm)
        rw [← hw1] at this
        exact (hwbox _ this).1
      rw [hbst, List.length_map]
      have : ∀ (rest : List (Gene (List α) α)) (acc : List α), acc.length = b.dim →
          (∀ x ∈ rest, x.var.length = b.dim) →
          (rest.foldl (fun acc (x : Gene (List α) α) => List.zipWith (· + ·) acc x.var) acc).length
            = b.dim := by
        intro rest
        induction rest with
        | nil => intro acc h _; exact h
        | cons y ys ih2 =>
          intro acc h hy
          rw [List.foldl_cons]
          refine ih2 _ ?_ fun x hx => hy x (by simp [hx])
          rw [List.length_zipWith, h, hy y (by simp), Nat.min_self]
      exact this rest e.var (hmem e (by simp)) fun x hx => hmem x (by simp [hx])
    have hgrow := updateElectrons_ok (P := fun st => InBox b st) (by
      intro n m s hg layer idx hidx a parent st ham hdp hcs
      obtain ⟨new, e1, -, e3⟩ := hg.new
      have hall : ∀ a g, deref s.electrons a = .ok g → g.var.length = b.dim := by
        intro a g h
        have := deref_ok h
        rw [e1] at this
        rcases List.mem_append.1 this with h | h
        · exact (hwbox _ h).1
        · exact (e3 _ h).2.1.1
      obtain ⟨⟨st', hst1, rfl⟩, -⟩ := childState_form hcs (hall _ _ hdp)
        (hlb layer (List.mem_of_getElem? hidx)) (by rw [hg.bindingState, hw3, hubs]; exact hbs)
        (fun a _ g h => hall a g h) (fun g h => hall _ g h)
      exact confine_inBox b hb st' hst1) hw5
    obtain ⟨new, hn1, -, hn3⟩ := hgrow.new
    have hvbox : ∀ c ∈ v.electrons, InBox b c.2.var := by
      intro c hc
      rw [hn1] at hc
      rcases List.mem_append.1 hc with h | h
      · exact hwbox c h
      · exact (hn3 c h).2.1
    obtain ⟨e1, -, -, -, -, e2⟩ := aosEvaluate_ok h4 hready.distinct hready.cache
    refine ⟨?_, e2 _ fun c hc => (hvbox c hc).1⟩
    intro c hc
    rw [e1] at hc
    obtain ⟨-, -, d, hd, -, hdv⟩ := computeAllFitness_mem hready.cache c hc
    rw [← hdv]
    exact hvbox d hd

/-- **C51**.  When the initial states are in the box, every electron that is ever evaluated is in the
box, whatever the draws; so are the electrons left at the end. -/
theorem aos_electrons_in_box (init : Nat → List α) (junk : α) (s0 : AOSState α) (hb : NonEmptyBox b)
    (hin : ∀ i, InBox b (init i)) (hi : aosInitializePop o init junk = .ok s0) :
    (∀ (i : Nat) (t : AOSState α), aosEval impl opt o b f env s0 i = .ok t →
      ∀ c ∈ t.electrons, InBox b c.2.var) ∧
    ∀ (fuel : Nat) (r : RunResult (AOSState α) α), aosRun impl opt o b f env fuel s0 = .ok r →
      ∀ c ∈ r.state.electrons, InBox b c.2.var := by
  refine ⟨fun i t h => (aosEval_inBox impl opt o b f env init junk s0 hb hin hi i t h).1, ?_⟩
  intro fuel r hr c hc
  obtain ⟨-, -, -, -, -, t, ht, hsel⟩ := aos_run_result impl opt o b f env fuel s0 r hr
  rw [(select_ok hsel).1] at hc
  exact (aosEval_inBox impl opt o b f env init junk s0 hb hin hi _ t ht).1 c (kept_sub c hc)

end run

/-- **C51** (random steps).  Without the photon effect a child of a parent in the box differs from its
parent in each coordinate by at most the random step, and it is in the box. -/
theorem aos_random_step (opt : FitnessOption) (b : Box α) (hb : NonEmptyBox b) (d : AOSDraw α)
    (s : AOSState α) (layer : Layer α) (idx : Nat) (parent : Gene (List α) α) (st : List α)
    (hpar : InBox b parent.var) (hp : d.photon = false)
    (h : childState opt b d s layer idx parent = .ok st) :
    InBox b st ∧ ∀ (i : Nat) (x y : α), parent.var[i]? = some x → st[i]? = some y →
      |y - x| ≤ |d.step i| := by
  unfold childState at h
  rw [if_neg (by rw [hp]; simp)] at h
  cases h
  refine ⟨confine_inBox b hb _ (by simp [restState, hpar.1]), ?_⟩
  intro i x y hx hy
  obtain ⟨hi, rfl⟩ := List.getElem?_eq_some_iff.1 hx
  have hbx := hpar.2 i hi
  simp only [confine, restState, List.getElem?_mapIdx, hx, Option.map_some, Option.some.injEq] at hy
  subst hy
  have := clamp_moves_less (b.min i) (b.max i) parent.var[i] (parent.var[i] + d.step i) hbx.1 hbx.2
  simpa using this

/-! ### C53: binding states and energies -/

theorem foldl_zip_getD (dim : Nat) (vs : List (List α)) (acc : List α) (ha : acc.length = dim)
    (hv : ∀ v ∈ vs, v.length = dim) (i : Nat) (hi : i < dim) :
    (vs.foldl (fun acc v => List.zipWith (· + ·) acc v) acc).getD i 0 =
      acc.getD i 0 + (vs.map fun v => v.getD i 0).sum := by
  induction vs generalizing acc with
  | nil => simp
  | cons v vs ih =>
    rw [List.foldl_cons, ih _ (by rw [List.length_zipWith, ha, hv v (by simp), Nat.min_self])
      fun w hw => hv w (by simp [hw])]
    have hvl := hv v (by simp)
    simp only [List.map_cons, List.sum_cons, List.getD_eq_getElem?_getD, List.getElem?_zipWith]
    rw [List.getElem?_eq_getElem (by omega : i < acc.length),
      List.getElem?_eq_getElem (by omega : i < v.length)]
    simp only [Option.getD_some]
    ring

/-- **C53** (atom).  After an evaluation, the atom's binding state is the mean of the states of all
electrons and its binding energy the mean of their energies. -/
theorem aos_atom_means (opt : FitnessOption) (f : List α → α) (s t : AOSState α) (dim : Nat)
    (hdim : ∀ c ∈ s.electrons, c.2.var.length = dim) (h : aosEvaluate opt f s = .ok t) :
    IsMeanVector dim t.bindingState (t.electrons.map (·.2.var)) ∧
    t.bindingEnergy = mean (t.electrons.map (·.2.fitness)) := by
  unfold aosEvaluate computeAtomBSBELE aosComputeFitness at h
  simp only at h
  have hdim' : ∀ c ∈ computeAllFitness f s.electrons, c.2.var.length = dim := by
    intro c hc
    obtain ⟨d, hd, rfl⟩ := List.mem_map.1 hc
    have : (evalGene f d.2).var = d.2.var := by unfold evalGene; split <;> rfl
    dsimp only; rw [this]; exact hdim d hd
  cases he : computeAllFitness f s.electrons with
  | nil => rw [he] at h; cases h
  | cons front rest =>
    rw [he] at h hdim'
    dsimp only at h
    rw [Out.bind_eq_ok] at h
    obtain ⟨prev, hprev, h⟩ := h
    cases h
    have hv : ∀ v ∈ (front :: rest).map (·.2.var), v.length = dim := by
      intro v hvm
      obtain ⟨c, hc, rfl⟩ := List.mem_map.1 hvm
      exact hdim' c hc
    have hf := hdim' front (by simp)
    dsimp only
    refine ⟨⟨?_, ?_⟩, ?_⟩
    · rw [List.length_map]
      exact sumStates_length dim _ hv _ (by rw [List.length_replicate]; exact hf)
    · intro i hi
      have hlen := sumStates_length dim ((front :: rest).map (·.2.var)) hv
        (List.replicate front.2.var.length 0) (by rw [List.length_replicate]; exact hf)
      have hsum := foldl_zip_getD dim ((front :: rest).map (·.2.var))
        (List.replicate front.2.var.length 0) (by rw [List.length_replicate]; exact hf) hv i hi
      unfold sumStates
      rw [List.getD_eq_getElem?_getD, List.getElem?_map, List.getElem?_eq_getElem (by omega)]
      rw [List.getD_eq_getElem?_getD, List.getElem?_eq_getElem (by omega)] at hsum
      simp only [Option.map_some, Option.getD_some] at hsum ⊢
      rw [hsum]
      unfold mean
      simp [List.getElem?_replicate, hf, hi]
    · rw [aos_foldl_add_eq_sum, zero_add]
      unfold mean
      rw [List.length_map]

/-- The electrons a layer refers to. -/
def LayerElectrons (pop : Pop (Gene (List α) α)) (l : Layer α) (es : List (Gene (List α) α)) : Prop :=
  es.length = l.members.length ∧
    ∀ (i : Nat) (a : Addr) (e : Gene (List α) α), l.members[i]? = some a → es[i]? = some e → (a, e) ∈ pop

/-- **C53** (layers, what holds in both versions, and where they differ): the binding state is the mean of
the states; the binding energy is the mean of the energies for Eigen containers, but the energy of the
first electron divided by the number of electrons for std containers.  Missing: the binding energy for
std containers, the best electron for Eigen containers (see the counterexamples below). -/
theorem aos_layer_means_partial (impl : AOSImpl) (opt : FitnessOption) (pop : Pop (Gene (List α) α))
    (dim : Nat) (hdim : ∀ c ∈ pop, c.2.var.length = dim) (l l' : Layer α)
    (h : computeLayer impl opt pop l = .ok l') :
    ∃ es, LayerElectrons pop l' es ∧ es ≠ [] ∧ l'.members = l.members ∧
      IsMeanVector dim l'.bindingState (es.map (·.var)) ∧
      (impl = .eigen → l'.bindingEnergy = mean (es.map (·.fitness))) ∧
      (impl = .std → ∃ e, es.head? = some e ∧ l'.bindingEnergy = e.fitness / (es.length : α)) := by
  obtain ⟨hm, -, e, rest, hd, hbs, hbe, -⟩ := computeLayer_ok h
  have hle : LayerElectrons pop l' (e :: rest) := by
    unfold LayerElectrons
    rw [hm]
    exact derefAll_ok hd
  have hv : ∀ x ∈ e :: rest, x.var.length = dim := by
    intro x hx
    obtain ⟨hl1, hl2⟩ := derefAll_ok hd
    obtain ⟨m, hm, rfl⟩ := List.getElem_of_mem hx
    exact hdim _ (hl2 m _ _ (List.getElem?_eq_getElem (by omega)) (List.getElem?_eq_getElem hm))
  refine ⟨e :: rest, hle, by simp, hm, ⟨?_, ?_⟩, ?_, ?_⟩
  · rw [hbs, List.length_map, ← List.foldl_map (f := fun x : Gene (List α) α => x.var)
      (g := fun acc v => List.zipWith (· + ·) acc v)]
    refine sumStates_length dim _ ?_ _ (hv e (by simp))
    intro v hvm
    obtain ⟨c, hc, rfl⟩ := List.mem_map.1 hvm
    exact hv c (by simp [hc])
  · intro i hi
    have hv' : ∀ v ∈ rest.map (·.var), v.length = dim := by
      intro v hvm
      obtain ⟨c, hc, rfl⟩ := List.mem_map.1 hvm
      exact hv c (by simp [hc])
    have hlen := sumStates_length dim (rest.map (·.var)) hv' e.var (hv e (by simp))
    have hsum := foldl_zip_getD dim (rest.map (·.var)) e.var (hv e (by simp)) hv' i hi
    rw [hbs, ← List.foldl_map (f := fun x : Gene (List α) α => x.var)
      (g := fun acc v => List.zipWith (· + ·) acc v)]
    rw [List.getD_eq_getElem?_getD, List.getElem?_map, List.getElem?_eq_getElem (by omega)]
    rw [List.getD_eq_getElem?_getD, List.getElem?_eq_getElem (by omega)] at hsum
    simp only [Option.map_some, Option.getD_some] at hsum ⊢
    rw [hsum]
    unfold mean
    simp
  · rintro rfl
    rw [hbe, if_pos rfl]
    have : ∀ (l : List (Gene (List α) α)) (a : α), l.foldl (fun acc x => acc + x.fitness) a =
        a + (l.map (·.fitness)).sum := by
      intro l
      induction l with
      | nil => intro a; simp
      | cons x l ih => intro a; rw [List.foldl_cons, ih]; simp [add_assoc]
    rw [this]
    unfold mean
    simp
  · rintro rfl
    exact ⟨e, rfl, by rw [hbe, if_neg (by decide)]⟩

theorem scanBest_spec (opt : FitnessOption) (xs : List α) (hne : xs ≠ []) :
    ∃ e, xs[layerBestStd opt xs]? = some e ∧ ∀ x ∈ xs, ¬ Better opt x e := by
  have key : ∀ (n : Nat), n ≤ xs.length → ∀ b0 e0, xs[b0]? = some e0 →
      let r := (List.range n).foldl (fun best idx =>
        match xs[idx]?, xs[best]? with
        | some a, some b => if energyBetter opt a b then idx else best
        | _, _ => best) b0
      ∃ e, xs[r]? = some e ∧ ¬ Better opt e0 e ∧ ∀ j x, j < n → xs[j]? = some x → ¬ Better opt x e := by
    intro n
    induction n with
    | zero => intro _ b0 e0 h0; exact ⟨e0, h0, better_irrefl _ _, by intro j x hj; omega⟩
    | succ n ih =>
      intro hn b0 e0 h0
      obtain ⟨e, h1, h2, h3⟩ := ih (by omega) b0 e0 h0
      rw [List.range_succ, List.foldl_append]
      simp only [List.foldl_cons, List.foldl_nil]
      have hx : xs[n]? = some xs[n] := List.getElem?_eq_getElem (by omega)
      rw [hx, h1]
      dsimp only
      by_cases hb : energyBetter opt xs[n] e = true
      · rw [if_pos hb]
        rw [energyBetter_eq, isBetter_iff] at hb
        have hne := better_asymm hb
        refine ⟨xs[n], hx, not_better_trans h2 hne, ?_⟩
        intro j x hj hjx
        rcases Nat.lt_succ_iff_lt_or_eq.1 hj with h | rfl
        · exact not_better_trans (h3 j x h hjx) hne
        · rw [hx] at hjx; cases hjx; exact better_irrefl _ _
      · rw [if_neg hb]
        rw [energyBetter_eq, isBetter_iff] at hb
        refine ⟨e, h1, h2, ?_⟩
        intro j x hj hjx
        rcases Nat.lt_succ_iff_lt_or_eq.1 hj with h | rfl
        · exact h3 j x h hjx
        · rw [hx] at hjx; cases hjx; exact hb
  cases xs with
  | nil => exact absurd rfl hne
  | cons a l =>
    obtain ⟨e, h1, -, h3⟩ := key (a :: l).length le_rfl 0 a rfl
    refine ⟨e, h1, ?_⟩
    intro x hx
    obtain ⟨j, hj, rfl⟩ := List.getElem_of_mem hx
    exact h3 j _ hj (List.getElem?_eq_getElem hj)

/-- **C53** (layer best, std containers).  For std containers the best electron of a layer is one no
member of the layer beats. -/
theorem aos_layer_best_std_partial (opt : FitnessOption) (pop : Pop (Gene (List α) α)) (l l' : Layer α)
    (h : computeLayer .std opt pop l = .ok l') :
    ∃ es e, LayerElectrons pop l' es ∧ es[l'.bestIdx]? = some e ∧
      ∀ x ∈ es, ¬ Better opt x.fitness e.fitness := by
  obtain ⟨hm, -, e, rest, hd, -, -, hbi⟩ := computeLayer_ok h
  rw [if_neg (by decide)] at hbi
  obtain ⟨x, hx, hbest⟩ := scanBest_spec opt ((e :: rest).map (·.fitness)) (by simp)
  rw [← hbi, List.getElem?_map, Option.map_eq_some_iff] at hx
  obtain ⟨y, hy, rfl⟩ := hx
  refine ⟨e :: rest, y, ?_, hy, ?_⟩
  · unfold LayerElectrons
    rw [hm]
    exact derefAll_ok hd
  · intro z hz
    exact hbest _ (List.mem_map_of_mem hz)

/-! ### counterexamples to the full C48 and C53, and concrete runs -/

/-- A legal `std::sort` that is not stable: insertion sort of the reversed list. -/
def reversingSorter {G : Type} : Sorter G where
  run lt l := l.reverse.insertionSort (fun a b => lt b a = false)
  perm lt l := (List.perm_insertionSort _ _).trans (List.reverse_perm l)
  sorted lt l irr tr ntr := insertionSorter.sorted lt l.reverse irr tr ntr

def demoAOSBox : Box ℚ := ⟨1, fun _ => -4, fun _ => 4⟩
def demoAOSDraw (n : Nat) : AOSDraw ℚ :=
  ⟨n % 2 == 0, fun _ => 1/2, fun _ => 1/3, fun _ => 1/4, fun _ => 1 - (n : ℚ) / 2⟩
def demoAOSEnv (sort : Sorter (Cell (Gene (List ℚ) ℚ))) : AOSEnv ℚ :=
  ⟨sort, 2, fun i => if i = 0 then 3 else 1, demoAOSDraw, 77⟩
def demoAOSOption : AOSOption := ⟨4, 3, 10, 2⟩
def demoAOSInit (i : Nat) : List ℚ := [(i : ℚ) - 3]

/-- Non-vacuity: a run of four generations of four electrons, minimising `x ^ 2 + 1` from the points
`-3, -2, -1, 0`, for both versions: it returns, with the expected record. -/
example : ∀ impl ∈ [AOSImpl.eigen, AOSImpl.std],
    ((aosInitializePop demoAOSOption demoAOSInit 55) >>= fun s =>
      aosRun impl .lessBetter demoAOSOption demoAOSBox (fun v => v.getD 0 0 * v.getD 0 0 + 1)
        (fun _ => demoAOSEnv insertionSorter) 4 s).satisfies
      (fun r => r.generation == 3 && r.record == [1, 1, 1, 1] && r.state.electrons.length == 4
        && r.state.early == 3 && r.state.layers.length == 2) = true := by
  decide +kernel

/-- … and maximising it. -/
example : ((aosInitializePop demoAOSOption demoAOSInit 55) >>= fun s =>
      aosRun .eigen .greaterBetter demoAOSOption demoAOSBox (fun v => v.getD 0 0 * v.getD 0 0 + 1)
        (fun _ => demoAOSEnv insertionSorter) 4 s).satisfies
      (fun r => r.generation == 3 && r.record.length == 4 && decide (r.record.getD 0 0 < r.record.getD 3 0)
        && r.state.early == 0) = true := by
  decide +kernel

example : LegalLayers demoAOSOption 2 (demoAOSEnv insertionSorter).gauss :=
  ⟨by decide, by decide, by intro i hi; simp only [demoAOSEnv]; split <;> norm_num,
    by intro i hi; simp only [demoAOSEnv]; split <;> norm_num⟩

example : NonEmptyBox demoAOSBox ∧ ∀ i, i < 4 → InBox demoAOSBox (demoAOSInit i) := by
  refine ⟨fun i _ => by simp only [demoAOSBox]; norm_num, ?_⟩
  intro i hi
  refine ⟨rfl, ?_⟩
  intro j hj
  simp only [demoAOSInit, List.length_singleton, Nat.lt_one_iff] at hj
  subst hj
  simp only [demoAOSInit, demoAOSBox, List.getElem_cons_zero]
  constructor
  · have : (0 : ℚ) ≤ i := by positivity
    linarith
  · have : (i : ℚ) < 4 := by exact_mod_cast hi
    linarith

/-- **C48** fails in general: with a constant objective function (all energies tie) and a `std::sort` that
is not stable, the best electron is erased: after a run of one generation `bestElectron()` refers to a
node that no longer exists … -/
theorem aos_bestElectron_dangles :
    ((aosInitializePop ⟨4, 1, 10, 2⟩ demoAOSInit 55) >>= fun s =>
      aosRun .eigen .lessBetter ⟨4, 1, 10, 2⟩ demoAOSBox (fun _ => 5)
        (fun _ => demoAOSEnv reversingSorter) 4 s).satisfies
      (fun r => r.generation == 1 && decide (deref r.state.electrons r.state.best = .ub)) = true := by
  decide +kernel

/-- … and a longer run reads it: undefined behaviour. -/
theorem aos_run_reads_erased_best :
    ((aosInitializePop demoAOSOption demoAOSInit 55) >>= fun s =>
      (aosRun .eigen .lessBetter demoAOSOption demoAOSBox (fun _ => 5)
        (fun _ => demoAOSEnv reversingSorter) 4 s >>= fun r => .ok r.record)) = .ub := by
  decide +kernel

/-- **C53** fails for Eigen containers: the best electron of a layer is chosen by address, here the worse
one of two. -/
theorem aos_layer_best_eigen_wrong :
    (computeLayer .eigen .lessBetter [(1, ⟨[(3 : ℚ)], 9, true⟩), (2, ⟨[1], 1, true⟩)]
      ⟨[2, 1], [], 0, 0⟩).satisfies (fun l => l.members == [2, 1] && l.bestIdx == 1) = true := by
  decide +kernel

/-- **C53** fails for std containers: a layer with energies 1 and 9 gets binding energy 1/2. -/
theorem aos_layer_energy_std_wrong :
    (computeLayer .std .lessBetter [(1, ⟨[(3 : ℚ)], 9, true⟩), (2, ⟨[1], 1, true⟩)]
      ⟨[2, 1], [], 0, 0⟩).satisfies (fun l => l.bindingEnergy == 1/2) = true := by
  decide +kernel

/-- **C50** fails in general (any decreasing weights): three layers planned with 4, 1 and 1 of 7
electrons; the seventh electron would go to a fourth layer. -/
theorem aos_plan_too_small_example :
    PlanTooSmall 7 (layerCounts (fun i => if i = 0 then (442 : ℚ) else if i = 1 then 141 else 141) 3 7) := by
  have : layerCounts (fun i => if i = 0 then (442 : ℚ) else if i = 1 then 141 else 141) 3 7 = [4, 1, 1] := by
    decide +kernel
  rw [this]
  unfold PlanTooSmall planned
  intro j hj
  simp at hj
  interval_cases j <;> decide

end Heu
