import Verif.Lemmas.AOSFlBox
import Verif.Lemmas.AOSFlLayers
import Verif.Props.AOS
import Verif.Props.SOGAFl

/-!
# C127: atomic orbital search on IEEE doubles

Energies, states, means and the plan of the layers are IEEE-754 data.  Draws, the order of ties of `std::sort`, the
Gaussian curve, the value of Eigen's `sum()` and uninitialised energies are arbitrary.
-/

set_option linter.unusedSectionVars false
set_option linter.unusedSimpArgs false
set_option linter.unusedVariables false

namespace Heu
open Spec

variable {F : Fmt}

/-! ### NaN energies -/

/-- **C127** (NaN).  With one electron of energy NaN and two whose energies differ, the comparator of `std::sort` is
not a strict weak order: selection is undefined, whatever its parameters. -/
theorem aos_ieee_nan_selection_undefined (opt : FitnessOption) (o : AOSOption)
    (sort : Sorter (Cell (Gene (List (Dbl F)) (Dbl F)))) (k : Nat) (g : Nat → Dbl F) (total : Dbl F)
    (s : AOSState (Dbl F)) (hnan : ∃ c ∈ s.electrons, c.2.fitness.val = .nan)
    (hdiff : ∃ x ∈ s.electrons, ∃ y ∈ s.electrons, x.2.fitness < y.2.fitness) :
    selectAndMakeLayersFl opt o sort k g total s = .ub := by
  have : ¬ StrictWeakOn (electronCompare opt) s.electrons := by
    intro h
    obtain ⟨c, hc, hcn⟩ := hnan
    obtain ⟨a, ha, b, hb, hab⟩ := hdiff
    have n1 : ∀ x : Dbl F, ¬ x < c.2.fitness := fun x h => by
      rw [Dbl.lt_def, hcn] at h; cases hx : x.val <;> rw [hx] at h <;> simp [Fl.lt] at h
    have n2 : ∀ x : Dbl F, ¬ c.2.fitness < x := fun x h => by
      rw [Dbl.lt_def, hcn] at h; simp [Fl.lt] at h
    cases opt
    · have := h.2.2 a ha c hc b hb (by simp [electronCompare, energyBetter, n1])
        (by simp [electronCompare, energyBetter, n2])
      simp [electronCompare, energyBetter, hab] at this
    · have := h.2.2 b hb c hc a ha (by simp [electronCompare, energyBetter, n2])
        (by simp [electronCompare, energyBetter, n1])
      simp [electronCompare, energyBetter, hab] at this
  simp [selectAndMakeLayersFl, sortRange, this]

/-! ### initialisation -/

theorem aosInitFl_spec {o : AOSOption} {init : Nat → List (Dbl F)} {junk : Dbl F} {s0 : AOSState (Dbl F)}
    (h : aosInitializePop o init junk = .ok s0) :
    o.maxLayerNum ≤ o.electronNum ∧ 0 < o.electronNum ∧ s0.electrons.length = o.electronNum ∧
    DistinctNodes s0.electrons ∧ (∀ c ∈ s0.electrons, c.2.computed = false ∧ c.2.var = init c.1) ∧
    s0.best ∈ s0.electrons.map (·.1) ∧ s0.best = 0 ∧ s0.early = 0 := by
  unfold aosInitializePop at h
  split at h
  · rename_i hc
    cases h
    have hmap : (initializePop o.electronNum init junk).map (·.1) = List.range o.electronNum := by
      simp [initializePop, List.map_map, Function.comp_def]
    refine ⟨hc.1, hc.2, by simp [initializePop], ?_, ?_, ?_, rfl, rfl⟩
    · unfold DistinctNodes; dsimp only; rw [hmap]; exact List.nodup_range
    · intro c hcm
      obtain ⟨i, -, rfl⟩ := List.mem_map.1 hcm
      exact ⟨rfl, rfl⟩
    · dsimp only; rw [hmap]; exact List.mem_range.2 hc.2
  · cases h

theorem aosInitFl_ready {o : AOSOption} {init : Nat → List (Dbl F)} {junk : Dbl F} {s0 : AOSState (Dbl F)}
    (f : List (Dbl F) → Dbl F) (h : aosInitializePop o init junk = .ok s0) : AOSReadyFl f s0 := by
  obtain ⟨-, -, -, h1, h2, -⟩ := aosInitFl_spec h
  refine ⟨h1, ?_⟩
  intro c hc hcomp
  rw [(h2 c hc).1] at hcomp; cases hcomp

/-! ### selection -/

/-- **C127** (selection).  Without NaN energies: exactly `min(electronNum, n)` electrons are left, all of them
unchanged, none worse than an erased one. -/
theorem aos_ieee_selection_keeps_best (opt : FitnessOption) (o : AOSOption)
    (sort : Sorter (Cell (Gene (List (Dbl F)) (Dbl F)))) (k : Nat) (g : Nat → Dbl F) (total : Dbl F)
    (s u : AOSState (Dbl F)) (hd : DistinctNodes s.electrons) (hn : NumericEnergies s.electrons)
    (h : selectAndMakeLayersFl opt o sort k g total s = .ok u) :
    u.electrons.length = min o.electronNum s.electrons.length ∧ u.electrons.Sublist s.electrons ∧
    (∀ c ∈ u.electrons, ∀ d ∈ s.electrons, d ∉ u.electrons → ¬ Better opt (energyValue d.2) (energyValue c.2)) ∧
    (u.layers.map (·.members)).flatten.Perm (u.electrons.map (·.1)) ∧ u.layers ≠ [] := by
  obtain ⟨S, cs, ls, -, hp, hsrt, h1, -, -, -, -, -, -, hmk⟩ := select_okFl h
  obtain ⟨hm1, -, hm2⟩ := makeLayersFl_flatten hmk
  rw [h1, hm1]
  refine ⟨keptFl_length hd hp, List.filter_sublist, keptFl_best hd hp hsrt hn, ((keptFl_perm hd hp).map _).symm, ?_⟩
  intro h0; rw [h0] at hm2; exact hm2 rfl

/-! ### runs -/

/-! ### layers -/

theorem layerSizes_double {k n : Nat} (hk : 1 ≤ k) (hkn : k ≤ n) (h : k * n ≤ 2147483647) :
    LayerSizes binary64 k n := by
  have hn : n ≤ 2147483647 := le_trans (Nat.le_mul_of_pos_left _ hk) h
  have h31 : n < 2 ^ 31 := by omega
  refine ⟨⟨by decide, by decide⟩, lt_of_lt_of_le h31 (Nat.pow_le_pow_right (by omega) (by decide)), ?_, ?_, h⟩
  · calc n * 2 ^ binary64.one < 2 ^ 31 * 2 ^ binary64.one := Nat.mul_lt_mul_of_pos_right h31 (by positivity)
      _ = 2 ^ (31 + binary64.one) := by rw [pow_add]
      _ ≤ 2 ^ binary64.top := Nat.pow_le_pow_right (by omega) (by decide)
  · exact le_trans (le_trans hkn h31.le) (Nat.pow_le_pow_right (by omega) (by decide))

/-- The numbers of electrons planned for the layers: natural numbers, at most all electrons, each the nearest integer
of the computed share; the first one is positive. -/
theorem layerCountsFl_spec {o : AOSOption} {k n : Nat} {g : Nat → Dbl F} {total : Dbl F}
    (hl : LegalLayersFl o k g total) (hko : k ≤ n) (hsz : LayerSizes F k n) :
    ∃ ns : List Nat, layerCountsFl g total k n = .ok (ns.map fun c : Nat => (c : Int)) ∧ ns.length = k ∧
      (∀ (i c : Nat), ns[i]? = some c → c ≤ n ∧ |(c : ℚ) - (g i / total * Dbl.nat F n).val.number F| ≤ 1 / 2) ∧
      (∃ c0, ns[0]? = some c0 ∧ 0 < c0) ∧ ns.sum ≤ 2147483647 := by
  obtain ⟨t, htp, ht⟩ := hl.sum
  have hk1 := hl.one_le
  have hn31 : n ≤ 2147483647 := le_trans (Nat.le_mul_of_pos_left _ hk1) hsz.int
  have each : ∀ i, ∃ c : Nat, i < k → roundInt (g i / total * Dbl.nat F n) = .ok (c : Int) ∧ c ≤ n ∧
      |(c : ℚ) - (g i / total * Dbl.nat F n).val.number F| ≤ 1 / 2 ∧ (i = 0 → 0 < c) := by
    intro i
    by_cases hi : i < k
    · obtain ⟨a, ha⟩ := hl.weight i hi
      have hat : a ≤ t := by
        have := hl.share i hi
        rw [dbl_le_def, ha, ht] at this
        simpa [Fl.le, Fl.units] using this
      obtain ⟨m, hm, hmn, hbig⟩ := share_bounds ha ht htp hat hsz.range.2 hsz.exact hsz.finite
      obtain ⟨c, hc1, hc2, hc3, hc4⟩ := roundInt_spec hm hmn hn31
      refine ⟨c, fun _ => ⟨hc1, hc2, hc3, ?_⟩⟩
      rintro rfl
      refine hc4 (hbig k hk1 hko hsz.layers hsz.range.1 ?_)
      have := hl.first
      rw [ha, ht, number_pos_eq, number_pos_eq, ← mul_div_assoc,
        div_le_div_iff_of_pos_right (by positivity)] at this
      exact_mod_cast this
    · exact ⟨0, fun h => absurd h hi⟩
  choose c hc using each
  refine ⟨(List.range k).map c, ?_, by simp, ?_, ⟨c 0, ?_, (hc 0 (by omega)).2.2.2 rfl⟩, ?_⟩
  · unfold layerCountsFl
    rw [mapM_ok _ (fun i => (c i : Int)) _ fun i hi => (hc i (List.mem_range.1 hi)).1, List.map_map]
    rfl
  · intro i x hx
    have hi : i < k := by
      by_contra hcon
      rw [List.getElem?_eq_none (by simp; omega)] at hx; cases hx
    rw [List.getElem?_map, List.getElem?_range hi] at hx
    cases hx
    exact ⟨(hc i hi).2.1, (hc i hi).2.2.1⟩
  · rw [List.getElem?_map, List.getElem?_range (by omega)]; rfl
  · refine le_trans ?_ hsz.int
    have := List.sum_le_card_nsmul ((List.range k).map c) n (by
      intro x hx
      obtain ⟨i, hi, rfl⟩ := List.mem_map.1 hx
      exact (hc i (List.mem_range.1 hi)).2.1)
    rw [List.length_map, List.length_range, smul_eq_mul] at this
    exact this

/-- **C127** (layers).  With legal weights and no NaN energies, each layer is planned with the nearest integer of its
computed share of the electrons; making the layers is undefined (an access past the last layer) exactly when that plan
is too small; otherwise every electron left is in exactly one layer, no layer is empty, there are between 1 and the
drawn number of layers, and no electron has a better energy than one of an inner layer or one before it in the same
layer. -/
theorem aos_ieee_layers (opt : FitnessOption) (o : AOSOption)
    (sort : Sorter (Cell (Gene (List (Dbl F)) (Dbl F)))) (k n : Nat) (g : Nat → Dbl F) (total : Dbl F)
    (s : AOSState (Dbl F)) (hd : DistinctNodes s.electrons) (hn : NumericEnergies s.electrons)
    (hl : LegalLayersFl o k g total) (hnn : n = min o.electronNum s.electrons.length) (hko : k ≤ n)
    (hsz : LayerSizes F k n) :
    ∃ ns : List Nat, layerCountsFl g total k n = .ok (ns.map fun c : Nat => (c : Int)) ∧ ns.length = k ∧
      (∀ (i c : Nat), ns[i]? = some c → c ≤ n ∧ |(c : ℚ) - (g i / total * Dbl.nat F n).val.number F| ≤ 1 / 2) ∧
      (PlanTooSmall n ns → selectAndMakeLayersFl opt o sort k g total s = .ub) ∧
      (¬ PlanTooSmall n ns → ∃ u, selectAndMakeLayersFl opt o sort k g total s = .ok u ∧
        ((u.layers.map (·.members)).flatten).Perm (u.electrons.map (·.1)) ∧
        (∀ l ∈ u.layers, l.members ≠ []) ∧ 1 ≤ u.layers.length ∧ u.layers.length ≤ k ∧
        ((u.layers.map (·.members)).flatten).Pairwise (fun a a' => ∀ x x' : Gene (List (Dbl F)) (Dbl F),
          (a, x) ∈ u.electrons → (a', x') ∈ u.electrons → ¬ Better opt (energyValue x') (energyValue x))) := by
  obtain ⟨ns, hns, hlen, hcl, hc0, hsum⟩ := layerCountsFl_spec hl hko hsz
  refine ⟨ns, hns, hlen, hcl, ?_⟩
  obtain ⟨S, hS, hp, hsrt⟩ := sortRange_ok sort (strictWeak_energies opt hn)
  have hkl : (keptFl o S s).length = n := by rw [keptFl_length hd hp, hnn]
  have hk1 := hl.one_le
  have hlimne : layerLimits n ns ≠ [] := by
    intro h
    have := congrArg List.length h
    rw [layerLimits_length, hlen] at this
    simp at this; omega
  have htl : ((S.take o.electronNum).map (·.1)).length = n := by
    rw [List.length_map, ← (keptFl_perm hd hp).length_eq, hkl]
  have hsel : selectAndMakeLayersFl opt o sort k g total s =
      (makeLayers (layerLimits n ns) ((S.take o.electronNum).map (·.1)) >>= fun ls =>
        .ok { s with electrons := keptFl o S s,
                     layers := ls.map fun m => { members := m, bindingState := [], bindingEnergy := 0, bestIdx := 0 } }) := by
    rw [← makeLayersFl_eq _ _ hlimne (layerLimits_mono n ns)]
    unfold selectAndMakeLayersFl
    rw [hS, Out.ok_bind]
    show (layerCountsFl g total k (keptFl o S s).length >>= _) = _
    rw [hkl, hns, Out.ok_bind]
    show (layerLimitsFl (keptFl o S s).length _ >>= _) = _
    rw [hkl, layerLimitsFl_nat hsum, Out.ok_bind]
    rfl
  obtain ⟨h1, h2⟩ := plan_spec n ns ((S.take o.electronNum).map (·.1)) htl (by omega) hc0
  rw [hsel]
  refine ⟨fun hpl => by rw [h1.2 hpl]; rfl, fun hpl => ?_⟩
  obtain ⟨L, hL, ⟨hflat, hne⟩, hlp, hlk⟩ := h2 hpl
  rw [hL, Out.ok_bind]
  refine ⟨_, rfl, ?_⟩
  have hmem : (L.map fun m => ({ members := m, bindingState := [], bindingEnergy := 0, bestIdx := 0 } : Layer (Dbl F))).map
      (·.members) = L := by
    rw [List.map_map]; exact List.map_id _
  dsimp only
  rw [hmem, hflat, List.length_map]
  have hdk : DistinctNodes (keptFl o S s) := distinct_filter hd _
  refine ⟨((keptFl_perm hd hp).map _).symm, ?_, hlp, by omega, ?_⟩
  · intro l hl
    obtain ⟨m, hm, rfl⟩ := List.mem_map.1 hl
    exact hne _ hm
  · rw [List.pairwise_map]
    refine (hsrt.sublist (List.take_sublist _ _)).imp_of_mem ?_
    intro a a' ha ha' hb x x' hx hx'
    have e1 := deref_of_mem hdk hx
    have e2 := deref_of_mem hdk ((keptFl_perm hd hp).mem_iff.2 ha)
    have e3 := deref_of_mem hdk hx'
    have e4 := deref_of_mem hdk ((keptFl_perm hd hp).mem_iff.2 ha')
    rw [e2] at e1; rw [e4] at e3
    cases e1; cases e3
    intro hbt
    have hna := hn a (hp.mem_iff.1 (List.mem_of_mem_take ha))
    have hna' := hn a' (hp.mem_iff.1 (List.mem_of_mem_take ha'))
    rw [(electronCompare_fl opt hna' hna).2 hbt] at hb
    cases hb

theorem trailing_step {β : Type} [LinearOrder β] (opt : FitnessOption) (e0 : β) (L : List β) (i : Nat)
    (hi1' : i + 1 < L.length) (hmono : ¬ Better opt (L[i]'(by omega)) L[i + 1]) :
    (if L[i]'(by omega) = L[i + 1] then trailingFails opt e0 (L.take (i + 1)) + 1 else 0) =
      trailingFails opt e0 (L.take (i + 1 + 1)) := by
  have htake : L.take (i + 1 + 1) = L.take (i + 1) ++ [L[i + 1]] := by
    rw [List.take_succ_eq_append_getElem hi1']
  have hlast : (e0 :: L.take (i + 1)).getLast (by simp) = L[i]'(by omega) := by
    rw [List.getLast_cons (by simp; intro h; rw [h] at hi1'; simp at hi1')]
    rw [List.getLast_eq_getElem, List.getElem_take]
    congr 1
    rw [List.length_take]; omega
  have hta := trailingFails_append opt (e0) (L.take (i + 1)) L[i + 1] _ hlast
  rw [htake]
  by_cases hbt : Better opt L[i + 1] (L[i]'(by omega))
  · rw [hta.1 hbt, if_neg]
    intro heq; rw [heq] at hbt; exact better_irrefl _ _ hbt
  · rw [hta.2 hbt, if_pos]
    cases opt <;> simp only [Better, not_lt] at hmono hbt
    · exact le_antisymm hbt hmono
    · exact le_antisymm hmono hbt

section run
variable (impl : AOSImpl) (opt : FitnessOption) (o : AOSOption) (b : Box (Dbl F)) (f : List (Dbl F) → Dbl F)
  (env : Nat → AOSEnvFl F)

/-- **C127** (NaN in a run).  When the objective function is NaN at one of the initial points and has two different
values at two others, the behaviour of the first `run()` is undefined. -/
theorem aos_ieee_nan_run_undefined (init : Nat → List (Dbl F)) (junk : Dbl F) (fuel : Nat) (s0 : AOSState (Dbl F))
    (hi : aosInitializePop o init junk = .ok s0)
    (hnan : ∃ i, i < o.electronNum ∧ (f (init i)).val = .nan)
    (hdiff : ∃ i j, i < o.electronNum ∧ j < o.electronNum ∧ f (init i) < f (init j)) :
    aosRunFl impl opt o b f env (fuel + 1) s0 = .ub := by
  have hcells : ∀ t, aosEvaluate opt f s0 = .ok t → ∀ i, i < o.electronNum →
      ∃ c ∈ t.electrons, c.2.fitness = f (init i) := by
    intro t ht i hio
    have hrdy := aosInitFl_ready f hi
    obtain ⟨h1, -, h2, -⟩ := aosEvaluate_fl ht hrdy.distinct hrdy.cache
    have hs : s0.electrons = initializePop o.electronNum init junk := by
      unfold aosInitializePop at hi
      split at hi
      · cases hi; rfl
      · cases hi
    have hmem : ((i, ⟨init i, junk, false⟩) : Cell (Gene (List (Dbl F)) (Dbl F))) ∈ s0.electrons := by
      rw [hs]
      exact List.mem_map.2 ⟨i, List.mem_range.2 hio, rfl⟩
    refine ⟨(i, ⟨init i, f (init i), true⟩), ?_, rfl⟩
    rw [h1]
    exact List.mem_map.2 ⟨_, hmem, rfl⟩
  simp only [aosRunFl, aosLoopFl]
  cases h1 : aosEvaluate opt f s0 with
  | ub => rfl
  | timeout => exact absurd h1 aosEvaluate_no_timeout
  | ok t =>
    rw [Out.ok_bind]
    cases h2 : Heu.deref t.electrons t.best with
    | ub => rfl
    | timeout => exact absurd h2 deref_no_timeout
    | ok g =>
      rw [Out.ok_bind]
      have := aos_ieee_nan_selection_undefined opt o (env 0).sort (env 0).layerNum (env 0).gauss (env 0).total t
        (by
          obtain ⟨i, hio, hin⟩ := hnan
          obtain ⟨c, hc, hcf⟩ := hcells t h1 i hio
          exact ⟨c, hc, by rw [hcf]; exact hin⟩)
        (by
          obtain ⟨i, j, hio, hjo, hlt⟩ := hdiff
          obtain ⟨c, hc, hcf⟩ := hcells t h1 i hio
          obtain ⟨d, hd, hdf⟩ := hcells t h1 j hjo
          exact ⟨c, hc, d, hd, by rw [hcf, hdf]; exact hlt⟩)
      rw [this]; rfl

/-- **C127** (termination).  `run()` makes at most `maxGeneration + 1` iterations of its loop, whatever the data. -/
theorem aos_ieee_run_terminates (fuel : Nat) (hf : o.maxGeneration < fuel) (s : AOSState (Dbl F)) :
    aosRunFl impl opt o b f env fuel s ≠ .timeout := by
  rcases aosLoopFl_no_timeout (impl := impl) (opt := opt) (o := o) (b := b) (f := f) (env := env) fuel 0 s []
    (by omega) with h | h
  · exact h
  · omega

/-- **C127** (result).  When `run()` returns, `generation()` is at most `maxGeneration`; the run stopped because that
number is reached or because the early-stop counter reached `maxEarlyStop`; no earlier generation met the second
criterion; the record has `generation() + 1` entries, the `i`-th of which is the energy of the best electron after
the `i`-th evaluation. -/
theorem aos_ieee_run_result (fuel : Nat) (s0 : AOSState (Dbl F)) (r : RunResult (AOSState (Dbl F)) (Dbl F))
    (hr : aosRunFl impl opt o b f env fuel s0 = .ok r) :
    r.generation ≤ o.maxGeneration ∧
    (r.generation = o.maxGeneration ∨ o.maxEarlyStop ≤ r.state.early) ∧
    (∀ i, i < r.generation → ∃ t, aosEvalFl impl opt o b f env s0 i = .ok t ∧ t.early < o.maxEarlyStop) ∧
    r.record.length = r.generation + 1 ∧
    (∀ (i : Nat) (e : Dbl F), r.record[i]? = some e → ∃ t g, aosEvalFl impl opt o b f env s0 i = .ok t ∧
      deref t.electrons t.best = .ok g ∧ g.fitness = e) ∧
    ∃ t, aosEvalFl impl opt o b f env s0 r.generation = .ok t ∧
      selectAndMakeLayersFl opt o (env r.generation).sort (env r.generation).layerNum
        (env r.generation).gauss (env r.generation).total t = .ok r.state := by
  obtain ⟨-, h2, h3, h4, h5, bs, h6, h7, h8⟩ := aosLoopFl_spec (s0 := s0) fuel 0 s0 [] r rfl (Nat.zero_le _) hr
  rw [List.nil_append] at h6
  refine ⟨h2, h4, fun i hi => h5 i (Nat.zero_le _) hi, by rw [h6]; omega, ?_, h3⟩
  intro i e he
  rw [h6] at he
  have := h8 i e he
  rwa [Nat.zero_add] at this

/-- **C127** (the record).  As long as no electron has energy NaN, the `i`-th entry of the record is the best energy
present in generation `i`; all energies are values of the objective function. -/
theorem aos_ieee_record_best (init : Nat → List (Dbl F)) (junk : Dbl F) (fuel : Nat) (s0 : AOSState (Dbl F))
    (hi : aosInitializePop o init junk = .ok s0) (r : RunResult (AOSState (Dbl F)) (Dbl F))
    (hr : aosRunFl impl opt o b f env fuel s0 = .ok r) (i : Nat) (e : Dbl F) (he : r.record[i]? = some e)
    (hn : ∀ t, aosEvalFl impl opt o b f env s0 i = .ok t → NumericEnergies t.electrons) :
    ∃ t, aosEvalFl impl opt o b f env s0 i = .ok t ∧ BestEnergyFl opt t.electrons e ∧
      ∀ c ∈ t.electrons, c.2.fitness = f c.2.var := by
  have hrdy := aosInitFl_ready f hi
  obtain ⟨-, -, -, -, hrec, -⟩ := aos_ieee_run_result impl opt o b f env fuel s0 r hr
  obtain ⟨t, g, ht, hg, rfl⟩ := hrec i e he
  have ha := aosEvalFl_after hrdy i t ht
  obtain ⟨g', hg', hm, hu⟩ := ha.deref
  rw [hg] at hg'; cases hg'
  exact ⟨t, ht, ⟨⟨_, hm, rfl⟩, hu (hn t ht)⟩, fun c hc => (ha.computed c hc).2⟩

/-- **C127** (best ever).  As long as no electron has energy NaN (infinite energies are fine), the recorded energy
never gets worse, and no electron of an earlier or the same generation has a better value. -/
theorem aos_ieee_best_ever (init : Nat → List (Dbl F)) (junk : Dbl F) (fuel : Nat) (s0 : AOSState (Dbl F))
    (hi : aosInitializePop o init junk = .ok s0) (r : RunResult (AOSState (Dbl F)) (Dbl F))
    (hr : aosRunFl impl opt o b f env fuel s0 = .ok r) (i j : Nat) (hij : i ≤ j) (e e' : Dbl F)
    (he : r.record[i]? = some e) (he' : r.record[j]? = some e')
    (hn : ∀ k, k ≤ j → ∀ t, aosEvalFl impl opt o b f env s0 k = .ok t → NumericEnergies t.electrons) :
    ¬ Better opt (extended F e.val) (extended F e'.val) ∧
    ∀ t, aosEvalFl impl opt o b f env s0 i = .ok t → ∀ c ∈ t.electrons,
      ¬ Better opt (extended F (f c.2.var).val) (extended F e'.val) := by
  have hrdy := aosInitFl_ready f hi
  have h0 := (aosInitFl_spec hi).2.1
  obtain ⟨t1, h1, hb1, hc1⟩ := aos_ieee_record_best impl opt o b f env init junk fuel s0 hi r hr i e he (hn i hij)
  obtain ⟨t2, h2, hb2, hc2⟩ := aos_ieee_record_best impl opt o b f env init junk fuel s0 hi r hr j e' he' (hn j le_rfl)
  have hm := aosEvalFl_mono hrdy h0 hij hn h1 h2 hb1 hb2
  refine ⟨hm, ?_⟩
  intro t ht c hc
  rw [h1] at ht
  cases ht
  rw [← hc1 c hc]
  exact not_better_trans (hb1.2 c hc) hm

/-- **C127** (early stop).  As long as no electron has energy NaN, the early-stop counter is the number of generations
at the end of the run in which the best energy did not improve (the reference before the first generation is the
energy of the first electron); `+0.0` and `-0.0` count as equal. -/
theorem aos_ieee_early_stop_counter (init : Nat → List (Dbl F)) (junk : Dbl F) (fuel : Nat) (s0 : AOSState (Dbl F))
    (hi : aosInitializePop o init junk = .ok s0) (r : RunResult (AOSState (Dbl F)) (Dbl F))
    (hr : aosRunFl impl opt o b f env fuel s0 = .ok r)
    (hn : ∀ k, k ≤ r.generation → ∀ t, aosEvalFl impl opt o b f env s0 k = .ok t → NumericEnergies t.electrons) :
    r.state.early = trailingFails opt (extended F (f (init 0)).val) (r.record.map fun e => extended F e.val) := by
  have hrdy := aosInitFl_ready f hi
  obtain ⟨-, h0n, -, hdist, hvar, hbm, hb0, he0⟩ := aosInitFl_spec hi
  obtain ⟨-, -, -, hlen, hrec, t, ht, hsel⟩ := aos_ieee_run_result impl opt o b f env fuel s0 r hr
  have hlm : (r.record.map fun e => extended F e.val).length = r.record.length := List.length_map _
  have key : ∀ i, i < r.record.length → ∀ t, aosEvalFl impl opt o b f env s0 i = .ok t →
      t.early = trailingFails opt (extended F (f (init 0)).val)
        ((r.record.map fun e => extended F e.val).take (i + 1)) := by
    intro i
    induction i with
    | zero =>
      intro hi0 t ht
      have hnt := hn 0 (Nat.zero_le _) t ht
      obtain ⟨t', g, ht', hg, hge⟩ := hrec 0 _ (List.getElem?_eq_getElem hi0)
      rw [ht] at ht'
      cases ht'
      obtain ⟨e1, -, -, -, -, -, e4⟩ := aosEvaluate_fl ht hrdy.distinct hrdy.cache
      obtain ⟨-, prev, bst, e5, e6, e7⟩ := e4 hnt
      rw [hg] at e6
      cases e6
      have ha := aosEvalFl_after (impl := impl) (o := o) (b := b) (env := env) hrdy 0 t ht
      have hprev : prev.fitness = f (init 0) := by
        have hm := deref_ok e5
        have h2 := ha.computed _ hm
        rw [e1] at hm
        obtain ⟨-, -, d, hd, hd1, hd2⟩ := computeAllFitness_mem hrdy.cache _ hm
        have := (hvar d hd).2
        rw [hd1] at this
        dsimp only at this hd2 h2
        rw [h2.2, ← hd2, this, hb0]
      have hpv : energyValue prev = extended F (f (init 0)).val := by rw [energyValue, hprev]
      have hgv : energyValue g = (r.record.map fun e => extended F e.val)[0]'(by omega) := by
        rw [energyValue, hge, List.getElem_map]
      have htake : (r.record.map fun e => extended F e.val).take (0 + 1) =
          [] ++ [(r.record.map fun e => extended F e.val)[0]'(by omega)] := by
        rw [List.take_succ_eq_append_getElem (by omega)]; simp
      have hta := trailingFails_append opt (extended F (f (init 0)).val) []
        ((r.record.map fun e => extended F e.val)[0]'(by omega)) (extended F (f (init 0)).val) rfl
      rw [htake, e7, hpv, hgv]
      by_cases hbt : Better opt ((r.record.map fun e => extended F e.val)[0]'(by omega)) (extended F (f (init 0)).val)
      · rw [hta.1 hbt, if_neg]
        intro heq; rw [heq] at hbt; exact better_irrefl _ _ hbt
      · rw [hta.2 hbt, if_pos, he0]
        · rfl
        · obtain ⟨c, hc, hu⟩ := ha.best hnt
          have h1 := hu.2 _ (deref_ok e5)
          rw [← hc, deref_of_mem ha.distinct hu.1] at hg
          cases hg
          dsimp only at h1
          rw [hpv, hgv] at h1
          cases opt <;> simp only [Better, not_lt] at h1 hbt
          · exact le_antisymm hbt h1
          · exact le_antisymm h1 hbt
    | succ i ih =>
      intro hi1 t ht
      have hnt := hn (i + 1) (by omega) t ht
      obtain ⟨t1, u, v, h1, h2, h3, h4⟩ := aosEvalFl_succ ht
      have hnt1 := hn i (by omega) t1 h1
      have ha := aosEvalFl_after hrdy i t1 h1
      obtain ⟨ha', -, -, -, -, hstep⟩ := generation_fl ha h2 h3 h4
      obtain ⟨g, g', hg, hg', hearly⟩ := hstep hnt
      obtain ⟨t1', x, h1', hx, hxe⟩ := hrec i _ (List.getElem?_eq_getElem (by omega))
      rw [h1] at h1'; cases h1'
      rw [hg] at hx; cases hx
      obtain ⟨t2', y, h2', hy, hye⟩ := hrec (i + 1) _ (List.getElem?_eq_getElem hi1)
      rw [ht] at h2'; cases h2'
      rw [hg'] at hy; cases hy
      have hxv : energyValue g = (r.record.map fun e => extended F e.val)[i]'(by omega) := by
        rw [energyValue, hxe, List.getElem_map]
      have hyv : energyValue g' = (r.record.map fun e => extended F e.val)[i + 1]'(by omega) := by
        rw [energyValue, hye, List.getElem_map]
      have hmono : ¬ Better opt (energyValue g) (energyValue g') := by
        obtain ⟨g1, hg1, hg2, hg3⟩ := ha.deref
        rw [hg] at hg1; cases hg1
        obtain ⟨g2, hg4, hg5, hg6⟩ := ha'.deref
        rw [hg'] at hg4; cases hg4
        exact aosEvalFl_mono (impl := impl) (b := b) (env := env) hrdy h0n (Nat.le_succ i)
          (fun k hk => hn k (by omega)) h1 ht ⟨⟨_, hg2, rfl⟩, hg3 hnt1⟩ ⟨⟨_, hg5, rfl⟩, hg6 hnt⟩
      rw [hearly, ih (by omega) t1 h1, hxv, hyv]
      rw [hxv, hyv] at hmono
      exact trailing_step opt _ _ i (by omega) hmono
  have := key r.generation (by omega) t ht
  obtain ⟨_, _, _, -, -, -, -, -, he, -⟩ := select_okFl hsel
  rw [he, this, List.take_of_length_le (by omega)]

/-- **C127** (the pointer).  The electron returned by `bestElectron()` after the run: when no electron has energy NaN
and at most `electronNum` electrons share the best energy in the last generation, it exists and has the last recorded
energy.  Missing: more ties (see `aos_bestElectron_dangles`). -/
theorem aos_ieee_bestElectron_partial (init : Nat → List (Dbl F)) (junk : Dbl F) (fuel : Nat) (s0 : AOSState (Dbl F))
    (hi : aosInitializePop o init junk = .ok s0) (r : RunResult (AOSState (Dbl F)) (Dbl F))
    (hr : aosRunFl impl opt o b f env fuel s0 = .ok r)
    (hties : ∀ t, aosEvalFl impl opt o b f env s0 r.generation = .ok t →
      NumericEnergies t.electrons ∧ tiedForBestFl opt t.electrons ≤ o.electronNum) :
    ∃ g, deref r.state.electrons r.state.best = .ok g ∧ r.record.getLast? = some g.fitness ∧
      g.fitness = f g.var := by
  obtain ⟨-, -, -, hlen, hrec, t, ht, hsel⟩ := aos_ieee_run_result impl opt o b f env fuel s0 r hr
  have ha := aosEvalFl_after (aosInitFl_ready f hi) _ t ht
  obtain ⟨S, _, _, -, hp, hsrt, h1, h2, -⟩ := select_okFl hsel
  obtain ⟨hn, htie⟩ := hties t ht
  obtain ⟨c, hc, hu⟩ := ha.best hn
  have hk := best_survivesFl (opt := opt) (o := o) ha.distinct hp hsrt hn hu htie
  refine ⟨c.2, ?_, ?_, (ha.computed c hu.1).2⟩
  · rw [h1, h2, ← hc]
    exact deref_of_mem (distinct_filter ha.distinct _) hk
  · obtain ⟨t', g, ht', hg, hge⟩ := hrec r.generation _ (List.getElem?_eq_getElem (by omega))
    rw [ht] at ht'; cases ht'
    rw [← hc, deref_of_mem ha.distinct hu.1] at hg
    cases hg
    rw [hge, List.getLast?_eq_getElem?]
    have e : r.record.length - 1 = r.generation := by omega
    simp only [e]
    exact List.getElem?_eq_getElem (by omega)

theorem aosEvaluate_totalFl {opt : FitnessOption} {f : List (Dbl F) → Dbl F} {s : AOSState (Dbl F)}
    (hb : s.best ∈ s.electrons.map (·.1)) : ∃ t, aosEvaluate opt f s = .ok t := by
  unfold aosEvaluate computeAtomBSBELE aosComputeFitness
  simp only
  cases he : computeAllFitness f s.electrons with
  | nil =>
    have := computeAllFitness_addr f s.electrons
    rw [he] at this
    rw [← this] at hb; simp at hb
  | cons front rest =>
    dsimp only
    rcases deref_ok_or_ub (front :: rest) s.best with ⟨g, hg⟩ | hub
    · rw [hg]; exact ⟨_, rfl⟩
    · rw [deref_ub, ← he, computeAllFitness_addr] at hub
      exact absurd hb hub

theorem children_totalFl {impl : AOSImpl} {opt : FitnessOption} {b : Box (Dbl F)} {e : AOSEnv (Dbl F)}
    {u : AOSState (Dbl F)} (hbest : u.best ∈ u.electrons.map (·.1)) (hne : ∀ l ∈ u.layers, l.members ≠ [])
    (hmem : ∀ l ∈ u.layers, ∀ a ∈ l.members, a ∈ u.electrons.map (·.1)) :
    ∃ v, aosChildren impl opt b e u = .ok v ∧ v.best ∈ v.electrons.map (·.1) := by
  obtain ⟨ls, hls⟩ : ∃ ls, u.layers.mapM (computeLayer impl opt u.electrons) = .ok ls :=
    Out.mapM_total fun l hl => computeLayer_total (hne l hl) (hmem l hl)
  obtain ⟨hlen, hpt⟩ := Out.mapM_length hls
  have hls' : ∀ l' ∈ ls, ∃ l ∈ u.layers, computeLayer impl opt u.electrons l = .ok l' := by
    intro l' hl'
    obtain ⟨i, hi, rfl⟩ := List.getElem_of_mem hl'
    exact ⟨u.layers[i], List.getElem_mem _, hpt i _ _ (List.getElem?_eq_getElem (by omega))
      (List.getElem?_eq_getElem hi)⟩
  obtain ⟨v, hv⟩ := updateElectrons_total (opt := opt) (b := b) (draw := e.draw) (junk := e.junk)
    (s0 := { u with layers := ls }) hbest
    (fun l' hl' => by
      obtain ⟨l, hl, hc⟩ := hls' l' hl'
      exact (computeLayer_ok hc).2.1)
    (fun l' hl' a ha => by
      obtain ⟨l, hl, hc⟩ := hls' l' hl'
      rw [(computeLayer_ok hc).1] at ha
      exact hmem l hl a ha)
  refine ⟨v, ?_, ?_⟩
  · unfold aosChildren computeLayerBSBELE
    simp only [hls, Out.ok_bind]
    exact hv
  · have hgrow := updateElectrons_ok (P := fun _ => True) (fun _ _ _ _ _ _ _ _ _ _ _ _ _ => trivial) hv
    rw [hgrow.best]
    obtain ⟨d, hd, hdb⟩ := List.mem_map.1 hbest
    show u.best ∈ _
    rw [← hdb]
    exact List.mem_map_of_mem (hgrow.sub d hd)

theorem aosEvalFl_size (init : Nat → List (Dbl F)) (junk : Dbl F) (s0 : AOSState (Dbl F))
    (hi : aosInitializePop o init junk = .ok s0) :
    ∀ (i : Nat) (t : AOSState (Dbl F)), aosEvalFl impl opt o b f env s0 i = .ok t →
      t.electrons.length = if i = 0 then o.electronNum else 2 * o.electronNum := by
  obtain ⟨-, hpos, hlen, -⟩ := aosInitFl_spec hi
  have hrdy := aosInitFl_ready f hi
  intro i
  induction i with
  | zero =>
    intro t ht
    obtain ⟨h1, -⟩ := aosEvaluate_fl ht hrdy.distinct hrdy.cache
    rw [h1, if_pos rfl, ← hlen]
    simp [computeAllFitness]
  | succ i ih =>
    intro t ht
    obtain ⟨t0, u, v, h1, h2, h3, h4⟩ := aosEvalFl_succ ht
    have ha := aosEvalFl_after hrdy i t0 h1
    have hl0 := ih t0 h1
    obtain ⟨-, -, -, ⟨S, hp, -, hu⟩, ⟨new, -, hte, hn, -⟩, -⟩ := generation_fl ha h2 h3 h4
    have hk := keptFl_length (o := o) ha.distinct hp
    rw [hte, List.length_append, if_neg (by omega)]
    simp only [computeAllFitness, List.length_map, hn, hu, hk, hl0]
    split <;> omega

/-- **C127** (no undefined behaviour).  If in every generation no energy is NaN, the weights of the layers are legal,
the plan of the layers is large enough and at most `electronNum` electrons share the best energy, then `run()` of an
initialised solver returns. -/
theorem aos_ieee_run_ok (init : Nat → List (Dbl F)) (junk : Dbl F) (fuel : Nat) (hf : o.maxGeneration < fuel)
    (s0 : AOSState (Dbl F)) (hi : aosInitializePop o init junk = .ok s0)
    (hl : ∀ i, LegalLayersFl o (env i).layerNum (env i).gauss (env i).total)
    (hsz : ∀ i, LayerSizes F (env i).layerNum o.electronNum)
    (hplan : ∀ i ns, layerCountsFl (env i).gauss (env i).total (env i).layerNum o.electronNum =
      .ok (ns.map fun c : Nat => (c : Int)) → ¬ PlanTooSmall o.electronNum ns)
    (hnum : ∀ i t, aosEvalFl impl opt o b f env s0 i = .ok t → NumericEnergies t.electrons)
    (hties : ∀ i t, aosEvalFl impl opt o b f env s0 i = .ok t → tiedForBestFl opt t.electrons ≤ o.electronNum) :
    ∃ r, aosRunFl impl opt o b f env fuel s0 = .ok r := by
  obtain ⟨hmax, hpos, hlen, hdist, -, hbest, -⟩ := aosInitFl_spec hi
  have hrdy := aosInitFl_ready f hi
  have key : ∀ (fuel gen : Nat) (s : AOSState (Dbl F)) (rec : List (Dbl F)), o.maxGeneration < gen + fuel →
      aosEvaluate opt f s = aosEvalFl impl opt o b f env s0 gen → s.best ∈ s.electrons.map (·.1) →
      gen ≤ o.maxGeneration → ∃ r, aosLoopFl impl opt o b f env fuel gen s rec = .ok r := by
    intro fuel
    induction fuel with
    | zero => intro gen s rec h1 _ _ h2; omega
    | succ fuel ih =>
      intro gen s rec hfu hs hb hg
      obtain ⟨t, ht⟩ := aosEvaluate_totalFl (opt := opt) (f := f) hb
      have ht' : aosEvalFl impl opt o b f env s0 gen = .ok t := by rw [← hs]; exact ht
      have ha := aosEvalFl_after hrdy gen t ht'
      obtain ⟨g, hgd, -, -⟩ := ha.deref
      have hl0 := aosEvalFl_size impl opt o b f env init junk s0 hi gen t ht'
      have hmin : o.electronNum = min o.electronNum t.electrons.length := by
        rw [hl0]; split <;> omega
      obtain ⟨ns, hns, -, -, -, hok⟩ := aos_ieee_layers opt o (env gen).sort (env gen).layerNum o.electronNum
        (env gen).gauss (env gen).total t ha.distinct (hnum gen t ht') (hl gen) hmin
        ((hl gen).le_max.trans hmax) (hsz gen)
      obtain ⟨u, hu, hperm, hne, -⟩ := hok (hplan gen ns hns)
      simp only [aosLoopFl, ht, Out.ok_bind, hgd, hu]
      by_cases hstop : gen ≥ o.maxGeneration ∨ u.early ≥ o.maxEarlyStop
      · rw [if_pos hstop]; exact ⟨_, rfl⟩
      · rw [if_neg hstop]
        obtain ⟨S, _, _, -, hp, hsrt, hu1, hu2, -⟩ := select_okFl hu
        obtain ⟨c, hc, hub⟩ := ha.best (hnum gen t ht')
        have hbest' : u.best ∈ u.electrons.map (·.1) := by
          rw [hu2, hu1, ← hc]
          exact List.mem_map_of_mem (best_survivesFl ha.distinct hp hsrt (hnum gen t ht') hub (hties gen t ht'))
        obtain ⟨v, hv, hvb⟩ := children_totalFl (impl := impl) (opt := opt) (b := b) (e := (env gen).toAOSEnv)
          hbest' hne (fun l hl a ham => hperm.mem_iff.1 (List.mem_flatten.2 ⟨_, List.mem_map_of_mem hl, ham⟩))
        rw [hv, Out.ok_bind]
        refine ih (gen + 1) v _ (by omega) ?_ hvb (by omega)
        simp only [aosEvalFl, ht', Out.ok_bind, hu, hv]
  exact key fuel 0 s0 [] (by omega) rfl hbest (by omega)

/-- **C127** (confinement).  When the initial states are in the box, every coordinate of every electron ever evaluated
is in its range or NaN, whatever the draws, the bounds and the rounding. -/
theorem aos_ieee_in_box_or_nan (init : Nat → List (Dbl F)) (junk : Dbl F) (s0 : AOSState (Dbl F))
    (hb : NonEmptyBox b) (hin : ∀ i, InBoxOrNaN b (init i)) (hi : aosInitializePop o init junk = .ok s0) :
    (∀ (i : Nat) (t : AOSState (Dbl F)), aosEvalFl impl opt o b f env s0 i = .ok t →
      ∀ c ∈ t.electrons, InBoxOrNaN b c.2.var) ∧
    ∀ (fuel : Nat) (r : RunResult (AOSState (Dbl F)) (Dbl F)), aosRunFl impl opt o b f env fuel s0 = .ok r →
      ∀ c ∈ r.state.electrons, InBoxOrNaN b c.2.var := by
  obtain ⟨-, -, hlen, -, hvar, -⟩ := aosInitFl_spec hi
  have main : ∀ (i : Nat) (t : AOSState (Dbl F)), aosEvalFl impl opt o b f env s0 i = .ok t →
      ∀ c ∈ t.electrons, InBoxOrNaN b c.2.var := by
    intro i t ht
    refine (aosEvalFl_states (P := InBoxOrNaN b) (M := fun v => v.length = b.dim) (fun v hv => hv.1) (fun v hv => hv)
      ?_ ?_ ?_ ?_ (aosInitFl_ready f hi) (by omega) ?_ i t ht).1
    · intro vs hne _ hvs
      rw [List.length_map]
      exact sumStates_length b.dim vs (fun v hv => (hvs v hv).1) _ (by simp)
    · intro v vs _ hv hvs
      rw [List.length_map]
      exact sumStates_length b.dim vs (fun v hv => (hvs v hv).1) _ hv.1
    · intro i n q parent bx bs hp hbx hbs _
      refine confine_inBoxOrNaN b hb _ ?_
      simp [photonState, hp.1, hbx.1, hbs]
    · intro i n parent hp
      refine confine_inBoxOrNaN b hb _ ?_
      simp [restState, hp.1]
    · intro c hc
      rw [(hvar c hc).2]; exact hin _
  refine ⟨main, ?_⟩
  intro fuel r hr c hc
  obtain ⟨-, -, -, -, -, t, ht, hsel⟩ := aos_ieee_run_result impl opt o b f env fuel s0 r hr
  obtain ⟨S, _, _, -, -, -, h1, -⟩ := select_okFl hsel
  rw [h1] at hc
  exact main _ t ht c (keptFl_sub c hc)

/-- **C127** (children in the box).  When the bounds of the box are at most `2^p` in magnitude and
`(2 * electronNum + 1) * 2^p` is below the overflow threshold, every electron ever evaluated is in the box, whatever
`randD()` returns and for any random steps that are not NaN. -/
theorem aos_ieee_electrons_in_box_partial (init : Nat → List (Dbl F)) (junk : Dbl F) (s0 : AOSState (Dbl F))
    (hb : NonEmptyBox b) (hin : ∀ i, InBox b (init i)) (hi : aosInitializePop o init junk = .ok s0)
    (hd : ∀ i n, LegalDrawAOS ((env i).draw n)) (p : Nat)
    (hmin : ∀ i, i < b.dim → AtMost F p (b.min i)) (hmax : ∀ i, i < b.dim → AtMost F p (b.max i))
    (hN : 2 * o.electronNum + 1 < 2 ^ (F.mb + 1)) (ht : (2 * o.electronNum + 1) * 2 ^ (F.one + p) < 2 ^ F.top) :
    (∀ (i : Nat) (t : AOSState (Dbl F)), aosEvalFl impl opt o b f env s0 i = .ok t →
      ∀ c ∈ t.electrons, InBox b c.2.var) ∧
    ∀ (fuel : Nat) (r : RunResult (AOSState (Dbl F)) (Dbl F)), aosRunFl impl opt o b f env fuel s0 = .ok r →
      ∀ c ∈ r.state.electrons, InBox b c.2.var := by
  obtain ⟨-, -, hlen, -, hvar, -⟩ := aosInitFl_spec hi
  have hP : ∀ v, InBox b v → AllAbs (2 ^ (F.one + p)) v := fun v hv =>
    inBox_allAbs (fun i hi => atMost_absLe (hmin i hi)) (fun i hi => atMost_absLe (hmax i hi)) hv
  have ht' : 2 * o.electronNum * 2 ^ (F.one + p) < 2 ^ F.top :=
    lt_of_le_of_lt (Nat.mul_le_mul_right _ (by omega)) ht
  have hrep : Rep F.mb (2 * o.electronNum * 2 ^ (F.one + p)) := ⟨2 * o.electronNum, F.one + p, by omega, rfl⟩
  have mono : ∀ (k : Nat) (v : List (Dbl F)), k ≤ 2 * o.electronNum → AllAbs (k * 2 ^ (F.one + p)) v →
      AllAbs (2 * o.electronNum * 2 ^ (F.one + p)) v := fun k v hk h x hx =>
    (h x hx).mono (Nat.mul_le_mul_right _ hk)
  have main : ∀ (i : Nat) (t : AOSState (Dbl F)), aosEvalFl impl opt o b f env s0 i = .ok t →
      ∀ c ∈ t.electrons, InBox b c.2.var := by
    intro i t htt
    refine (aosEvalFl_states (P := InBox b)
      (M := fun v => v.length = b.dim ∧ AllAbs (2 * o.electronNum * 2 ^ (F.one + p)) v) (fun v hv => hv.1)
      (fun v hv => hv.1) ?_ ?_ ?_ ?_ (aosInitFl_ready f hi) (by omega) ?_ i t htt).1
    · intro vs hne hl hvs
      refine ⟨?_, ?_⟩
      · rw [List.length_map]
        exact sumStates_length b.dim vs (fun v hv => (hvs v hv).1) _ (by simp)
      · refine divNat_allAbs ?_ hrep ht' (List.length_pos_iff.2 hne)
        have := foldAdd_allAbs (F := F) (e := F.one + p) (N := 2 * o.electronNum) (by omega) ht' vs 0
          (List.replicate b.dim 0) (by omega) (by
            intro x hx
            rw [List.mem_replicate] at hx
            rw [hx.2]
            exact ⟨false, 0, rfl, by omega⟩) fun v hv => hP v (hvs v hv)
        exact mono _ _ (by omega) (by rw [Nat.zero_add] at this; exact this)
    · intro v vs hl hv hvs
      refine ⟨?_, ?_⟩
      · rw [List.length_map]
        exact sumStates_length b.dim vs (fun v hv => (hvs v hv).1) _ hv.1
      · refine divNat_allAbs ?_ hrep ht' (by omega)
        have := foldAdd_allAbs (F := F) (e := F.one + p) (N := 2 * o.electronNum) (by omega) ht' vs 1 v (by omega)
          (by rw [Nat.one_mul]; exact hP v hv) fun v hv => hP v (hvs v hv)
        exact mono _ _ (by omega) this
    · intro i n q parent bx bs hp hbx hbs hq
      refine confine_inBoxFl b hb _ ?_ ?_
      · simp [photonState, hp.1, hbx.1, hbs.1]
      · exact photon_not_nan (hd i n) hN ht hq (hP _ hp) (hP _ hbx) hbs.2
    · intro i n parent hp
      refine confine_inBoxFl b hb _ ?_ ?_
      · simp [restState, hp.1]
      · exact rest_not_nan (hd i n) (hP _ hp)
    · intro c hc
      rw [(hvar c hc).2]; exact hin _
  refine ⟨main, ?_⟩
  intro fuel r hr c hc
  obtain ⟨-, -, -, -, -, t, ht, hsel⟩ := aos_ieee_run_result impl opt o b f env fuel s0 r hr
  obtain ⟨S, _, _, -, -, -, h1, -⟩ := select_okFl hsel
  rw [h1] at hc
  exact main _ t ht c (keptFl_sub c hc)

/-- **C127** (NaN everywhere).  When the objective function is NaN at every point, the early-stop counter stays 0: the
run is never stopped early. -/
theorem aos_ieee_all_nan_no_early_stop (hf : ∀ v, (f v).val = .nan) (init : Nat → List (Dbl F)) (junk : Dbl F)
    (fuel : Nat) (s0 : AOSState (Dbl F)) (hi : aosInitializePop o init junk = .ok s0)
    (r : RunResult (AOSState (Dbl F)) (Dbl F)) (hr : aosRunFl impl opt o b f env fuel s0 = .ok r) :
    r.state.early = 0 ∧ (0 < o.maxEarlyStop → r.generation = o.maxGeneration) := by
  have hrdy := aosInitFl_ready f hi
  obtain ⟨-, hstop, -, -, -, t, ht, hsel⟩ := aos_ieee_run_result impl opt o b f env fuel s0 r hr
  have hev : ∀ s t, AOSReadyFl f s → aosEvaluate opt f s = .ok t → t.early = 0 := by
    intro s t hs h
    obtain ⟨h1, -, h2, -⟩ := aosEvaluate_fl h hs.distinct hs.cache
    have hnan : ∀ c ∈ t.electrons, c.2.fitness.val = .nan := fun c hc => by rw [(h2.computed c hc).2]; exact hf _
    unfold aosEvaluate computeAtomBSBELE aosComputeFitness at h
    simp only at h
    rw [← h1] at h
    cases he : t.electrons with
    | nil => rw [he] at h; cases h
    | cons front rest =>
      rw [he] at h
      dsimp only at h
      rw [Out.bind_eq_ok] at h
      obtain ⟨prev, hprev, h⟩ := h
      have hpn := hnan _ (by rw [he]; exact deref_ok hprev)
      have := congrArg AOSState.early (Out.ok.inj h)
      rw [← this]
      dsimp only
      rw [if_neg]
      rintro ⟨hle, -⟩
      rw [dbl_le_def, hpn] at hle
      simp [Fl.le] at hle
  have h0 : t.early = 0 := by
    cases hg : r.generation with
    | zero => rw [hg] at ht; exact hev _ t hrdy ht
    | succ i =>
      rw [hg] at ht
      obtain ⟨t0, u, v, h1, h2, h3, h4⟩ := aosEvalFl_succ ht
      exact hev v t (generation_fl (aosEvalFl_after hrdy i t0 h1) h2 h3 h4).2.2.1 h4
  obtain ⟨_, _, _, -, -, -, -, -, he, -⟩ := select_okFl hsel
  have he0 : r.state.early = 0 := by rw [he, h0]
  refine ⟨he0, fun hp => ?_⟩
  rcases hstop with h | h
  · exact h
  · omega

end run

/-! ### examples -/

section demo

/-- Draws with and without photon effect in turn; steps `1 - (n % 8) / 2`. -/
def demoAOSDrawFl (n : Nat) : AOSDraw (Dbl binary64) :=
  ⟨n % 2 == 0, fun _ => ⟨.fin false (2 ^ 1073)⟩, fun _ => ⟨.fin false (2 ^ 1073)⟩, fun _ => ⟨.fin false (2 ^ 1072)⟩,
    fun _ => Dbl.nat binary64 1 - Dbl.nat binary64 (n % 8) / Dbl.nat binary64 2⟩
def demoAOSEnvFl : AOSEnvFl binary64 :=
  { sort := insertionSorter, layerNum := 2, gauss := fun i => Dbl.nat binary64 (if i = 0 then 3 else 1),
    draw := demoAOSDrawFl, junk := ⟨.nan⟩, total := Dbl.nat binary64 4 }
def demoAOSBoxFl : Box (Dbl binary64) := ⟨1, fun _ => -Dbl.nat binary64 4, fun _ => Dbl.nat binary64 4⟩
def demoAOSInitFl (i : Nat) : List (Dbl binary64) := [Dbl.nat binary64 (min i 4)]

/-- Non-vacuity: four electrons at 0, 1, 2, 3, minimising `x ^ 2 + 1 / x` (infinite at 0): it returns after four
generations, with the expected record and all electrons in the box. -/
example : ∀ impl ∈ [AOSImpl.eigen, AOSImpl.std],
    ((aosInitializePop demoAOSOption demoAOSInitFl ⟨.nan⟩) >>= fun s =>
      aosRunFl impl .lessBetter demoAOSOption demoAOSBoxFl
        (fun v => v.getD 0 0 * v.getD 0 0 + Dbl.nat binary64 1 / v.getD 0 0) (fun _ => demoAOSEnvFl) 4 s).satisfies
      (fun r => r.generation == 3 && r.record.length == 4 && r.record[0]? == some (Dbl.nat binary64 2)
        && r.state.electrons.length == 4 && r.state.layers.length == 2
        && r.state.electrons.all (fun c => c.2.var.all fun x => decide (-Dbl.nat binary64 4 ≤ x))) = true := by
  decide +kernel

theorem nat_ne_nan (F : Fmt) (k : Nat) : (Dbl.nat F k).val ≠ .nan := by
  show Fl.fin _ _ ≠ _
  simp

theorem sub_div_ne_nan {F : Fmt} {x y : Dbl F} {q : Nat} (hx : x.val ≠ .nan) (hy : y.val.Finite F) (hq : 0 < q) :
    (x - y / Dbl.nat F q).val ≠ .nan := by
  obtain ⟨s, m, hsm, hrep, htop⟩ := hy
  obtain ⟨s', m', he, -⟩ := Fl.divNat_absLe (F := F) ⟨s, m, hsm, le_rfl⟩ hrep htop hq
  show Fl.add F x.val (Fl.neg (Fl.div F y.val (Fl.ofNat F q))) ≠ _
  rw [he]
  exact Fl.add_fin_ne_nan F _ _ hx ⟨!s', m', rfl⟩

theorem demoDraw_legal (n : Nat) : LegalDrawAOS (demoAOSDrawFl n) := by
  have hu : ∀ e, e < 1074 → UnitDraw binary64 ⟨.fin false (2 ^ e)⟩ := by
    intro e he
    refine ⟨⟨false, 2 ^ e, rfl, ⟨1, e, by decide, by ring⟩, Nat.pow_lt_pow_right (by omega)
      (lt_of_lt_of_le he (by decide))⟩, ?_, ?_⟩
    · simp [Fl.ofNat, Fl.le, Fl.units]
    · simp only [Fl.ofNat, Fl.lt, Fl.units, decide_eq_true_eq]
      have : 2 ^ e < 2 ^ 1074 := Nat.pow_lt_pow_right (by omega) he
      have h2 : binary64.one = 1074 := by decide
      rw [h2]
      simp only [Bool.false_eq_true, if_false, one_mul]
      exact decide_eq_true (by exact_mod_cast this)
  refine ⟨fun _ => hu 1073 (by omega), fun _ => hu 1073 (by omega), fun _ => hu 1072 (by omega), fun _ => ?_⟩
  exact sub_div_ne_nan (nat_ne_nan binary64 1) (nat_finite64 (n % 8) (by omega)) (by omega)

/-- Legal weights, box, initial points and magnitudes of the run above. -/
example : LegalLayersFl demoAOSOption 2 demoAOSEnvFl.gauss demoAOSEnvFl.total where
  one_le := by decide
  le_max := by decide
  weight i hi := ⟨_, rfl⟩
  share i hi := by
    have : ∀ i, i < 2 → demoAOSEnvFl.gauss i ≤ demoAOSEnvFl.total := by decide +kernel
    exact this i hi
  sum := ⟨4 * 2 ^ binary64.one, by positivity, rfl⟩
  first := by
    show Fl.number binary64 (Dbl.nat binary64 4).val ≤ _ * Fl.number binary64 (Dbl.nat binary64 3).val
    rw [nat_number, nat_number]; norm_num

example : LayerSizes binary64 2 demoAOSOption.electronNum := layerSizes_double (by decide) (by decide) (by decide)

theorem demoAOSBoxFl_atMost (i : Nat) : AtMost binary64 2 (demoAOSBoxFl.min i) ∧ AtMost binary64 2 (demoAOSBoxFl.max i) := by
  have h := atMost_nat (k := 4) (e := 2) (by omega) (by omega) (by omega)
  refine ⟨?_, h⟩
  obtain ⟨⟨s, n, he, hr, ht⟩, h2⟩ := h
  refine ⟨⟨!s, n, ?_, hr, ht⟩, ?_⟩
  · show Fl.neg (Dbl.nat binary64 4).val = _
    rw [he]; rfl
  · show abs (Fl.number binary64 (Fl.neg (Dbl.nat binary64 4).val)) ≤ _
    rw [he] at h2 ⊢
    rw [number_abs_eq] at h2
    show abs (Fl.number binary64 (.fin (!s) n)) ≤ _
    rw [number_abs_eq]; exact h2

example : NonEmptyBox demoAOSBoxFl ∧ (∀ i, InBox demoAOSBoxFl (demoAOSInitFl i)) ∧
    2 * demoAOSOption.electronNum + 1 < 2 ^ (binary64.mb + 1) ∧
    (2 * demoAOSOption.electronNum + 1) * 2 ^ (binary64.one + 2) < 2 ^ binary64.top := by
  have h1 : demoAOSBoxFl.min 0 ≤ demoAOSBoxFl.max 0 := by decide +kernel
  have h2 : ∀ k, k < 5 → demoAOSBoxFl.min 0 ≤ Dbl.nat binary64 k ∧ Dbl.nat binary64 k ≤ demoAOSBoxFl.max 0 := by
    decide +kernel
  refine ⟨fun i _ => h1, fun i => ⟨rfl, fun j hj => ?_⟩, by decide +kernel, by decide +kernel⟩
  have : j = 0 := by simpa [demoAOSInitFl] using hj
  subst this
  exact h2 (min i 4) (by omega)

/-- **C127** (NaN).  The objective function `x / x` with one electron at 0: undefined. -/
example : ((aosInitializePop demoAOSOption demoAOSInitFl ⟨.nan⟩) >>= fun s =>
    aosRunFl .eigen .lessBetter demoAOSOption demoAOSBoxFl
      (fun v => v.getD 0 0 * v.getD 0 0 / v.getD 0 0) (fun _ => demoAOSEnvFl) 4 s) = .ub := by
  have h : ∃ s0, aosInitializePop demoAOSOption demoAOSInitFl ⟨.nan⟩ = .ok s0 := ⟨_, rfl⟩
  obtain ⟨s0, h⟩ := h
  rw [h, Out.ok_bind]
  exact aos_ieee_nan_run_undefined .eigen .lessBetter demoAOSOption demoAOSBoxFl _ _ demoAOSInitFl ⟨.nan⟩ 3 s0 h
    ⟨0, by decide, by decide +kernel⟩ ⟨1, 2, by decide, by decide, by decide +kernel⟩

/-- The largest double. -/
def demoHuge : Dbl binary64 := ⟨.fin false ((2 ^ 53 - 1) * 2 ^ 2045)⟩

/-- **C127** fails for a box as large as the format: two electrons at the largest double; the mean of their states
overflows to infinity, a draw of 0 times infinity is NaN, and the confinement to the box keeps it: the objective
function is evaluated at NaN. -/
theorem aos_ieee_state_nan :
    ((aosInitializePop ⟨2, 1, 10, 1⟩ (fun _ => [demoHuge]) 0) >>= fun s =>
      aosEvalFl .eigen .lessBetter ⟨2, 1, 10, 1⟩ ⟨1, fun _ => -demoHuge, fun _ => demoHuge⟩
        (fun _ => Dbl.nat binary64 1)
        (fun _ => { sort := insertionSorter, layerNum := 1, gauss := fun _ => Dbl.nat binary64 1,
                    draw := fun n => ⟨n == 0, fun _ => 0, fun _ => 0, fun _ => 0, fun _ => 0⟩,
                    junk := 0, total := Dbl.nat binary64 1 }) s 1).satisfies
      (fun t => t.electrons.length == 4 && t.electrons.any fun c => c.2.var == [⟨.nan⟩]) = true := by
  decide +kernel

/-- **C127** fails for a plan that is too small: weights 442, 141, 141 for seven electrons. -/
theorem aos_ieee_plan_too_small :
    layerCountsFl (fun i => Dbl.nat binary64 (if i = 0 then 442 else 141)) (Dbl.nat binary64 724) 3 7 =
      .ok [4, 1, 1] ∧ PlanTooSmall 7 [4, 1, 1] := by
  refine ⟨by decide +kernel, ?_⟩
  intro j hj
  have : ∀ j, j < 3 → planned 7 [4, 1, 1] j + (3 - 1 - j) < 7 := by decide
  exact this j hj

/-- **C127** (NaN everywhere): non-vacuity, a run that returns. -/
example : ((aosInitializePop demoAOSOption demoAOSInitFl 0) >>= fun s =>
      aosRunFl .std .greaterBetter ⟨4, 3, 1, 2⟩ demoAOSBoxFl (fun _ => ⟨.nan⟩) (fun _ => demoAOSEnvFl) 4 s).satisfies
      (fun r => r.generation == 3 && r.state.early == 0 && r.record.length == 4) = true := by
  decide +kernel

/-- **C129** (illegal weights).  Negative shares: the comparison in `size_t` makes a negative limit "all electrons", so
the first layer takes everything; a decreasing limit makes `reserve` throw out of a `noexcept` function. -/
theorem aos_ieee_negative_shares :
    (layerLimitsFl 4 [-1, 3] >>= fun l => makeLayersFl l [10, 11, 12, 13]) = .ok [[10, 11, 12, 13]] ∧
    layerLimitsFl 4 [-1, 3] = .ok [4, 2] ∧
    (layerLimitsFl 4 [2, -1] >>= fun l => makeLayersFl l [10, 11, 12, 13]) = .ub ∧
    layerLimitsFl 4 [2147483647, 1] = .ub ∧
    roundInt (⟨.fin true (5 * 2 ^ 1073)⟩ : Dbl binary64) = .ok (-3) ∧ roundInt (⟨.nan⟩ : Dbl binary64) = .ub ∧
    roundInt (Dbl.nat binary64 2147483648) = .ub ∧ roundInt (⟨.inf true⟩ : Dbl binary64) = .ub ∧
    roundInt (-Dbl.nat binary64 2147483649) = .ub ∧
    roundInt (-Dbl.nat binary64 2147483648) = .ok (-2147483648) ∧ makeLayersFl [] [] = .ub := by
  decide +kernel

end demo

end Heu
