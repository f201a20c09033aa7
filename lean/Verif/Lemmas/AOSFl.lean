import Verif.Lemmas.AOSRun
import Verif.Lemmas.NSGA2Fl
import Verif.Spec.AOSFl
import Verif.Props.BoxFl

/-! # Atomic orbital search on IEEE doubles: helper lemmas -/

set_option linter.unusedSectionVars false
set_option linter.unusedSimpArgs false
set_option linter.unusedVariables false
set_option linter.unnecessarySimpa false

namespace Heu
open Spec

variable {F : Fmt}

/-! ### energies -/

theorem dbl_beq_iff {x y : Dbl F} (hx : x.val ≠ .nan) (hy : y.val ≠ .nan) :
    (x ≤ y ∧ y ≤ x) ↔ extended F x.val = extended F y.val := by
  rw [dbl_le_iff, dbl_le_iff]
  constructor
  · rintro ⟨h1, h2⟩; exact le_antisymm h1.2.2 h2.2.2
  · intro h; exact ⟨⟨hx, hy, h.le⟩, ⟨hy, hx, h.ge⟩⟩

theorem energyBetter_fl (opt : FitnessOption) {x y : Dbl F} (hx : x.val ≠ .nan) (hy : y.val ≠ .nan) :
    energyBetter opt x y = true ↔ Better opt (extended F x.val) (extended F y.val) := by
  cases opt <;> simp only [energyBetter, Better, decide_eq_true_eq, dbl_lt_iff]
  · exact ⟨fun h => h.2.2, fun h => ⟨hx, hy, h⟩⟩
  · exact ⟨fun h => h.2.2, fun h => ⟨hy, hx, h⟩⟩

theorem electronCompare_fl (opt : FitnessOption) {c d : Cell (Gene (List (Dbl F)) (Dbl F))}
    (hc : c.2.fitness.val ≠ .nan) (hd : d.2.fitness.val ≠ .nan) :
    electronCompare opt c d = true ↔ Better opt (energyValue c.2) (energyValue d.2) :=
  energyBetter_fl opt hc hd

theorem strictWeak_energies (opt : FitnessOption) {pop : Pop (Gene (List (Dbl F)) (Dbl F))}
    (h : NumericEnergies pop) : StrictWeakOn (electronCompare opt) pop := by
  cases opt
  · exact strictWeakOn_lt (fun c : Cell (Gene (List (Dbl F)) (Dbl F)) => c.2.fitness.val) pop h |> fun ⟨a, b, c⟩ =>
      ⟨fun x hx => by simpa [electronCompare, energyBetter, dbl_lt_def] using a x hx,
       fun x hx y hy z hz => by simpa [electronCompare, energyBetter, dbl_lt_def] using b x hx y hy z hz,
       fun x hx y hy z hz => by simpa [electronCompare, energyBetter, dbl_lt_def] using c x hx y hy z hz⟩
  · exact strictWeakOn_gt (fun c : Cell (Gene (List (Dbl F)) (Dbl F)) => c.2.fitness.val) pop h |> fun ⟨a, b, c⟩ =>
      ⟨fun x hx => by simpa [electronCompare, energyBetter, dbl_lt_def] using a x hx,
       fun x hx y hy z hz => by simpa [electronCompare, energyBetter, dbl_lt_def] using b x hx y hy z hz,
       fun x hx y hy z hz => by simpa [electronCompare, energyBetter, dbl_lt_def] using c x hx y hy z hz⟩

theorem atomScan_fl (opt : FitnessOption) (l : List (Cell (Gene (List (Dbl F)) (Dbl F))))
    (c : Cell (Gene (List (Dbl F)) (Dbl F))) (hn : NumericEnergies (c :: l)) :
    (atomScan opt c l = c ∨ atomScan opt c l ∈ l) ∧
    ∀ x ∈ c :: l, ¬ Better opt (energyValue x.2) (energyValue (atomScan opt c l).2) := by
  induction l generalizing c with
  | nil => simp [atomScan, better_irrefl]
  | cons y l ih =>
    have hc := hn c (by simp)
    have hy := hn y (by simp)
    unfold atomScan
    rw [List.foldl_cons]
    by_cases hb : energyBetter opt y.2.fitness c.2.fitness = true
    · rw [if_pos hb]
      have hb' := (energyBetter_fl opt hy hc).1 hb
      obtain ⟨h1, h2⟩ := ih y (fun x hx => hn x (by simp at hx ⊢; tauto))
      refine ⟨Or.inr ?_, ?_⟩
      · rcases h1 with h | h
        · unfold atomScan at h; rw [h]; simp
        · unfold atomScan at h; simp [h]
      · intro x hx
        rcases List.mem_cons.1 hx with rfl | hx
        · exact not_better_trans (better_asymm hb') (h2 y (by simp))
        · exact h2 x hx
    · rw [if_neg hb]
      have hb' := fun h => hb ((energyBetter_fl opt hy hc).2 h)
      obtain ⟨h1, h2⟩ := ih c (fun x hx => hn x (by simp at hx ⊢; tauto))
      refine ⟨?_, ?_⟩
      · rcases h1 with h | h
        · exact Or.inl h
        · unfold atomScan at h; simp [h]
      · intro x hx
        rcases List.mem_cons.1 hx with rfl | hx
        · exact h2 x (by simp)
        · rcases List.mem_cons.1 hx with rfl | hx
          · exact not_better_trans hb' (h2 c (by simp))
          · exact h2 x (by simp [hx])

/-! ### evaluation -/

theorem aosEvaluate_fl {opt : FitnessOption} {f : List (Dbl F) → Dbl F} {s t : AOSState (Dbl F)}
    (h : aosEvaluate opt f s = .ok t) (hd : DistinctNodes s.electrons) (hc : CacheCorrect f s.electrons) :
    t.electrons = computeAllFitness f s.electrons ∧ t.layers = s.layers ∧ Evaluated f t ∧
    (∀ dim, (∀ c ∈ s.electrons, c.2.var.length = dim) → t.bindingState.length = dim) ∧
    (∃ g, (t.best, g) ∈ t.electrons) ∧
    (∃ c0, t.bindingState = (sumStates c0 (t.electrons.map (·.2.var))).map
      (· / ((t.electrons.length : Nat) : Dbl F)) ∧ ∃ c ∈ t.electrons, c0 = c.2.var.length) ∧
    (NumericEnergies t.electrons → (∃ c, c.1 = t.best ∧ Unbeaten opt energyValue t.electrons c) ∧
      ∃ prev bst, deref t.electrons s.best = .ok prev ∧ deref t.electrons t.best = .ok bst ∧
        t.early = if energyValue prev = energyValue bst then s.early + 1 else 0) := by
  unfold aosEvaluate computeAtomBSBELE aosComputeFitness at h
  simp only at h
  cases he : computeAllFitness f s.electrons with
  | nil => rw [he] at h; cases h
  | cons front rest =>
    rw [he] at h
    dsimp only at h
    rw [Out.bind_eq_ok] at h
    obtain ⟨prev, hprev, h⟩ := h
    simp only [Out.ok.injEq] at h
    have hd' : DistinctNodes (front :: rest) := by
      rw [← he]; exact (by unfold DistinctNodes; rw [distinct_computeAllFitness]; exact hd)
    have hmem : atomScan opt front (front :: rest) ∈ front :: rest := by
      have : ∀ (l : List (Cell (Gene (List (Dbl F)) (Dbl F)))) c, atomScan opt c l ∈ c :: l := by
        intro l
        induction l with
        | nil => intro c; simp [atomScan]
        | cons y l ih =>
          intro c
          unfold atomScan
          rw [List.foldl_cons]
          split
          · have := ih y; unfold atomScan at this; simp only [List.mem_cons] at this ⊢; tauto
          · have := ih c; unfold atomScan at this; simp only [List.mem_cons] at this ⊢; tauto
      have := this (front :: rest) front
      simp only [List.mem_cons] at this ⊢; tauto
    subst h
    refine ⟨rfl, rfl, ⟨hd', ?_⟩, ?_, ⟨_, hmem⟩, ⟨_, rfl, front, by simp, rfl⟩, ?_⟩
    · intro c hcm
      have := computeAllFitness_mem hc c (by rw [he]; exact hcm)
      exact ⟨this.1, this.2.1⟩
    · intro dim hdim
      have hv : ∀ c ∈ front :: rest, c.2.var.length = dim := by
        intro c hcm
        obtain ⟨-, -, d, hdm, -, hdv⟩ := computeAllFitness_mem hc c (by rw [he]; exact hcm)
        rw [← hdv]; exact hdim d hdm
      dsimp only
      rw [List.length_map]
      unfold sumStates
      refine sumStates_length dim _ ?_ _ (by rw [List.length_replicate]; exact hv front (by simp))
      intro v hvm
      obtain ⟨c, hcm, rfl⟩ := List.mem_map.1 hvm
      exact hv c hcm
    · intro hn
      have hscan := atomScan_fl opt (front :: rest) front (fun x hx => hn x (by
        simp only [List.mem_cons] at hx ⊢; tauto))
      refine ⟨⟨_, rfl, hmem, fun c hcm => hscan.2 c (List.mem_cons_of_mem _ hcm)⟩,
        prev, _, hprev, deref_of_mem hd' hmem, ?_⟩
      have e := dbl_beq_iff (hn _ (deref_ok hprev)) (hn _ hmem)
      dsimp only at e ⊢
      by_cases hh : energyValue prev = energyValue (atomScan opt front (front :: rest)).2
      · rw [if_pos hh, if_pos (e.2 hh)]
      · rw [if_neg hh, if_neg fun h => hh (e.1 h)]

/-! ### selection -/

/-- The electrons left by the selection when `S` is what the sort produced. -/
def keptFl (o : AOSOption) (S : List (Cell (Gene (List (Dbl F)) (Dbl F)))) (s : AOSState (Dbl F)) :
    Pop (Gene (List (Dbl F)) (Dbl F)) :=
  s.electrons.filter fun c => !((S.drop o.electronNum).map (·.1)).contains c.1

theorem select_okFl {opt : FitnessOption} {o : AOSOption} {sort : Sorter (Cell (Gene (List (Dbl F)) (Dbl F)))}
    {k : Nat} {g : Nat → Dbl F} {total : Dbl F} {s u : AOSState (Dbl F)}
    (h : selectAndMakeLayersFl opt o sort k g total s = .ok u) :
    ∃ S cs ls, sortRange sort (electronCompare opt) s.electrons = .ok S ∧ S.Perm s.electrons ∧
      S.Pairwise (fun a b => electronCompare opt b a = false) ∧
      u.electrons = keptFl o S s ∧ u.best = s.best ∧ u.early = s.early ∧
      u.bindingState = s.bindingState ∧ u.bindingEnergy = s.bindingEnergy ∧
      layerCountsFl g total k (keptFl o S s).length = .ok cs ∧ layerLimitsFl (keptFl o S s).length cs = .ok ls ∧
      makeLayersFl ls ((S.take o.electronNum).map (·.1)) = .ok (u.layers.map (·.members)) := by
  unfold selectAndMakeLayersFl at h
  simp only [Out.bind_eq_ok] at h
  obtain ⟨S, hS, cs, hcs, ls, hls, L, hL, h⟩ := h
  obtain ⟨-, hp, hs⟩ := sortRange_inv sort hS
  simp only [Out.ok.injEq] at h
  subst h
  refine ⟨S, cs, ls, hS, hp, hs, rfl, rfl, rfl, rfl, rfl, hcs, hls, ?_⟩
  have : List.map (fun x : Layer (Dbl F) => x.members) (List.map (fun m => (⟨m, [], 0, 0⟩ : Layer (Dbl F))) L) = L := by
    rw [List.map_map]; exact List.map_id _
  dsimp only
  rw [this]
  exact hL

theorem keptFl_perm {o : AOSOption} {S : List (Cell (Gene (List (Dbl F)) (Dbl F)))} {s : AOSState (Dbl F)}
    (hd : DistinctNodes s.electrons) (hp : S.Perm s.electrons) : (keptFl o S s).Perm (S.take o.electronNum) :=
  filter_erased_perm hd hp _

theorem keptFl_length {o : AOSOption} {S : List (Cell (Gene (List (Dbl F)) (Dbl F)))} {s : AOSState (Dbl F)}
    (hd : DistinctNodes s.electrons) (hp : S.Perm s.electrons) :
    (keptFl o S s).length = min o.electronNum s.electrons.length := by
  rw [(keptFl_perm hd hp).length_eq, List.length_take, hp.length_eq]

theorem keptFl_sub {o : AOSOption} {S : List (Cell (Gene (List (Dbl F)) (Dbl F)))} {s : AOSState (Dbl F)} :
    ∀ c ∈ keptFl o S s, c ∈ s.electrons := fun c hc => (List.mem_filter.1 hc).1

theorem keptFl_best {opt : FitnessOption} {o : AOSOption} {S : List (Cell (Gene (List (Dbl F)) (Dbl F)))}
    {s : AOSState (Dbl F)} (hd : DistinctNodes s.electrons) (hp : S.Perm s.electrons)
    (hs : S.Pairwise (fun a b => electronCompare opt b a = false)) (hn : NumericEnergies s.electrons) :
    ∀ c ∈ keptFl o S s, ∀ d ∈ s.electrons, d ∉ keptFl o S s →
      ¬ Better opt (energyValue d.2) (energyValue c.2) := by
  intro c hc d hdm hdk
  have hc' := (keptFl_perm (o := o) hd hp).mem_iff.1 hc
  have hdS : d ∈ S := hp.mem_iff.2 hdm
  have hsplit : S = S.take o.electronNum ++ S.drop o.electronNum := (List.take_append_drop _ S).symm
  have hdd : d ∈ S.drop o.electronNum := by
    rw [hsplit] at hdS
    rcases List.mem_append.1 hdS with h | h
    · exact absurd ((keptFl_perm (o := o) hd hp).mem_iff.2 h) hdk
    · exact h
  rw [hsplit, List.pairwise_append] at hs
  have := hs.2.2 c hc' d hdd
  intro hb
  rw [(electronCompare_fl opt (hn d hdm) (hn c (keptFl_sub c hc))).2 hb] at this
  cases this

/-- A best electron survives when at most `electronNum` electrons share its energy. -/
theorem best_survivesFl {opt : FitnessOption} {o : AOSOption} {S : List (Cell (Gene (List (Dbl F)) (Dbl F)))}
    {s : AOSState (Dbl F)} (hd : DistinctNodes s.electrons) (hp : S.Perm s.electrons)
    (hs : S.Pairwise (fun a b => electronCompare opt b a = false)) (hn : NumericEnergies s.electrons)
    {c : Cell (Gene (List (Dbl F)) (Dbl F))} (hc : Unbeaten opt energyValue s.electrons c)
    (ht : tiedForBestFl opt s.electrons ≤ o.electronNum) : c ∈ keptFl o S s := by
  classical
  by_contra hk
  have htied : ∀ d ∈ keptFl o S s,
      ∀ e ∈ s.electrons, ¬ Better opt (energyValue e.2) (energyValue d.2) := by
    intro d hdk e he
    exact not_better_trans (hc.2 e he) (keptFl_best hd hp hs hn d hdk c hc.1 hk)
  obtain ⟨p, hpp⟩ : ∃ p : Cell (Gene (List (Dbl F)) (Dbl F)) → Bool, p = fun c => decide (∀ d ∈ s.electrons,
      ¬ Better opt (energyValue d.2) (energyValue c.2)) := ⟨_, rfl⟩
  have hlt : (keptFl o S s).length + 1 ≤ (s.electrons.filter p).length := by
    have hs2 : (c :: keptFl o S s).Subperm (s.electrons.filter p) := by
      refine List.subperm_of_subset ?_ ?_
      · rw [List.nodup_cons]
        refine ⟨hk, ?_⟩
        have := distinct_filter hd (fun c => !((S.drop o.electronNum).map (·.1)).contains c.1)
        exact List.Nodup.of_map _ this
      · intro d hdm
        rw [List.mem_filter]
        rcases List.mem_cons.1 hdm with rfl | hdm
        · exact ⟨hc.1, by rw [hpp]; simpa using hc.2⟩
        · exact ⟨keptFl_sub d hdm, by rw [hpp]; simpa using htied d hdm⟩
    simpa using hs2.length_le
  have hl := keptFl_length (o := o) hd hp
  have ht' : (s.electrons.filter p).length ≤ o.electronNum := by
    rw [hpp]; unfold tiedForBestFl at ht
    convert ht using 4
  have hn' : (s.electrons.filter p).length ≤ s.electrons.length := List.length_filter_le _ _
  omega

theorem bestEnergy_survivesFl {opt : FitnessOption} {o : AOSOption} {S : List (Cell (Gene (List (Dbl F)) (Dbl F)))}
    {s : AOSState (Dbl F)} (hd : DistinctNodes s.electrons) (hp : S.Perm s.electrons)
    (hs : S.Pairwise (fun a b => electronCompare opt b a = false)) (hn : NumericEnergies s.electrons)
    (h0 : 0 < o.electronNum) {c : Cell (Gene (List (Dbl F)) (Dbl F))}
    (hc : Unbeaten opt energyValue s.electrons c) :
    ∃ d ∈ keptFl o S s, energyValue d.2 = energyValue c.2 := by
  have hl := keptFl_length (o := o) hd hp
  have hpos : 0 < s.electrons.length := List.length_pos_of_mem hc.1
  obtain ⟨d, hdk⟩ : ∃ d, d ∈ keptFl o S s := List.exists_mem_of_length_pos (by omega)
  by_cases hk : c ∈ keptFl o S s
  · exact ⟨c, hk, rfl⟩
  · refine ⟨d, hdk, ?_⟩
    have h1 := keptFl_best hd hp hs hn d hdk c hc.1 hk
    have h2 := hc.2 d (keptFl_sub d hdk)
    cases opt <;> simp only [Better, not_lt] at h1 h2
    · exact le_antisymm h1 h2
    · exact le_antisymm h2 h1

/-! ### layers: nothing lost -/

theorem flatten_modify_last (layers : List (List Addr)) (cur : Nat) (e : Addr) (hc : cur < layers.length)
    (hlast : ∀ j, cur < j → (layers.getD j []) = []) :
    (layers.modify cur (· ++ [e])).flatten = layers.flatten ++ [e] := by
  induction layers generalizing cur with
  | nil => simp at hc
  | cons l layers ih =>
    cases cur with
    | zero =>
      have h0 : layers.flatten = [] := by
        rw [List.flatten_eq_nil_iff]
        intro x hx
        obtain ⟨i, hi, rfl⟩ := List.getElem_of_mem hx
        have := hlast (i + 1) (by omega)
        simpa [hi] using this
      simp [List.modify_zero_cons, h0]
    | succ cur =>
      simp only [List.modify_succ_cons, List.flatten_cons]
      rw [ih cur (by simpa using hc) (fun j hj => by simpa using hlast (j + 1) (by omega)), List.append_assoc]

theorem getD_modify_later (layers : List (List Addr)) (cur : Nat) (e : Addr)
    (hlast : ∀ j, cur < j → (layers.getD j []) = []) :
    ∀ j, cur < j → ((layers.modify cur (· ++ [e])).getD j []) = [] := by
  intro j hj
  have hne : cur ≠ j := by omega
  have := hlast j hj
  rw [List.getD_eq_getElem?_getD] at this ⊢
  rw [List.getElem?_modify]
  simp only [hne, if_false]
  simpa using this

theorem fillLayersFl_flatten (limits : List Nat) (els : List Addr) : ∀ (counted cur : Nat)
    (layers L : List (List Addr)), layers.length = limits.length →
    (∀ j, cur < j → (layers.getD j []) = []) → fillLayersFl limits els counted cur layers = .ok L →
    L.flatten = layers.flatten ++ els ∧ L.length = limits.length := by
  induction els with
  | nil => intro counted cur layers L hl _ h; cases h; exact ⟨by simp, hl⟩
  | cons e els ih =>
    intro counted cur layers L hl hlast h
    unfold fillLayersFl at h
    cases hc : limits[cur]? with
    | none => rw [hc] at h; cases h
    | some lim =>
      rw [hc] at h
      dsimp only at h
      have hcl : cur < limits.length := (List.getElem?_eq_some_iff.1 hc).1
      split at h
      · cases hc' : limits[cur + 1]? with
        | none => rw [hc'] at h; cases h
        | some lim' =>
          rw [hc'] at h
          dsimp only at h
          have hcl' : cur + 1 < limits.length := (List.getElem?_eq_some_iff.1 hc').1
          split at h
          · have hlast' : ∀ j, cur + 1 < j → (layers.getD j []) = [] := fun j hj => hlast j (by omega)
            obtain ⟨h1, h2⟩ := ih _ _ _ _ (by rw [List.length_modify]; exact hl) (getD_modify_later _ _ e hlast') h
            rw [flatten_modify_last _ _ _ (by omega) hlast'] at h1
            exact ⟨by rw [h1]; simp, h2⟩
          · cases h
      · obtain ⟨h1, h2⟩ := ih _ _ _ _ (by rw [List.length_modify]; exact hl) (getD_modify_later _ _ e hlast) h
        rw [flatten_modify_last _ _ _ (by omega) hlast] at h1
        exact ⟨by rw [h1]; simp, h2⟩

theorem dropWhile_flatten (l : List (List Addr)) : (l.dropWhile (·.isEmpty)).reverse.flatten = l.reverse.flatten := by
  induction l with
  | nil => rfl
  | cons a l ih =>
    rw [List.dropWhile_cons]
    split
    · rename_i h
      have ha : a = [] := by simpa using h
      subst ha
      rw [ih]; simp
    · rfl

theorem popEmptyLayers_ok {l L : List (List Addr)} (h : popEmptyLayers l = .ok L) :
    L.flatten = l.flatten ∧ L.length ≤ l.length ∧ L ≠ [] ∧ ∀ p, L.getLast? = some p → p ≠ [] := by
  unfold popEmptyLayers at h
  have e := dropWhile_flatten l.reverse
  have hl : (l.reverse.dropWhile (·.isEmpty)).length ≤ l.reverse.length := (List.dropWhile_suffix _).length_le
  have hh : ∀ p, (l.reverse.dropWhile (·.isEmpty)).head? = some p → p ≠ [] := by
    intro p hp hpe
    have := List.head?_dropWhile_not (fun x : List Addr => x.isEmpty) l.reverse
    rw [hp] at this
    subst hpe
    simp at this
  split at h
  · cases h
  · rename_i x hx
    cases h
    rw [List.reverse_reverse] at e
    rw [List.length_reverse] at hl
    refine ⟨e, by rw [List.length_reverse]; exact hl, ?_, ?_⟩
    · intro h0
      exact hx (by simpa using h0)
    · intro p hp
      rw [List.getLast?_reverse] at hp
      exact hh p hp

theorem makeLayersFl_flatten {limits : List Nat} {els : List Addr} {L : List (List Addr)}
    (h : makeLayersFl limits els = .ok L) : L.flatten = els ∧ L.length ≤ limits.length ∧ L ≠ [] := by
  unfold makeLayersFl at h
  split at h
  · cases h
  · rw [Out.bind_eq_ok] at h
    obtain ⟨l, hl, h⟩ := h
    have hz : (limits.map fun _ => ([] : List Addr)).flatten = [] := by
      rw [List.flatten_eq_nil_iff]; intro x hx; simp at hx; exact hx.2
    obtain ⟨h1, h2⟩ := fillLayersFl_flatten limits els 0 0 _ l (by simp) (by
      intro j _
      rw [List.getD_eq_getElem?_getD, List.getElem?_map]
      cases limits[j]? <;> rfl) hl
    rw [hz, List.nil_append] at h1
    obtain ⟨h3, h4, h5, -⟩ := popEmptyLayers_ok h
    exact ⟨h3.trans h1, by omega, h5⟩

/-! ### no timeouts -/

theorem roundInt_no_timeout (x : Dbl F) : roundInt x ≠ .timeout := by
  unfold roundInt; split
  · dsimp only; split <;> (try split) <;> simp
  · simp

theorem cumulateInt_no_timeout (l : List Int) : ∀ acc, cumulateInt acc l ≠ .timeout := by
  induction l with
  | nil => intro acc; simp [cumulateInt]
  | cons c l ih =>
    intro acc
    unfold cumulateInt
    split
    · cases h : cumulateInt (acc + c) l with
      | ub => simp
      | timeout => exact absurd h (ih _)
      | ok r => simp
    · simp

theorem fillLayersFl_no_timeout (limits : List Nat) (els : List Addr) : ∀ counted cur layers,
    fillLayersFl limits els counted cur layers ≠ .timeout := by
  induction els with
  | nil => intro _ _ _; simp [fillLayersFl]
  | cons e els ih =>
    intro counted cur layers
    unfold fillLayersFl
    split
    · simp
    · split
      · split
        · simp
        · split
          · exact ih _ _ _
          · simp
      · exact ih _ _ _

theorem selectFl_no_timeout {opt : FitnessOption} {o : AOSOption}
    {sort : Sorter (Cell (Gene (List (Dbl F)) (Dbl F)))}
    {k : Nat} {g : Nat → Dbl F} {total : Dbl F} {s : AOSState (Dbl F)} :
    selectAndMakeLayersFl opt o sort k g total s ≠ .timeout := by
  unfold selectAndMakeLayersFl
  simp only
  cases h1 : sortRange sort (electronCompare opt) s.electrons with
  | ub => simp
  | timeout => unfold sortRange at h1; split at h1 <;> cases h1
  | ok S =>
    rw [Out.ok_bind]
    generalize (s.electrons.filter fun c => !((S.drop o.electronNum).map (·.1)).contains c.1) = es
    cases h2 : layerCountsFl g total k es.length with
    | ub => simp
    | timeout => exact absurd h2 (Out.mapM_no_timeout fun _ _ => roundInt_no_timeout _)
    | ok cs =>
      rw [Out.ok_bind]
      cases h3 : layerLimitsFl es.length cs with
      | ub => simp
      | timeout =>
        unfold layerLimitsFl at h3
        cases h4 : cumulateInt 0 cs with
        | ub => rw [h4] at h3; cases h3
        | timeout => exact absurd h4 (cumulateInt_no_timeout _ _)
        | ok r => rw [h4] at h3; cases h3
      | ok ls =>
        rw [Out.ok_bind]
        cases h5 : makeLayersFl ls ((S.take o.electronNum).map (·.1)) with
        | ub => simp
        | timeout =>
          unfold makeLayersFl at h5
          split at h5
          · cases h5
          · cases h6 : fillLayersFl ls ((S.take o.electronNum).map (·.1)) 0 0 (ls.map fun _ => []) with
            | ub => rw [h6] at h5; cases h5
            | timeout => exact absurd h6 (fillLayersFl_no_timeout _ _ _ _ _)
            | ok r =>
              rw [h6, Out.ok_bind] at h5
              unfold popEmptyLayers at h5
              split at h5 <;> cases h5
        | ok L => simp

end Heu
