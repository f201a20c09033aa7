import Verif.Lemmas.SOSelect
import Mathlib.Data.List.Nodup
import Mathlib.Tactic.Ring
import Mathlib.Tactic.Positivity

/-! # Stochastic universal sampling, elite and tournament selection -/

set_option linter.unusedSectionVars false
set_option linter.unusedSimpArgs false

namespace Heu
open Spec

variable {γ α : Type}

theorem susPass_sublist {β : Type} [Add α] [Sub α] [LE α] [DecidableLE α] (interval cnt : α) (l : List (β × α)) :
    (susPass interval cnt l).Sublist l := by
  induction l generalizing cnt with
  | nil => simp [susPass]
  | cons x l ih =>
    simp only [susPass]
    split
    · exact (ih _).cons x
    · exact (ih _).cons_cons x

theorem susEqualPass_sublist {β : Type} [Mul α] [LE α] [DecidableLE α] (K n : α) (u : Nat → α)
    (es : List (β × α)) : (susEqualPass K n u es).Sublist es := by
  unfold susEqualPass
  have := (List.filter_sublist (l := es.zipIdx) (p := fun p => !decide (u p.2 * K ≤ n))).map Prod.fst
  rwa [List.zipIdx_map_fst] at this

section sus
variable [Field α] [LinearOrder α] [IsStrictOrderedRing α] (o : FitnessOption) (fit : γ → α)

/-- pointers that hit are paid for by weight -/
theorem susPass_weight {β : Type} (interval cnt : α) (l : List (β × α)) (h0 : 0 ≤ cnt)
    (hw : ∀ x ∈ l, 0 ≤ x.2) :
    ((l.length : α) - ((susPass interval cnt l).length : α)) * interval ≤ cnt + (l.map (·.2)).sum := by
  induction l generalizing cnt with
  | nil => simpa [susPass] using h0
  | cons x l ih =>
    have hx := hw x (by simp)
    have hw' : ∀ y ∈ l, 0 ≤ y.2 := fun y hy => hw y (by simp [hy])
    simp only [susPass]
    split
    · next hle =>
      have := ih (cnt + x.2 - interval) (by linarith) hw'
      simp only [List.length_cons, Nat.cast_add, Nat.cast_one, List.map_cons, List.sum_cons]
      linarith
    · have := ih (cnt + x.2) (by linarith) hw'
      simp only [List.length_cons, Nat.cast_add, Nat.cast_one, List.map_cons, List.sum_cons]
      linarith

theorem minWeight_le_aux (w : α) (ws : List α) :
    let m := ws.foldl (fun m x => if x < m then x else m) w
    m ≤ w ∧ ∀ x ∈ ws, m ≤ x := by
  induction ws generalizing w with
  | nil => simp
  | cons y ws ih =>
    simp only [List.foldl_cons]
    by_cases h : y < w
    · simp only [h, if_true]
      obtain ⟨h1, h2⟩ := ih y
      refine ⟨h1.trans h.le, ?_⟩
      intro x hx
      rcases List.mem_cons.1 hx with rfl | hx
      · exact h1
      · exact h2 x hx
    · simp only [h, if_false]
      obtain ⟨h1, h2⟩ := ih w
      refine ⟨h1, ?_⟩
      intro x hx
      rcases List.mem_cons.1 hx with rfl | hx
      · exact h1.trans (not_lt.1 h)
      · exact h2 x hx

theorem minWeight_le (ws : List α) : ∀ x ∈ ws, minWeight ws ≤ x := by
  intro x hx
  match ws, hx with
  | w :: ws, hx =>
    rcases List.mem_cons.1 hx with rfl | hx
    · exact (minWeight_le_aux x ws).1
    · exact (minWeight_le_aux w ws).2 x hx

theorem minWeight_mem_aux (w : α) (ws : List α) :
    ws.foldl (fun m x => if x < m then x else m) w ∈ w :: ws := by
  induction ws generalizing w with
  | nil => simp
  | cons y ws ih =>
    simp only [List.foldl_cons]
    split
    · have := ih y; exact List.mem_cons_of_mem _ this
    · rcases List.mem_cons.1 (ih w) with h | h
      · rw [h]; simp
      · exact List.mem_cons_of_mem _ (List.mem_cons_of_mem _ h)

theorem minWeight_mem {ws : List α} (h : ws ≠ []) : minWeight ws ∈ ws := by
  match ws, h with
  | w :: ws, _ => exact minWeight_mem_aux w ws

theorem foldl_add_eq_sum {β : Type} (l : List (β × α)) (a : α) :
    l.foldl (fun s p => s + p.2) a = a + (l.map (·.2)).sum := by
  induction l generalizing a with
  | nil => simp
  | cons x l ih => simp only [List.foldl_cons, List.map_cons, List.sum_cons]; rw [ih]; ring

theorem shiftedSpace_sum (l : List (Cell γ)) :
    (shiftedSpace o fit l).1 = ((shiftedSpace o fit l).2.map (·.2)).sum := by
  simp only [shiftedSpace]
  rw [foldl_add_eq_sum, zero_add]

theorem shiftedSpace_mem {l : List (Cell γ)} {x : Cell γ × α} (hx : x ∈ (shiftedSpace o fit l).2) :
    x.1 ∈ l ∧ x.2 = signedFit o fit x.1.2 - minWeight (l.map fun c => signedFit o fit c.2) := by
  simp only [shiftedSpace, List.map_map, List.mem_map, Function.comp_apply] at hx
  obtain ⟨c, hc, rfl⟩ := hx
  exact ⟨hc, rfl⟩

theorem shiftedSpace_nonneg (l : List (Cell γ)) : ∀ x ∈ (shiftedSpace o fit l).2, 0 ≤ x.2 := by
  intro x hx
  obtain ⟨h1, h2⟩ := shiftedSpace_mem o fit hx
  rw [h2]
  have := minWeight_le (l.map fun c => signedFit o fit c.2) _ (List.mem_map_of_mem h1)
  linarith

theorem shiftedSpace_nonneg_sum (l : List (Cell γ)) : 0 ≤ (shiftedSpace o fit l).1 := by
  rw [shiftedSpace_sum]
  apply List.sum_nonneg
  intro w hw
  obtain ⟨x, hx, rfl⟩ := List.mem_map.1 hw
  exact shiftedSpace_nonneg o fit l x hx

/-- The weights sum to nothing exactly when all fitness values are equal. -/
theorem shiftedSpace_zero_iff (l : List (Cell γ)) :
    (shiftedSpace o fit l).1 ≤ 0 ↔ ∀ a ∈ l, ∀ b ∈ l, fit a.2 = fit b.2 := by
  have hsg : ∀ a b : Cell γ, signedFit o fit a.2 = signedFit o fit b.2 ↔ fit a.2 = fit b.2 := by
    intro a b; cases o <;> simp [signedFit]
  constructor
  · intro h
    have h0 : ((shiftedSpace o fit l).2.map (·.2)).sum = 0 := by
      rw [← shiftedSpace_sum]
      exact le_antisymm h (shiftedSpace_nonneg_sum o fit l)
    have hz : ∀ w ∈ (shiftedSpace o fit l).2.map (·.2), w = 0 := fun w hw' =>
      List.all_zero_of_le_zero_le_of_sum_eq_zero (by
        intro w hw
        obtain ⟨x, hx, rfl⟩ := List.mem_map.1 hw
        exact shiftedSpace_nonneg o fit l x hx) h0 hw'
    have hc : ∀ c ∈ l, signedFit o fit c.2 = minWeight (l.map fun c => signedFit o fit c.2) := by
      intro c hc
      rw [← shiftedSpace_map o fit l] at hc
      obtain ⟨x, hx, rfl⟩ := List.mem_map.1 hc
      have h1 := (shiftedSpace_mem o fit hx).2
      rw [hz x.2 (List.mem_map_of_mem hx)] at h1
      linarith
    intro a ha b hb
    rw [← hsg, hc a ha, hc b hb]
  · intro h
    rw [shiftedSpace_sum]
    apply le_of_eq
    apply List.sum_eq_zero
    intro w hw
    obtain ⟨x, hx, rfl⟩ := List.mem_map.1 hw
    obtain ⟨h1, h2⟩ := shiftedSpace_mem o fit hx
    have hne : (l.map fun c => signedFit o fit c.2) ≠ [] := by
      intro h0; simp at h0; rw [h0] at h1; simp at h1
    obtain ⟨c, hc, hce⟩ := List.mem_map.1 (minWeight_mem hne)
    rw [h2, ← hce, (hsg _ _).2 (h _ h1 c hc), sub_self]

/-- SUS with different fitness values: the pass keeps at most `K`. -/
theorem susPass_keeps {K : Nat} (hK0 : 0 < K) {l : List (Cell γ)} (u0 : α) (h0 : 0 ≤ u0) (h1 : u0 < 1)
    (hpos : 0 < (shiftedSpace o fit l).1) :
    let sp := shiftedSpace o fit l
    let interval := sp.1 / (K : α)
    l.length - K ≤ (susPass interval ((interval - 0) * u0 + 0) sp.2).length := by
  intro sp interval
  have hKa : (0 : α) < (K : α) := by exact_mod_cast hK0
  have hi : 0 < interval := div_pos hpos hKa
  have hw := susPass_weight interval ((interval - 0) * u0 + 0) sp.2 (by
    have := mul_nonneg hi.le h0; simpa using this) (shiftedSpace_nonneg o fit l)
  have hsum : (sp.2.map (·.2)).sum = interval * K := by
    rw [← shiftedSpace_sum]; show sp.1 = sp.1 / K * K
    rw [div_mul_cancel₀ _ hKa.ne']
  have hl : sp.2.length = l.length := by
    rw [← List.length_map (f := (·.1)), shiftedSpace_map]
  rw [hsum, hl] at hw
  have h2 : ((l.length : α) - ((susPass interval ((interval - 0) * u0 + 0) sp.2).length : α)) * interval
      < (K + 1) * interval := by
    have : (interval - 0) * u0 + 0 < interval := by
      rw [sub_zero, add_zero]; exact mul_lt_of_lt_one_right hi h1
    linarith
  have h3 := lt_of_mul_lt_mul_right h2 hi.le
  have h4 : (l.length : α) < (K : α) + 1 + (susPass interval ((interval - 0) * u0 + 0) sp.2).length := by
    linarith
  have h5 : l.length < K + 1 + (susPass interval ((interval - 0) * u0 + 0) sp.2).length := by
    exact_mod_cast h4
  omega

theorem susEqualPass_nil {β : Type} {K n : Nat} (hKn : K ≤ n) {u : Nat → α}
    (hu1 : ∀ i, u i < 1) (es : List (β × α)) :
    susEqualPass (K : α) (n : α) u es = [] := by
  unfold susEqualPass
  rw [List.map_eq_nil_iff, List.filter_eq_nil_iff]
  intro p _
  have : u p.2 * (K : α) ≤ (n : α) := by
    have hk : (0 : α) ≤ (K : α) := Nat.cast_nonneg K
    have hn : (K : α) ≤ (n : α) := by exact_mod_cast hKn
    have := mul_le_mul_of_nonneg_right (hu1 p.2).le hk
    linarith
  simp [this]

theorem sus_spec {u0 : α} {u : Nat → α} {K : Nat} {s s' : SOState γ} (hd : DistinctNodes s.pop)
    (h : selectSUS o fit u0 u K s = .ok s') :
    SelectSpec o fit s s' ∧
    (0 < K → 0 ≤ u0 → u0 < 1 → (¬ ∀ a ∈ s.pop, ∀ b ∈ s.pop, fit a.2 = fit b.2) →
      s'.pop.length = min K s.pop.length) ∧
    ((∀ i, u i < 1) → (∀ a ∈ s.pop, ∀ b ∈ s.pop, fit a.2 = fit b.2) → s'.pop = s.pop) := by
  unfold selectSUS at h
  rw [Out.bind_eq_ok] at h
  obtain ⟨old, hold, h⟩ := h
  have hp := shiftedSpace_map o fit s.pop
  split at h
  · obtain ⟨h1, h2⟩ := keepAll_spec hd hold h
    exact ⟨h1, fun _ _ _ _ => by rw [h2]; omega, fun _ _ => h2⟩
  · next hK =>
    simp only at h
    by_cases hz : (shiftedSpace o fit s.pop).1 ≤ 0
    · simp only [hz, if_true] at h
      obtain ⟨h1, -⟩ := finish_size o fit hd hold (sub_of_perm (by rw [hp])
        (susEqualPass_sublist _ _ _ _)) h
      refine ⟨h1, fun _ _ _ hne => absurd ((shiftedSpace_zero_iff o fit s.pop).1 hz) hne, ?_⟩
      intro hu1 _
      rw [susEqualPass_nil (by omega) hu1] at h
      obtain ⟨-, h2⟩ := finish_spec hd hold h
      rw [h2]; simp [applyErasement]
    · simp only [hz, if_false] at h
      obtain ⟨h1, h2⟩ := finish_size o fit hd hold (sub_of_perm (by rw [hp])
        ((List.take_sublist _ _).trans (susPass_sublist _ _ _))) h
      refine ⟨h1, ?_, fun _ hall => absurd ((shiftedSpace_zero_iff o fit s.pop).2 hall) hz⟩
      intro hK0 h0 hlt _
      have := susPass_keeps o fit hK0 u0 h0 hlt (not_le.1 hz)
      rw [List.length_take] at h2
      simp only at this
      omega

theorem sus_total {u0 : α} {u : Nat → α} {K : Nat} {s : SOState γ} (hd : DistinctNodes s.pop)
    (hb : s.best ∈ s.pop.map (·.1)) (hK0 : 0 < K) (hu1 : ∀ i, u i < 1) :
    ∃ s', selectSUS o fit u0 u K s = .ok s' := by
  obtain ⟨c, hc, hcb⟩ := List.mem_map.1 hb
  have hold := deref_of_mem hd hc
  rw [hcb] at hold
  have hp := shiftedSpace_map o fit s.pop
  have hlen : 0 < s.pop.length := List.length_pos_of_mem hc
  unfold selectSUS
  simp only [hold, Out.ok_bind]
  split
  · exact keepAll_ok o fit _ (by intro h0; rw [h0] at hc; simp at hc)
  · by_cases hz : (shiftedSpace o fit s.pop).1 ≤ 0
    · simp only [hz, if_true]
      rw [susEqualPass_nil (by omega) hu1]
      exact finish_total o fit (fit c.2) hd (by simp) (by simpa using hlen)
    · simp only [hz, if_false]
      apply finish_total o fit (fit c.2) hd
      · exact sub_of_perm (by rw [hp]) ((List.take_sublist _ _).trans (susPass_sublist _ _ _))
      · rw [List.length_take]; omega

/-! ### Elite -/

theorem elite_spec {sort : Sorter (Cell γ)} {eliteNum : Nat} {ds : Nat → RouletteDraw α} {fuel K : Nat}
    {s s' : SOState γ} (hd : DistinctNodes s.pop)
    (h : selectElite o fit sort eliteNum ds fuel K s = .ok s') :
    SelectSpec o fit s s' ∧ s.best ∈ s'.pop.map (·.1) ∧ (∀ c ∈ s'.pop, c ∈ s.pop) ∧
    s'.pop.length = min s.pop.length (max K eliteNum) ∧
    (0 < eliteNum → ∀ c, c.1 = s'.best → c ∈ s'.pop → Unbeaten o fit s.pop c) := by
  unfold selectElite at h
  split at h
  · rw [Out.bind_eq_ok] at h
    obtain ⟨b, hb, h⟩ := h
    have hu := findBest_ok hb
    obtain ⟨h1, h2, h3, h4⟩ := tail1_spec o fit (pop' := s.pop) hd hd (fun c hc => hc) hu h
    rw [h2]
    refine ⟨h1, h4, fun c hc => hc, by omega, ?_⟩
    intro _ c hcb hc
    have : c = b := List.inj_on_of_nodup_map hd hc hu.1 (hcb.trans h3)
    rw [this]; exact hu
  · next hK =>
    rw [Out.bind_eq_ok] at h
    obtain ⟨E, hE, h⟩ := h
    rw [Out.bind_eq_ok] at h
    obtain ⟨b, hb, h⟩ := h
    set S := sort.run (geneItCompare o fit) s.pop with hSdef
    have hSp : S.Perm s.pop := sort.perm _ _
    obtain ⟨e1, e2, e3⟩ := elimLoop_ok (fun it st st' hm hs => by
      split at hs
      · simp only [Out.ok.injEq] at hs; subst hs
        obtain ⟨r1, r2, -⟩ := randomPass_spec (ds it).hit 0 st.2
        exact ⟨r1, r2⟩
      · exact step_roulette_shrinks hm hs) hE
    have hp := shiftedSpace_map o fit (S.drop eliteNum)
    have hl : (shiftedSpace o fit (S.drop eliteNum)).2.length = s.pop.length - eliteNum := by
      rw [← List.length_map (f := (·.1)), hp, List.length_drop, hSp.length_eq]
    have hEs : (E.map (·.1)).Sublist (S.drop eliteNum) := by
      have := e1.map (·.1); rwa [hp] at this
    have hEp : (E.map (·.1)).Subperm s.pop :=
      ((hEs.trans (List.drop_sublist _ _)).subperm).trans hSp.subperm
    have hsize := applyErasement_length hd hEp
    have hu := findBest_ok hb
    have hsub : ∀ c ∈ applyErasement s.pop E, c ∈ s.pop := fun c hc => (List.mem_filter.1 hc).1
    obtain ⟨h1, h2, h3, h4⟩ := tail1_spec o fit (pop' := applyErasement s.pop E) hd
      (distinct_filter hd _) hsub hu h
    rw [h2]
    refine ⟨h1, h4, hsub, ?_, ?_⟩
    · have hElen : E.length = min (s.pop.length - eliteNum) (s.pop.length - K) := by
        by_cases hc : s.pop.length - K ≤ s.pop.length - eliteNum
        · rw [e2 (by rw [hl]; exact hc)]; omega
        · rw [e3 (by rw [hl]; omega), hl]; omega
      omega
    · intro he c hcb hc
      have hcb' : c = b := List.inj_on_of_nodup_map (distinct_filter hd _) hc hu.1 (hcb.trans h3)
      rw [hcb']
      refine ⟨hsub _ hu.1, ?_⟩
      -- the first of the sorted list survives
      have hSne : S ≠ [] := by
        intro h0
        have h5 := hSp.length_eq
        rw [h0] at h5; simp at h5; omega
      obtain ⟨f, S', hfS⟩ := List.exists_cons_of_ne_nil hSne
      have hsorted : S.Pairwise fun a b => ¬ Better o (fit b.2) (fit a.2) :=
        geneItCompare_sorted o fit sort s.pop
      have hSn : (S.map (·.1)).Nodup := (hSp.map _).nodup_iff.2 hd
      have hfpop : f ∈ s.pop := hSp.mem_iff.1 (by rw [hfS]; simp)
      have hfE : f.1 ∉ E.map (·.1.1) := by
        intro hf
        have hf2 : f.1 ∈ (S.drop eliteNum).map (·.1) := by
          have : E.map (·.1.1) = (E.map (·.1)).map (·.1) := by rw [List.map_map]; rfl
          rw [this] at hf
          exact (hEs.map _).subset hf
        obtain ⟨k, hk⟩ := Nat.exists_eq_succ_of_ne_zero (by omega : eliteNum ≠ 0)
        rw [hfS, hk, Nat.succ_eq_add_one, List.drop_succ_cons] at hf2
        rw [hfS, List.map_cons, List.nodup_cons] at hSn
        exact hSn.1 (((List.drop_sublist _ _).map _).subset hf2)
      have hfin : f ∈ applyErasement s.pop E := by
        refine List.mem_filter.2 ⟨hfpop, ?_⟩
        rw [Bool.not_eq_true', ← Bool.not_eq_true, List.contains_iff_mem]
        exact hfE
      intro c' hc'
      have h5 : ¬ Better o (fit c'.2) (fit f.2) := by
        have hm := hSp.mem_iff.2 hc'
        rw [hfS] at hm hsorted
        rcases List.mem_cons.1 hm with rfl | hm
        · exact better_irrefl _ _
        · exact (List.pairwise_cons.1 hsorted).1 c' hm
      exact not_better_trans h5 (hu.2 f hfin)

end sus

/-! ### Tournament -/

section tournament
variable [LinearOrder α] (o : FitnessOption) (fit : γ → α)

theorem swapAt_ok {β : Type} {l l' : List β} {a b : Nat} (h : swapAt l a b = .ok l') :
    l'.Perm l := by
  unfold swapAt at h
  split at h
  · next x y hx hy =>
    simp only [Out.ok.injEq] at h
    rw [List.getElem?_eq_some_iff] at hx hy
    obtain ⟨ha, rfl⟩ := hx
    obtain ⟨hb, rfl⟩ := hy
    rw [← h]
    exact List.set_set_perm ha hb
  · simp at h

theorem swapAt_total {β : Type} {l : List β} {a b : Nat} (ha : a < l.length) (hb : b < l.length) :
    ∃ l', swapAt l a b = .ok l' := by
  unfold swapAt
  rw [List.getElem?_eq_getElem ha, List.getElem?_eq_getElem hb]
  exact ⟨_, rfl⟩

theorem mix_ok {β : Type} {idxB : Nat → Nat} {k : Nat} {l l' : List β}
    (h : tournamentMix idxB k l = .ok l') : l'.Perm l := by
  induction k generalizing l' with
  | zero => simp only [tournamentMix, Out.ok.injEq] at h; rw [h]
  | succ k ih =>
    simp only [tournamentMix, Out.bind_eq_ok] at h
    obtain ⟨l1, h1, h2⟩ := h
    exact (swapAt_ok h2).trans (ih h1)

theorem mix_total {β : Type} {idxB : Nat → Nat} {k : Nat} {l : List β} (hk : k ≤ l.length)
    (hB : ∀ j, idxB j < l.length) : ∃ l', tournamentMix idxB k l = .ok l' := by
  induction k with
  | zero => exact ⟨l, rfl⟩
  | succ k ih =>
    obtain ⟨l1, h1⟩ := ih (by omega)
    have hl := (mix_ok h1).length_eq
    obtain ⟨l', h'⟩ := swapAt_total (l := l1) (a := k) (b := idxB k) (by omega) (by rw [hl]; exact hB k)
    exact ⟨l', by simp only [tournamentMix, h1, Out.ok_bind, h']⟩

theorem tbest_ok {TS : Nat} {l : List (Cell γ)} {w : Cell γ} (hTS : 1 ≤ TS)
    (h : tournamentBest o fit TS l = .ok w) :
    (l.take TS).length = TS ∧ Unbeaten o fit (l.take TS) w := by
  match l, h with
  | c :: cs, h =>
    simp only [tournamentBest] at h
    split at h
    · simp at h
    · next hlen =>
      simp only [Out.ok.injEq] at h
      obtain ⟨k, rfl⟩ := Nat.exists_eq_add_of_le hTS
      have hk : 1 + k - 1 = k := by omega
      rw [hk] at h hlen
      rw [Nat.add_comm 1 k, List.take_succ_cons]
      have := foldBest_spec o fit (cs.take k) c
      change (_ = c ∨ _) ∧ _ at this
      subst h
      refine ⟨by simp; omega, ?_, ?_⟩
      · rcases this.1 with h' | h'
        · exact List.mem_cons.2 (Or.inl h')
        · exact List.mem_cons_of_mem _ h'
      · intro c' hc'
        rcases List.mem_cons.1 hc' with rfl | hc'
        · exact this.2.1
        · exact this.2.2 c' hc'

theorem tbest_total {TS : Nat} {l : List (Cell γ)} (hTS : 1 ≤ TS) (hl : TS ≤ l.length) :
    ∃ w, tournamentBest o fit TS l = .ok w := by
  match l, hl with
  | [], hl => simp at hl; omega
  | c :: cs, hl =>
    simp only [List.length_cons] at hl
    have : ¬ cs.length < TS - 1 := by omega
    exact ⟨_, by simp only [tournamentBest, this, if_false]; rfl⟩

theorem mix_seats {β : Type} {idxB : Nat → Nat} {TS : Nat} (hB : ∀ j, TS ≤ idxB j) {k : Nat} (hk : k ≤ TS)
    {l l' : List β} (hnd : l.Nodup) (h : tournamentMix idxB k l = .ok l') :
    (∀ j, k ≤ j → j < TS → l'[j]? = l[j]?) ∧ ∀ i, i < k → l'[i]? ≠ l[i]? := by
  induction k generalizing l' with
  | zero => simp only [tournamentMix, Out.ok.injEq] at h; subst h; simp
  | succ k ih =>
    simp only [tournamentMix, Out.bind_eq_ok] at h
    obtain ⟨l1, h1, h2⟩ := h
    obtain ⟨a1, a2⟩ := ih (by omega) h1
    have hnd1 : l1.Nodup := (mix_ok h1).nodup_iff.2 hnd
    have hb := hB k
    unfold swapAt at h2
    split at h2
    · next x y hx hy =>
      simp only [Out.ok.injEq] at h2
      have hkl := (List.getElem?_eq_some_iff.1 hx).1
      have hbl := (List.getElem?_eq_some_iff.1 hy).1
      have hget : ∀ i, i < TS → l'[i]? = if i = k then some y else l1[i]? := by
        intro i hi
        rw [← h2, List.getElem?_set_ne (by omega)]
        split
        · next e => subst e; rw [List.getElem?_set_self hkl]
        · next e => rw [List.getElem?_set_ne (by omega)]
      refine ⟨fun j h3 h4 => ?_, fun i hi => ?_⟩
      · rw [hget j h4, if_neg (by omega)]; exact a1 j (by omega) h4
      · rw [hget i (by omega)]
        split
        · next e =>
          subst e
          rw [← a1 i (le_refl _) (by omega), hx]
          intro he
          have hxy : l1[idxB i]? = l1[i]? := by rw [hx, hy]; exact he
          have := (List.getElem?_inj hbl hnd1).1 hxy
          omega
        · exact a2 i (by omega)
    · simp at h2

theorem play_ok {TS : Nat} {idxB : Nat → Nat → Nat} (hTS : 1 ≤ TS) {K : Nat}
    {l : List (Cell γ)} {ws : List (Cell γ)} {l' : List (Cell γ)}
    (h : tournamentPlay o fit TS idxB K l = .ok (ws, l')) :
    l'.Perm l ∧ ∃ games : List (List (Cell γ)), games.length = K ∧
      List.Forall₂ (fun game w => game.length = TS ∧ game.Subperm l ∧ Unbeaten o fit game w) games ws ∧
      (l.Nodup → (∀ k j, TS ≤ idxB k j) →
        games.IsChain (fun g g' => ∀ i, i < TS → g'[i]? ≠ g[i]?) ∧
        ∀ g ∈ games.getLast?, ∀ i, i < TS → l'[i]? ≠ g[i]?) := by
  induction K generalizing ws l' with
  | zero =>
    simp only [tournamentPlay, Out.ok.injEq, Prod.mk.injEq] at h
    obtain ⟨rfl, rfl⟩ := h
    exact ⟨List.Perm.refl _, [], rfl, .nil, by simp⟩
  | succ K ih =>
    simp only [tournamentPlay, Out.bind_eq_ok] at h
    obtain ⟨⟨ws1, l1⟩, h1, b, hb, l2, h2, h3⟩ := h
    simp only [Out.ok.injEq, Prod.mk.injEq] at h3
    obtain ⟨rfl, rfl⟩ := h3
    obtain ⟨p1, games, hg, hf, hch⟩ := ih h1
    obtain ⟨t1, t2⟩ := tbest_ok o fit hTS hb
    refine ⟨(mix_ok h2).trans p1, games ++ [l1.take TS], by simp [hg], ?_, ?_⟩
    · exact List.rel_append hf (.cons ⟨t1, (List.take_sublist _ _).subperm.trans p1.subperm, t2⟩ .nil)
    · intro hnd hB
      obtain ⟨c1, c2⟩ := hch hnd hB
      constructor
      · rw [List.isChain_append]
        refine ⟨c1, by simp, ?_⟩
        intro g hg' g' hg2 i hi
        simp only [List.head?_cons, Option.mem_some_iff] at hg2
        subst hg2
        rw [List.getElem?_take_of_lt hi]
        exact c2 g hg' i hi
      · intro g hg' i hi
        simp only [List.getLast?_append, List.getLast?_singleton, Option.some_or, Option.mem_some_iff] at hg'
        subst hg'
        rw [List.getElem?_take_of_lt hi]
        exact (mix_seats (hB K) (le_refl TS) (p1.nodup_iff.2 hnd) h2).2 i hi

theorem play_total {TS : Nat} {idxB : Nat → Nat → Nat} (hTS : 1 ≤ TS) {K : Nat}
    {l : List (Cell γ)} (hl : TS ≤ l.length) (hB : ∀ k j, idxB k j < l.length) :
    ∃ r, tournamentPlay o fit TS idxB K l = .ok r := by
  induction K with
  | zero => exact ⟨_, rfl⟩
  | succ K ih =>
    obtain ⟨⟨ws1, l1⟩, h1⟩ := ih
    have hp := (play_ok o fit hTS h1).1.length_eq
    obtain ⟨b, hb⟩ := tbest_total o fit hTS (l := l1) (by omega)
    obtain ⟨l2, h2⟩ := mix_total (idxB := idxB K) (k := TS) (l := l1) (by omega)
      (fun j => by rw [hp]; exact hB K j)
    exact ⟨_, by simp only [tournamentPlay, h1, Out.ok_bind, hb, h2]; rfl⟩

/-- each winner is in the list -/
theorem winners_sub {TS : Nat} {l : List (Cell γ)} {games : List (List (Cell γ))} {ws : List (Cell γ)}
    (h : List.Forall₂ (fun game w => game.length = TS ∧ game.Subperm l ∧ Unbeaten o fit game w) games ws) :
    ws.length = games.length ∧ ∀ w ∈ ws, w ∈ l := by
  induction h with
  | nil => simp
  | cons hx _ ih =>
    refine ⟨by simp [ih.1], ?_⟩
    intro w hw
    rcases List.mem_cons.1 hw with rfl | hw
    · exact hx.2.1.subset hx.2.2.1
    · exact ih.2 w hw

/-- grouping a list of cells by the cells of a population -/
theorem group_perm {pop ws : List (Cell γ)} (hd : DistinctNodes pop) (hsub : ∀ w ∈ ws, w ∈ pop) :
    ws.Perm (pop.flatMap fun c => List.replicate ((ws.map (·.1)).count c.1) c) := by
  induction pop generalizing ws with
  | nil =>
    have : ws = [] := by
      by_contra h
      obtain ⟨w, l, rfl⟩ := List.exists_cons_of_ne_nil h
      exact absurd (hsub w (by simp)) (by simp)
    simp [this]
  | cons c pop ih =>
    have hd' : DistinctNodes pop := (List.nodup_cons.1 hd).2
    have hc : c.1 ∉ pop.map (·.1) := (List.nodup_cons.1 hd).1
    set ws1 := ws.filter fun w => w.1 == c.1 with hws1
    set ws2 := ws.filter fun w => !(w.1 == c.1) with hws2
    have hsplit : (ws1 ++ ws2).Perm ws := List.filter_append_perm _ ws
    have heq1 : ws1 = List.replicate ((ws.map (·.1)).count c.1) c := by
      rw [List.eq_replicate_iff]
      constructor
      · rw [List.count, List.countP_map, List.countP_eq_length_filter]; rfl
      · intro w hw
        rw [hws1, List.mem_filter] at hw
        rcases List.mem_cons.1 (hsub w hw.1) with rfl | hwp
        · rfl
        · exact absurd (List.mem_map_of_mem (f := fun c : Cell γ => c.1) hwp) (by
            have := hw.2; simp only [beq_iff_eq] at this; rw [this]; exact hc)
    have hih := ih hd' (ws := ws2) (by
      intro w hw
      rw [hws2, List.mem_filter] at hw
      rcases List.mem_cons.1 (hsub w hw.1) with rfl | hwp
      · simp at hw
      · exact hwp)
    have hcnt : ∀ d ∈ pop, (ws2.map (·.1)).count d.1 = (ws.map (·.1)).count d.1 := by
      intro d hdm
      have hne : d.1 ≠ c.1 := by
        intro he; exact hc (he ▸ List.mem_map_of_mem hdm)
      have h1 := (hsplit.map (·.1)).count_eq d.1
      rw [List.map_append, List.count_append] at h1
      have h0 : (ws1.map (·.1)).count d.1 = 0 := by
        rw [List.count_eq_zero]
        intro hm
        obtain ⟨w, hw, hwe⟩ := List.mem_map.1 hm
        rw [heq1] at hw
        rw [List.eq_of_mem_replicate hw] at hwe
        exact hne hwe.symm
      omega
    rw [List.flatMap_cons, ← heq1]
    refine hsplit.symm.trans (List.Perm.append_left _ (hih.trans ?_))
    rw [List.flatMap_congr (g := fun c => List.replicate ((ws.map (·.1)).count c.1) c)]
    intro d hdm
    rw [hcnt d hdm]

theorem flatMap_filter_pos (pop : List (Cell γ)) (k : Addr → Nat) :
    (pop.filter fun c => decide (k c.1 > 0)).flatMap (fun c => List.replicate (k c.1) c) =
      pop.flatMap fun c => List.replicate (k c.1) c := by
  induction pop with
  | nil => rfl
  | cons c pop ih =>
    rw [List.filter_cons]
    split
    · rw [List.flatMap_cons, List.flatMap_cons, ih]
    · next h =>
      have : k c.1 = 0 := by simpa using h
      rw [List.flatMap_cons, this, ih]; simp

theorem replicate_split (kept : List (Cell γ)) (k : Addr → Nat) (hk : ∀ c ∈ kept, 0 < k c.1) :
    (kept.flatMap fun c => List.replicate (k c.1) c).Perm
      (kept ++ kept.flatMap fun c => List.replicate (k c.1 - 1) c) := by
  induction kept with
  | nil => simp
  | cons c l ih =>
    have hc := hk c (by simp)
    obtain ⟨n, hn⟩ := Nat.exists_eq_succ_of_ne_zero (by omega : k c.1 ≠ 0)
    have ih' := ih (fun d hd => hk d (by simp [hd]))
    rw [List.flatMap_cons, List.flatMap_cons, hn, List.replicate_succ]
    simp only [Nat.succ_eq_add_one, Nat.add_sub_cancel, List.cons_append]
    refine List.Perm.cons c ?_
    refine (List.Perm.append_left _ ih').trans ?_
    rw [← List.append_assoc, ← List.append_assoc]
    exact List.Perm.append_right _ List.perm_append_comm

theorem foldl_emplaceBack (gs : List γ) (pop : Pop γ) :
    (gs.foldl emplaceBack pop).map (·.2) = pop.map (·.2) ++ gs ∧
    (∀ c ∈ pop, c ∈ gs.foldl emplaceBack pop) ∧
    (DistinctNodes pop → DistinctNodes (gs.foldl emplaceBack pop)) := by
  induction gs generalizing pop with
  | nil => simp
  | cons g gs ih =>
    simp only [List.foldl_cons]
    obtain ⟨h1, h2, h3⟩ := ih (emplaceBack pop g)
    refine ⟨by rw [h1, emplaceBack_genes]; simp, fun c hc => h2 c (by simp [emplaceBack, hc]),
      fun hd => h3 (distinct_emplaceBack hd g)⟩

/-- What tournament selection does when somebody has to go. -/
theorem tournament_spec {shuffle order : List (Cell γ) → List (Cell γ)}
    (hsh : ∀ l, (shuffle l).Perm l) (hor : ∀ l, (order l).Perm l) {TS : Nat} (hTS : 1 ≤ TS)
    {idxB : Nat → Nat → Nat} {K : Nat} {s s' : SOState γ} (hd : DistinctNodes s.pop)
    (h : selectTournament o fit shuffle TS idxB order K s = .ok s') :
    SelectSpec o fit s s' ∧ s'.pop.length = min K s.pop.length ∧
    (K < s.pop.length → ∃ (games : List (List (Cell γ))) (winners : List (Cell γ)),
      games.length = K ∧
      List.Forall₂ (fun game w => game.length = TS ∧ game.Subperm s.pop ∧ Unbeaten o fit game w)
        games winners ∧
      (s'.pop.map (·.2)).Perm (winners.map (·.2)) ∧
      ((∀ k j, TS ≤ idxB k j) → games.IsChain (fun g g' => ∀ i, i < TS → g'[i]? ≠ g[i]?))) := by
  unfold selectTournament at h
  split at h
  · simp at h
  rw [Out.bind_eq_ok] at h
  obtain ⟨old, hold, h⟩ := h
  split at h
  · obtain ⟨h1, h2⟩ := keepAll_spec hd hold h
    exact ⟨h1, by rw [h2]; omega, fun hlt => by omega⟩
  · next hK =>
    rw [Out.bind_eq_ok] at h
    obtain ⟨⟨ws, l'⟩, hplay, h⟩ := h
    simp only [Out.bind_eq_ok] at h
    obtain ⟨b, hb, h⟩ := h
    simp only [Out.ok.injEq] at h
    obtain ⟨-, games, hg, hf, hch⟩ := play_ok o fit hTS hplay
    obtain ⟨hwl, hws⟩ := winners_sub o fit hf
    have hws' : ∀ w ∈ ws, w ∈ s.pop := fun w hw => (hsh _).mem_iff.1 (hws w hw)
    set k : Addr → Nat := fun a => (ws.map (·.1)).count a with hkdef
    set kept := s.pop.filter fun c => decide (k c.1 > 0) with hkept
    have hdk : DistinctNodes kept := distinct_filter hd _
    have hpos : ∀ c ∈ kept, 0 < k c.1 := by
      intro c hc
      have := (List.mem_filter.1 hc).2
      simpa using this
    have hperm : ws.Perm (kept ++ kept.flatMap fun c => List.replicate (k c.1 - 1) c) := by
      refine (group_perm hd hws').trans ?_
      rw [← flatMap_filter_pos s.pop k]
      exact replicate_split kept k hpos
    obtain ⟨e1, e2, e3⟩ := foldl_emplaceBack
      ((order kept).flatMap fun c => List.replicate (k c.1 - 1) c.2) kept
    have hgenes : ((((order kept).flatMap fun c => List.replicate (k c.1 - 1) c.2).foldl emplaceBack
        kept).map (·.2)).Perm (ws.map (·.2)) := by
      rw [e1]
      refine List.Perm.trans ?_ (hperm.map (·.2)).symm
      rw [List.map_append]
      refine List.Perm.append_left _ ?_
      have hm : (kept.flatMap fun c => List.replicate (k c.1 - 1) c).map (·.2)
          = kept.flatMap fun c => List.replicate (k c.1 - 1) c.2 := by
        rw [List.map_flatMap]; simp
      rw [hm]
      exact (hor kept).flatMap_right _
    have hub := findBest_ok hb
    have hub' : Unbeaten o fit (((order kept).flatMap fun c =>
        List.replicate (k c.1 - 1) c.2).foldl emplaceBack kept) b := by
      refine ⟨e2 b hub.1, ?_⟩
      intro c hc
      have : c.2 ∈ ws.map (·.2) := hgenes.mem_iff.1 (List.mem_map_of_mem hc)
      obtain ⟨w, hw, hwe⟩ := List.mem_map.1 this
      rw [← hwe]
      apply hub.2 w
      refine List.mem_filter.2 ⟨hws' w hw, ?_⟩
      simp only [gt_iff_lt, decide_eq_true_eq]
      exact List.count_pos_iff.2 (List.mem_map_of_mem hw)
    have hsub : ∀ c' ∈ ((order kept).flatMap fun c =>
        List.replicate (k c.1 - 1) c.2).foldl emplaceBack kept, ∃ c ∈ s.pop, c.2 = c'.2 := by
      intro c' hc'
      have : c'.2 ∈ ws.map (·.2) := hgenes.mem_iff.1 (List.mem_map_of_mem hc')
      obtain ⟨w, hw, hwe⟩ := List.mem_map.1 this
      exact ⟨w, hws' w hw, hwe⟩
    have hspec := selectSpec_of (e3 hdk) hsub hub' hold
    rw [h] at hspec
    have hpop : s'.pop = ((order kept).flatMap fun c =>
        List.replicate (k c.1 - 1) c.2).foldl emplaceBack kept := by rw [← h]; rfl
    refine ⟨hspec, ?_, ?_⟩
    · rw [hpop, ← List.length_map (f := (·.2)), hgenes.length_eq, List.length_map]
      omega
    · intro _
      refine ⟨games, ws, hg, ?_, by rw [hpop]; exact hgenes,
        fun hB => (hch ((hsh _).nodup_iff.2 (List.Nodup.of_map _ hd)) hB).1⟩
      exact hf.imp fun game w hx => ⟨hx.1, hx.2.1.trans (hsh _).subperm, hx.2.2⟩

theorem tournament_total {shuffle order : List (Cell γ) → List (Cell γ)}
    (hsh : ∀ l, (shuffle l).Perm l) {TS : Nat} (hTS : 1 ≤ TS)
    {idxB : Nat → Nat → Nat} {K : Nat} {s : SOState γ} (hd : DistinctNodes s.pop)
    (hbest : s.best ∈ s.pop.map (·.1)) (hTK : TS < K)
    (hB : K < s.pop.length → ∀ k j, idxB k j < s.pop.length) :
    ∃ s', selectTournament o fit shuffle TS idxB order K s = .ok s' := by
  obtain ⟨c, hc, hcb⟩ := List.mem_map.1 hbest
  have hold := deref_of_mem hd hc
  rw [hcb] at hold
  unfold selectTournament
  simp only [hTK, not_true_eq_false, if_false, hold, Out.ok_bind]
  split
  · exact keepAll_ok o fit _ (by intro h0; rw [h0] at hc; simp at hc)
  · next hK =>
    have hl := (hsh s.pop).length_eq
    obtain ⟨⟨ws, l'⟩, hplay⟩ := play_total o fit (idxB := idxB) hTS (K := K) (l := shuffle s.pop)
      (by omega) (fun k j => by rw [hl]; exact hB (by omega) k j)
    rw [hplay]
    simp only [Out.ok_bind]
    obtain ⟨-, games, hg, hf, hch⟩ := play_ok o fit hTS hplay
    obtain ⟨hwl, hws⟩ := winners_sub o fit hf
    have hne : ws ≠ [] := by
      intro h0; rw [h0] at hwl; simp at hwl; omega
    obtain ⟨w, ws', hw⟩ := List.exists_cons_of_ne_nil hne
    obtain ⟨b, hb⟩ := findBest_exists o fit (pop := s.pop.filter fun c =>
        decide ((ws.map (·.1)).count c.1 > 0)) (by
      intro h0
      have : w ∈ s.pop.filter fun c => decide ((ws.map (·.1)).count c.1 > 0) := by
        refine List.mem_filter.2 ⟨(hsh _).mem_iff.1 (hws w (by rw [hw]; simp)), ?_⟩
        simp only [gt_iff_lt, decide_eq_true_eq]
        exact List.count_pos_iff.2 (List.mem_map_of_mem (by rw [hw]; simp))
      rw [h0] at this; simp at this)
    rw [hb]
    exact ⟨_, rfl⟩

end tournament

end Heu
