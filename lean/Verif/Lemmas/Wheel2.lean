import Verif.Lemmas.Wheel
import Mathlib.Algebra.Order.BigOperators.Group.List
import Mathlib.Tactic.LinearCombination
import Mathlib.Algebra.BigOperators.Ring.List
import Mathlib.Tactic.FieldSimp

set_option linter.unusedSectionVars false
set_option linter.unusedVariables false

namespace Heu
open Spec

variable {α β γ : Type} [Field α] [LinearOrder α] [IsStrictOrderedRing α]

theorem all_zero_of_sum {es : List (β × α)} (hw : ∀ x ∈ es, 0 ≤ x.2)
    (h : (es.map (·.2)).sum ≤ 0) : ∀ x ∈ es, x.2 = 0 := by
  induction es with
  | nil => simp
  | cons x xs ih =>
    have h1 := hw x (by simp)
    have h2 := sum_map_nonneg' (es := xs) fun y hy => hw y (by simp [hy])
    simp only [List.map_cons, List.sum_cons] at h
    intro y hy
    rcases List.mem_cons.1 hy with rfl | hy
    · linarith
    · exact ih (fun y hy => hw y (by simp [hy])) (by linarith) y hy

/-- the loop of RouletteWheel: spins while weight is left, then random passes over weightless ones -/
theorem elimLoop_mixed {m : Nat} {ds : Nat → RouletteDraw α} (hu : ∀ i, (ds i).u < 1) :
    ∀ {fuel it : Nat} {es left : List (β × α)}, (∀ x ∈ es, 0 ≤ x.2) →
    elimLoop m (fun it st => if st.1 > 0 then rouletteStep (ds it).u st
      else .ok (st.1, randomPass (ds it).hit 0 st.2)) fuel it ((es.map (·.2)).sum, es) = .ok left →
    m ≤ es.length →
    ∃ kept mid extra, WheelRun (fun i => (ds i).u) it es kept mid ∧ (extra ++ left).Perm mid ∧
      (extra ≠ [] → ∀ x ∈ mid, x.2 = 0) ∧ kept.length + extra.length + m = es.length := by
  intro fuel
  induction fuel with
  | zero =>
    intro it es left hw h hm
    simp only [elimLoop] at h
    split at h
    · cases h
    · simp only [Out.ok.injEq] at h
      subst h
      exact ⟨[], es, [], .stop _ _, by simp, by simp, by simp; omega⟩
  | succ fuel ih =>
    intro it es left hw h hm
    by_cases hpos : (es.map (·.2)).sum > 0
    · simp only [elimLoop] at h
      split at h
      · rename_i hlt
        rw [Out.bind_eq_ok] at h
        obtain ⟨st', hst, h⟩ := h
        obtain ⟨i, hi, hs, he, hsum⟩ := rouletteStep_sector (hu it) hw (by rintro rfl; simp at hlt) hst
        have hst' : st' = ((st'.2.map (·.2)).sum, st'.2) := by rw [← hsum]
        rw [hst'] at h
        have hl : st'.2.length + 1 = es.length := by rw [he, List.length_eraseIdx_of_lt hi]; omega
        obtain ⟨kept, mid, extra, hk, hp, hz, hkl⟩ :=
          ih (fun x hx => hw x (mem_of_mem_eraseIdx' (he ▸ hx))) h (by omega)
        rw [he] at hk
        exact ⟨es[i] :: kept, mid, extra, .spin it es i hi kept mid hs hk, hp, hz, by simp; omega⟩
      · simp only [Out.ok.injEq] at h
        subst h
        exact ⟨[], es, [], .stop _ _, by simp, by simp, by simp; omega⟩
    · have hz := all_zero_of_sum hw (not_lt.1 hpos)
      obtain ⟨h1, h2, -⟩ := elimLoop_ok (fun it st st' hm hs => step_mixed_shrinks hm hs) h
      have h2 := h2 hm
      obtain ⟨extra, hex⟩ := h1.exists_perm_append
      refine ⟨[], es, extra, .stop _ _, (List.perm_append_comm.trans hex.symm), fun _ => hz, ?_⟩
      have := hex.length_eq
      simp at this ⊢
      omega

theorem signedFit_better (o : FitnessOption) (fit : γ → α) (a b : γ) :
    ¬ Better o (fit b) (fit a) → signedFit o fit a - signedFit o fit b = |fit a - fit b| := by
  cases o with
  | lessBetter =>
    simp only [Better, signedFit, not_lt]
    intro h
    rw [abs_of_nonpos (by linarith)]; ring
  | greaterBetter =>
    simp only [Better, signedFit, not_lt]
    intro h
    rw [abs_of_nonneg (by linarith)]

/-- the shifted weights are the distances from a worst member -/
theorem shiftedSpace_eq (o : FitnessOption) (fit : γ → α) {l : List (Cell γ)} (hne : l ≠ []) :
    ∃ worst ∈ l, (∀ c ∈ l, ¬ Better o (fit worst.2) (fit c.2)) ∧
      (shiftedSpace o fit l).2 = l.map fun c => (c, |fit c.2 - fit worst.2|) := by
  have hm : minWeight (l.map fun c => signedFit o fit c.2) ∈ l.map fun c => signedFit o fit c.2 :=
    minWeight_mem (by simpa using hne)
  obtain ⟨w, hw, hwe⟩ := List.mem_map.1 hm
  have hle : ∀ c ∈ l, signedFit o fit w.2 ≤ signedFit o fit c.2 := by
    intro c hc
    rw [hwe]
    exact minWeight_le _ _ (List.mem_map_of_mem hc)
  have hb : ∀ c ∈ l, ¬ Better o (fit w.2) (fit c.2) := by
    intro c hc
    have := hle c hc
    cases o <;> simp only [Better, signedFit, not_lt] at this ⊢ <;> linarith
  refine ⟨w, hw, hb, ?_⟩
  simp only [shiftedSpace, List.map_map]
  apply List.map_congr_left
  intro c hc
  simp only [Function.comp_apply]
  have h2 : (Prod.snd ∘ fun c : Cell γ => (c, signedFit o fit c.2)) = fun c => signedFit o fit c.2 := rfl
  rw [h2, ← hwe, signedFit_better o fit _ _ (hb c hc)]

theorem susPass_heavy {interval : α} : ∀ {l : List (β × α)} {cnt : α} {x : β × α}, 0 ≤ cnt →
    (∀ y ∈ l, 0 ≤ y.2) → x ∈ susPass interval cnt l → x.2 < interval := by
  intro l
  induction l with
  | nil => intro cnt x _ _ h; simp [susPass] at h
  | cons y ys ih =>
    intro cnt x h0 hw h
    simp only [susPass] at h
    have hy := hw y (by simp)
    split at h
    · rename_i hle
      exact ih (by linarith) (fun z hz => hw z (by simp [hz])) h
    · rename_i hlt
      rcases List.mem_cons.1 h with rfl | h
      · linarith [not_le.1 hlt]
      · exact ih (by linarith) (fun z hz => hw z (by simp [hz])) h

/-- pointer not beyond the sectors of a prefix -/
theorem sector_in_prefix {pre suf : List (β × α)} {r : α} {i : Nat} (hne : pre ≠ [])
    (hr : r ≤ (pre.map (·.2)).sum) (h : InSector ((pre ++ suf).map (·.2)) r i) : i < pre.length := by
  by_contra hge
  obtain ⟨_, _, h3⟩ := h
  have hpl : 0 < pre.length := List.length_pos_iff.2 hne
  have := h3 (pre.length - 1) (by omega)
  rw [Nat.sub_add_cancel hpl, List.map_append, List.take_append_of_le_length (by simp),
    List.take_of_length_le (by simp)] at this
  linarith

/-- The loop of LinearRank (total 1) when the first sectors alone amount to at least 1. -/
theorem elimLoop_linear {ds : Nat → RouletteDraw α} (hu : ∀ i, 0 ≤ (ds i).u ∧ (ds i).u < 1) :
    ∀ {fuel it : Nat} {T : α} {pre suf left : List (β × α)}, (∀ x ∈ pre ++ suf, 0 ≤ x.2) →
    T ≤ (pre.map (·.2)).sum →
    elimLoop suf.length (fun it st => rouletteStep (ds it).u st) fuel it (T, pre ++ suf) = .ok left →
    left = suf := by
  intro fuel
  induction fuel with
  | zero =>
    intro it T pre suf left hw hT h
    simp only [elimLoop] at h
    split at h
    · cases h
    · rename_i hlt
      simp only [Out.ok.injEq] at h
      subst h
      have : pre.length = 0 := by simpa using hlt
      rw [List.length_eq_zero_iff.1 this]; rfl
  | succ fuel ih =>
    intro it T pre suf left hw hT h
    simp only [elimLoop] at h
    split at h
    · rename_i hlt
      rw [Out.bind_eq_ok] at h
      obtain ⟨st', hst, h⟩ := h
      have hpne : pre ≠ [] := by rintro rfl; simp at hlt
      have hr : (T - 0) * (ds it).u + 0 ≤ (pre.map (·.2)).sum := by
        obtain ⟨u0, u1⟩ := hu it
        have hS : 0 ≤ (pre.map (·.2)).sum := sum_map_nonneg' fun x hx => hw x (by simp [hx])
        rcases le_total T 0 with hT0 | hT0
        · nlinarith
        · nlinarith
      simp only [rouletteStep] at hst
      split at hst
      · rename_i p hp
        obtain ⟨i, hi, hs, hw', hl⟩ := rouletteErase_sector (w := p.1) (es' := p.2) hp
        have hi' := sector_in_prefix hpne hr hs
        simp only [Out.ok.injEq] at hst
        subst hst
        have e1 : p.2 = pre.eraseIdx i ++ suf := by rw [hl, List.eraseIdx_append_of_lt_length hi']
        rw [e1] at h
        have e2 : (pre ++ suf)[i] = pre[i] := List.getElem_append_left hi'
        refine ih ?_ ?_ h
        · intro x hx
          rw [List.mem_append] at hx
          rcases hx with hx | hx
          · exact hw x (List.mem_append_left _ (mem_of_mem_eraseIdx' hx))
          · exact hw x (List.mem_append_right _ hx)
        · rw [sum_eraseIdx _ _ hi', hw', e2]; linarith
      · rename_i hnone
        have := rouletteErase_none hnone (by simp [hpne])
        rw [foldl_sub_eq, List.map_append, List.sum_append] at this
        have hS : 0 ≤ (suf.map (·.2)).sum := sum_map_nonneg' fun x hx => hw x (by simp [hx])
        linarith
    · rename_i hlt
      simp only [Out.ok.injEq] at h
      subst h
      have : pre.length = 0 := by simpa using hlt
      rw [List.length_eq_zero_iff.1 this]; rfl

/-- the exponential weights sum to one -/
theorem exp_weights_sum {b : α} (h0 : 0 < b) (h1 : b < 1) {l : List γ} (hne : l ≠ []) :
    ((l.zipIdx.map fun p => (p.1, (b - 1) / (b ^ l.length - 1) * b ^ p.2)).map (·.2)).sum = 1 := by
  have hlen : l.length ≠ 0 := by simpa using hne
  have hb : b ^ l.length < 1 := pow_lt_one₀ h0.le h1 hlen
  have e : (l.zipIdx.map fun p => (p.1, (b - 1) / (b ^ l.length - 1) * b ^ p.2)).map (·.2) =
      (List.range l.length).map fun i => (b - 1) / (b ^ l.length - 1) * b ^ i := by
    apply List.ext_getElem
    · simp
    · intro i h1 h2; simp
  rw [e, List.sum_map_mul_left]
  have hg : ∀ n : Nat, ((List.range n).map fun i => b ^ i).sum * (b - 1) = b ^ n - 1 := by
    intro n
    induction n with
    | zero => simp
    | succ n ih =>
      rw [List.range_succ, List.map_append, List.sum_append, add_mul, ih]
      simp only [List.map_cons, List.map_nil, List.sum_cons, List.sum_nil]
      ring
  have hgl := hg l.length
  have n1 : b - 1 ≠ 0 := by intro h; linarith
  have n2 : b ^ l.length - 1 ≠ 0 := by intro h; linarith
  rw [div_mul_eq_mul_div, div_eq_one_iff_eq n2, ← hgl]; ring

end Heu
