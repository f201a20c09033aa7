import Verif.Spec.Wheel
import Verif.Lemmas.SOSelect2

set_option linter.unusedSectionVars false
set_option linter.unusedVariables false

namespace Heu
open Spec

variable {α β γ : Type} [Field α] [LinearOrder α] [IsStrictOrderedRing α]

theorem rouletteErase_sector {es : List (β × α)} : ∀ {r : α} {w : α} {es' : List (β × α)},
    rouletteErase r es = some (w, es') →
    ∃ i, ∃ hi : i < es.length, InSector (es.map (·.2)) r i ∧ w = es[i].2 ∧ es' = es.eraseIdx i := by
  induction es with
  | nil => intro r w es' h; simp [rouletteErase] at h
  | cons x xs ih =>
    intro r w es' h
    simp only [rouletteErase] at h
    split at h
    · rename_i hle
      simp only [Option.some.injEq, Prod.mk.injEq] at h
      refine ⟨0, by simp, ⟨by simp, ?_, by intro j hj; omega⟩, by simp [h.1], by simp [h.2]⟩
      simp; linarith
    · rename_i hgt
      rw [Option.map_eq_some_iff] at h
      obtain ⟨⟨w', l'⟩, h1, h2⟩ := h
      simp only [Prod.mk.injEq] at h2
      obtain ⟨i, hi, ⟨hs1, hs2, hs3⟩, hw, hl⟩ := ih h1
      refine ⟨i + 1, by simp; omega, ⟨by simpa using hs1, ?_, ?_⟩, by simp [← h2.1, hw],
        by simp [← h2.2, hl]⟩
      · simp only [List.map_cons, List.take_succ_cons, List.sum_cons]
        linarith
      · intro j hj
        cases j with
        | zero => simp; linarith
        | succ j =>
          have := hs3 j (by omega)
          simp only [List.map_cons, List.take_succ_cons, List.sum_cons]
          linarith

theorem foldl_sub_eq (es : List (β × α)) : ∀ r : α,
    es.foldl (fun r x => r - x.2) r = r - (es.map (·.2)).sum := by
  induction es with
  | nil => intro r; simp
  | cons x xs ih => intro r; simp only [List.foldl_cons, ih, List.map_cons, List.sum_cons]; ring

theorem sum_map_nonneg' {es : List (β × α)} (h : ∀ x ∈ es, 0 ≤ x.2) : 0 ≤ (es.map (·.2)).sum := by
  apply List.sum_nonneg
  intro x hx
  obtain ⟨y, hy, rfl⟩ := List.mem_map.1 hx
  exact h y hy

theorem sum_eraseIdx (es : List (β × α)) (i : Nat) (hi : i < es.length) :
    ((es.eraseIdx i).map (·.2)).sum = (es.map (·.2)).sum - es[i].2 := by
  have h := (List.getElem_cons_eraseIdx_perm hi).map (·.2)
  have := h.sum_eq
  simp only [List.map_cons, List.sum_cons] at this
  linarith

/-- one round with the right total -/
theorem rouletteStep_sector {u : α} (h1 : u < 1) {es : List (β × α)}
    (hw : ∀ x ∈ es, 0 ≤ x.2) (hne : es ≠ []) {st' : α × List (β × α)}
    (h : rouletteStep u ((es.map (·.2)).sum, es) = .ok st') :
    ∃ i, ∃ hi : i < es.length, InSector (es.map (·.2)) (u * (es.map (·.2)).sum) i ∧
      st'.2 = es.eraseIdx i ∧ st'.1 = (st'.2.map (·.2)).sum := by
  have hS := sum_map_nonneg' hw
  obtain ⟨S, hSe⟩ : ∃ S, S = (es.map (·.2)).sum := ⟨_, rfl⟩
  rw [← hSe] at h hS
  simp only [rouletteStep] at h
  have hr : (S - 0) * u + 0 = u * S := by ring
  rw [hr] at h
  split at h
  · rename_i p hp
    obtain ⟨i, hi, hs, hw', hl⟩ := rouletteErase_sector (w := p.1) (es' := p.2) hp
    simp only [Out.ok.injEq] at h
    subst h
    refine ⟨i, hi, by rw [← hSe]; exact hs, hl, ?_⟩
    simp only
    rw [hl, sum_eraseIdx _ _ hi, ← hSe, hw']
  · rename_i hnone
    have := rouletteErase_none hnone hne
    rw [foldl_sub_eq, ← hSe] at this
    nlinarith

theorem mem_of_mem_eraseIdx' {es : List (β × α)} {i : Nat} {x : β × α} (h : x ∈ es.eraseIdx i) :
    x ∈ es := List.eraseIdx_subset h

/-- the whole elimination loop -/
theorem elimLoop_wheel {m : Nat} {ds : Nat → RouletteDraw α} (hu : ∀ i, (ds i).u < 1) :
    ∀ {fuel it : Nat} {es left : List (β × α)}, (∀ x ∈ es, 0 ≤ x.2) →
    elimLoop m (fun it st => rouletteStep (ds it).u st) fuel it ((es.map (·.2)).sum, es) = .ok left →
    m ≤ es.length →
    ∃ kept, WheelRun (fun i => (ds i).u) it es kept left ∧ kept.length + m = es.length := by
  intro fuel
  induction fuel with
  | zero =>
    intro it es left hw h hm
    simp only [elimLoop] at h
    split at h
    · cases h
    · simp only [Out.ok.injEq] at h
      subst h
      exact ⟨[], .stop _ _, by simp; omega⟩
  | succ fuel ih =>
    intro it es left hw h hm
    simp only [elimLoop] at h
    split at h
    · rename_i hlt
      rw [Out.bind_eq_ok] at h
      obtain ⟨st', hst, h⟩ := h
      obtain ⟨i, hi, hs, he, hsum⟩ := rouletteStep_sector (hu it) hw (by rintro rfl; simp at hlt) hst
      have hst' : st' = ((st'.2.map (·.2)).sum, st'.2) := by rw [← hsum]
      rw [hst'] at h
      have hl : st'.2.length + 1 = es.length := by rw [he, List.length_eraseIdx_of_lt hi]; omega
      obtain ⟨kept, hk, hkl⟩ := ih (fun x hx => hw x (mem_of_mem_eraseIdx' (he ▸ hx))) h (by omega)
      rw [he] at hk
      exact ⟨es[i] :: kept, .spin it es i hi kept left hs hk, by simp; omega⟩
    · simp only [Out.ok.injEq] at h
      subst h
      exact ⟨[], .stop _ _, by simp; omega⟩

theorem wheelRun_perm {u : Nat → α} {it : Nat} {es kept left : List (β × α)}
    (h : WheelRun u it es kept left) : (kept ++ left).Perm es := by
  induction h with
  | stop => simp
  | spin it es i hi kept left hit rest ih =>
    rw [List.cons_append]
    exact (ih.cons _).trans (List.getElem_cons_eraseIdx_perm hi)

/-- who survives when `left` is erased -/
theorem applyErasement_kept {pop : Pop γ} (hd : DistinctNodes pop) {es kept left : List (Cell γ × α)}
    (hp : (es.map (·.1)).Perm pop) (hk : (kept ++ left).Perm es) :
    (applyErasement pop left).Perm (kept.map (·.1)) := by
  have hall : (kept.map (·.1) ++ left.map (·.1)).Perm pop := by
    rw [← List.map_append]; exact (hk.map _).trans hp
  have hnd : ((kept.map (·.1) ++ left.map (·.1)).map (·.1)).Nodup := by
    exact ((hall.map _).nodup_iff).2 hd
  unfold applyErasement
  refine ((hall.symm.filter _)).trans ?_
  rw [List.filter_append]
  rw [List.map_append, List.nodup_append'] at hnd
  have ha : (kept.map (·.1)).filter (fun c => !(left.map (·.1.1)).contains c.1) = kept.map (·.1) := by
    rw [List.filter_eq_self]
    intro c hc
    have : c.1 ∉ (left.map (·.1)).map (·.1) := fun h =>
      hnd.2.2 (List.mem_map_of_mem hc) h
    simpa [List.map_map] using this
  have hb : (left.map (·.1)).filter (fun c => !(left.map (·.1.1)).contains c.1) = [] := by
    rw [List.filter_eq_nil_iff]
    intro c hc
    obtain ⟨x, hx, rfl⟩ := List.mem_map.1 hc
    have : x.1.1 ∈ left.map (·.1.1) := List.mem_map.2 ⟨x, hx, rfl⟩
    rw [Bool.not_eq_true', Bool.not_eq_false, List.contains_iff_mem]
    exact this
  rw [ha, hb, List.append_nil]

/-- a weight-based selection with the right total is a wheel run -/
theorem byWeights_wheel {o : FitnessOption} {fit : γ → α} {ds : Nat → RouletteDraw α} {fuel K : Nat}
    {s s' : SOState γ} {old : γ} {es : List (Cell γ × α)} (hd : DistinctNodes s.pop)
    (hu : ∀ i, (ds i).u < 1) (hw : ∀ x ∈ es, 0 ≤ x.2)
    (hold : deref s.pop s.best = .ok old)
    (hK : K ≤ s.pop.length) (hp : (es.map (·.1)).Perm s.pop)
    (h : selectByWeights o fit ds fuel K s old (es.map (·.2)).sum es = .ok s') :
    ∃ kept left, WheelRun (fun i => (ds i).u) 0 es kept left ∧ kept.length = K ∧
      s'.pop.Perm (kept.map (·.1)) := by
  unfold selectByWeights at h
  rw [Out.bind_eq_ok] at h
  obtain ⟨E, hE, h⟩ := h
  have hl : es.length = s.pop.length := by rw [← hp.length_eq, List.length_map]
  obtain ⟨kept, hk, hkl⟩ := elimLoop_wheel hu hw hE (by omega)
  refine ⟨kept, E, hk, by omega, ?_⟩
  have := (finish_spec (o := o) (fit := fit) hd hold h).2
  rw [this]
  exact applyErasement_kept hd hp (wheelRun_perm hk)

end Heu
