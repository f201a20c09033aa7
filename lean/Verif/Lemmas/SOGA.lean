import Verif.Model.SOGA
import Verif.Spec.SOSelection
import Mathlib.Data.List.Perm.Subperm
import Mathlib.Data.List.Perm.Lattice
import Mathlib.Data.List.Nodup
import Mathlib.Tactic.Linarith

/-! # Single-objective selection: helper lemmas -/

set_option linter.unusedSectionVars false
set_option linter.unusedSimpArgs false

namespace Heu
open Spec

variable {γ α : Type}

theorem isBetter_iff [LinearOrder α] (o : FitnessOption) (a b : α) :
    isBetter o a b = true ↔ Better o a b := by
  cases o <;> simp [isBetter, Better]

theorem isBetter_false_iff [LinearOrder α] (o : FitnessOption) (a b : α) :
    isBetter o a b = false ↔ ¬ Better o a b := by
  cases o <;> simp [isBetter, Better]

theorem Better.trans [LinearOrder α] {o : FitnessOption} {a b c : α} (h1 : Better o a b)
    (h2 : Better o b c) : Better o a c := by
  cases o
  · exact lt_trans h1 h2
  · exact lt_trans h2 h1

theorem not_better_trans [LinearOrder α] {o : FitnessOption} {a b c : α} (h1 : ¬ Better o a b)
    (h2 : ¬ Better o b c) : ¬ Better o a c := by
  cases o <;> simp only [Better, not_lt] at *
  · exact h2.trans h1
  · exact h1.trans h2

theorem better_irrefl [LinearOrder α] (o : FitnessOption) (a : α) : ¬ Better o a a := by
  cases o <;> simp [Better]

theorem better_asymm [LinearOrder α] {o : FitnessOption} {a b : α} (h : Better o a b) :
    ¬ Better o b a := by
  cases o <;> simp only [Better, not_lt] at * <;> exact h.le

/-! ### find the best -/

theorem foldBest_spec [LinearOrder α] (o : FitnessOption) (fit : γ → α) (l : List (Cell γ))
    (c : Cell γ) :
    let r := l.foldl (fun g it => if geneItCompare o fit it g then it else g) c
    (r = c ∨ r ∈ l) ∧ ¬ Better o (fit c.2) (fit r.2) ∧ ∀ x ∈ l, ¬ Better o (fit x.2) (fit r.2) := by
  induction l generalizing c with
  | nil => simp [better_irrefl]
  | cons y l ih =>
    simp only [List.foldl_cons]
    by_cases h : geneItCompare o fit y c = true
    · simp only [h, if_true]
      obtain ⟨h1, h2, h3⟩ := ih y
      have hyc : Better o (fit y.2) (fit c.2) := (isBetter_iff _ _ _).1 h
      refine ⟨?_, not_better_trans (better_asymm hyc) h2, ?_⟩
      · rcases h1 with h1 | h1
        · right; rw [h1]; exact List.mem_cons_self
        · right; exact List.mem_cons_of_mem _ h1
      · intro x hx
        rcases List.mem_cons.1 hx with rfl | hx
        · exact h2
        · exact h3 x hx
    · have h' : geneItCompare o fit y c = false := by simpa using h
      simp only [h', Bool.false_eq_true, if_false]
      obtain ⟨h1, h2, h3⟩ := ih c
      have hyc : ¬ Better o (fit y.2) (fit c.2) := (isBetter_false_iff _ _ _).1 h'
      refine ⟨?_, h2, ?_⟩
      · rcases h1 with h1 | h1
        · left; exact h1
        · right; exact List.mem_cons_of_mem _ h1
      · intro x hx
        rcases List.mem_cons.1 hx with rfl | hx
        · exact not_better_trans hyc h2
        · exact h3 x hx

theorem findBest_ok [LinearOrder α] {o : FitnessOption} {fit : γ → α} {pop : Pop γ} {c : Cell γ}
    (h : findCurrentBestGene o fit pop = .ok c) : Unbeaten o fit pop c := by
  match pop, h with
  | y :: l, h =>
    simp only [findCurrentBestGene, Out.ok.injEq] at h
    have := foldBest_spec o fit (y :: l) y
    simp only [h] at this
    refine ⟨?_, this.2.2⟩
    rcases this.1 with h' | h'
    · rw [h']; exact List.mem_cons_self
    · exact h'

theorem findBest_exists [LinearOrder α] (o : FitnessOption) (fit : γ → α) {pop : Pop γ}
    (h : pop ≠ []) : ∃ c, findCurrentBestGene o fit pop = .ok c := by
  match pop, h with
  | y :: l, _ => exact ⟨_, rfl⟩

/-! ### dereferencing -/

theorem deref_of_mem {pop : Pop γ} (hd : DistinctNodes pop) {c : Cell γ} (hc : c ∈ pop) :
    deref pop c.1 = .ok c.2 := by
  unfold deref
  induction pop with
  | nil => simp at hc
  | cons y l ih =>
    simp only [DistinctNodes, List.map_cons, List.nodup_cons] at hd
    rw [List.find?_cons]
    rcases List.mem_cons.1 hc with rfl | hc
    · simp
    · have : (y.1 == c.1) = false := by
        simp only [beq_eq_false_iff_ne, ne_eq]
        intro h; exact hd.1 (h ▸ List.mem_map_of_mem hc)
      simp only [this]
      exact ih hd.2 hc

theorem deref_ok {pop : Pop γ} {a : Addr} {g : γ} (h : deref pop a = .ok g) : (a, g) ∈ pop := by
  unfold deref at h
  split at h
  · next c hc =>
    have h1 := List.find?_some hc
    have h2 := List.mem_of_find?_eq_some hc
    simp only [Out.ok.injEq] at h
    simp only [beq_iff_eq] at h1
    rw [← h, ← h1]; exact h2
  · simp at h

theorem deref_ub {pop : Pop γ} {a : Addr} : deref pop a = .ub ↔ a ∉ pop.map (·.1) := by
  unfold deref
  constructor
  · intro h
    split at h
    · simp at h
    · next hc =>
      rw [List.find?_eq_none] at hc
      rw [List.mem_map]
      rintro ⟨c, hc', rfl⟩
      exact hc c hc' (by simp)
  · intro h
    have : pop.find? (fun c => c.1 == a) = none := by
      rw [List.find?_eq_none]
      intro c hc hca
      simp only [beq_iff_eq] at hca
      exact h (hca ▸ List.mem_map_of_mem hc)
    rw [this]

theorem deref_ok_or_ub (pop : Pop γ) (a : Addr) : (∃ g, deref pop a = .ok g) ∨ deref pop a = .ub := by
  unfold deref; split
  · exact Or.inl ⟨_, rfl⟩
  · exact Or.inr rfl

/-! ### erasing -/

theorem erase_length {pop : Pop γ} (hd : DistinctNodes pop) (E : List Addr) (hn : E.Nodup)
    (hs : E ⊆ pop.map (·.1)) :
    (pop.filter fun c => !E.contains c.1).length + E.length = pop.length := by
  have h1 : ((pop.filter fun c => E.contains c.1).map (·.1)).Perm E := by
    rw [List.perm_ext_iff_of_nodup]
    · intro a
      simp only [List.mem_map, List.mem_filter, List.contains_iff_mem]
      constructor
      · rintro ⟨c, ⟨-, h⟩, rfl⟩; exact h
      · intro ha
        obtain ⟨c, hc, rfl⟩ := List.mem_map.1 (hs ha)
        exact ⟨c, ⟨hc, ha⟩, rfl⟩
    · exact hd.sublist ((List.filter_sublist).map _)
    · exact hn
  have h2 := List.length_eq_length_filter_add (l := pop) (fun c => E.contains c.1)
  have h3 := h1.length_eq
  rw [List.length_map] at h3
  omega

theorem distinct_filter {pop : Pop γ} (hd : DistinctNodes pop) (p : Cell γ → Bool) :
    DistinctNodes (pop.filter p) := hd.sublist ((List.filter_sublist).map _)

/-- What every selection that reports `ok` achieves with the nodes it keeps. -/
structure SelectSpec [LinearOrder α] (o : FitnessOption) (fit : γ → α) (s s' : SOState γ) : Prop where
  distinct : DistinctNodes s'.pop
  noInvention : ∀ c' ∈ s'.pop, ∃ c ∈ s.pop, c.2 = c'.2
  best : ∃ c, c.1 = s'.best ∧ Unbeaten o fit s'.pop c
  fail : ∃ c old, deref s'.pop s'.best = .ok c ∧ deref s.pop s.best = .ok old ∧
    (Better o (fit c) (fit old) → s'.fail = 0) ∧ (¬ Better o (fit c) (fit old) → s'.fail = s.fail + 1)

theorem updateFail_fail [LinearOrder α] (o : FitnessOption) (fit : γ → α) (s : SOState γ) (b : Cell γ)
    (prev : α) :
    (Better o (fit b.2) prev → (updateFail o fit s b prev).fail = 0) ∧
    (¬ Better o (fit b.2) prev → (updateFail o fit s b prev).fail = s.fail + 1) := by
  constructor
  · intro h
    have := (isBetter_iff o (fit b.2) prev).2 h
    simp [updateFail, this]
  · intro h
    have := (isBetter_false_iff o (fit b.2) prev).2 h
    simp [updateFail, this]

/-- Common tail: any sub-population, its best, the cached old best. -/
theorem selectSpec_of [LinearOrder α] {o : FitnessOption} {fit : γ → α} {s : SOState γ} {pop' : Pop γ}
    {b : Cell γ} {old : γ} (hd : DistinctNodes pop') (hsub : ∀ c' ∈ pop', ∃ c ∈ s.pop, c.2 = c'.2)
    (hb : Unbeaten o fit pop' b) (hold : deref s.pop s.best = .ok old) :
    SelectSpec o fit s (updateFail o fit { s with pop := pop' } b (fit old)) := by
  have hf := updateFail_fail o fit { s with pop := pop' } b (fit old)
  refine ⟨hd, hsub, ⟨b, rfl, hb⟩, b.2, old, deref_of_mem hd hb.1, hold, hf.1, hf.2⟩

theorem keepAll_spec [LinearOrder α] {o : FitnessOption} {fit : γ → α} {s s' : SOState γ} {old : γ}
    (hd : DistinctNodes s.pop) (hold : deref s.pop s.best = .ok old)
    (h : keepAll o fit s (fit old) = .ok s') : SelectSpec o fit s s' ∧ s'.pop = s.pop := by
  unfold keepAll at h
  rw [Out.bind_eq_ok] at h
  obtain ⟨b, hb, h⟩ := h
  simp only [Out.ok.injEq] at h
  subst h
  refine ⟨?_, rfl⟩
  exact selectSpec_of (pop' := s.pop) hd (fun c hc => ⟨c, hc, rfl⟩) (findBest_ok hb) hold

theorem keepAll_ok [LinearOrder α] (o : FitnessOption) (fit : γ → α) {s : SOState γ} (prev : α)
    (hne : s.pop ≠ []) : ∃ s', keepAll o fit s prev = .ok s' := by
  obtain ⟨b, hb⟩ := findBest_exists o fit hne
  exact ⟨_, by unfold keepAll; rw [hb]; rfl⟩

theorem finish_spec [LinearOrder α] {o : FitnessOption} {fit : γ → α} {s s' : SOState γ} {old : γ}
    {E : List (Cell γ × α)} (hd : DistinctNodes s.pop) (hold : deref s.pop s.best = .ok old)
    (h : finish o fit s E (fit old) = .ok s') :
    SelectSpec o fit s s' ∧ s'.pop = applyErasement s.pop E := by
  unfold finish at h
  simp only [Out.bind_eq_ok] at h
  obtain ⟨b, hb, h⟩ := h
  simp only [Out.ok.injEq] at h
  subst h
  refine ⟨?_, rfl⟩
  refine selectSpec_of (pop' := applyErasement s.pop E) (distinct_filter hd _) ?_ (findBest_ok hb) hold
  intro c hc
  exact ⟨c, (List.mem_filter.1 hc).1, rfl⟩

theorem finish_ok [LinearOrder α] (o : FitnessOption) (fit : γ → α) {s : SOState γ} (prev : α)
    {E : List (Cell γ × α)} (hne : applyErasement s.pop E ≠ []) :
    ∃ s', finish o fit s E prev = .ok s' := by
  obtain ⟨b, hb⟩ := findBest_exists o fit hne
  exact ⟨_, by unfold finish; simp only [hb]; rfl⟩

/-- number of nodes left after erasing a duplicate-free list of nodes -/
theorem applyErasement_length {pop : Pop γ} (hd : DistinctNodes pop) {E : List (Cell γ × α)}
    (hE : (E.map (·.1)).Subperm pop) :
    (applyErasement pop E).length + E.length = pop.length := by
  have hsub : (E.map (·.1.1)).Subperm (pop.map (·.1)) := by
    obtain ⟨l, hl, hs⟩ := hE
    have h1 := hl.map (fun c : Cell γ => c.1)
    rw [List.map_map] at h1
    exact ⟨l.map (·.1), h1, hs.map _⟩
  have := erase_length hd (E.map (·.1.1)) (by
    obtain ⟨l, hl, hs⟩ := hsub
    exact (hl.nodup_iff).1 (hd.sublist hs)) hsub.subset
  rw [List.length_map] at this
  exact this

/-! ### the roulette loop -/

section roulette
variable {β : Type}

theorem rouletteErase_some [Sub α] [Zero α] [LE α] [DecidableLE α] {r : α} {es es' : List (β × α)} {w : α}
    (h : rouletteErase r es = some (w, es')) : ∃ x, x.2 = w ∧ es'.Sublist es ∧ es.Perm (x :: es') := by
  induction es generalizing r es' with
  | nil => simp [rouletteErase] at h
  | cons x xs ih =>
    simp only [rouletteErase] at h
    split at h
    · simp only [Option.some.injEq, Prod.mk.injEq] at h
      obtain ⟨rfl, rfl⟩ := h
      exact ⟨x, rfl, List.sublist_cons_self _ _, List.Perm.refl _⟩
    · cases hr : rouletteErase (r - x.2) xs with
      | none => simp [hr] at h
      | some p =>
        simp only [hr, Option.map_some, Option.some.injEq, Prod.mk.injEq] at h
        obtain ⟨rfl, rfl⟩ := h
        obtain ⟨y, hy1, hy2, hy3⟩ := ih hr
        exact ⟨y, hy1, hy2.cons_cons x, (hy3.cons x).trans (List.Perm.swap _ _ _)⟩

theorem rouletteErase_none [Field α] [LinearOrder α] [IsStrictOrderedRing α] {r : α} {es : List (β × α)} (h : rouletteErase r es = none)
    (hne : es ≠ []) : 0 < es.foldl (fun r x => r - x.2) r := by
  induction es generalizing r with
  | nil => exact absurd rfl hne
  | cons x xs ih =>
    simp only [rouletteErase] at h
    split at h
    · simp at h
    · next hlt =>
      have hn : rouletteErase (r - x.2) xs = none := by
        cases hr : rouletteErase (r - x.2) xs with
        | none => rfl
        | some p => simp [hr] at h
      simp only [List.foldl_cons]
      cases xs with
      | nil => simpa using hlt
      | cons y ys => exact ih hn (by simp)

/-- One iteration removes exactly one element. -/
theorem rouletteStep_spec [Field α] [LinearOrder α] [IsStrictOrderedRing α] (u : α) (st : α × List (β × α)) (hne : st.2 ≠ []) :
    ∃ st', rouletteStep u st = .ok st' ∧ st'.2.Sublist st.2 ∧ st'.2.length + 1 = st.2.length ∧
      ∃ x, st.2.Perm (x :: st'.2) ∧ st'.1 = st.1 - x.2 := by
  unfold rouletteStep
  simp only
  cases hr : rouletteErase ((st.1 - 0) * u + 0) st.2 with
  | some p =>
    obtain ⟨x, hx1, hx2, hx3⟩ := rouletteErase_some hr
    refine ⟨_, rfl, hx2, ?_, x, hx3, by rw [hx1]⟩
    have := hx3.length_eq; simp at this; simp; omega
  | none =>
    have := rouletteErase_none hr hne
    simp only [this, if_true]
    have hl : st.2.getLast? = some (st.2.getLast hne) := List.getLast?_eq_some_getLast hne
    rw [hl]
    refine ⟨_, rfl, List.dropLast_sublist _, ?_, st.2.getLast hne, ?_, rfl⟩
    · have : st.2.length ≠ 0 := by simpa using hne
      simp; omega
    · have h := List.dropLast_append_getLast hne
      have h2 : (st.2.dropLast ++ [st.2.getLast hne]).Perm (st.2.getLast hne :: st.2.dropLast) :=
        List.perm_append_comm
      rwa [h] at h2

theorem randomPass_spec (hit : Nat → Bool) (i : Nat) (l : List β) :
    (randomPass hit i l).Sublist l ∧ l.length ≤ (randomPass hit i l).length + 1 ∧
    ((∃ j, j < l.length ∧ hit (i + j) = true) → (randomPass hit i l).length + 1 = l.length) := by
  induction l generalizing i with
  | nil => simp [randomPass]
  | cons x xs ih =>
    simp only [randomPass]
    split
    · exact ⟨List.sublist_cons_self _ _, by simp, by simp⟩
    · next hh =>
      obtain ⟨h1, h2, h3⟩ := ih (i + 1)
      refine ⟨h1.cons_cons x, by simpa using h2, ?_⟩
      rintro ⟨j, hj, hjh⟩
      have : j ≠ 0 := by rintro rfl; exact hh (by simpa using hjh)
      have := h3 ⟨j - 1, by simp at hj; omega, by rw [show i + 1 + (j - 1) = i + j by omega]; exact hjh⟩
      simpa using this

/-- Result of the loop: a sublist of the right length. -/
theorem elimLoop_ok {eliminateNum : Nat} {step : Nat → α × List (β × α) → Out (α × List (β × α))}
    (hstep : ∀ it st st', eliminateNum < st.2.length → step it st = .ok st' →
      st'.2.Sublist st.2 ∧ st.2.length ≤ st'.2.length + 1)
    {fuel it : Nat} {st : α × List (β × α)} {es : List (β × α)}
    (h : elimLoop eliminateNum step fuel it st = .ok es) :
    es.Sublist st.2 ∧ (eliminateNum ≤ st.2.length → es.length = eliminateNum) ∧
      (st.2.length ≤ eliminateNum → es = st.2) := by
  induction fuel generalizing it st with
  | zero =>
    simp only [elimLoop] at h
    split at h
    · simp at h
    · simp only [Out.ok.injEq] at h; subst h
      exact ⟨List.Sublist.refl _, by omega, fun _ => rfl⟩
  | succ fuel ih =>
    simp only [elimLoop] at h
    split at h
    · next hgt =>
      rw [Out.bind_eq_ok] at h
      obtain ⟨st', h1, h2⟩ := h
      obtain ⟨hs, hl⟩ := hstep it st st' hgt h1
      obtain ⟨ih1, ih2, -⟩ := ih h2
      refine ⟨ih1.trans hs, fun _ => ih2 (by omega), fun h' => by omega⟩
    · simp only [Out.ok.injEq] at h; subst h
      exact ⟨List.Sublist.refl _, by omega, fun _ => rfl⟩

/-- The loop finishes when every iteration removes exactly one element. -/
theorem elimLoop_finishes {eliminateNum : Nat}
    {step : Nat → α × List (β × α) → Out (α × List (β × α))}
    (hstep : ∀ it st, eliminateNum < st.2.length → ∃ st', step it st = .ok st' ∧
      st'.2.length + 1 = st.2.length)
    (fuel it : Nat) (st : α × List (β × α)) (hf : st.2.length ≤ eliminateNum + fuel) :
    ∃ es, elimLoop eliminateNum step fuel it st = .ok es := by
  induction fuel generalizing it st with
  | zero => exact ⟨st.2, by simp [elimLoop]; omega⟩
  | succ fuel ih =>
    simp only [elimLoop]
    split
    · next hgt =>
      obtain ⟨st', h1, h2⟩ := hstep it st hgt
      rw [h1]
      exact ih (it + 1) st' (by omega)
    · exact ⟨_, rfl⟩

/-- The loop never has undefined behaviour when no iteration has. -/
theorem elimLoop_no_ub {eliminateNum : Nat}
    {step : Nat → α × List (β × α) → Out (α × List (β × α))}
    (hstep : ∀ it st, eliminateNum < st.2.length → ∃ st', step it st = .ok st')
    (fuel it : Nat) (st : α × List (β × α)) :
    elimLoop eliminateNum step fuel it st ≠ .ub := by
  induction fuel generalizing it st with
  | zero => simp only [elimLoop]; split <;> simp
  | succ fuel ih =>
    simp only [elimLoop]
    split
    · next hgt =>
      obtain ⟨st', h1⟩ := hstep it st hgt
      rw [h1]; exact ih _ _
    · simp

end roulette

end Heu
