import Verif.Model.GA
import Verif.Spec.GARun
import Verif.Lemmas.SOGA

/-! # The GA main loop, evaluation, crossover and mutation: helper lemmas -/

set_option linter.unusedSectionVars false
set_option linter.unusedSimpArgs false

namespace Heu
open Spec

section loop
variable {σ R : Type} (S : GASolver σ R)

/-- state on entry of the loop body with `_generation = g` -/
def entry (s : σ) : Nat → Out σ
  | 0 => .ok (S.resetFailTimes s)
  | g + 1 => stateAfter S s g >>= fun t => .ok (S.mutate (g + 1) (S.crossover (g + 1) t))

theorem stateAfter_entry (s t : σ) (g : Nat) (h : entry S s g = .ok t) :
    stateAfter S s g = S.select (g + 1) (S.computeAllFitness t) := by
  cases g with
  | zero => simp only [entry, Out.ok.injEq] at h; subst h; rfl
  | succ g =>
    simp only [entry, Out.bind_eq_ok] at h
    obtain ⟨x, hx, h⟩ := h
    simp only [Out.ok.injEq] at h
    subst h
    simp [stateAfter, hx]

theorem gaLoop_spec {maxGen maxFail : Nat} {s0 : σ} :
    ∀ {fuel gen : Nat} {s : σ} {record : List R} {r : RunResult σ R},
      entry S s0 gen = .ok s → record.length = gen → gen ≤ maxGen →
      (∀ i (hi : i < record.length), ∃ t, stateAfter S s0 i = .ok t ∧ S.bestFitness t = .ok record[i]) →
      (∀ i < gen, ∀ t, stateAfter S s0 i = .ok t → ¬ TooManyFails S maxFail t) →
      gaLoop S maxGen maxFail fuel gen s record = .ok r →
      r.generation ≤ maxGen ∧ r.record.length = r.generation + 1 ∧
      (∀ i (hi : i < r.record.length),
        ∃ t, stateAfter S s0 i = .ok t ∧ S.bestFitness t = .ok r.record[i]) ∧
      stateAfter S s0 r.generation = .ok r.state ∧
      (r.generation = maxGen ∨ TooManyFails S maxFail r.state) ∧
      (∀ i < r.generation, ∀ t, stateAfter S s0 i = .ok t → ¬ TooManyFails S maxFail t) := by
  intro fuel
  induction fuel with
  | zero => intro gen s record r _ _ _ _ _ h; simp [gaLoop] at h
  | succ fuel ih =>
    intro gen s record r he hl hg hr hf h
    simp only [gaLoop, Out.bind_eq_ok] at h
    obtain ⟨t, ht, b, hb, h⟩ := h
    have hst : stateAfter S s0 gen = .ok t := by rw [stateAfter_entry S s0 s gen he, ht]
    have hrec : ∀ i (hi : i < (record ++ [b]).length),
        ∃ t, stateAfter S s0 i = .ok t ∧ S.bestFitness t = .ok (record ++ [b])[i] := by
      intro i hi
      by_cases hlt : i < record.length
      · rw [List.getElem_append_left hlt]; exact hr i hlt
      · have : i = gen := by simp at hi; omega
        subst this
        refine ⟨t, hst, ?_⟩
        rw [hb, List.getElem_append_right (by omega)]
        simp
    have hlen : (record ++ [b]).length = gen + 1 := by simp [hl]
    by_cases h1 : gen + 1 > maxGen
    · simp only [h1, if_true, Out.ok.injEq] at h
      subst h
      refine ⟨by simpa using hg, by simpa using hlen, hrec, by simpa using hst, Or.inl ?_, by simpa using hf⟩
      simp; omega
    · simp only [h1, if_false] at h
      by_cases h2 : maxFail > 0 ∧ S.failTimes t > maxFail
      · simp only [h2, and_self, if_true, Out.ok.injEq] at h
        subst h
        refine ⟨by simpa using hg, by simpa using hlen, hrec, by simpa using hst, Or.inr ⟨h2.1, h2.2⟩, by simpa using hf⟩
      · simp only [h2, if_false] at h
        refine ih (gen := gen + 1) ?_ hlen (by omega) hrec ?_ h
        · simp [entry, hst]
        · intro i hi u hu
          rcases Nat.lt_succ_iff_lt_or_eq.1 hi with hi | rfl
          · exact hf i hi u hu
          · rw [hst] at hu
            simp only [Out.ok.injEq] at hu
            subst hu
            rintro ⟨ha, hb⟩
            exact h2 ⟨ha, hb⟩

theorem gaLoop_no_timeout (hsel : ∀ g s, S.select g s ≠ .timeout)
    (hb : ∀ s, S.bestFitness s ≠ .timeout) {maxGen maxFail : Nat} :
    ∀ {fuel gen : Nat} {s : σ} {record : List R}, maxGen + 1 ≤ gen + fuel → gen ≤ maxGen →
      gaLoop S maxGen maxFail fuel gen s record ≠ .timeout := by
  intro fuel
  induction fuel with
  | zero => intro gen s record h1 h2; omega
  | succ fuel ih =>
    intro gen s record h1 h2
    simp only [gaLoop]
    cases hs : S.select (gen + 1) (S.computeAllFitness s) with
    | ub => simp
    | timeout => exact absurd hs (hsel _ _)
    | ok t =>
      simp only [Out.ok_bind]
      cases hbt : S.bestFitness t with
      | ub => simp
      | timeout => exact absurd hbt (hb _)
      | ok b =>
        simp only [Out.ok_bind]
        split
        · simp
        · split
          · simp
          · exact ih (by omega) (by omega)

/-- An invariant of the selected states makes the whole run go through. -/
theorem gaLoop_total (I : σ → Prop)
    (hsel : ∀ g s, I s → ∃ t, S.select (g + 1) (S.computeAllFitness s) = .ok t ∧
      (∃ b, S.bestFitness t = .ok b) ∧ I (S.mutate (g + 1) (S.crossover (g + 1) t)))
    {maxGen maxFail : Nat} :
    ∀ {fuel gen : Nat} {s : σ} {record : List R}, maxGen + 1 ≤ gen + fuel → gen ≤ maxGen → I s →
      ∃ r, gaLoop S maxGen maxFail fuel gen s record = .ok r := by
  intro fuel
  induction fuel with
  | zero => intro gen s record h1 h2; omega
  | succ fuel ih =>
    intro gen s record h1 h2 hI
    obtain ⟨t, ht, ⟨b, hb⟩, hI'⟩ := hsel gen s hI
    simp only [gaLoop, ht, hb, Out.ok_bind]
    split
    · exact ⟨_, rfl⟩
    · split
      · exact ⟨_, rfl⟩
      · exact ih (by omega) (by omega) hI'

end loop

/-! ### evaluation -/

section eval
variable {V F : Type}

theorem distinct_computeAllFitness {f : V → F} {pop : Pop (Gene V F)} :
    (computeAllFitness f pop).map (·.1) = pop.map (·.1) := by
  simp [computeAllFitness]

/-- what a list of actions does to one cell -/
def actCell (f : V → F) (c : Cell (Gene V F)) (act : Addr × Bool) : Cell (Gene V F) :=
  if c.1 = act.1 then
    (c.1, if act.2 then { c.2 with computed := true } else { c.2 with fitness := f c.2.var })
  else c

theorem par_eq_map (f : V → F) (sched : List (Addr × Bool)) (pop : Pop (Gene V F)) :
    computeAllFitnessPar f pop sched = pop.map fun c => sched.foldl (actCell f) c := by
  unfold computeAllFitnessPar
  induction sched generalizing pop with
  | nil => simp
  | cons a l ih =>
    simp only [List.foldl_cons]
    rw [ih]
    unfold evalAction
    rw [List.map_map]
    rfl

theorem foldl_actCell (f : V → F) (sched : List (Addr × Bool)) (c : Cell (Gene V F)) :
    sched.foldl (actCell f) c =
      (c.1, { var := c.2.var,
              fitness := if (c.1, false) ∈ sched then f c.2.var else c.2.fitness,
              computed := c.2.computed || decide ((c.1, true) ∈ sched) }) := by
  induction sched generalizing c with
  | nil => simp
  | cons a l ih =>
    simp only [List.foldl_cons]
    rw [ih]
    obtain ⟨a, b⟩ := a
    unfold actCell
    by_cases h : c.1 = a
    · subst h
      cases b <;> simp
    · simp only [h, if_false, List.mem_cons, Prod.mk.injEq, false_and, false_or]

end eval

/-! ### crossover and mutation -/

section vary
variable {V F : Type} {γ : Type}

theorem freshAddr_gt (pop : Pop γ) : ∀ c ∈ pop, c.1 < freshAddr pop := by
  intro c hc
  unfold freshAddr
  induction pop with
  | nil => simp at hc
  | cons x l ih =>
    simp only [List.foldr_cons]
    rcases List.mem_cons.1 hc with rfl | hc
    · exact Nat.lt_succ_of_le (Nat.le_max_left _ _)
    · exact lt_of_lt_of_le (ih hc) (Nat.succ_le_succ (Nat.le_max_right _ _))

theorem distinct_emplaceBack {pop : Pop γ} (hd : DistinctNodes pop) (g : γ) :
    DistinctNodes (emplaceBack pop g) := by
  unfold DistinctNodes emplaceBack at *
  rw [List.map_append, List.nodup_append]
  refine ⟨hd, by simp, ?_⟩
  intro a ha b hb
  simp only [List.map_cons, List.map_nil, List.mem_singleton] at hb
  obtain ⟨c, hc, rfl⟩ := List.mem_map.1 ha
  rw [hb]
  exact Nat.ne_of_lt (freshAddr_gt pop c hc)

/-- `new` uncomputed cells are appended -/
structure Appends (pop pop' : Pop (Gene V F)) (k : Nat) : Prop where
  app : ∃ new : Pop (Gene V F), pop' = pop ++ new ∧ new.length = k ∧ ∀ c ∈ new, c.2.computed = false
  distinct : DistinctNodes pop → DistinctNodes pop'

theorem Appends.refl (pop : Pop (Gene V F)) : Appends pop pop 0 :=
  ⟨⟨[], by simp⟩, id⟩

theorem Appends.trans {p q r : Pop (Gene V F)} {a b : Nat} (h1 : Appends p q a) (h2 : Appends q r b) :
    Appends p r (a + b) := by
  obtain ⟨⟨n1, e1, l1, c1⟩, d1⟩ := h1
  obtain ⟨⟨n2, e2, l2, c2⟩, d2⟩ := h2
  refine ⟨⟨n1 ++ n2, by rw [e2, e1, List.append_assoc], by simp [l1, l2], ?_⟩, fun h => d2 (d1 h)⟩
  intro c hc
  rcases List.mem_append.1 hc with h | h
  · exact c1 c h
  · exact c2 c h

theorem Appends.emplace (p : Pop (Gene V F)) (v : V) (j : F) :
    Appends p (emplaceBack p ⟨v, j, false⟩) 1 :=
  ⟨⟨[(freshAddr p, ⟨v, j, false⟩)], by simp [emplaceBack]⟩, fun h => distinct_emplaceBack h _⟩

theorem crossoverLoop_appends (junk : F) (cx : Nat → V → V → V × V) (n : Nat)
    (q : List (Cell (Gene V F))) (pop : Pop (Gene V F)) :
    Appends pop (crossoverLoop junk cx n q pop) (2 * (q.length / 2)) := by
  match q with
  | [] => simpa [crossoverLoop] using Appends.refl pop
  | [a] => simpa [crossoverLoop] using Appends.refl pop
  | a :: b :: q =>
    simp only [crossoverLoop]
    have h := ((Appends.emplace pop (cx n a.2.var b.2.var).1 junk).trans
      (Appends.emplace _ (cx n a.2.var b.2.var).2 junk)).trans
      (crossoverLoop_appends junk cx (n + 1) q _)
    have e : 1 + 1 + 2 * (q.length / 2) = 2 * ((a :: b :: q).length / 2) := by
      simp only [List.length_cons]; omega
    rw [e] at h
    exact h

theorem mutate_fold_appends (junk : F) (mu : Nat → V → V) (l : List (Cell (Gene V F) × Nat))
    (pop : Pop (Gene V F)) :
    Appends pop (l.foldl (fun (p : Pop (Gene V F)) s =>
      emplaceBack p { var := mu s.2 s.1.2.var, fitness := junk, computed := false }) pop) l.length := by
  induction l generalizing pop with
  | nil => exact Appends.refl pop
  | cons x l ih =>
    simp only [List.foldl_cons, List.length_cons]
    have := (Appends.emplace pop (mu x.2 x.1.2.var) junk).trans (ih _)
    rwa [Nat.add_comm] at this

/-- `appended genes are what the operators produced` -/
theorem emplaceBack_genes (p : Pop γ) (g : γ) : (emplaceBack p g).map (·.2) = p.map (·.2) ++ [g] := by
  simp [emplaceBack]

end vary

end Heu
