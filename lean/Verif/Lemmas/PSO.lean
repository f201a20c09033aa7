import Verif.Spec.PSO
import Verif.Lemmas.GA
import Mathlib.Tactic.Linarith

set_option linter.unusedSimpArgs false
set_option linter.unusedVariables false
set_option linter.unusedSectionVars false

namespace Heu
open Spec

section
variable {V F : Type} [LinearOrder F] (opt : FitnessOption)

theorem psoBetter_iff (a b : F) : psoBetter opt a b = true ↔ Better opt a b := by
  cases opt <;> simp [psoBetter, Better]

theorem psoBetter_false (a b : F) : psoBetter opt a b = false ↔ ¬ Better opt a b := by
  rw [← psoBetter_iff]; simp

theorem nb_trans {a b c : F} (h1 : ¬ Better opt a b) (h2 : ¬ Better opt b c) : ¬ Better opt a c := by
  cases opt <;> simp only [Better, not_lt] at * <;> exact le_trans (by assumption) (by assumption)

theorem nb_of_better {a b : F} (h : Better opt a b) : ¬ Better opt b a := by
  cases opt <;> simp only [Better, not_lt] at * <;> exact h.le

theorem nb_refl (a : F) : ¬ Better opt a a := by cases opt <;> simp [Better]

/-- what one particle's update does -/
theorem updatePBest_spec (p : Particle V F) :
    (updatePBest opt p).position = p.position ∧ (updatePBest opt p).velocity = p.velocity ∧
    (updatePBest opt p).fitness = p.fitness ∧
    ¬ Better opt p.fitness (updatePBest opt p).pBest.fitness ∧
    ¬ Better opt p.pBest.fitness (updatePBest opt p).pBest.fitness ∧
    ((updatePBest opt p).pBest = p.pBest ∨
      (updatePBest opt p).pBest = ⟨p.position, p.fitness⟩) := by
  unfold updatePBest
  split
  · rename_i h
    rw [psoBetter_iff] at h
    exact ⟨rfl, rfl, rfl, nb_refl opt _, nb_of_better opt h, Or.inr rfl⟩
  · rename_i h
    rw [psoBetter_iff] at h
    exact ⟨rfl, rfl, rfl, h, nb_refl opt _, Or.inl rfl⟩

theorem pgBestLoop_spec (n : Nat) : ∀ (i : Nat) (swarm : List (Particle V F)) (cur : Nat),
    i + n = swarm.length → (cur < i ∨ (i = 0 ∧ cur = 0 ∧ 0 < n)) →
    (∀ (k : Nat) (p q : Particle V F), k < i → swarm[k]? = some p → swarm[cur]? = some q →
      ¬ Better opt p.pBest.fitness q.pBest.fitness) →
    ∃ c, pgBestLoop opt n i swarm cur =
        (swarm.take i ++ (swarm.drop i).map (updatePBest opt), c) ∧ c < swarm.length ∧
      ∀ (k : Nat) (p q : Particle V F), (swarm.take i ++ (swarm.drop i).map (updatePBest opt))[k]? = some p →
        (swarm.take i ++ (swarm.drop i).map (updatePBest opt))[c]? = some q →
        ¬ Better opt p.pBest.fitness q.pBest.fitness := by
  induction n with
  | zero =>
    intro i swarm cur hl hc hinv
    have hi : i = swarm.length := by omega
    subst hi
    refine ⟨cur, ?_, ?_, ?_⟩
    · simp [pgBestLoop]
    · omega
    · intro k p q hp hq
      simp only [List.take_length, List.drop_length, List.map_nil, List.append_nil] at hp hq
      have hk : k < swarm.length := by
        by_contra h
        rw [List.getElem?_eq_none (by omega)] at hp
        cases hp
      exact hinv k p q hk hp hq
  | succ n ih =>
    intro i swarm cur hl hc hinv
    have hi : i < swarm.length := by omega
    obtain ⟨sw, hsw⟩ : ∃ sw, sw = swarm.modify i (updatePBest opt) := ⟨_, rfl⟩
    have hswlen : sw.length = swarm.length := by rw [hsw]; simp
    have hgi : sw[i]? = some (updatePBest opt swarm[i]) := by
      rw [hsw, List.getElem?_modify]; simp [hi]
    have hgk : ∀ k, k ≠ i → sw[k]? = swarm[k]? := by
      intro k hk
      rw [hsw, List.getElem?_modify]
      simp [Ne.symm hk]
    have hcur : cur < swarm.length := by omega
    obtain ⟨q, hq⟩ : ∃ q, sw[cur]? = some q := ⟨_, List.getElem?_eq_getElem (by omega)⟩
    have hform : swarm.take i ++ (swarm.drop i).map (updatePBest opt) =
        sw.take (i + 1) ++ (sw.drop (i + 1)).map (updatePBest opt) := by
      apply List.ext_getElem?
      intro k
      rw [List.getElem?_append, List.getElem?_append]
      simp only [List.length_take, List.getElem?_take, List.getElem?_map, List.getElem?_drop]
      rcases Nat.lt_trichotomy k i with hk | hk | hk
      · rw [if_pos (by omega), if_pos hk, if_pos (by omega), if_pos (by omega), hgk k (by omega)]
      · subst hk
        rw [if_neg (by omega), if_pos (by omega), if_pos (by omega), hgi]
        have : k + (k - min k swarm.length) = k := by omega
        rw [this, List.getElem?_eq_getElem hi]; rfl
      · rw [if_neg (by omega), if_neg (by omega)]
        have e1 : i + (k - min i swarm.length) = k := by omega
        have e2 : i + 1 + (k - min (i + 1) sw.length) = k := by omega
        rw [e1, e2, hgk k (by omega)]
    have hstep : pgBestLoop opt (n + 1) i swarm cur = pgBestLoop opt n (i + 1) sw
        (if psoBetter opt (updatePBest opt swarm[i]).pBest.fitness q.pBest.fitness then i else cur) := by
      conv_lhs => unfold pgBestLoop
      simp only [← hsw, hgi, hq]
    rw [hstep, hform, ← hswlen]
    apply ih
    · omega
    · left; split <;> omega
    · intro k p q' hk hp hq'
      by_cases hki : k = i
      · subst hki
        rw [hgi] at hp
        simp only [Option.some.injEq] at hp
        subst hp
        split at hq'
        · rw [hgi] at hq'
          simp only [Option.some.injEq] at hq'
          subst hq'
          exact nb_refl opt _
        · rename_i hnb
          rw [hq] at hq'
          simp only [Option.some.injEq] at hq'
          subst hq'
          rwa [psoBetter_iff] at hnb
      · have hk' : k < i := by omega
        rw [hgk k hki] at hp
        have hci : cur < i := by omega
        have hqs : swarm[cur]? = some q := by rw [← hgk cur (by omega)]; exact hq
        have h1 := hinv k p q hk' hp hqs
        split at hq'
        · rename_i hb
          rw [hgi] at hq'
          simp only [Option.some.injEq] at hq'
          subst hq'
          rw [psoBetter_iff] at hb
          exact nb_trans opt h1 (nb_of_better opt hb)
        · rw [hq] at hq'
          simp only [Option.some.injEq] at hq'
          subst hq'
          exact h1

/-- Complete description of one update of the bests. -/
theorem updatePGBest_spec (s : PSOState V F) (h : s.swarm ≠ []) :
    ∃ s', updatePGBest opt s = .ok s' ∧ s'.swarm = s.swarm.map (updatePBest opt) ∧
      (∀ p ∈ s'.swarm, ¬ Better opt p.pBest.fitness s'.gBest.fitness) ∧
      ¬ Better opt s.gBest.fitness s'.gBest.fitness ∧
      ((s'.gBest = s.gBest ∧ s'.fail = s.fail + 1) ∨
        (Better opt s'.gBest.fitness s.gBest.fitness ∧ s'.fail = 0 ∧
          ∃ p ∈ s'.swarm, p.pBest = s'.gBest)) := by
  have hpos : 0 < s.swarm.length := List.length_pos_iff.2 h
  obtain ⟨c, hc, hcl, hbest⟩ := pgBestLoop_spec opt s.swarm.length 0 s.swarm 0 (by omega)
    (Or.inr ⟨rfl, rfl, hpos⟩) (by intro k p q hk; omega)
  simp only [List.take_zero, List.drop_zero, List.nil_append] at hc hbest
  have hq : (s.swarm.map (updatePBest opt))[c]? = some (updatePBest opt s.swarm[c]) := by
    rw [List.getElem?_map, List.getElem?_eq_getElem hcl]; rfl
  have hall : ∀ p ∈ s.swarm.map (updatePBest opt),
      ¬ Better opt p.pBest.fitness (updatePBest opt s.swarm[c]).pBest.fitness := by
    intro p hp
    obtain ⟨k, hk, hkp⟩ := List.getElem_of_mem hp
    exact hbest k p _ (by rw [List.getElem?_eq_getElem hk, hkp]) hq
  have hmem : updatePBest opt s.swarm[c] ∈ s.swarm.map (updatePBest opt) :=
    List.mem_of_getElem? hq
  have hu : updatePGBest opt s =
      if psoBetter opt (updatePBest opt s.swarm[c]).pBest.fitness s.gBest.fitness then
        .ok { swarm := s.swarm.map (updatePBest opt), gBest := (updatePBest opt s.swarm[c]).pBest,
              fail := 0 }
      else .ok { s with swarm := s.swarm.map (updatePBest opt), fail := s.fail + 1 } := by
    unfold updatePGBest
    rw [hc]
    simp only [hq]
    split
    · rename_i hs; exact absurd hs h
    · rfl
  rw [hu]
  split
  · rename_i hb
    rw [psoBetter_iff] at hb
    exact ⟨_, rfl, rfl, hall, nb_of_better opt hb, Or.inr ⟨hb, rfl, _, hmem, rfl⟩⟩
  · rename_i hb
    rw [psoBetter_iff] at hb
    refine ⟨_, rfl, rfl, ?_, nb_refl opt _, Or.inl ⟨rfl, rfl⟩⟩
    intro p hp
    exact nb_trans opt (hall p hp) hb

end

/-! ## The run as an instance of the generic loop -/

section
variable {V F : Type} [LT F] [DecidableLT F] (opt : FitnessOption) (f : V → F)
variable (move : Nat → PSOState V F → PSOState V F)

theorem psoLoop_eq (maxGen maxFail : Nat) : ∀ (fuel gen : Nat) (s : PSOState V F) (record : List F),
    psoLoop opt f move maxGen maxFail fuel gen s record =
      gaLoop (psoSolver opt f move) maxGen maxFail fuel gen s record := by
  intro fuel
  induction fuel with
  | zero => intro gen s record; rfl
  | succ fuel ih =>
    intro gen s record
    simp only [psoLoop, gaLoop, psoSolver]
    cases updatePGBest opt (psoComputeAllFitness f s) with
    | ub => rfl
    | timeout => rfl
    | ok t =>
      simp only [Out.ok_bind]
      by_cases h1 : gen + 1 > maxGen
      · simp only [h1, if_true]
      · by_cases h2 : maxFail > 0 ∧ t.fail > maxFail
        · simp only [h1, h2, if_true, if_false, and_self]
        · simp only [h1, h2, if_false]
          exact ih _ _ _

/-- `psoRun` is the generic loop. -/
theorem psoRun_eq (maxGen maxFail fuel : Nat) (s : PSOState V F) :
    psoRun opt f move maxGen maxFail fuel s = gaRun (psoSolver opt f move) maxGen maxFail fuel s :=
  psoLoop_eq opt f move maxGen maxFail fuel 0 _ _

end

/-! ## Invariants over histories -/

section
variable {V F : Type} [LinearOrder F] (opt : FitnessOption) (f : V → F)
variable (move : Nat → PSOState V F → PSOState V F)

theorem compute_consistent {s : PSOState V F} (h : Consistent f s) :
    Consistent f (psoComputeAllFitness f s) ∧ ∀ p ∈ (psoComputeAllFitness f s).swarm, p.fitness = f p.position := by
  refine ⟨⟨?_, ?_, h.gBest⟩, ?_⟩
  · simpa [psoComputeAllFitness] using h.nonempty
  · intro p hp
    obtain ⟨q, hq, rfl⟩ := List.mem_map.1 hp
    exact h.pBest q hq
  · intro p hp
    obtain ⟨q, hq, rfl⟩ := List.mem_map.1 hp
    rfl

/-- One generation (evaluate and update) from a consistent state. -/
theorem generation_step {s : PSOState V F} (h : Consistent f s) :
    ∃ s', updatePGBest opt (psoComputeAllFitness f s) = .ok s' ∧ Consistent f s' ∧
      s'.swarm.map (·.position) = s.swarm.map (·.position) ∧
      s'.swarm.map (·.velocity) = s.swarm.map (·.velocity) ∧
      (∀ p ∈ s'.swarm, p.fitness = f p.position ∧ ¬ Better opt (f p.position) p.pBest.fitness ∧
        ¬ Better opt p.pBest.fitness s'.gBest.fitness) ∧
      (∀ (k : Nat) (p q : Particle V F), s.swarm[k]? = some p → s'.swarm[k]? = some q →
        ¬ Better opt p.pBest.fitness q.pBest.fitness ∧ q.position = p.position ∧
        (q.pBest = p.pBest ∨ q.pBest.position = q.position)) ∧
      ¬ Better opt s.gBest.fitness s'.gBest.fitness ∧
      ((s'.gBest = s.gBest ∧ s'.fail = s.fail + 1) ∨
        (Better opt s'.gBest.fitness s.gBest.fitness ∧ s'.fail = 0 ∧
          ∃ p ∈ s'.swarm, p.pBest = s'.gBest)) := by
  obtain ⟨hc, hfit⟩ := compute_consistent f h
  obtain ⟨s', he, hsw, hb, hg, hcase⟩ := updatePGBest_spec opt (psoComputeAllFitness f s) hc.nonempty
  have hsw2 : s'.swarm = s.swarm.map fun p => updatePBest opt { p with fitness := f p.position } := by
    rw [hsw]; simp [psoComputeAllFitness, Function.comp_def]
  have hpb : ∀ p ∈ s'.swarm, p.pBest.fitness = f p.pBest.position := by
    intro p hp
    rw [hsw2] at hp
    obtain ⟨q, hq, rfl⟩ := List.mem_map.1 hp
    obtain ⟨-, -, -, -, -, h6⟩ := updatePBest_spec opt { q with fitness := f q.position }
    rcases h6 with h6 | h6
    · rw [h6]; exact h.pBest q hq
    · rw [h6]
  refine ⟨s', he, ⟨?_, hpb, ?_⟩, ?_, ?_, ?_, ?_, hg, hcase⟩
  · rw [hsw2]; simpa using h.nonempty
  · rcases hcase with ⟨h1, -⟩ | ⟨-, -, p, hp, h1⟩
    · rw [h1]; exact h.gBest
    · rw [← h1]; exact hpb p hp
  · rw [hsw2, List.map_map]
    apply List.map_congr_left
    intro p _
    exact (updatePBest_spec opt { p with fitness := f p.position }).1
  · rw [hsw2, List.map_map]
    apply List.map_congr_left
    intro p _
    exact (updatePBest_spec opt { p with fitness := f p.position }).2.1
  · intro p hp
    have hp' := hp
    rw [hsw2] at hp
    obtain ⟨q, hq, rfl⟩ := List.mem_map.1 hp
    obtain ⟨h1, -, h3, h4, -, -⟩ := updatePBest_spec opt { q with fitness := f q.position }
    refine ⟨by rw [h3, h1], ?_, hb _ hp'⟩
    rw [h1]; exact h4
  · intro k p q hk hq
    rw [hsw2, List.getElem?_map, hk] at hq
    simp only [Option.map_some, Option.some.injEq] at hq
    subst hq
    obtain ⟨h1, -, -, -, h5, h6⟩ := updatePBest_spec opt { p with fitness := f p.position }
    refine ⟨h5, h1, ?_⟩
    rcases h6 with h6 | h6
    · left; exact h6
    · right; rw [h6, h1]

theorem onlyMoves_consistent {m : PSOState V F → PSOState V F} (hm : OnlyMoves m) {s : PSOState V F}
    (h : Consistent f s) : Consistent f (m s) := by
  have hp := hm.pBest s
  refine ⟨?_, ?_, by rw [hm.gBest]; exact h.gBest⟩
  · intro h0
    rw [h0] at hp
    have := h.nonempty
    simp at hp
    exact this hp
  · intro p hpm
    have : p.pBest ∈ s.swarm.map (·.pBest) := by rw [← hp]; exact List.mem_map_of_mem hpm
    obtain ⟨q, hq, hqp⟩ := List.mem_map.1 this
    rw [← hqp]; exact h.pBest q hq

theorem onlyMoves_pBest {m : PSOState V F → PSOState V F} (hm : OnlyMoves m) {s : PSOState V F}
    (k : Nat) (p : Particle V F) (h : (m s).swarm[k]? = some p) :
    ∃ q, s.swarm[k]? = some q ∧ q.pBest = p.pBest := by
  have hp := congrArg (fun l => l[k]?) (hm.pBest s)
  simp only [List.getElem?_map, h, Option.map_some] at hp
  cases hq : s.swarm[k]? with
  | none => rw [hq] at hp; simp at hp
  | some q => rw [hq] at hp; exact ⟨q, rfl, by simpa using hp.symm⟩

end

end Heu
