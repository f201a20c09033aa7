import Verif.Lemmas.PSO
import Mathlib.Tactic.Ring

set_option linter.unusedSimpArgs false
set_option linter.unusedVariables false
set_option linter.unusedSectionVars false

/-! Invariants of PSO histories. -/

namespace Heu
open Spec

/-! ### `updatePGBest` for an arbitrary comparison (NaN allowed) -/

section
variable {V F : Type} [LT F] [DecidableLT F] (opt : FitnessOption)

theorem pgBestLoop_swarm (P : V → Prop) (Q : V → Prop) (n : Nat) :
    ∀ (i : Nat) (swarm : List (Particle V F)) (cur : Nat),
      (∀ p ∈ swarm, P p.position ∧ Q p.velocity ∧ P p.pBest.position) →
      ∀ p ∈ (pgBestLoop opt n i swarm cur).1, P p.position ∧ Q p.velocity ∧ P p.pBest.position := by
  induction n with
  | zero => intro i swarm cur h p hp; exact h p hp
  | succ n ih =>
    intro i swarm cur h
    have hm : ∀ p ∈ swarm.modify i (updatePBest opt),
        P p.position ∧ Q p.velocity ∧ P p.pBest.position := by
      intro p hp
      obtain ⟨k, hk, hkp⟩ := List.getElem_of_mem hp
      rw [List.getElem_modify] at hkp
      have hk' : k < swarm.length := by simpa using hk
      have hmem := h _ (List.getElem_mem hk')
      split at hkp
      · subst hkp
        unfold updatePBest
        split
        · exact ⟨hmem.1, hmem.2.1, hmem.1⟩
        · exact hmem
      · subst hkp; exact hmem
    intro p hp
    unfold pgBestLoop at hp
    simp only at hp
    split at hp
    · exact ih _ _ _ hm p hp
    · exact hm p hp

theorem updatePGBest_inv (P Q : V → Prop) (s t : PSOState V F) (h : updatePGBest opt s = .ok t)
    (hs : ∀ p ∈ s.swarm, P p.position ∧ Q p.velocity ∧ P p.pBest.position)
    (hg : P s.gBest.position) :
    (∀ p ∈ t.swarm, P p.position ∧ Q p.velocity ∧ P p.pBest.position) ∧ P t.gBest.position := by
  unfold updatePGBest at h
  split at h
  · cases h
  · have hall := pgBestLoop_swarm opt P Q s.swarm.length 0 s.swarm 0 hs
    simp only at h
    split at h
    · cases h
    · rename_i q hq
      split at h
      · cases h
        exact ⟨hall, (hall q (List.mem_of_getElem? hq)).2.2⟩
      · cases h
        exact ⟨hall, hg⟩

end

section
variable {α F : Type} [LT F] [DecidableLT F] (opt : FitnessOption)
variable {dim : Nat} {posOk velOk : Nat → α → Prop}

theorem inBounds_update (f : List α → F) (s t : PSOState (List α) F)
    (h : updatePGBest opt (psoComputeAllFitness f s) = .ok t) (hs : InBounds dim posOk velOk s) :
    InBounds dim posOk velOk t := by
  have := updatePGBest_inv opt (EntriesOk dim posOk) (EntriesOk dim velOk) _ t h
    (by
      intro p hp
      obtain ⟨q, hq, rfl⟩ := List.mem_map.1 hp
      exact ⟨hs.position q hq, hs.velocity q hq, hs.pBest q hq⟩) hs.gBest
  exact ⟨fun p hp => (this.1 p hp).1, fun p hp => (this.1 p hp).2.1, fun p hp => (this.1 p hp).2.2,
    this.2⟩

/-- An invariant of moves is an invariant of histories. -/
theorem inBounds_stateAfter (f : List α → F) (move : Nat → PSOState (List α) F → PSOState (List α) F)
    (hmove : ∀ g s, InBounds dim posOk velOk s → InBounds dim posOk velOk (move g s))
    (s0 : PSOState (List α) F) (h0 : InBounds dim posOk velOk s0) :
    ∀ i t, stateAfter (psoSolver opt f move) s0 i = .ok t → InBounds dim posOk velOk t := by
  intro i
  induction i with
  | zero =>
    intro t ht
    exact inBounds_update opt f { s0 with fail := 0 } t ht
      ⟨h0.position, h0.velocity, h0.pBest, h0.gBest⟩
  | succ i ih =>
    intro t ht
    simp only [stateAfter] at ht
    cases hu : stateAfter (psoSolver opt f move) s0 i with
    | ub => rw [hu] at ht; cases ht
    | timeout => rw [hu] at ht; cases ht
    | ok u =>
      rw [hu, Out.ok_bind] at ht
      exact inBounds_update opt f (move (i + 1) u) t ht (hmove _ _ (ih u hu))

end

/-! ### moves -/

section
variable {α F : Type} [Add α] [Sub α] [Mul α] [Neg α] [LT α] [DecidableLT α]

theorem updatePopulation_onlyMoves (b : PSOBox α) (o : PSOFactors α) (rnd : Nat → α × α) :
    OnlyMoves (F := F) (updatePopulation b o rnd) := by
  refine ⟨fun _ => rfl, fun _ => rfl, fun s => ?_⟩
  unfold updatePopulation
  apply List.ext_getElem?
  intro k
  simp only [List.getElem?_map, List.getElem?_mapIdx]
  cases s.swarm[k]? <;> rfl

theorem newVelocity_length (o : PSOFactors α) (r1 r2 : α) (v p pb gb : List α) (n : Nat)
    (hv : v.length = n) (hp : p.length = n) (hpb : pb.length = n) (hgb : gb.length = n) :
    (newVelocity o r1 r2 v p pb gb).length = n := by
  simp [newVelocity, hv, hp, hpb, hgb]

theorem newVelocity_entry (o : PSOFactors α) (r1 r2 : α) (v p pb gb : List α) (i : Nat) (x : α)
    (h : (newVelocity o r1 r2 v p pb gb)[i]? = some x) :
    ∃ v' p' pb' gb', v[i]? = some v' ∧ p[i]? = some p' ∧ pb[i]? = some pb' ∧ gb[i]? = some gb' ∧
      x = o.inertia * v' + o.learnP * r1 * (pb' - p') + o.learnG * r2 * (gb' - p') := by
  simp only [newVelocity, List.getElem?_zipWith', List.getElem?_map] at h
  cases hv : v[i]? <;> cases hp : p[i]? <;> cases hpb : pb[i]? <;> cases hgb : gb[i]? <;>
    simp_all

theorem updatePopulation_inBounds_gen (b : PSOBox α) (o : PSOFactors α) (rnd : Nat → α × α)
    (posOk velOk : Nat → α → Prop)
    (hpos : ∀ i x, i < b.dim → posOk i (clampPos (b.posMin i) (b.posMax i) x))
    (hvel : ∀ i k v p pb gb, i < b.dim → velOk i v → posOk i p → posOk i pb → posOk i gb →
      velOk i (clampVel (b.velocityMax i)
        (o.inertia * v + o.learnP * (rnd k).1 * (pb - p) + o.learnG * (rnd k).2 * (gb - p))))
    (s : PSOState (List α) F) (hs : InBounds b.dim posOk velOk s) :
    InBounds b.dim posOk velOk (updatePopulation b o rnd s) := by
  have key : ∀ p ∈ s.swarm, ∀ k,
      EntriesOk b.dim velOk (moveParticle b o s.gBest.position (rnd k).1 (rnd k).2 p).velocity ∧
      EntriesOk b.dim posOk (moveParticle b o s.gBest.position (rnd k).1 (rnd k).2 p).position := by
    intro p hp k
    have hl := newVelocity_length o (rnd k).1 (rnd k).2 p.velocity p.position p.pBest.position
      s.gBest.position b.dim (hs.velocity p hp).1 (hs.position p hp).1 (hs.pBest p hp).1 hs.gBest.1
    have hv : EntriesOk b.dim velOk
        (moveParticle b o s.gBest.position (rnd k).1 (rnd k).2 p).velocity := by
      refine ⟨by simp [moveParticle, applyConstraint4Velocity, hl], ?_⟩
      intro i x hx
      simp only [moveParticle, applyConstraint4Velocity, List.getElem?_mapIdx, Option.map_eq_some_iff] at hx
      obtain ⟨y, hy, rfl⟩ := hx
      obtain ⟨hi, -⟩ := List.getElem?_eq_some_iff.1 hy
      obtain ⟨v', p', pb', gb', e1, e2, e3, e4, rfl⟩ := newVelocity_entry o _ _ _ _ _ _ i y hy
      exact hvel i k v' p' pb' gb' (by omega) ((hs.velocity p hp).2 i _ e1)
        ((hs.position p hp).2 i _ e2) ((hs.pBest p hp).2 i _ e3) (hs.gBest.2 i _ e4)
    refine ⟨hv, ?_, ?_⟩
    · have := hv.1
      simp only [moveParticle, applyConstraint4Position, List.length_mapIdx, List.length_zipWith] at this ⊢
      rw [this, (hs.position p hp).1, Nat.min_self]
    · intro i x hx
      simp only [moveParticle, applyConstraint4Position, List.getElem?_mapIdx, Option.map_eq_some_iff] at hx
      obtain ⟨y, hy, rfl⟩ := hx
      obtain ⟨hi, -⟩ := List.getElem?_eq_some_iff.1 hy
      have := (hs.position p hp).1
      simp only [List.length_zipWith] at hi
      exact hpos i y (by omega)
  have hmem : ∀ p ∈ (updatePopulation b o rnd s).swarm, ∃ q ∈ s.swarm, ∃ k,
      p = moveParticle b o s.gBest.position (rnd k).1 (rnd k).2 q := by
    intro p hp
    obtain ⟨k, hk, rfl⟩ := List.mem_mapIdx.1 hp
    exact ⟨_, List.getElem_mem hk, _, rfl⟩
  refine ⟨?_, ?_, ?_, hs.gBest⟩
  · intro p hp
    obtain ⟨q, hq, k, rfl⟩ := hmem p hp
    exact (key q hq k).2
  · intro p hp
    obtain ⟨q, hq, k, rfl⟩ := hmem p hp
    exact (key q hq k).1
  · intro p hp
    obtain ⟨q, hq, k, rfl⟩ := hmem p hp
    exact hs.pBest q hq

theorem updatePopulation_inBounds (b : PSOBox α) (o : PSOFactors α) (rnd : Nat → α × α)
    (posOk velOk : Nat → α → Prop)
    (hpos : ∀ i x, i < b.dim → posOk i (clampPos (b.posMin i) (b.posMax i) x))
    (hvel : ∀ i x, i < b.dim → velOk i (clampVel (b.velocityMax i) x))
    (s : PSOState (List α) F) (hs : InBounds b.dim posOk velOk s) :
    InBounds b.dim posOk velOk (updatePopulation b o rnd s) :=
  updatePopulation_inBounds_gen b o rnd posOk velOk hpos
    (fun i _ _ _ _ _ hi _ _ _ _ => hvel i _ hi) s hs

end

/-! ### the history of the bests -/

section
variable {V F : Type} [LinearOrder F] (opt : FitnessOption) (f : V → F)
variable (move : Nat → PSOState V F → PSOState V F)

theorem onlyMoves_length {m : PSOState V F → PSOState V F} (hm : OnlyMoves m) (s : PSOState V F) :
    (m s).swarm.length = s.swarm.length := by
  have := congrArg List.length (hm.pBest s)
  simpa using this

/-- Everything the update of one generation does, relative to an arbitrary consistent state before. -/
theorem pso_step (hm : ∀ g, OnlyMoves (move g)) {s0 : PSOState V F} (h0 : Consistent f s0) (j : Nat) :
    ∃ t, stateAfter (psoSolver opt f move) s0 j = .ok t ∧ Consistent f t ∧
      t.swarm.length = s0.swarm.length ∧
      (∀ p ∈ t.swarm, p.fitness = f p.position ∧ ¬ Better opt (f p.position) p.pBest.fitness ∧
        ¬ Better opt p.pBest.fitness t.gBest.fitness) ∧
      (∀ i ≤ j, ∀ u, stateAfter (psoSolver opt f move) s0 i = .ok u →
        ¬ Better opt u.gBest.fitness t.gBest.fitness ∧
        ∀ (k : Nat) (p q : Particle V F), u.swarm[k]? = some p → t.swarm[k]? = some q →
          ¬ Better opt p.pBest.fitness q.pBest.fitness) ∧
      (∀ (k : Nat) (q : Particle V F), t.swarm[k]? = some q →
        (∃ p0, s0.swarm[k]? = some p0 ∧ q.pBest = p0.pBest) ∨
        ∃ i ≤ j, ∃ u, stateAfter (psoSolver opt f move) s0 i = .ok u ∧
          ∃ p, u.swarm[k]? = some p ∧ p.position = q.pBest.position) ∧
      (t.gBest = s0.gBest ∨ (∃ p0 ∈ s0.swarm, t.gBest = p0.pBest) ∨
        ∃ i ≤ j, ∃ u, stateAfter (psoSolver opt f move) s0 i = .ok u ∧
          ∃ p ∈ u.swarm, p.position = t.gBest.position) ∧
      (¬ Better opt s0.gBest.fitness t.gBest.fitness) ∧
      (∀ (k : Nat) (p q : Particle V F), s0.swarm[k]? = some p → t.swarm[k]? = some q →
          ¬ Better opt p.pBest.fitness q.pBest.fitness) := by
  induction j with
  | zero =>
    have hc : Consistent f { s0 with fail := 0 } := ⟨h0.nonempty, h0.pBest, h0.gBest⟩
    obtain ⟨t, ht, htc, hpos, hvel, hall, hpb, hg, hcase⟩ := generation_step opt f hc
    have hlen : t.swarm.length = s0.swarm.length := by
      have := congrArg List.length hpos; simpa using this
    have hatt : ∀ (k : Nat) (q : Particle V F), t.swarm[k]? = some q →
        (∃ p0, s0.swarm[k]? = some p0 ∧ q.pBest = p0.pBest) ∨ q.position = q.pBest.position := by
      intro k q hq
      have hk : k < s0.swarm.length := by
        obtain ⟨hk, -⟩ := List.getElem?_eq_some_iff.1 hq; omega
      have hp0 : s0.swarm[k]? = some s0.swarm[k] := List.getElem?_eq_getElem hk
      rcases (hpb k _ q hp0 hq).2.2 with h | h
      · exact Or.inl ⟨_, hp0, h⟩
      · exact Or.inr h.symm
    refine ⟨t, ht, htc, hlen, hall, ?_, ?_, ?_, hg, fun k p q hp hq => (hpb k p q hp hq).1⟩
    · intro i hi u hu
      obtain rfl : i = 0 := by omega
      have : t = u := by
        have h2 := hu
        change updatePGBest opt (psoComputeAllFitness f { s0 with fail := 0 }) = .ok u at h2
        rw [ht] at h2; cases h2; rfl
      subst this
      refine ⟨nb_refl opt _, ?_⟩
      intro k p q hp hq
      rw [hp] at hq; cases hq
      exact nb_refl opt _
    · intro k q hq
      rcases hatt k q hq with h | h
      · exact Or.inl h
      · exact Or.inr ⟨0, le_refl _, t, ht, q, hq, h⟩
    · rcases hcase with ⟨h, -⟩ | ⟨-, -, p, hp, hpg⟩
      · exact Or.inl h
      · right
        obtain ⟨k, hk, hkp⟩ := List.getElem_of_mem hp
        have hk' : t.swarm[k]? = some p := by rw [List.getElem?_eq_getElem hk, hkp]
        rcases hatt k p hk' with ⟨p0, hp0, h⟩ | h
        · exact Or.inl ⟨p0, List.mem_of_getElem? hp0, by rw [← hpg, h]⟩
        · exact Or.inr ⟨0, le_refl _, t, ht, p, hp, by rw [h, hpg]⟩
  | succ j ih =>
    obtain ⟨u, hu, huc, hul, huall, huhist, huatt, hugatt, hug0, hupb0⟩ := ih
    have hc : Consistent f (move (j + 1) u) := onlyMoves_consistent f (hm _) huc
    obtain ⟨t, ht, htc, hpos, hvel, hall, hpb, hg, hcase⟩ := generation_step opt f hc
    have hte : stateAfter (psoSolver opt f move) s0 (j + 1) = .ok t := by
      simp only [stateAfter, hu, Out.ok_bind]
      exact ht
    have hml := onlyMoves_length (hm (j + 1)) u
    have hlen : t.swarm.length = u.swarm.length := by
      have := congrArg List.length hpos
      simp only [List.length_map] at this
      omega
    rw [(hm (j + 1)).gBest] at hg
    have hpb' : ∀ (k : Nat) (p q : Particle V F), u.swarm[k]? = some p → t.swarm[k]? = some q →
        ¬ Better opt p.pBest.fitness q.pBest.fitness ∧
        (q.pBest = p.pBest ∨ q.pBest.position = q.position) := by
      intro k p q hp hq
      have hk : k < (move (j + 1) u).swarm.length := by
        obtain ⟨hk, -⟩ := List.getElem?_eq_some_iff.1 hp; omega
      have hx : (move (j + 1) u).swarm[k]? = some (move (j + 1) u).swarm[k] :=
        List.getElem?_eq_getElem hk
      obtain ⟨p', hp', he⟩ := onlyMoves_pBest (hm (j + 1)) k _ hx
      rw [hp] at hp'; cases hp'
      have := hpb k _ q hx hq
      rw [he]
      exact ⟨this.1, this.2.2⟩
    have hatt : ∀ (k : Nat) (q : Particle V F), t.swarm[k]? = some q →
        (∃ p0, s0.swarm[k]? = some p0 ∧ q.pBest = p0.pBest) ∨
        ∃ i ≤ j + 1, ∃ u, stateAfter (psoSolver opt f move) s0 i = .ok u ∧
          ∃ p, u.swarm[k]? = some p ∧ p.position = q.pBest.position := by
      intro k q hq
      have hk : k < u.swarm.length := by
        obtain ⟨hk, -⟩ := List.getElem?_eq_some_iff.1 hq; omega
      have hp : u.swarm[k]? = some u.swarm[k] := List.getElem?_eq_getElem hk
      rcases (hpb' k _ q hp hq).2 with h | h
      · rcases huatt k _ hp with ⟨p0, hp0, he⟩ | ⟨i, hi, w, hw, p, hpw, he⟩
        · exact Or.inl ⟨p0, hp0, by rw [h, he]⟩
        · exact Or.inr ⟨i, by omega, w, hw, p, hpw, by rw [h, he]⟩
      · exact Or.inr ⟨j + 1, le_refl _, t, hte, q, hq, h.symm⟩
    refine ⟨t, hte, htc, by omega, hall, ?_, hatt, ?_, nb_trans opt hug0 hg, ?_⟩
    · intro i hi w hw
      rcases Nat.lt_or_ge i (j + 1) with hlt | hge
      · obtain ⟨h1, h2⟩ := huhist i (by omega) w hw
        refine ⟨nb_trans opt h1 hg, ?_⟩
        intro k p q hp hq
        have hk : k < u.swarm.length := by
          obtain ⟨hk, -⟩ := List.getElem?_eq_some_iff.1 hq; omega
        have hx : u.swarm[k]? = some u.swarm[k] := List.getElem?_eq_getElem hk
        exact nb_trans opt (h2 k p _ hp hx) (hpb' k _ q hx hq).1
      · obtain rfl : i = j + 1 := by omega
        rw [hte] at hw; cases hw
        refine ⟨nb_refl opt _, ?_⟩
        intro k p q hp hq
        rw [hp] at hq; cases hq
        exact nb_refl opt _
    · rcases hcase with ⟨h, -⟩ | ⟨-, -, p, hp, hpg⟩
      · rw [(hm (j + 1)).gBest] at h
        rcases hugatt with h' | ⟨p0, hp0, h'⟩ | ⟨i, hi, w, hw, p, hpw, he⟩
        · exact Or.inl (by rw [h, h'])
        · exact Or.inr (Or.inl ⟨p0, hp0, by rw [h, h']⟩)
        · exact Or.inr (Or.inr ⟨i, by omega, w, hw, p, hpw, by rw [h, he]⟩)
      · right
        obtain ⟨k, hk, hkp⟩ := List.getElem_of_mem hp
        have hk' : t.swarm[k]? = some p := by rw [List.getElem?_eq_getElem hk, hkp]
        rcases hatt k p hk' with ⟨p0, hp0, h⟩ | ⟨i, hi, w, hw, x, hx, he⟩
        · exact Or.inl ⟨p0, List.mem_of_getElem? hp0, by rw [← hpg, h]⟩
        · exact Or.inr ⟨i, hi, w, hw, x, List.mem_of_getElem? hx, by rw [he, hpg]⟩
    · intro k p q hp hq
      have hk : k < u.swarm.length := by
        obtain ⟨hk, -⟩ := List.getElem?_eq_some_iff.1 hq; omega
      have hx : u.swarm[k]? = some u.swarm[k] := List.getElem?_eq_getElem hk
      exact nb_trans opt (hupb0 k p _ hp hx) (hpb' k _ q hx hq).1

end

end Heu
