import Verif.Spec.PSOOwn
import Verif.Props.PSOFull
import Verif.Props.GAFull3

/-!
# C142: particle swarms with an initialiser of the user's own
-/

set_option linter.unusedVariables false
set_option linter.unusedSectionVars false
set_option linter.unusedSimpArgs false

namespace Heu
open Spec

section shape
variable {V F : Type} [LT F] [DecidableLT F] (opt : FitnessOption)

theorem pgBestLoop_map (n : Nat) : ∀ (i : Nat) (swarm : List (Particle V F)) (cur : Nat),
    i + n = swarm.length → cur < swarm.length →
    (pgBestLoop opt n i swarm cur).1 = swarm.take i ++ (swarm.drop i).map (updatePBest opt) := by
  induction n with
  | zero =>
    intro i swarm cur h _
    have : i = swarm.length := by omega
    subst this
    simp [pgBestLoop]
  | succ n ih =>
    intro i swarm cur h1 h2
    have hl : (swarm.modify i (updatePBest opt)).length = swarm.length := by simp
    have hi : i < (swarm.modify i (updatePBest opt)).length := by omega
    have hc : cur < (swarm.modify i (updatePBest opt)).length := by omega
    unfold pgBestLoop
    simp only [List.getElem?_eq_getElem hi, List.getElem?_eq_getElem hc]
    rw [ih (i + 1) _ _ (by omega) (by split <;> omega)]
    have hi' : i < swarm.length := by omega
    apply List.ext_getElem?
    intro k
    simp only [List.getElem?_append, List.getElem?_take, List.length_take, List.getElem?_map,
      List.getElem?_drop, List.getElem?_modify, List.length_modify]
    have m1 : min (i + 1) swarm.length = i + 1 := by omega
    have m2 : min i swarm.length = i := by omega
    rw [m1, m2]
    by_cases hk : k < i
    · have hne : i ≠ k := by omega
      rw [if_pos (by omega), if_pos (by omega), if_pos hk, if_pos hk]
      simp [hne]
    · by_cases hk2 : k = i
      · subst hk2
        simp
      · have hne : i ≠ k := by omega
        rw [if_neg (by omega), if_neg hk]
        have e1 : i + 1 + (k - (i + 1)) = k := by omega
        have e2 : i + (k - i) = k := by omega
        rw [e1, e2]; simp [hne]

/-- What updating the bests does, for any fitness type. -/
theorem updatePGBest_shape (s t : PSOState V F) (h : updatePGBest opt s = .ok t) :
    t.swarm = s.swarm.map (updatePBest opt) ∧ (t.gBest = s.gBest ∨ ∃ q ∈ t.swarm, t.gBest = q.pBest) := by
  unfold updatePGBest at h
  split at h
  · cases h
  · rename_i p ps hsw
    simp only at h
    have hm := pgBestLoop_map opt s.swarm.length 0 s.swarm 0 (by omega) (by rw [hsw]; simp)
    simp only [List.take_zero, List.nil_append, List.drop_zero] at hm
    split at h
    · cases h
    · rename_i q hq
      split at h
      · cases h
        exact ⟨hm, .inr ⟨q, List.mem_of_getElem? hq, rfl⟩⟩
      · cases h
        exact ⟨hm, .inl rfl⟩

theorem updatePBest_cases (p : Particle V F) :
    (updatePBest opt p).position = p.position ∧ (updatePBest opt p).velocity = p.velocity ∧
    (updatePBest opt p).fitness = p.fitness ∧
    ((updatePBest opt p).pBest = p.pBest ∨ (updatePBest opt p).pBest = ⟨p.position, p.fitness⟩) := by
  unfold updatePBest; split
  · exact ⟨rfl, rfl, rfl, .inr rfl⟩
  · exact ⟨rfl, rfl, rfl, .inl rfl⟩

end shape

section
variable {A Ω α F : Type} [Add α] [Sub α] [Mul α] [Neg α] [LT α] [DecidableLT α] [LT F] [DecidableLT F]
  [Zero α]
variable (opt : FitnessOption)

/-- Personal bests have the size of their particle, the global best that of some particle. -/
def Linked (s : PSOState (List α) F) : Prop :=
  (∀ p ∈ s.swarm, p.pBest.position.length = p.position.length) ∧
  (s.swarm ≠ [] → ∃ p ∈ s.swarm, s.gBest.position.length = p.position.length)

theorem linked_update (f : List α → F) {s t : PSOState (List α) F} (hs : Linked s)
    (h : updatePGBest opt (psoComputeAllFitness f s) = .ok t) : Linked t := by
  obtain ⟨h1, h2⟩ := updatePGBest_shape opt _ _ h
  have hp : ∀ p ∈ t.swarm, p.pBest.position.length = p.position.length := by
    intro p hp
    rw [h1] at hp
    obtain ⟨q, hq, rfl⟩ := List.mem_map.1 hp
    obtain ⟨q', hq', rfl⟩ := List.mem_map.1 hq
    obtain ⟨e1, -, -, e4⟩ := updatePBest_cases opt { q' with fitness := f q'.position }
    rw [e1]
    rcases e4 with e4 | e4 <;> rw [e4]
    exact hs.1 q' hq'
  refine ⟨hp, fun hne => ?_⟩
  rcases h2 with h2 | ⟨q, hq, h2⟩
  · have hne' : s.swarm ≠ [] := by
      intro h0
      rw [h1] at hne
      simp [psoComputeAllFitness, h0] at hne
    obtain ⟨p, hp', hg⟩ := hs.2 hne'
    refine ⟨updatePBest opt { p with fitness := f p.position }, ?_, ?_⟩
    · rw [h1]
      exact List.mem_map_of_mem (List.mem_map_of_mem hp')
    · rw [(updatePBest_cases opt _).1, h2]; exact hg
  · exact ⟨q, hq, by rw [h2]; exact hp q hq⟩

theorem sizes_update (f : List α → F) {s t : PSOState (List α) F}
    (h : updatePGBest opt (psoComputeAllFitness f s) = .ok t) (P : List α → List α → Prop) :
    (∀ p ∈ t.swarm, P p.position p.velocity) ↔ ∀ p ∈ s.swarm, P p.position p.velocity := by
  obtain ⟨h1, -⟩ := updatePGBest_shape opt _ _ h
  constructor
  · intro hP p hp
    have := hP (updatePBest opt { p with fitness := f p.position })
      (by rw [h1]; exact List.mem_map_of_mem (List.mem_map_of_mem hp))
    rw [(updatePBest_cases opt _).1, (updatePBest_cases opt _).2.1] at this
    exact this
  · intro hP p hp
    rw [h1] at hp
    obtain ⟨q, hq, rfl⟩ := List.mem_map.1 hp
    obtain ⟨q', hq', rfl⟩ := List.mem_map.1 hq
    rw [(updatePBest_cases opt _).1, (updatePBest_cases opt _).2.1]
    exact hP q' hq'

/-- Everything has size `d`. -/
def OneSize (d : Nat) (s : PSOState (List α) F) : Prop :=
  (∀ p ∈ s.swarm, p.position.length = d ∧ p.velocity.length = d ∧ p.pBest.position.length = d) ∧
  (s.swarm ≠ [] → s.gBest.position.length = d)

theorem oneSize_of {d : Nat} {s : PSOState (List α) F} (hl : Linked s)
    (h : ∀ p ∈ s.swarm, p.position.length = d ∧ p.velocity.length = d) : OneSize d s := by
  refine ⟨fun p hp => ⟨(h p hp).1, (h p hp).2, by rw [hl.1 p hp]; exact (h p hp).1⟩, fun hne => ?_⟩
  obtain ⟨p, hp, e⟩ := hl.2 hne
  rw [e]; exact (h p hp).1

/-- The box in force, as far as it is set. -/
def ownBox (x : PSOFull A α F) : PSOBox α :=
  ⟨0, fun _ => x.posMin.getD 0, fun _ => x.posMax.getD 0, fun _ => x.maxVelocity.getD 0⟩

theorem own_moveParticle_eq (x : PSOFull A α F) (d : Nat) (g : List α) (r : α × α) (p : Particle (List α) F)
    (hg : g.length = d) (hp : p.position.length = d ∧ p.velocity.length = d ∧ p.pBest.position.length = d)
    (hset : d ≠ 0 → x.posMin ≠ none ∧ x.posMax ≠ none ∧ x.maxVelocity ≠ none) :
    PSOOwn.moveParticle x g r p = .ok (Heu.moveParticle (ownBox x) x.factors g r.1 r.2 p) := by
  unfold PSOOwn.moveParticle
  rw [if_pos ⟨by omega, by omega, by omega⟩]
  by_cases hd : d = 0
  · rw [if_pos (by omega)]
    obtain ⟨pos, fit, vel, pb⟩ := p
    obtain ⟨h1, h2, h3⟩ := hp
    simp only at h1 h2 h3
    have e1 : pos = [] := List.length_eq_zero_iff.1 (by omega)
    have e2 : vel = [] := List.length_eq_zero_iff.1 (by omega)
    subst e1; subst e2
    simp [Heu.moveParticle, newVelocity, applyConstraint4Velocity, applyConstraint4Position]
  · rw [if_neg (by omega)]
    obtain ⟨s1, s2, s3⟩ := hset hd
    obtain ⟨mn, s1⟩ := Option.ne_none_iff_exists'.1 s1
    obtain ⟨mx, s2⟩ := Option.ne_none_iff_exists'.1 s2
    obtain ⟨vm, s3⟩ := Option.ne_none_iff_exists'.1 s3
    simp [s1, s2, s3, readMember, ownBox]

theorem own_moveAll_eq (x : PSOFull A α F) (d : Nat) (g : List α) (rnd : Nat → α × α) (hg : g.length = d)
    (hset : d ≠ 0 → x.posMin ≠ none ∧ x.posMax ≠ none ∧ x.maxVelocity ≠ none) :
    ∀ (ps : List (Particle (List α) F)) (k : Nat),
    (∀ p ∈ ps, p.position.length = d ∧ p.velocity.length = d ∧ p.pBest.position.length = d) →
    PSOOwn.moveAll x g rnd k ps = .ok (ps.mapIdx fun i p =>
      Heu.moveParticle (ownBox x) x.factors g (rnd (k + i)).1 (rnd (k + i)).2 p) := by
  intro ps
  induction ps with
  | nil => intro k _; rfl
  | cons p ps ih =>
    intro k h
    unfold PSOOwn.moveAll
    rw [own_moveParticle_eq x d g _ p hg (h p (by simp)) hset, Out.ok_bind,
      ih (k + 1) (fun q hq => h q (by simp [hq])), Out.ok_bind, List.mapIdx_cons]
    have e : ∀ i, k + 1 + i = k + (i + 1) := fun i => by omega
    simp only [Nat.add_zero, e]

theorem own_moveParticle_ub (x : PSOFull A α F) (g : List α) (r : α × α) (p : Particle (List α) F) :
    PSOOwn.moveParticle x g r p = .ub ∨ ∃ q, PSOOwn.moveParticle x g r p = .ok q ∧
      g.length = p.position.length ∧ p.velocity.length = p.position.length ∧
      (p.position ≠ [] → x.posMin ≠ none ∧ x.posMax ≠ none ∧ x.maxVelocity ≠ none) := by
  unfold PSOOwn.moveParticle
  split_ifs with h1 h2
  · refine .inr ⟨p, rfl, h1.2.1, h1.2.2, fun h => absurd (List.length_eq_zero_iff.1 h2) h⟩
  · cases h3 : x.maxVelocity with
    | none => left; simp [readMember]
    | some vm =>
      cases h4 : x.posMax with
      | none => left; simp [readMember]
      | some mx =>
        cases h5 : x.posMin with
        | none => left; simp [readMember]
        | some mn => right; exact ⟨_, by simp [readMember]; rfl, h1.2.1, h1.2.2, by simp⟩
  · exact .inl rfl

theorem own_moveAll_ub (x : PSOFull A α F) (g : List α) (rnd : Nat → α × α) :
    ∀ (ps : List (Particle (List α) F)) (k : Nat),
    PSOOwn.moveAll x g rnd k ps = .ub ∨ ∃ qs, PSOOwn.moveAll x g rnd k ps = .ok qs ∧
      ∀ p ∈ ps, p.position.length = g.length ∧ p.velocity.length = g.length ∧
        (p.position ≠ [] → x.posMin ≠ none ∧ x.posMax ≠ none ∧ x.maxVelocity ≠ none) := by
  intro ps
  induction ps with
  | nil => intro k; exact .inr ⟨[], rfl, by simp⟩
  | cons p ps ih =>
    intro k
    unfold PSOOwn.moveAll
    rcases own_moveParticle_ub x g (rnd k) p with h | ⟨q, h, h1, h2, h3⟩
    · left; rw [h]; rfl
    · rcases ih (k + 1) with h' | ⟨qs, h', h4⟩
      · left; rw [h, h']; rfl
      · right
        refine ⟨q :: qs, by rw [h, h']; rfl, ?_⟩
        intro r hr
        rcases List.mem_cons.1 hr with rfl | hr
        · exact ⟨h1.symm, by omega, h3⟩
        · exact h4 r hr

theorem oneSize_move (x : PSOFull A α F) (d : Nat) (rnd : Nat → α × α) {s : PSOState (List α) F}
    (h : OneSize d s) : OneSize d (updatePopulation (ownBox x) x.factors rnd s) := by
  refine ⟨?_, ?_⟩
  · intro p hp
    obtain ⟨k, hk, rfl⟩ := List.mem_mapIdx.1 hp
    have hne : s.swarm ≠ [] := by intro h0; rw [h0] at hk; simp at hk
    obtain ⟨h1, h2, h3⟩ := h.1 s.swarm[k] (List.getElem_mem hk)
    have h4 := h.2 hne
    refine ⟨?_, ?_, h3⟩
    · simp [Heu.moveParticle, applyConstraint4Position, applyConstraint4Velocity, newVelocity, h1, h2, h3, h4]
    · simp [Heu.moveParticle, applyConstraint4Position, applyConstraint4Velocity, newVelocity, h1, h2, h3, h4]
  · intro hne
    have : s.swarm ≠ [] := by
      intro h0; apply hne; simp [updatePopulation, h0]
    exact h.2 this

theorem oneSize_update (f : List α → F) (d : Nat) {s t : PSOState (List α) F} (hs : OneSize d s)
    (h : updatePGBest opt (psoComputeAllFitness f s) = .ok t) : OneSize d t := by
  by_cases hne : s.swarm = []
  · rw [updatePGBest_nil opt _ (by simp [psoComputeAllFitness, hne])] at h; cases h
  have hl : Linked s := ⟨fun p hp => by rw [(hs.1 p hp).1, (hs.1 p hp).2.2], fun h' => by
    obtain ⟨p, ps, e⟩ := List.exists_cons_of_ne_nil h'
    exact ⟨p, by rw [e]; simp, by rw [hs.2 h', (hs.1 p (by rw [e]; simp)).1]⟩⟩
  exact oneSize_of (linked_update opt f hl h)
    ((sizes_update opt f h (fun a b => a.length = d ∧ b.length = d)).2 fun p hp =>
      ⟨(hs.1 p hp).1, (hs.1 p hp).2.1⟩)

/-- With vectors of one size and the bounds set, the loop is that of `Model/PSO`. -/
theorem own_loop_eq (x : PSOFull A α F) (d : Nat) (f : List α → F) (rnd : Nat → Nat → α × α)
    (hset : d ≠ 0 → x.posMin ≠ none ∧ x.posMax ≠ none ∧ x.maxVelocity ≠ none) :
    ∀ (fuel gen : Nat) (s : PSOState (List α) F) (record : List F), OneSize d s →
    PSOOwn.loop opt x f rnd fuel gen s record =
      psoLoop opt f (fun g => updatePopulation (ownBox x) x.factors (rnd g)) x.maxGen x.maxFail fuel gen s
        record := by
  intro fuel
  induction fuel with
  | zero => intros; rfl
  | succ fuel ih =>
    intro gen s record hs
    simp only [PSOOwn.loop, psoLoop]
    cases hu : updatePGBest opt (psoComputeAllFitness f s) with
    | ub => rfl
    | timeout => rfl
    | ok t =>
      have ht := oneSize_update opt f d hs hu
      simp only [Out.ok_bind]
      split_ifs with h1 h2
      · rfl
      · rfl
      · by_cases hne : t.swarm = []
        · have hmv : PSOOwn.moveAll x t.gBest.position (rnd (gen + 1)) 0 t.swarm = .ok [] := by rw [hne]; rfl
          rw [hmv, Out.ok_bind]
          have e : ({ t with swarm := [] } : PSOState (List α) F) =
              updatePopulation (ownBox x) x.factors (rnd (gen + 1)) t := by
            simp [updatePopulation, hne]
          rw [e]
          exact ih _ _ _ (oneSize_move x d _ ht)
        · rw [own_moveAll_eq x d _ _ (ht.2 hne) hset t.swarm 0 ht.1, Out.ok_bind]
          have e : ({ t with swarm := (t.swarm.mapIdx fun i p => Heu.moveParticle (ownBox x) x.factors
                        t.gBest.position (rnd (gen + 1) (0 + i)).1 (rnd (gen + 1) (0 + i)).2 p) } :
                PSOState (List α) F) = updatePopulation (ownBox x) x.factors (rnd (gen + 1)) t := by
            simp [updatePopulation]
          rw [e]
          exact ih _ _ _ (oneSize_move x d _ ht)

theorem own_loop_zero (x : PSOFull A α F) (hG : x.maxGen = 0) (f : List α → F) (rnd : Nat → Nat → α × α)
    (s : PSOState (List α) F) :
    PSOOwn.loop opt x f rnd (x.maxGen + 1) 0 s [] =
      psoLoop opt f (fun g => updatePopulation (ownBox x) x.factors (rnd g)) x.maxGen x.maxFail (x.maxGen + 1) 0 s
        [] := by
  rw [hG]
  simp only [PSOOwn.loop, psoLoop, hG]
  cases updatePGBest opt (psoComputeAllFitness f s) <;> rfl

/-- What `run` does. -/
theorem own_run_cases (x : PSOOwn A Ω α F) (rnd : Nat → Nat → α × α) (hl : Linked x.obj.st) :
    (OwnRunAllowed x → ∃ f r, x.obj.fFun = some f ∧
      psoRun opt (f x.obj.arg) (fun g => updatePopulation (ownBox x.obj) x.obj.factors (rnd g)) x.obj.maxGen
        x.obj.maxFail (x.obj.maxGen + 1) x.obj.st = .ok r ∧
      (x.obj.maxGen ≠ 0 → ∃ d, OneSize d x.obj.st ∧ (d ≠ 0 → x.obj.posMin ≠ none ∧ x.obj.posMax ≠ none ∧
        x.obj.maxVelocity ≠ none)) ∧
      x.run opt rnd = .ok { x with obj := { x.obj with st := r.state, generation := r.generation,
                                                        record := r.record } }) ∧
    (¬ OwnRunAllowed x → x.run opt rnd = .ub) := by
  constructor
  · rintro ⟨hs, hf, hv⟩
    obtain ⟨f, hf⟩ := Option.ne_none_iff_exists'.1 hf
    obtain ⟨r, hr⟩ := psoLoop_total' opt (f x.obj.arg)
      (fun g => updatePopulation (ownBox x.obj) x.obj.factors (rnd g))
      (fun g s => updatePopulation_length _ _ _ s) x.obj.maxGen x.obj.maxFail x.obj.st hs
    have hrun : ∀ r, PSOOwn.loop opt x.obj (f x.obj.arg) rnd (x.obj.maxGen + 1) 0
          { x.obj.st with fail := 0 } [] = .ok r →
        x.run opt rnd = .ok { x with obj := { x.obj with st := r.state, generation := r.generation,
                                                          record := r.record } } := by
      intro r hr
      simp only [PSOOwn.run, PSOFull.fitness, hf, readMember, Out.ok_bind]
      rw [hr]; rfl
    have hd : x.obj.maxGen ≠ 0 → ∃ d, OneSize d x.obj.st ∧ (d ≠ 0 → x.obj.posMin ≠ none ∧
        x.obj.posMax ≠ none ∧ x.obj.maxVelocity ≠ none) := by
      intro hG
      obtain ⟨⟨d, hd⟩, hb⟩ := hv.resolve_left hG
      refine ⟨d, oneSize_of hl hd, fun h0 => hb ?_⟩
      obtain ⟨p, ps, e⟩ := List.exists_cons_of_ne_nil hs
      refine ⟨p, by rw [e]; simp, fun h' => h0 ?_⟩
      rw [← (hd p (by rw [e]; simp)).1, h']; rfl
    refine ⟨f, r, hf, hr, hd, hrun r ?_⟩
    by_cases hG : x.obj.maxGen = 0
    · rw [own_loop_zero opt x.obj hG]; exact hr
    · obtain ⟨d, h1, h2⟩ := hd hG
      rw [own_loop_eq opt x.obj d _ rnd h2 _ _ _ _ (show OneSize d { x.obj.st with fail := 0 } from ⟨h1.1, h1.2⟩)]
      exact hr
  · intro h
    by_cases hf : x.obj.fFun = none
    · simp [PSOOwn.run, PSOFull.fitness, hf, readMember]
    obtain ⟨f, hf⟩ := Option.ne_none_iff_exists'.1 hf
    simp only [PSOOwn.run, PSOFull.fitness, hf, readMember, Out.ok_bind]
    by_cases hs : x.obj.st.swarm = []
    · have : updatePGBest opt (psoComputeAllFitness (f x.obj.arg) { x.obj.st with fail := 0 }) = .ub :=
        updatePGBest_nil opt _ (by simp [psoComputeAllFitness, hs])
      simp only [PSOOwn.loop, this]
      rfl
    · have hG : x.obj.maxGen ≠ 0 := fun h' => h ⟨hs, by simp [hf], .inl h'⟩
      have hs' : (psoComputeAllFitness (f x.obj.arg) { x.obj.st with fail := 0 }).swarm ≠ [] := by
        simpa [psoComputeAllFitness] using hs
      obtain ⟨t, ht, -, hfail⟩ := updatePGBest_total opt _ hs'
      have hfail' : t.fail ≤ 1 := hfail
      simp only [PSOOwn.loop, ht, Out.ok_bind]
      rw [if_neg (by omega), if_neg (by omega)]
      rcases own_moveAll_ub x.obj t.gBest.position (rnd (0 + 1)) t.swarm 0 with hm | ⟨qs, hm, hall⟩
      · rw [hm]; rfl
      · exfalso
        apply h
        refine ⟨hs, by simp [hf], .inr ⟨⟨t.gBest.position.length, ?_⟩, ?_⟩⟩
        · exact (sizes_update opt _ ht (fun a b => a.length = t.gBest.position.length ∧
            b.length = t.gBest.position.length)).1 fun p hp => ⟨(hall p hp).1, (hall p hp).2.1⟩
        · rintro ⟨p, hp, hpe⟩
          have := (sizes_update opt _ ht (fun a b => a ≠ [] → x.obj.posMin ≠ none ∧ x.obj.posMax ≠ none ∧
            x.obj.maxVelocity ≠ none)).1 (fun p hp => (hall p hp).2.2)
          exact this p hp hpe

theorem own_setter_changes (x y : PSOFull A α F) (c : PSOSetter A α F)
    (h : psoFullCall (fun u _ _ => u) opt x c.toCall = .ok y) : y.st = x.st ∧ y.generation = x.generation ∧
      y.record = x.record := by
  cases c with
  | setDimensions d =>
    simp only [PSOSetter.toCall, psoFullCall] at h; split_ifs at h; cases h; exact ⟨rfl, rfl, rfl⟩
  | setRange a b =>
    simp only [PSOSetter.toCall, psoFullCall, PSOFull.setRange] at h; split_ifs at h; cases h
    exact ⟨rfl, rfl, rfl⟩
  | setMaxVelocity a =>
    simp only [PSOSetter.toCall, psoFullCall, PSOFull.setMaxVelocity] at h; split_ifs at h; cases h
    exact ⟨rfl, rfl, rfl⟩
  | setPVRange a b v =>
    simp only [PSOSetter.toCall, psoFullCall, PSOFull.setRange, PSOFull.setMaxVelocity, Out.bind_eq_ok] at h
    obtain ⟨z, hz, h⟩ := h
    split_ifs at hz; cases hz
    split_ifs at h; cases h
    exact ⟨rfl, rfl, rfl⟩
  | _ => simp only [PSOSetter.toCall, psoFullCall] at h; cases h; exact ⟨rfl, rfl, rfl⟩

/-- What `initializePop` does. -/
theorem own_init_cases (x : PSOOwn A Ω α F) (w : Nat → Ω) (blank : List α × List α) :
    (OwnInitAllowed x → ∃ i f s, x.iFun = some i ∧ x.obj.fFun = some f ∧
      psoInitializePop x.obj.K (fun k => i x.obj.arg (w k) (x.before blank k)) (f x.obj.arg) = .ok s ∧
      x.initializePop w blank = .ok { x with obj := { x.obj with st := s, generation := 0 } }) ∧
    (¬ OwnInitAllowed x → x.initializePop w blank = .ub) := by
  constructor
  · rintro ⟨hK, h1, h2⟩
    obtain ⟨i, h1⟩ := Option.ne_none_iff_exists'.1 h1
    obtain ⟨f, h2⟩ := Option.ne_none_iff_exists'.1 h2
    obtain ⟨s, hs⟩ : ∃ s, psoInitializePop x.obj.K (fun k => i x.obj.arg (w k) (x.before blank k))
        (f x.obj.arg) = .ok s := by
      obtain ⟨K, hK⟩ : ∃ K, x.obj.K = K + 1 := ⟨x.obj.K - 1, by omega⟩
      rw [hK]; unfold psoInitializePop
      simp only [List.range_succ_eq_map, List.map_cons]
      exact ⟨_, rfl⟩
    refine ⟨i, f, s, h1, h2, hs, ?_⟩
    simp only [PSOOwn.initializePop, PSOFull.fitness, h1, h2, readMember, Out.ok_bind]
    rw [if_neg (by omega), hs]; rfl
  · intro h
    unfold PSOOwn.initializePop
    split_ifs with hK
    · rfl
    · by_cases h1 : x.iFun = none
      · simp [h1, readMember]
      obtain ⟨i, h1⟩ := Option.ne_none_iff_exists'.1 h1
      have h4 : x.obj.fFun = none := by
        by_contra h4; exact h ⟨by omega, by simp [h1], h4⟩
      simp [PSOFull.fitness, h1, h4, readMember]

theorem init_linked {K : Nat} {init : Nat → List α × List α} {f : List α → F} {s : PSOState (List α) F}
    (h : psoInitializePop K init f = .ok s) : Linked s := by
  obtain ⟨-, -, h1, ⟨p, hp, h2⟩, -⟩ := pso_init_consistent K init f s h
  exact ⟨fun q hq => by rw [h1 q hq], fun _ => ⟨p, hp, by rw [h2]⟩⟩

theorem linked_move (b : PSOBox α) (o : PSOFactors α) (rnd : Nat → α × α) (d : Nat)
    (x : PSOFull A α F) {s : PSOState (List α) F} (h : OneSize d s) : Linked s := by
  refine ⟨fun p hp => by rw [(h.1 p hp).1, (h.1 p hp).2.2], fun hne => ?_⟩
  obtain ⟨p, ps, e⟩ := List.exists_cons_of_ne_nil hne
  have hp : p ∈ s.swarm := by rw [e]; simp
  exact ⟨p, hp, by rw [h.2 hne, (h.1 p hp).1]⟩

/-- An invariant of `run`: preserved by updating the bests, and by moving if the sizes agree. -/
theorem own_run_inv (P : PSOState (List α) F → Prop) (x y : PSOOwn A Ω α F) (rnd : Nat → Nat → α × α)
    (hl : Linked x.obj.st) (h : x.run opt rnd = .ok y)
    (hbest : ∀ (f : A → List α → F), x.obj.fFun = some f → ∀ s t, P s →
      updatePGBest opt (psoComputeAllFitness (f x.obj.arg) s) = .ok t → P t)
    (hfail : P { x.obj.st with fail := 0 })
    (hmove : ∀ d rnd s, (d ≠ 0 → x.obj.posMin ≠ none ∧ x.obj.posMax ≠ none ∧ x.obj.maxVelocity ≠ none) →
      OneSize d s → P s → P (updatePopulation (ownBox x.obj) x.obj.factors rnd s)) :
    P y.obj.st ∧ Linked y.obj.st ∧ y.obj.st.swarm.length = x.obj.st.swarm.length := by
  by_cases hA : OwnRunAllowed x
  · obtain ⟨f, r, hf, hr, hd, hcall⟩ := (own_run_cases opt x rnd hl).1 hA
    rw [hcall] at h
    cases h
    have hlen : ∀ s t, updatePGBest opt (psoComputeAllFitness (f x.obj.arg) s) = .ok t →
        t.swarm.length = s.swarm.length := by
      intro s t ht
      rw [(updatePGBest_shape opt _ _ ht).1]; simp [psoComputeAllFitness]
    show P r.state ∧ Linked r.state ∧ r.state.swarm.length = x.obj.st.swarm.length
    by_cases hG : x.obj.maxGen = 0
    · unfold psoRun at hr
      rw [hG] at hr
      simp only [psoLoop] at hr
      rw [Out.bind_eq_ok] at hr
      obtain ⟨t, ht, hr⟩ := hr
      rw [if_pos (by omega)] at hr
      cases hr
      exact ⟨hbest f hf _ _ hfail ht, linked_update opt _ (show Linked { x.obj.st with fail := 0 } from hl) ht,
        hlen { x.obj.st with fail := 0 } _ ht⟩
    · obtain ⟨d, h1, h2⟩ := hd hG
      have key := psoLoop_inv opt (fun s => P s ∧ OneSize d s ∧ s.swarm.length = x.obj.st.swarm.length)
        (f x.obj.arg)
        (fun g => updatePopulation (ownBox x.obj) x.obj.factors (rnd g)) ?_ ?_ x.obj.maxGen x.obj.maxFail _ _ _ _ r
        ⟨hfail, (show OneSize d { x.obj.st with fail := 0 } from ⟨h1.1, h1.2⟩), rfl⟩ hr
      · exact ⟨key.1, linked_move (ownBox x.obj) x.obj.factors (rnd 0) d x.obj key.2.1, key.2.2⟩
      · rintro s t ⟨q1, q2, q3⟩ ht
        exact ⟨hbest f hf _ _ q1 ht, oneSize_update opt _ d q2 ht, by rw [hlen _ _ ht]; exact q3⟩
      · rintro g s ⟨q1, q2, q3⟩
        exact ⟨hmove d _ s h2 q2 q1, oneSize_move x.obj d _ q2, by rw [updatePopulation_length]; exact q3⟩
  · rw [(own_run_cases opt x rnd hl).2 hA] at h; cases h

theorem own_call_linked (x y : PSOOwn A Ω α F) (c : PSOOwnCall A Ω α F) (hl : Linked x.obj.st)
    (h : psoOwnCall opt x c = .ok y) : Linked y.obj.st := by
  cases c with
  | set c =>
    simp only [psoOwnCall, Out.bind_eq_ok] at h
    obtain ⟨z, hz, h⟩ := h
    cases h
    show Linked z.st
    rw [(own_setter_changes opt x.obj z c hz).1]; exact hl
  | setiFun f => cases h; exact hl
  | initializePop w blank =>
    by_cases hA : OwnInitAllowed x
    · obtain ⟨i, f, s, -, -, hs, hcall⟩ := (own_init_cases x w blank).1 hA
      have h' : x.initializePop w blank = .ok y := h
      rw [hcall] at h'
      cases h'
      exact init_linked hs
    · have h' : x.initializePop w blank = .ok y := h
      rw [(own_init_cases x w blank).2 hA] at h'; cases h'
  | run rnd =>
    exact (own_run_inv opt (fun _ => True) x y rnd hl h (fun _ _ _ _ _ _ => trivial) trivial
      (fun _ _ _ _ _ _ => trivial)).2.1

theorem own_session_snoc (x : PSOOwn A Ω α F) (cs : List (PSOOwnCall A Ω α F)) (c : PSOOwnCall A Ω α F) :
    psoOwnSession opt x (cs ++ [c]) = psoOwnSession opt x cs >>= fun y => psoOwnCall opt y c := by
  unfold psoOwnSession
  rw [List.foldlM_append]
  congr 1
  funext y
  show (psoOwnCall opt y c >>= fun z => Out.ok z) = _
  cases psoOwnCall opt y c <;> rfl

theorem own_session_append (x : PSOOwn A Ω α F) (cs ds : List (PSOOwnCall A Ω α F)) :
    psoOwnSession opt x (cs ++ ds) = psoOwnSession opt x cs >>= fun y => psoOwnSession opt y ds := by
  unfold psoOwnSession
  rw [List.foldlM_append]

theorem own_session_linked (x y : PSOOwn A Ω α F) (cs : List (PSOOwnCall A Ω α F)) (hl : Linked x.obj.st)
    (h : psoOwnSession opt x cs = .ok y) : Linked y.obj.st := by
  induction cs generalizing x with
  | nil => cases h; exact hl
  | cons c cs ih =>
    unfold psoOwnSession at h
    rw [List.foldlM_cons, Out.bind_eq_ok] at h
    obtain ⟨z, hz, h⟩ := h
    exact ih z (own_call_linked opt x z c hl hz) h

theorem own_new_linked (o0 : PSOFactors α) (dim0 : Option Int) (j : PSOJunk A α F)
    (i0 : Option (PSOInitFun A Ω α)) : Linked (PSOOwn.new o0 dim0 j i0).obj.st :=
  ⟨fun p hp => by simp [PSOOwn.new, PSOFull.new] at hp, fun h => absurd rfl h⟩

/-- What a call changes. -/
theorem own_call_changes (x y : PSOOwn A Ω α F) (c : PSOOwnCall A Ω α F) (hl : Linked x.obj.st)
    (h : psoOwnCall opt x c = .ok y) :
    (y.obj.K, y.obj.maxGen, y.obj.maxFail) = (ownGiveOption c).getD (x.obj.K, x.obj.maxGen, x.obj.maxFail) ∧
    y.obj.factors = (ownGiveFactors c).getD x.obj.factors ∧ y.obj.fFun = (ownGiveFun c).getD x.obj.fFun ∧
    y.iFun = (ownGiveInit c).getD x.iFun ∧ y.obj.arg = (ownGiveArg c).getD x.obj.arg ∧
    y.obj.dim = (ownGiveDim c).getD x.obj.dim ∧ y.obj.posMin = (ownGiveMin c).getD x.obj.posMin ∧
    y.obj.posMax = (ownGiveMax c).getD x.obj.posMax ∧
    y.obj.maxVelocity = (ownGiveVel c).getD x.obj.maxVelocity := by
  cases c with
  | set c =>
    simp only [psoOwnCall, Out.bind_eq_ok] at h
    obtain ⟨z, hz, h⟩ := h
    cases h
    obtain ⟨e1, e2, e3, e4, e5, e6, e7, e8⟩ := psoFullCall_changes _ opt _ _ _ hz
    refine ⟨e1.trans ?_, e2.trans ?_, e3.trans ?_, ?_, e4.trans ?_, e5.trans ?_, e6.trans ?_, e7.trans ?_, e8.trans ?_⟩
      <;> cases c <;> rfl
  | setiFun f => cases h; exact ⟨rfl, rfl, rfl, rfl, rfl, rfl, rfl, rfl, rfl⟩
  | initializePop w blank =>
    have h' : x.initializePop w blank = .ok y := h
    by_cases hA : OwnInitAllowed x
    · obtain ⟨i, f, s, -, -, -, hz⟩ := (own_init_cases x w blank).1 hA
      rw [h'] at hz
      cases hz
      exact ⟨rfl, rfl, rfl, rfl, rfl, rfl, rfl, rfl, rfl⟩
    · rw [(own_init_cases x w blank).2 hA] at h'; cases h'
  | run rnd =>
    have h' : x.run opt rnd = .ok y := h
    by_cases hA : OwnRunAllowed x
    · obtain ⟨f, r, -, -, -, hz⟩ := (own_run_cases opt x rnd hl).1 hA
      rw [h'] at hz
      cases hz
      exact ⟨rfl, rfl, rfl, rfl, rfl, rfl, rfl, rfl, rfl⟩
    · rw [(own_run_cases opt x rnd hl).2 hA] at h'; cases h'

/-- **C142** (settings).  After any history that returned, each setting is the one given last, or its initial value:
options 200 / 300 / 100 and the constructor's factors, the null pointer as fitness function, the initialiser given at
compile time, indeterminate bounds.  Neither `initializePop()` nor `run()` changes any of them. -/
theorem pso_own_settings (o0 : PSOFactors α) (dim0 : Option Int) (j : PSOJunk A α F)
    (i0 : Option (PSOInitFun A Ω α)) (cs : List (PSOOwnCall A Ω α F)) (x : PSOOwn A Ω α F)
    (h : psoOwnSession opt (.new o0 dim0 j i0) cs = .ok x) :
    (x.obj.K, x.obj.maxGen, x.obj.maxFail) = lastSet ownGiveOption cs (200, 300, 100) ∧
    x.obj.factors = lastSet ownGiveFactors cs o0 ∧ x.obj.fFun = lastSet ownGiveFun cs none ∧
    x.iFun = lastSet ownGiveInit cs i0 ∧ x.obj.arg = lastSet ownGiveArg cs j.arg ∧
    x.obj.dim = lastSet ownGiveDim cs dim0 ∧ x.obj.posMin = lastSet ownGiveMin cs none ∧
    x.obj.posMax = lastSet ownGiveMax cs none ∧ x.obj.maxVelocity = lastSet ownGiveVel cs none := by
  induction cs using List.reverseRecOn generalizing x with
  | nil => cases h; exact ⟨rfl, rfl, rfl, rfl, rfl, rfl, rfl, rfl, rfl⟩
  | append_singleton cs c ih =>
    rw [own_session_snoc, Out.bind_eq_ok] at h
    obtain ⟨w, hw, h⟩ := h
    obtain ⟨i1, i2, i3, i4, i5, i6, i7, i8, i9⟩ := ih w hw
    obtain ⟨c1, c2, c3, c4, c5, c6, c7, c8, c9⟩ := own_call_changes opt w x c
      (own_session_linked opt _ _ cs (own_new_linked o0 dim0 j i0) hw) h
    simp only [lastSet_snoc]
    exact ⟨by rw [c1, i1], by rw [c2, i2], by rw [c3, i3], by rw [c4, i4], by rw [c5, i5], by rw [c6, i6],
      by rw [c7, i7], by rw [c8, i8], by rw [c9, i9]⟩

/-- **C142** (when the calls are defined).  After any history of calls, `run()` returns exactly if there are
particles, a fitness function, and – unless the maximum of generations is 0 – all vectors the initialiser wrote
have one size and, if they have entries, the bounds and the velocity limit are set; `initializePop()` returns
exactly if the population size is positive and both functions are set.  Otherwise the behaviour is undefined.
Whether the size is the number of dimensions that was set does not matter. -/
theorem pso_own_defined (o0 : PSOFactors α) (dim0 : Option Int) (j : PSOJunk A α F)
    (i0 : Option (PSOInitFun A Ω α)) (cs : List (PSOOwnCall A Ω α F)) (x : PSOOwn A Ω α F)
    (h : psoOwnSession opt (.new o0 dim0 j i0) cs = .ok x) :
    (∀ rnd, ((∃ y, psoOwnCall opt x (.run rnd) = .ok y) ↔ OwnRunAllowed x) ∧
      (psoOwnCall opt x (.run rnd) = .ub ↔ ¬ OwnRunAllowed x)) ∧
    (∀ w blank, ((∃ y, psoOwnCall opt x (.initializePop w blank) = .ok y) ↔ OwnInitAllowed x) ∧
      (psoOwnCall opt x (.initializePop w blank) = .ub ↔ ¬ OwnInitAllowed x)) := by
  have hl := own_session_linked opt _ x cs (own_new_linked o0 dim0 j i0) h
  constructor
  · intro rnd
    obtain ⟨q1, q2⟩ := own_run_cases opt x rnd hl
    by_cases hA : OwnRunAllowed x
    · obtain ⟨f, r, -, -, -, hcall⟩ := q1 hA
      have hc : psoOwnCall opt x (.run rnd) = _ := hcall
      exact ⟨⟨fun _ => hA, fun _ => ⟨_, hc⟩⟩, ⟨fun h => (by rw [hc] at h; cases h), fun h => absurd hA h⟩⟩
    · have hc : psoOwnCall opt x (.run rnd) = .ub := q2 hA
      exact ⟨⟨fun ⟨y, hy⟩ => (by rw [hc] at hy; cases hy), fun h => absurd h hA⟩, ⟨fun _ => hA, fun _ => hc⟩⟩
  · intro w blank
    obtain ⟨q1, q2⟩ := own_init_cases x w blank
    by_cases hA : OwnInitAllowed x
    · obtain ⟨i, f, s, -, -, -, hcall⟩ := q1 hA
      have hc : psoOwnCall opt x (.initializePop w blank) = _ := hcall
      exact ⟨⟨fun _ => hA, fun _ => ⟨_, hc⟩⟩, ⟨fun h => (by rw [hc] at h; cases h), fun h => absurd hA h⟩⟩
    · have hc : psoOwnCall opt x (.initializePop w blank) = .ub := q2 hA
      exact ⟨⟨fun ⟨y, hy⟩ => (by rw [hc] at hy; cases hy), fun h => absurd h hA⟩, ⟨fun _ => hA, fun _ => hc⟩⟩

/-- **C142** (what the initialiser is given, and what becomes of what it writes).  `initializePop()` makes
`populationSize` particles; position and velocity of the `k`-th are exactly what the initialiser wrote when called
with the argument in force and the old content of that particle; each particle is its own personal best, evaluated
with the fitness function and the argument in force; the global best is the first particle. -/
theorem pso_own_initialised (x y : PSOOwn A Ω α F) (w : Nat → Ω) (blank : List α × List α)
    (h : psoOwnCall opt x (.initializePop w blank) = .ok y) :
    ∃ i f, x.iFun = some i ∧ x.obj.fFun = some f ∧ y.obj.st.swarm.length = x.obj.K ∧
      (∀ (k : Nat) (p : Particle (List α) F), y.obj.st.swarm[k]? = some p →
        (p.position, p.velocity) = i x.obj.arg (w k) (match x.obj.st.swarm[k]? with
          | some q => (q.position, q.velocity)
          | none => blank) ∧
        p.fitness = f x.obj.arg p.position ∧ p.pBest = ⟨p.position, p.fitness⟩) ∧
      (∃ p, y.obj.st.swarm[0]? = some p ∧ y.obj.st.gBest = ⟨p.position, p.fitness⟩) ∧
      y.obj.generation = 0 ∧ y.obj.st.fail = 0 := by
  have h' : x.initializePop w blank = .ok y := h
  by_cases hA : OwnInitAllowed x
  · obtain ⟨i, f, s, h1, h2, hs, hcall⟩ := (own_init_cases x w blank).1 hA
    rw [hcall] at h'
    cases h'
    refine ⟨i, f, h1, h2, (pso_init_consistent _ _ _ s hs).2.1, ?_, ?_, rfl, ?_⟩
    · intro k p hp
      unfold psoInitializePop at hs
      simp only at hs
      split at hs
      · cases hs
      · cases hs
        simp only [List.getElem?_map, Option.map_eq_some_iff, List.getElem?_eq_some_iff, List.length_range,
          List.getElem_range] at hp
        obtain ⟨_, ⟨hk, rfl⟩, rfl⟩ := hp
        exact ⟨rfl, rfl, rfl⟩
    · unfold psoInitializePop at hs
      simp only at hs
      split at hs
      · cases hs
      · rename_i p l hl
        cases hs
        refine ⟨p, ?_, rfl⟩
        rw [hl]; rfl
    · exact (pso_init_consistent _ _ _ s hs).2.2.2.2
  · rw [(own_init_cases x w blank).2 hA] at h'; cases h'

end

/-! ### exact arithmetic: where the swarm is, and what it has found -/

section
variable {A Ω α F : Type} [Field α] [LinearOrder α] [IsStrictOrderedRing α]
variable (opt : FitnessOption)

/-- Every position is a seed or within the bounds. -/
def SeedOrWithin (seeds : List (List α)) (mn mx : Option α) (s : PSOState (List α) F) : Prop :=
  (∀ p ∈ s.swarm, (p.position ∈ seeds ∨ ∀ a b, mn = some a → mx = some b → Within a b p.position) ∧
    (p.pBest.position ∈ seeds ∨ ∀ a b, mn = some a → mx = some b → Within a b p.pBest.position)) ∧
  (s.swarm ≠ [] → s.gBest.position ∈ seeds ∨ ∀ a b, mn = some a → mx = some b → Within a b s.gBest.position)

theorem seedOrWithin_update [LT F] [DecidableLT F] (seeds : List (List α)) (mn mx : Option α) (f : List α → F)
    {s t : PSOState (List α) F} (hs : SeedOrWithin seeds mn mx s)
    (h : updatePGBest opt (psoComputeAllFitness f s) = .ok t) : SeedOrWithin seeds mn mx t := by
  by_cases hne : s.swarm = []
  · rw [updatePGBest_nil opt _ (by simp [psoComputeAllFitness, hne])] at h; cases h
  obtain ⟨h1, h2⟩ := updatePGBest_inv opt
    (fun v => v ∈ seeds ∨ ∀ a b, mn = some a → mx = some b → Within a b v) (fun _ => True) _ _ h
    (by
      intro p hp
      obtain ⟨q, hq, rfl⟩ := List.mem_map.1 hp
      exact ⟨(hs.1 q hq).1, trivial, (hs.1 q hq).2⟩) (hs.2 hne)
  exact ⟨fun p hp => ⟨(h1 p hp).1, (h1 p hp).2.2⟩, fun _ => h2⟩

theorem within_clamp (a b : α) (hab : a ≤ b) (v : List α) (x : PSOBox α) (h1 : x.posMin = fun _ => a)
    (h2 : x.posMax = fun _ => b) : Within a b (applyConstraint4Position x v) := by
  intro y hy
  unfold applyConstraint4Position at hy
  obtain ⟨k, hk, rfl⟩ := List.mem_mapIdx.1 hy
  rw [h1, h2]
  exact clampPos_mem a b _ hab

theorem seedOrWithin_move (seeds : List (List α)) (x : PSOFull A α F) (d : Nat) (rnd : Nat → α × α)
    (hab : ∀ a b, x.posMin = some a → x.posMax = some b → a ≤ b)
    {s : PSOState (List α) F} (hs : SeedOrWithin seeds x.posMin x.posMax s) :
    SeedOrWithin seeds x.posMin x.posMax (updatePopulation (ownBox x) x.factors rnd s) ∧
    ∀ p ∈ (updatePopulation (ownBox x) x.factors rnd s).swarm,
      ∀ a b, x.posMin = some a → x.posMax = some b → Within a b p.position := by
  have key : ∀ p ∈ (updatePopulation (ownBox x) x.factors rnd s).swarm,
      ∀ a b, x.posMin = some a → x.posMax = some b → Within a b p.position := by
    intro p hp a b h1 h2
    obtain ⟨k, hk, rfl⟩ := List.mem_mapIdx.1 hp
    exact within_clamp a b (hab a b h1 h2) _ _ (by simp [ownBox, h1]) (by simp [ownBox, h2])
  refine ⟨⟨fun p hp => ⟨.inr (key p hp), ?_⟩, fun hne => ?_⟩, key⟩
  · obtain ⟨k, hk, rfl⟩ := List.mem_mapIdx.1 hp
    exact (hs.1 _ (List.getElem_mem hk)).2
  · have : s.swarm ≠ [] := by
      intro h0; apply hne; simp [updatePopulation, h0]
    exact hs.2 this

variable [LinearOrder F]

/-- Personal bests are true values, and the `k`-th is not worse than the `k`-th seed. -/
def SeedsKept (f : List α → F) (seeds : List (List α)) (s : PSOState (List α) F) : Prop :=
  s.swarm.length = seeds.length ∧ (∀ p ∈ s.swarm, p.pBest.fitness = f p.pBest.position) ∧
  s.gBest.fitness = f s.gBest.position ∧
  ∀ (k : Nat) (p : Particle (List α) F) v, s.swarm[k]? = some p → seeds[k]? = some v →
    ¬ Better opt (f v) p.pBest.fitness

/-- The global best is not worse than any seed. -/
def BestOfSeeds (f : List α → F) (seeds : List (List α)) (s : PSOState (List α) F) : Prop :=
  ∀ v ∈ seeds, ¬ Better opt (f v) s.gBest.fitness

theorem seedsKept_update (f : List α → F) (seeds : List (List α)) {s t : PSOState (List α) F}
    (hs : SeedsKept opt f seeds s) (h : updatePGBest opt (psoComputeAllFitness f s) = .ok t) :
    SeedsKept opt f seeds t ∧ BestOfSeeds opt f seeds t := by
  by_cases hne : s.swarm = []
  · rw [updatePGBest_nil opt _ (by simp [psoComputeAllFitness, hne])] at h; cases h
  obtain ⟨h1, h2, h3, h4⟩ := hs
  obtain ⟨t', ht', hc, hpos, -, hall, hstep, -⟩ := generation_step opt f (s := s) ⟨hne, h2, h3⟩
  rw [h] at ht'; cases ht'
  have hlen : t.swarm.length = s.swarm.length := by
    have := congrArg List.length hpos; simpa using this
  have hk : ∀ (k : Nat) (p : Particle (List α) F) v, t.swarm[k]? = some p → seeds[k]? = some v →
      ¬ Better opt (f v) p.pBest.fitness := by
    intro k p v hp hv
    obtain ⟨hk, -⟩ := List.getElem?_eq_some_iff.1 hp
    have hq : s.swarm[k]? = some (s.swarm[k]'(by omega)) := List.getElem?_eq_getElem (by omega)
    exact nb_trans opt (h4 k _ v hq hv) (hstep k _ p hq hp).1
  refine ⟨⟨by omega, hc.pBest, hc.gBest, hk⟩, ?_⟩
  intro v hv
  obtain ⟨k, hk', rfl⟩ := List.getElem_of_mem hv
  have hp : t.swarm[k]? = some (t.swarm[k]'(by omega)) := List.getElem?_eq_getElem (by omega)
  exact nb_trans opt (hk k _ _ hp (List.getElem?_eq_getElem hk')) (hall _ (List.getElem_mem _)).2.2

theorem seedsKept_move (f : List α → F) (seeds : List (List α)) (b : PSOBox α) (o : PSOFactors α)
    (rnd : Nat → α × α) {s : PSOState (List α) F} (hs : SeedsKept opt f seeds s) :
    SeedsKept opt f seeds (updatePopulation b o rnd s) := by
  obtain ⟨h1, h2, h3, h4⟩ := hs
  refine ⟨by rw [updatePopulation_length]; exact h1, ?_, h3, ?_⟩
  · intro p hp
    obtain ⟨k, hk, rfl⟩ := List.mem_mapIdx.1 hp
    exact h2 s.swarm[k] (List.getElem_mem hk)
  · intro k p v hp hv
    simp only [updatePopulation, List.getElem?_mapIdx, Option.map_eq_some_iff] at hp
    obtain ⟨q, hq, rfl⟩ := hp
    exact h4 k q v hq hv


theorem own_plain_settings (x y : PSOOwn A Ω α F) (c : PSOOwnCall A Ω α F) (hc : PSOOwnCall.Plain c)
    (h : psoOwnCall opt x c = .ok y) :
    y.obj.posMin = x.obj.posMin ∧ y.obj.posMax = x.obj.posMax ∧ y.obj.fFun = x.obj.fFun ∧
    y.obj.arg = x.obj.arg ∧ ((∀ rnd, c ≠ .run rnd) → y.obj.st = x.obj.st) := by
  cases c with
  | set c =>
    simp only [psoOwnCall, Out.bind_eq_ok] at h
    obtain ⟨z, hz, h⟩ := h
    cases h
    have hst := (own_setter_changes opt x.obj z c hz).1
    obtain ⟨-, -, c3, c4, -, c6, c7, -⟩ := psoFullCall_changes _ opt x.obj z _ hz
    cases c <;> first | exact ⟨c6, c7, c3, c4, fun _ => hst⟩ | exact absurd hc (by simp [PSOOwnCall.Plain])
  | setiFun f => cases h; exact ⟨rfl, rfl, rfl, rfl, fun _ => rfl⟩
  | initializePop w blank => exact absurd hc (by simp [PSOOwnCall.Plain])
  | run rnd =>
    simp only [psoOwnCall, PSOOwn.run, Out.bind_eq_ok] at h
    obtain ⟨f, -, r, -, h⟩ := h
    cases h
    exact ⟨rfl, rfl, rfl, rfl, fun h => absurd rfl (h rnd)⟩

/-- **C142** (the result).  Let any history end with `initializePop()`, which called the user's initialiser; the
positions it wrote are the seeds.  Then let any calls follow that change neither the bounds nor the fitness function
(options, velocity limit, any number of runs).  The reported best fitness is the value of the reported position;
after at least one run it is not worse than the value of any seed; the reported position is within the bounds or
is one of the seeds, unchanged. -/
theorem pso_own_result (o0 : PSOFactors α) (dim0 : Option Int) (j : PSOJunk A α F)
    (i0 : Option (PSOInitFun A Ω α)) (before : List (PSOOwnCall A Ω α F)) (w : Nat → Ω)
    (blank : List α × List α) (x : PSOOwn A Ω α F)
    (hx : psoOwnSession opt (.new o0 dim0 j i0) (before ++ [.initializePop w blank]) = .ok x)
    (after : List (PSOOwnCall A Ω α F)) (ha : ∀ c ∈ after, PSOOwnCall.Plain c) (z : PSOOwn A Ω α F)
    (hz : psoOwnSession opt x after = .ok z) :
    ∃ f, x.obj.fFun = some f ∧ z.obj.st.gBest.fitness = f x.obj.arg z.obj.st.gBest.position ∧
      ((∃ c ∈ after, PSOOwnCall.IsRun c) → ∀ p ∈ x.obj.st.swarm,
        ¬ Better opt (f x.obj.arg p.position) z.obj.st.gBest.fitness) ∧
      (∀ a b, x.obj.posMin = some a → x.obj.posMax = some b → a ≤ b →
        (∃ p ∈ x.obj.st.swarm, z.obj.st.gBest.position = p.position) ∨
          Within a b z.obj.st.gBest.position) := by
  have hlx := own_session_linked opt _ x _ (own_new_linked o0 dim0 j i0) hx
  rw [own_session_snoc, Out.bind_eq_ok] at hx
  obtain ⟨x0, hx0, hi⟩ := hx
  have hi2 := hi
  obtain ⟨i, f, e1, e2, hlen, hall, ⟨p0, hp0, hg0⟩, -, -⟩ := pso_own_initialised opt x0 x w blank hi
  -- the settings are those before
  have hs0 : x.obj.fFun = x0.obj.fFun ∧ x.obj.arg = x0.obj.arg := by
    by_cases hA : OwnInitAllowed x0
    · obtain ⟨i', f', s, -, -, -, hcall⟩ := (own_init_cases x0 w blank).1 hA
      have h' : x0.initializePop w blank = .ok x := hi2
      rw [hcall] at h'
      cases h'
      exact ⟨rfl, rfl⟩
    · have h' : x0.initializePop w blank = .ok x := hi2
      rw [(own_init_cases x0 w blank).2 hA] at h'; cases h'
  rw [← hs0.2] at hall
  have e2' : x.obj.fFun = some f := hs0.1.trans e2
  have hmem : ∀ p ∈ x.obj.st.swarm, p.fitness = f x.obj.arg p.position ∧ p.pBest = ⟨p.position, p.fitness⟩ := by
    intro p hp
    obtain ⟨k, hk, hkp⟩ := List.getElem_of_mem hp
    exact (hall k p (by rw [← hkp]; exact List.getElem?_eq_getElem hk)).2
  have hp0m : p0 ∈ x.obj.st.swarm := List.mem_of_getElem? hp0
  set seeds := x.obj.st.swarm.map (·.position) with hseeds
  have k0 : SeedsKept opt (f x.obj.arg) seeds x.obj.st := by
    refine ⟨by simp [hseeds], fun p hp => ?_, ?_, ?_⟩
    · rw [(hmem p hp).2]; exact (hmem p hp).1
    · rw [hg0]; exact (hmem p0 hp0m).1
    · intro k p v hp hv
      rw [hseeds, List.getElem?_map, hp] at hv
      cases hv
      rw [(hmem p (List.mem_of_getElem? hp)).2]
      show ¬ Better opt _ p.fitness
      rw [(hmem p (List.mem_of_getElem? hp)).1]
      exact nb_refl opt _
  have w0 : SeedOrWithin seeds x.obj.posMin x.obj.posMax x.obj.st := by
    refine ⟨fun p hp => ?_, fun _ => .inl ?_⟩
    · have : p.position ∈ seeds := List.mem_map_of_mem hp
      exact ⟨.inl this, .inl (by rw [(hmem p hp).2]; exact this)⟩
    · rw [hg0]; exact List.mem_map_of_mem hp0m
  refine ⟨f, e2', ?_⟩
  -- induction over the calls
  have key : ∀ (after : List (PSOOwnCall A Ω α F)) (y : PSOOwn A Ω α F) (B : Prop),
      (∀ c ∈ after, PSOOwnCall.Plain c) → Linked y.obj.st → y.obj.st.swarm ≠ [] → y.obj.fFun = some f →
      y.obj.arg = x.obj.arg → y.obj.posMin = x.obj.posMin → y.obj.posMax = x.obj.posMax →
      SeedsKept opt (f x.obj.arg) seeds y.obj.st →
      (B → BestOfSeeds opt (f x.obj.arg) seeds y.obj.st) →
      ((∀ a b, x.obj.posMin = some a → x.obj.posMax = some b → a ≤ b) →
        SeedOrWithin seeds x.obj.posMin x.obj.posMax y.obj.st) →
      psoOwnSession opt y after = .ok z →
      SeedsKept opt (f x.obj.arg) seeds z.obj.st ∧ z.obj.st.swarm ≠ [] ∧
      ((B ∨ ∃ c ∈ after, PSOOwnCall.IsRun c) → BestOfSeeds opt (f x.obj.arg) seeds z.obj.st) ∧
      ((∀ a b, x.obj.posMin = some a → x.obj.posMax = some b → a ≤ b) →
        SeedOrWithin seeds x.obj.posMin x.obj.posMax z.obj.st) := by
    intro after
    induction after with
    | nil =>
      intro y B _ _ hne _ _ _ _ q1 q2 q3 h
      cases h
      exact ⟨q1, hne, fun h => q2 (h.resolve_right (by rintro ⟨c, hc, -⟩; simp at hc)), q3⟩
    | cons c cs ih =>
      intro y B hp hl hne t1 t2 t3 t4 q1 q2 q3 h
      unfold psoOwnSession at h
      rw [List.foldlM_cons, Out.bind_eq_ok] at h
      obtain ⟨v, hv, h⟩ := h
      have hc := hp c (by simp)
      obtain ⟨r1, r2, r3, r4, r5⟩ := own_plain_settings opt y v c hc hv
      have hlv := own_call_linked opt y v c hl hv
      by_cases hrun : ∃ rnd, c = .run rnd
      · obtain ⟨rnd, rfl⟩ := hrun
        have hv' : y.run opt rnd = .ok v := hv
        have hK := own_run_inv opt (SeedsKept opt (f x.obj.arg) seeds) y v rnd hl hv'
          (fun g hg s t hs ht => by
            rw [t1] at hg; cases hg
            rw [t2] at ht
            exact (seedsKept_update opt _ seeds hs ht).1) q1
          (fun d rnd s _ _ hs => seedsKept_move opt _ seeds _ _ _ hs)
        have hB : BestOfSeeds opt (f x.obj.arg) seeds v.obj.st := by
          by_cases hA : OwnRunAllowed y
          · obtain ⟨g, r, hg, hr, hd, hcall⟩ := (own_run_cases opt y rnd hl).1 hA
            rw [hcall] at hv'
            cases hv'
            rw [t1] at hg; cases hg
            rw [t2] at hr
            -- the last thing the loop does is updating the bests
            have last : ∀ (fuel gen : Nat) (s : PSOState (List α) F) (record : List F) r,
                SeedsKept opt (f x.obj.arg) seeds s →
                psoLoop opt (f x.obj.arg) (fun g => updatePopulation (ownBox y.obj) y.obj.factors (rnd g))
                  y.obj.maxGen y.obj.maxFail fuel gen s record = .ok r →
                BestOfSeeds opt (f x.obj.arg) seeds r.state := by
              intro fuel
              induction fuel with
              | zero => intro gen s record r _ h; cases h
              | succ fuel ih2 =>
                intro gen s record r hs h
                simp only [psoLoop] at h
                rw [Out.bind_eq_ok] at h
                obtain ⟨t, ht, h⟩ := h
                obtain ⟨m1, m2⟩ := seedsKept_update opt _ seeds hs ht
                split at h
                · cases h; exact m2
                · split at h
                  · cases h; exact m2
                  · exact ih2 _ _ _ r (seedsKept_move opt _ seeds _ _ _ m1) h
            exact last _ _ _ _ r (show SeedsKept opt (f x.obj.arg) seeds { y.obj.st with fail := 0 } from q1) hr
          · rw [(own_run_cases opt y rnd hl).2 hA] at hv'; cases hv'
        have hW : (∀ a b, x.obj.posMin = some a → x.obj.posMax = some b → a ≤ b) →
            SeedOrWithin seeds x.obj.posMin x.obj.posMax v.obj.st := by
          intro hab
          refine (own_run_inv opt (SeedOrWithin seeds x.obj.posMin x.obj.posMax) y v rnd hl hv'
            (fun g hg s t hs ht => seedOrWithin_update opt seeds _ _ _ hs ht) (q3 hab)
            (fun d rnd s _ _ hs => ?_)).1
          rw [← t3, ← t4] at hs ⊢
          exact (seedOrWithin_move seeds y.obj d rnd (by rw [t3, t4]; exact hab) hs).1
        have hne' : v.obj.st.swarm ≠ [] := by
          rw [← List.length_pos_iff, hK.2.2]; exact List.length_pos_iff.2 hne
        obtain ⟨u1, u2, u3, u4⟩ := ih v True (fun d hd => hp d (by simp [hd])) hlv hne' (r3.trans t1)
          (r4.trans t2) (r1.trans t3) (r2.trans t4) hK.1 (fun _ => hB) hW h
        exact ⟨u1, u2, fun _ => u3 (.inl trivial), u4⟩
      · have hst := r5 (fun rnd h => hrun ⟨rnd, h⟩)
        obtain ⟨u1, u2, u3, u4⟩ := ih v B (fun d hd => hp d (by simp [hd])) hlv (by rw [hst]; exact hne)
          (r3.trans t1) (r4.trans t2) (r1.trans t3) (r2.trans t4) (by rw [hst]; exact q1)
          (by rw [hst]; exact q2) (by rw [hst]; exact q3) h
        refine ⟨u1, u2, fun hB => u3 ?_, u4⟩
        rcases hB with hB | ⟨d, hd, hd'⟩
        · exact .inl hB
        · rcases List.mem_cons.1 hd with rfl | hd
          · exact absurd hd' hrun
          · exact .inr ⟨d, hd, hd'⟩
  obtain ⟨u1, u2, u3, u4⟩ := key after x False ha hlx (List.ne_nil_of_mem hp0m) e2' rfl rfl rfl k0
    (fun h => h.elim) (fun _ => w0) hz
  refine ⟨u1.2.2.1, fun hrun p hp => u3 (.inr hrun) _ (List.mem_map_of_mem hp), ?_⟩
  intro a b ha' hb' hab
  have := (u4 (fun a' b' h1 h2 => by rw [ha'] at h1; rw [hb'] at h2; cases h1; cases h2; exact hab)).2 u2
  rcases this with h | h
  · left
    obtain ⟨p, hp, hpe⟩ := List.mem_map.1 h
    exact ⟨p, hp, hpe.symm⟩
  · exact .inr (h a b ha' hb')

/-- **C142** (the swarm is pulled into the box).  After a `run()` that made at least one generation, every particle
is within the bounds, wherever the initialiser had put it. -/
theorem pso_own_swarm_within (o0 : PSOFactors α) (dim0 : Option Int) (j : PSOJunk A α F)
    (i0 : Option (PSOInitFun A Ω α)) (cs : List (PSOOwnCall A Ω α F)) (rnd : Nat → Nat → α × α)
    (x z : PSOOwn A Ω α F) (hx : psoOwnSession opt (.new o0 dim0 j i0) cs = .ok x)
    (hz : psoOwnCall opt x (.run rnd) = .ok z) (hg : 1 ≤ z.obj.generation) (a b : α)
    (ha : x.obj.posMin = some a) (hb : x.obj.posMax = some b) (hab : a ≤ b) :
    ∀ p ∈ z.obj.st.swarm, Within a b p.position := by
  have hl := own_session_linked opt _ x _ (own_new_linked o0 dim0 j i0) hx
  have hz' : x.run opt rnd = .ok z := hz
  by_cases hA : OwnRunAllowed x
  · obtain ⟨f, r, hf, hr, hd, hcall⟩ := (own_run_cases opt x rnd hl).1 hA
    rw [hcall] at hz'
    cases hz'
    rw [psoRun_eq] at hr
    have hst := (run_record _ _ _ _ _ _ hr).2.1
    have hg' : 1 ≤ r.generation := hg
    obtain ⟨i, hi⟩ : ∃ i, r.generation = i + 1 := ⟨r.generation - 1, by omega⟩
    rw [hi] at hst
    simp only [stateAfter] at hst
    rw [Out.bind_eq_ok] at hst
    obtain ⟨v, -, hst⟩ := hst
    intro p hp
    obtain ⟨q, hq, t1, -⟩ := updatePGBest_same opt _ _ hst p hp
    obtain ⟨q', hq', rfl⟩ := List.mem_map.1 hq
    obtain ⟨k, hk, hq''⟩ := List.mem_mapIdx.1 hq'
    rw [t1]
    subst hq''
    exact within_clamp a b hab _ _ (by simp [ownBox, ha]) (by simp [ownBox, hb])
  · rw [(own_run_cases opt x rnd hl).2 hA] at hz'; cases hz'

end

/-! ### non-vacuity, and what does not hold -/

/-- A history for one dimension, minimising `|x|^2`, bounds `[5, 10]`: the initialiser puts particle `k` at
`seed k`. -/
def ownDemo (seed : Nat → List ℚ) (maxGen : Nat) : List (PSOOwnCall Nat Nat ℚ ℚ) :=
  [.set (.setOption 2 maxGen 0 ⟨1, 1, 1⟩), .set (.setfFun (some fun _ v => v.headD 0 * v.headD 0)),
   .set (.setArgs 7), .set (.setPVRange 5 10 1), .setiFun (some fun _ k _ => (seed k, (seed k).map fun _ => 0)),
   .initializePop (fun k => k) ([], []), .run (fun _ _ => (1/2, 1/2))]

/-- The start object. -/
def ownDemoNew : PSOOwn Nat Nat ℚ ℚ := .new ⟨1, 1, 1⟩ none ⟨0, ⟨[], 0⟩, 0, 0⟩ none

/-- The reported best is outside the bounds: seeds 1 and 8, bounds `[5, 10]`.  The seed 1 is reported although no
particle stays there. -/
theorem pso_own_outside :
    (psoOwnSession .lessBetter ownDemoNew (ownDemo (fun k => if k = 0 then [1] else [8]) 3)).satisfies (fun z =>
      z.obj.st.gBest.position == [1] && z.obj.st.gBest.fitness == 1 &&
      z.obj.st.swarm.map (·.position) == [[5], [5]] && z.obj.generation == 3) = true := by decide +kernel

/-- Seeds within the bounds: the best is better than both. -/
example : (psoOwnSession .lessBetter ownDemoNew (ownDemo (fun k => if k = 0 then [6] else [8]) 3)).satisfies
    (fun z => decide (z.obj.st.gBest.fitness < 36) || z.obj.st.gBest.fitness == 36) = true := by decide +kernel

/-- Vectors of different sizes: undefined with at least one generation, defined without. -/
example : psoOwnSession .lessBetter ownDemoNew (ownDemo (fun k => if k = 0 then [6] else [8, 8]) 1) = .ub ∧
    (psoOwnSession .lessBetter ownDemoNew (ownDemo (fun k => if k = 0 then [6] else [8, 8]) 0)).satisfies
      (fun z => z.obj.st.gBest.position == [6]) = true :=
  ⟨out_ub_of _ (by decide +kernel), by decide +kernel⟩

end Heu
