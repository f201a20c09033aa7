import Verif.Spec.PSOCallsFl
import Verif.Props.PSOCalls

/-!
# Runs of a swarm whose fitness values need not all be comparable
-/

set_option linter.unusedVariables false
set_option linter.unusedSectionVars false
set_option linter.unusedSimpArgs false

namespace Heu
open Spec

/-- The comparison of the program. -/
abbrev Bt {F : Type} [LT F] [DecidableLT F] (opt : FitnessOption) (a b : F) : Prop := psoBetter opt a b = true

/-- A comparison that is an order on the numbers `N` and false for everything else. -/
structure PartialNumbers {F : Type} [LT F] [DecidableLT F] (opt : FitnessOption) (N : F → Prop) : Prop where
  irrefl : ∀ a : F, ¬ Bt opt a a
  asymm : ∀ {a b : F}, Bt opt a b → ¬ Bt opt b a
  trans : ∀ {a b c : F}, ¬ Bt opt a b → ¬ Bt opt b c → N b → ¬ Bt opt a c
  num : ∀ {a b : F}, Bt opt a b → N a

/-- The value is a number, one of those in the list, and none of these is better. -/
structure IsTop {V F : Type} [LT F] [DecidableLT F] (opt : FitnessOption) (N : F → Prop) (vals : List (V × F)) (y : F) :
    Prop where
  num : N y
  mem : ∃ x, (x, y) ∈ vals
  best : ∀ v ∈ vals, ¬ Bt opt v.2 y

section
variable {V F ω : Type} [LT F] [DecidableLT F] {opt : FitnessOption} {N : F → Prop} (P : PartialNumbers opt N)

include P in
theorem updatePBest_num (p : Particle V F) (h : N p.pBest.fitness) : N (updatePBest opt p).pBest.fitness := by
  unfold updatePBest
  split
  · rename_i hb; exact P.num hb
  · exact h

/-- What holds between generations. -/
structure SwarmInvN (opt : FitnessOption) (N : F → Prop) (s : PSOState V F) (vals : List (V × F)) : Prop where
  pBests : ∀ p ∈ s.swarm, (p.pBest.position, p.pBest.fitness) ∈ vals
  gBest : (s.gBest.position, s.gBest.fitness) ∈ vals
  cover : ∀ v ∈ vals, ¬ Bt opt v.2 s.gBest.fitness ∨ ∃ p ∈ s.swarm, ¬ Bt opt v.2 p.pBest.fitness
  numP : ∀ p ∈ s.swarm, N p.pBest.fitness
  numG : N s.gBest.fitness

include P in
theorem pgBestLoop_specN (n : Nat) : ∀ (i : Nat) (swarm : List (Particle V F)) (cur : Nat),
    i + n = swarm.length → (cur < i ∨ (i = 0 ∧ cur = 0 ∧ 0 < n)) →
    (∀ (k : Nat) (p q : Particle V F), k < i → swarm[k]? = some p → swarm[cur]? = some q →
      ¬ Bt opt p.pBest.fitness q.pBest.fitness) → (∀ p ∈ swarm, N p.pBest.fitness) →
    ∃ c, pgBestLoop opt n i swarm cur =
        (swarm.take i ++ (swarm.drop i).map (updatePBest opt), c) ∧ c < swarm.length ∧
      ∀ (k : Nat) (p q : Particle V F), (swarm.take i ++ (swarm.drop i).map (updatePBest opt))[k]? = some p →
        (swarm.take i ++ (swarm.drop i).map (updatePBest opt))[c]? = some q →
        ¬ Bt opt p.pBest.fitness q.pBest.fitness := by
  induction n with
  | zero =>
    intro i swarm cur hl hc hinv hN
    have hi : i = swarm.length := by omega
    subst hi
    refine ⟨cur, ?_, ?_, ?_⟩
    · simp [pgBestLoop]
    · omega
    · intro k p q hp hq
      simp only [List.take_length, List.drop_length, List.map_nil, List.append_nil] at hp hq
      have hk : k < swarm.length := by
        by_contra h
        rw [List.getElem?_eq_none (by omega)] at hp
        cases hp
      exact hinv k p q hk hp hq
  | succ n ih =>
    intro i swarm cur hl hc hinv hN
    have hi : i < swarm.length := by omega
    obtain ⟨sw, hsw⟩ : ∃ sw, sw = swarm.modify i (updatePBest opt) := ⟨_, rfl⟩
    have hswlen : sw.length = swarm.length := by rw [hsw]; simp
    have hgi : sw[i]? = some (updatePBest opt swarm[i]) := by
      rw [hsw, List.getElem?_modify]; simp [hi]
    have hgk : ∀ k, k ≠ i → sw[k]? = swarm[k]? := by
      intro k hk
      rw [hsw, List.getElem?_modify]
      simp [Ne.symm hk]
    have hswN : ∀ p ∈ sw, N p.pBest.fitness := by
      intro p hp
      obtain ⟨k, hk, rfl⟩ := List.getElem_of_mem hp
      by_cases hki : k = i
      · subst hki
        have : sw[k] = updatePBest opt swarm[k] := Option.some.inj ((List.getElem?_eq_getElem hk).symm.trans hgi)
        rw [this]
        exact updatePBest_num P _ (hN _ (List.getElem_mem hi))
      · exact hN _ (List.mem_of_getElem? ((hgk k hki).symm.trans (List.getElem?_eq_getElem hk)))
    have hcur : cur < swarm.length := by omega
    obtain ⟨q, hq⟩ : ∃ q, sw[cur]? = some q := ⟨_, List.getElem?_eq_getElem (by omega)⟩
    have hform : swarm.take i ++ (swarm.drop i).map (updatePBest opt) =
        sw.take (i + 1) ++ (sw.drop (i + 1)).map (updatePBest opt) := by
      apply List.ext_getElem?
      intro k
      rw [List.getElem?_append, List.getElem?_append]
      simp only [List.length_take, List.getElem?_take, List.getElem?_map, List.getElem?_drop]
      rcases Nat.lt_trichotomy k i with hk | hk | hk
      · rw [if_pos (by omega), if_pos hk, if_pos (by omega), if_pos (by omega), hgk k (by omega)]
      · subst hk
        rw [if_neg (by omega), if_pos (by omega), if_pos (by omega), hgi]
        have : k + (k - min k swarm.length) = k := by omega
        rw [this, List.getElem?_eq_getElem hi]; rfl
      · rw [if_neg (by omega), if_neg (by omega)]
        have e1 : i + (k - min i swarm.length) = k := by omega
        have e2 : i + 1 + (k - min (i + 1) sw.length) = k := by omega
        rw [e1, e2, hgk k (by omega)]
    have hstep : pgBestLoop opt (n + 1) i swarm cur = pgBestLoop opt n (i + 1) sw
        (if psoBetter opt (updatePBest opt swarm[i]).pBest.fitness q.pBest.fitness then i else cur) := by
      conv_lhs => unfold pgBestLoop
      simp only [← hsw, hgi, hq]
    rw [hstep, hform, ← hswlen]
    apply ih
    · omega
    · left; split <;> omega
    · intro k p q' hk hp hq'
      by_cases hki : k = i
      · subst hki
        rw [hgi] at hp
        simp only [Option.some.injEq] at hp
        subst hp
        split at hq'
        · rw [hgi] at hq'
          simp only [Option.some.injEq] at hq'
          subst hq'
          exact P.irrefl _
        · rename_i hnb
          rw [hq] at hq'
          simp only [Option.some.injEq] at hq'
          subst hq'
          exact hnb
      · have hk' : k < i := by omega
        rw [hgk k hki] at hp
        have hci : cur < i := by omega
        have hqs : swarm[cur]? = some q := by rw [← hgk cur (by omega)]; exact hq
        have h1 := hinv k p q hk' hp hqs
        split at hq'
        · rename_i hb
          rw [hgi] at hq'
          simp only [Option.some.injEq] at hq'
          subst hq'
          exact P.trans h1 (P.asymm hb) (hswN q (List.mem_of_getElem? hq))
        · rw [hq] at hq'
          simp only [Option.some.injEq] at hq'
          subst hq'
          exact h1
    · exact hswN

include P in
/-- Complete description of one update of the bests. -/
theorem updatePGBest_specN (s : PSOState V F) (h : s.swarm ≠ []) (hN : ∀ p ∈ s.swarm, N p.pBest.fitness) :
    ∃ s', updatePGBest opt s = .ok s' ∧ s'.swarm = s.swarm.map (updatePBest opt) ∧
      (∀ p ∈ s'.swarm, ¬ Bt opt p.pBest.fitness s'.gBest.fitness) ∧
      ¬ Bt opt s.gBest.fitness s'.gBest.fitness ∧
      ((s'.gBest = s.gBest ∧ s'.fail = s.fail + 1) ∨
        (Bt opt s'.gBest.fitness s.gBest.fitness ∧ s'.fail = 0 ∧
          ∃ p ∈ s'.swarm, p.pBest = s'.gBest)) := by
  have hpos : 0 < s.swarm.length := List.length_pos_iff.2 h
  obtain ⟨c, hc, hcl, hbest⟩ := pgBestLoop_specN P s.swarm.length 0 s.swarm 0 (by omega)
    (Or.inr ⟨rfl, rfl, hpos⟩) (by intro k p q hk; omega) hN
  simp only [List.take_zero, List.drop_zero, List.nil_append] at hc hbest
  have hq : (s.swarm.map (updatePBest opt))[c]? = some (updatePBest opt s.swarm[c]) := by
    rw [List.getElem?_map, List.getElem?_eq_getElem hcl]; rfl
  have hall : ∀ p ∈ s.swarm.map (updatePBest opt),
      ¬ Bt opt p.pBest.fitness (updatePBest opt s.swarm[c]).pBest.fitness := by
    intro p hp
    obtain ⟨k, hk, hkp⟩ := List.getElem_of_mem hp
    exact hbest k p _ (by rw [List.getElem?_eq_getElem hk, hkp]) hq
  have hmem : updatePBest opt s.swarm[c] ∈ s.swarm.map (updatePBest opt) :=
    List.mem_of_getElem? hq
  have hu : updatePGBest opt s =
      if psoBetter opt (updatePBest opt s.swarm[c]).pBest.fitness s.gBest.fitness then
        .ok { swarm := s.swarm.map (updatePBest opt), gBest := (updatePBest opt s.swarm[c]).pBest,
              fail := 0 }
      else .ok { s with swarm := s.swarm.map (updatePBest opt), fail := s.fail + 1 } := by
    unfold updatePGBest
    rw [hc]
    simp only [hq]
    split
    · rename_i hs; exact absurd hs h
    · rfl
  rw [hu]
  split
  · rename_i hb
    exact ⟨_, rfl, rfl, hall, P.asymm hb, Or.inr ⟨hb, rfl, _, hmem, rfl⟩⟩
  · rename_i hb
    refine ⟨_, rfl, rfl, ?_, P.irrefl _, Or.inl ⟨rfl, rfl⟩⟩
    intro p hp
    exact P.trans (hall p hp) hb (by
      obtain ⟨q, hqm, hqe⟩ := List.mem_map.1 hmem
      rw [← hqe]
      exact updatePBest_num P _ (hN _ hqm))


include P in
theorem updatePBest_not_worseN (p : Particle V F) :
    ¬ Bt opt p.fitness (updatePBest opt p).pBest.fitness ∧
    ¬ Bt opt p.pBest.fitness (updatePBest opt p).pBest.fitness := by
  unfold updatePBest
  split
  · rename_i h
    exact ⟨P.irrefl _, P.asymm h⟩
  · rename_i h
    exact ⟨h, P.irrefl _⟩

include P in
theorem swarmLoop_logN (u : SwarmFns V F ω) (h : SwarmHost V F ω) (hh : FairSwarm h)
    (maxGen maxFail : Nat) : ∀ (fuel gen : Nat) (s : PSOState V F) (w : ω) (l : List (SwarmCall V F)) (record : List F)
    (r : SwarmResult V F (ω × List (SwarmCall V F))),
    swarmLoop opt (swarmLogged u) (swarmUnaware h) maxGen maxFail fuel gen s (w, l) record = .ok r →
    SwarmInvN opt N s (swarmValues l) →
    ∃ (blocks : List (List (SwarmCall V F))) (recs : List F),
      r.world.2 = l ++ blocks.flatten ∧ blocks.length = recs.length ∧ r.record = record ++ recs ∧
      gen + recs.length = r.generation + 1 ∧ r.record.getLast? = some r.state.gBest.fitness ∧
      (∀ b ∈ blocks, (∀ e ∈ b, e.isFit) ∧ b.length = s.swarm.length) ∧
      r.state.swarm.length = s.swarm.length ∧
      (∃ b, blocks.head? = some b ∧ ((swarmValues b).map (·.1)).Perm (s.swarm.map (·.position))) ∧
      (∃ b, blocks.getLast? = some b ∧ ∀ p ∈ r.state.swarm, (p.position, p.fitness) ∈ swarmValues b) ∧
      (
        (∀ (j : Nat) (y : F), recs[j]? = some y → IsTop opt N (swarmValues (l ++ (blocks.take (j + 1)).flatten)) y) ∧
        SwarmInvN opt N r.state (swarmValues r.world.2))
  | 0, gen, s, w, l, record, r, hr, hi => by cases hr
  | fuel + 1, gen, s, w, l, record, r, hr, hi => by
    rw [swarmLoop] at hr
    obtain ⟨sw, w1, fs, e1, e2, e3, e4, e5, e6, e7, -⟩ := swarmEvaluate_spec u h hh.order s.swarm w l
    rw [e1] at hr
    simp only [Out.ok_bind] at hr
    have hlen : sw.length = s.swarm.length := by
      have := congrArg List.length e5
      simpa using this
    cases hu : updatePGBest opt { s with swarm := sw } with
    | ub => rw [hu] at hr; cases hr
    | timeout => rw [hu] at hr; cases hr
    | ok t =>
      rw [hu] at hr
      simp only [Out.ok_bind] at hr
      have hne : sw ≠ [] := fun hn => by
        rw [updatePGBest_nil opt _ hn] at hu; cases hu
      have hpN : ∀ p ∈ sw, N p.pBest.fitness := by
        intro p hp
        have : (p.position, p.velocity, p.pBest) ∈ s.swarm.map fun p => (p.position, p.velocity, p.pBest) := by
          rw [← e5]; exact List.mem_map.2 ⟨p, hp, rfl⟩
        obtain ⟨q, hq, hqe⟩ := List.mem_map.1 this
        simp only [Prod.mk.injEq] at hqe
        rw [← hqe.2.2]
        exact hi.numP q hq
      obtain ⟨t', ht', hsw, hall, hnw, horig⟩ := updatePGBest_specN P { s with swarm := sw } hne hpN
      have htt : t' = t := Out.ok.inj (ht'.symm.trans hu)
      subst htt
      simp only at hsw hnw horig
      have htl : t'.swarm.length = s.swarm.length := by rw [hsw, List.length_map, hlen]
      have hval : swarmValues (l ++ fs) = swarmValues l ++ swarmValues fs := swarmValues_append _ _
      have hlast : ∀ p ∈ t'.swarm, (p.position, p.fitness) ∈ swarmValues fs := by
        intro p hp
        rw [hsw] at hp
        obtain ⟨q, hq, rfl⟩ := List.mem_map.1 hp
        obtain ⟨h1, h2, h3, -⟩ := updatePBest_cases opt q
        have := e6 q hq
        unfold updatePBest
        split <;> exact this
      -- the invariant after the update
      have hinv :
          SwarmInvN opt N t' (swarmValues (l ++ fs)) ∧ IsTop opt N (swarmValues (l ++ fs)) t'.gBest.fitness := by
        have hpb : ∀ p ∈ sw, (p.pBest.position, p.pBest.fitness) ∈ swarmValues l := by
          intro p hp
          have : (p.position, p.velocity, p.pBest) ∈ s.swarm.map fun p => (p.position, p.velocity, p.pBest) := by
            rw [← e5]; exact List.mem_map.2 ⟨p, hp, rfl⟩
          obtain ⟨q, hq, hqe⟩ := List.mem_map.1 this
          simp only [Prod.mk.injEq] at hqe
          rw [← hqe.2.2]
          exact hi.pBests q hq
        have hp' : ∀ p ∈ t'.swarm, (p.pBest.position, p.pBest.fitness) ∈ swarmValues (l ++ fs) := by
          intro p hp
          rw [hsw] at hp
          obtain ⟨q, hq, rfl⟩ := List.mem_map.1 hp
          rw [hval]
          obtain ⟨-, -, -, hc | hc⟩ := updatePBest_cases opt q
          · rw [hc]; exact List.mem_append_left _ (hpb q hq)
          · rw [hc]; exact List.mem_append_right _ (e6 q hq)
        have hg' : (t'.gBest.position, t'.gBest.fitness) ∈ swarmValues (l ++ fs) := by
          rcases horig with ⟨hg, -⟩ | ⟨-, -, p, hp, hg⟩
          · rw [hg, hval]; exact List.mem_append_left _ hi.gBest
          · rw [← hg]; exact hp' p hp
        have hnP : ∀ p ∈ t'.swarm, N p.pBest.fitness := by
          intro p hp
          rw [hsw] at hp
          obtain ⟨q, hq, rfl⟩ := List.mem_map.1 hp
          exact updatePBest_num P q (hpN q hq)
        have hnG : N t'.gBest.fitness := by
          rcases horig with ⟨hg, -⟩ | ⟨-, -, p, hp, hg⟩
          · rw [hg]; exact hi.numG
          · rw [← hg]; exact hnP p hp
        have hbest : ∀ v ∈ swarmValues (l ++ fs), ¬ Bt opt v.2 t'.gBest.fitness := by
          intro v hv
          rw [hval] at hv
          have hpg : ∀ q ∈ sw, ¬ Bt opt (updatePBest opt q).pBest.fitness t'.gBest.fitness := fun q hq =>
            hall _ (by rw [hsw]; exact List.mem_map_of_mem hq)
          rcases List.mem_append.1 hv with h1 | h1
          · rcases hi.cover v h1 with h2 | ⟨p, hp, h2⟩
            · exact P.trans h2 hnw hi.numG
            · have : (p.position, p.velocity, p.pBest) ∈ sw.map fun p => (p.position, p.velocity, p.pBest) := by
                rw [e5]; exact List.mem_map.2 ⟨p, hp, rfl⟩
              obtain ⟨q, hq, hqe⟩ := List.mem_map.1 this
              simp only [Prod.mk.injEq] at hqe
              rw [← hqe.2.2] at h2
              exact P.trans (P.trans h2 (updatePBest_not_worseN P q).2 (hpN q hq)) (hpg q hq)
                (updatePBest_num P q (hpN q hq))
          · obtain ⟨q, hq, -, hqf⟩ := e7 v h1
            rw [← hqf]
            exact P.trans (updatePBest_not_worseN P q).1 (hpg q hq) (updatePBest_num P q (hpN q hq))
        exact ⟨⟨hp', hg', fun v hv => Or.inl (hbest v hv), hnP, hnG⟩, hnG, ⟨_, hg'⟩, hbest⟩
      have hstop : r = ⟨t', gen, record ++ [t'.gBest.fitness], (w1, l ++ fs)⟩ →
          ∃ (blocks : List (List (SwarmCall V F))) (recs : List F),
            r.world.2 = l ++ blocks.flatten ∧ blocks.length = recs.length ∧ r.record = record ++ recs ∧
            gen + recs.length = r.generation + 1 ∧ r.record.getLast? = some r.state.gBest.fitness ∧
            (∀ b ∈ blocks, (∀ e ∈ b, e.isFit) ∧ b.length = s.swarm.length) ∧
            r.state.swarm.length = s.swarm.length ∧
            (∃ b, blocks.head? = some b ∧ ((swarmValues b).map (·.1)).Perm (s.swarm.map (·.position))) ∧
            (∃ b, blocks.getLast? = some b ∧ ∀ p ∈ r.state.swarm, (p.position, p.fitness) ∈ swarmValues b) ∧
            (
              (∀ (j : Nat) (y : F), recs[j]? = some y →
                IsTop opt N (swarmValues (l ++ (blocks.take (j + 1)).flatten)) y) ∧
              SwarmInvN opt N r.state (swarmValues r.world.2)) := by
        rintro rfl
        refine ⟨[fs], [t'.gBest.fitness], by simp, rfl, rfl, rfl, by simp, ?_, htl, ⟨fs, rfl, e4⟩,
          ⟨fs, rfl, hlast⟩, ?_⟩
        · intro b hb
          simp only [List.mem_singleton] at hb
          subst hb
          exact ⟨e2, e3⟩
        · obtain ⟨i1, i2⟩ := hinv
          refine ⟨?_, i1⟩
          intro j y hy
          cases j with
          | zero =>
            have := Option.some.inj hy
            subst this
            simpa using i2
          | succ j => simp at hy
      split at hr
      · exact hstop (Out.ok.inj hr).symm
      · split at hr
        · exact hstop (Out.ok.inj hr).symm
        · rw [swarmMove_forget] at hr
          simp only at hr
          set m := swarmMove h t'.gBest.position t'.swarm w1 with hmdef
          have hkeep := swarmMove_keeps h hh t'.gBest.position t'.swarm w1
          rw [← hmdef] at hkeep
          have hml : m.1.length = s.swarm.length := by
            have := congrArg List.length hkeep
            simp only [List.length_map] at this
            omega
          obtain ⟨i1, i2⟩ := hinv
          have hi3 : SwarmInvN opt N { t' with swarm := m.1 } (swarmValues (l ++ fs)) := by
            have hback : ∀ p ∈ m.1, ∃ q ∈ t'.swarm, q.pBest = p.pBest := by
              intro p hp
              have : (p.pBest, p.fitness) ∈ t'.swarm.map fun p => (p.pBest, p.fitness) := by
                rw [← hkeep]; exact List.mem_map.2 ⟨p, hp, rfl⟩
              obtain ⟨q, hq, hqe⟩ := List.mem_map.1 this
              simp only [Prod.mk.injEq] at hqe
              exact ⟨q, hq, hqe.1⟩
            refine ⟨?_, i1.gBest, fun v hv => Or.inl (i2.best v hv), ?_, i1.numG⟩
            · intro p hp
              obtain ⟨q, hq, hqe⟩ := hback p hp
              rw [← hqe]
              exact i1.pBests q hq
            · intro p hp
              obtain ⟨q, hq, hqe⟩ := hback p hp
              rw [← hqe]
              exact i1.numP q hq
          obtain ⟨blocks, recs, r1, r2, r3, r4, r5, r6, r7, -, ⟨bl, rl, rm⟩, r8⟩ := swarmLoop_logN u h hh maxGen maxFail fuel
            (gen + 1) { t' with swarm := m.1 } m.2 (l ++ fs) (record ++ [t'.gBest.fitness]) r hr hi3
          refine ⟨fs :: blocks, t'.gBest.fitness :: recs, ?_, by simp [r2], ?_, ?_, r5, ?_, ?_, ⟨fs, rfl, e4⟩,
            ⟨bl, by rw [List.getLast?_cons, rl]; rfl, rm⟩, ?_⟩
          · rw [r1]; simp
          · rw [r3]; simp
          · rw [List.length_cons]; omega
          · intro b hb
            rcases List.mem_cons.1 hb with rfl | hb
            · exact ⟨e2, e3⟩
            · obtain ⟨b1, b2⟩ := r6 b hb
              exact ⟨b1, b2.trans hml⟩
          · exact r7.trans hml
          · obtain ⟨j1, j2⟩ := r8
            refine ⟨?_, j2⟩
            intro j y hy
            cases j with
            | zero =>
              have := Option.some.inj hy
              subst this
              simpa using i2
            | succ j =>
              have := j1 j y hy
              simpa [List.append_assoc] using this

include P in
/-- With a particle, a run ends, within the given number of generations. -/
theorem swarmLoop_okN (u : SwarmFns V F ω) (h : SwarmHost V F ω) (hh : FairSwarm h)
    (maxGen maxFail : Nat) : ∀ (fuel gen : Nat) (s : PSOState V F) (w : ω) (l : List (SwarmCall V F)) (record : List F),
    s.swarm ≠ [] → (∀ p ∈ s.swarm, N p.pBest.fitness) → gen ≤ maxGen → maxGen + 1 ≤ gen + fuel →
    ∃ r, swarmLoop opt (swarmLogged u) (swarmUnaware h) maxGen maxFail fuel gen s (w, l) record = .ok r ∧
      r.generation ≤ maxGen
  | 0, gen, s, w, l, record, hs, hn, hg, hf => by omega
  | fuel + 1, gen, s, w, l, record, hs, hN, hg, hf => by
    rw [swarmLoop]
    obtain ⟨sw, w1, fs, e1, e2, e3, e4, e5, e6, e7, -⟩ := swarmEvaluate_spec u h hh.order s.swarm w l
    rw [e1]
    simp only [Out.ok_bind]
    have hlen : sw.length = s.swarm.length := by
      have := congrArg List.length e5
      simpa using this
    have hne : sw ≠ [] := fun hn => hs (List.length_eq_zero_iff.1 (by rw [← hlen, hn]; rfl))
    have hpN : ∀ p ∈ sw, N p.pBest.fitness := by
      intro p hp
      have : (p.position, p.velocity, p.pBest) ∈ s.swarm.map fun p => (p.position, p.velocity, p.pBest) := by
        rw [← e5]; exact List.mem_map.2 ⟨p, hp, rfl⟩
      obtain ⟨q, hq, hqe⟩ := List.mem_map.1 this
      simp only [Prod.mk.injEq] at hqe
      rw [← hqe.2.2]
      exact hN q hq
    obtain ⟨t, ht, hsw, -⟩ := updatePGBest_specN P { s with swarm := sw } hne hpN
    rw [ht]
    simp only [Out.ok_bind]
    split
    · exact ⟨_, rfl, hg⟩
    · split
      · exact ⟨_, rfl, hg⟩
      · rw [swarmMove_forget]
        simp only
        have hkeep := congrArg List.length (swarmMove_keeps h hh t.gBest.position t.swarm w1)
        simp only [List.length_map] at hkeep
        refine swarmLoop_okN u h hh maxGen maxFail fuel (gen + 1) _ _ _ _ ?_ ?_ (by omega) (by omega)
        · intro hn
          simp only at hn
          rw [hn, hsw, List.length_map] at hkeep
          exact hne (List.length_eq_zero_iff.1 hkeep.symm)
        · intro p hp
          have : (p.pBest, p.fitness) ∈ t.swarm.map fun p => (p.pBest, p.fitness) := by
            rw [← swarmMove_keeps h hh t.gBest.position t.swarm w1]; exact List.mem_map.2 ⟨p, hp, rfl⟩
          obtain ⟨q, hq, hqe⟩ := List.mem_map.1 this
          simp only [Prod.mk.injEq] at hqe
          rw [← hqe.1]
          rw [hsw] at hq
          obtain ⟨q', hq', rfl⟩ := List.mem_map.1 hq
          exact updatePBest_num P q' (hpN q' hq')

include P in
theorem swarmRuns_invN (u : SwarmFns V F ω) (h : SwarmHost V F ω) (hh : FairSwarm h) :
    ∀ (os : List (Nat × Nat)) (s : PSOState V F) (w : ω) (l : List (SwarmCall V F)),
      s.swarm ≠ [] → SwarmInvN opt N s (swarmValues l) →
      ∃ s' w' l', swarmRuns opt (swarmLogged u) (swarmUnaware h) os (s, (w, l)) = .ok (s', (w', l ++ l')) ∧
        SwarmInvN opt N s' (swarmValues (l ++ l')) ∧ (os ≠ [] → IsTop opt N (swarmValues (l ++ l')) s'.gBest.fitness)
  | [], s, w, l, hs, hi => ⟨s, w, [], by simp [swarmRuns], by simpa using hi, fun h => absurd rfl h⟩
  | o :: os, s, w, l, hs, hi => by
    obtain ⟨r, hr, hg⟩ := swarmLoop_okN P u h hh o.1 o.2 (o.1 + 1) 0 { s with fail := 0 } w l [] hs hi.numP
      (Nat.zero_le _) (by omega)
    obtain ⟨blocks, recs, r1, r2, r3, r4, r5, r6, r7, r8, r9, r10⟩ := swarmLoop_logN P u h hh o.1 o.2 _ _ _ _ _ _ _ hr
      ⟨hi.pBests, hi.gBest, hi.cover, hi.numP, hi.numG⟩
    obtain ⟨j1, j2⟩ := r10
    have hb : IsTop opt N (swarmValues r.world.2) r.state.gBest.fitness := by
      have r3' : r.record = recs := by simpa using r3
      rw [r3'] at r5
      have hne : recs ≠ [] := fun hn => by rw [hn] at r5; cases r5
      rw [List.getLast?_eq_getElem?] at r5
      have := j1 _ _ r5
      have hl : recs.length - 1 + 1 = recs.length := Nat.sub_add_cancel (List.length_pos_iff.2 hne)
      rw [hl, ← r2, List.take_length, ← r1] at this
      exact this
    have hs' : r.state.swarm ≠ [] := fun hn => by
      rw [hn] at r7
      exact hs (List.length_eq_zero_iff.1 r7.symm)
    obtain ⟨s', w', l', t1, t2, t3⟩ := swarmRuns_invN u h hh os r.state r.world.1 r.world.2 hs' j2
    refine ⟨s', w', blocks.flatten ++ l', ?_, ?_, ?_⟩
    · rw [swarmRuns]
      have : swarmRun opt (swarmLogged u) (swarmUnaware h) o.1 o.2 s (w, l) = .ok r := hr
      simp only [this]
      show swarmRuns opt (swarmLogged u) (swarmUnaware h) os (r.state, (r.world.1, r.world.2)) = _
      rw [t1, r1, List.append_assoc]
    · rw [← List.append_assoc, ← r1]; exact t2
    · intro _
      rw [← List.append_assoc, ← r1]
      cases os with
      | nil =>
        have e := Out.ok.inj t1
        simp only [Prod.mk.injEq] at e
        obtain ⟨e1, e2, e3⟩ := e
        rw [← e1, ← e3]
        exact hb
      | cons o' os' => exact t3 (by simp)


end

end Heu
