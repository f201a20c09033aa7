import Verif.Lemmas.PSOCallsFl
import Verif.Props.PSOFl

/-!
# C150: runs of a particle swarm on `double`s, whatever the user's functions do
-/

set_option linter.unusedSectionVars false
set_option linter.unusedVariables false
set_option linter.unusedSimpArgs false

namespace Heu
open Spec

theorem partialNumbers_ieee (F : Fmt) (opt : FitnessOption) :
    PartialNumbers opt (fun x : Dbl F => x.val ≠ .nan) := by
  have key : ∀ a b : Dbl F, Bt opt a b ↔
      a.val ≠ .nan ∧ b.val ≠ .nan ∧ Better opt (extended F a.val) (extended F b.val) := by
    intro a b
    cases opt
    · have h1 : Bt FitnessOption.lessBetter a b ↔ a.val.lt b.val = true := by
        show decide (a < b) = true ↔ _
        exact decide_eq_true_iff
      rw [h1, fl_lt_iff F]; rfl
    · have h1 : Bt FitnessOption.greaterBetter a b ↔ b.val.lt a.val = true := by
        show decide (b < a) = true ↔ _
        exact decide_eq_true_iff
      rw [h1, fl_lt_iff F]
      constructor
      · rintro ⟨x, y, z⟩; exact ⟨y, x, z⟩
      · rintro ⟨x, y, z⟩; exact ⟨y, x, z⟩
  constructor
  · intro a h
    exact nb_refl opt _ ((key a a).1 h).2.2
  · intro a b h h'
    exact nb_of_better opt ((key a b).1 h).2.2 ((key b a).1 h').2.2
  · intro a b c h1 h2 hb h
    obtain ⟨ha, hc, h3⟩ := (key a c).1 h
    exact nb_trans opt (fun h => h1 ((key a b).2 ⟨ha, hb, h⟩)) (fun h => h2 ((key b c).2 ⟨hb, hc, h⟩)) h3
  · intro a b h
    exact ((key a b).1 h).1

theorem bt_ieee (F : Fmt) (opt : FitnessOption) (a b : Dbl F) (ha : a.val ≠ .nan) (hb : b.val ≠ .nan)
    (h : Better opt (extended F a.val) (extended F b.val)) : Bt opt a b := by
  cases opt
  · show decide (a < b) = true
    exact decide_eq_true ((fl_lt_iff F _ _).2 ⟨ha, hb, h⟩)
  · show decide (b < a) = true
    exact decide_eq_true ((fl_lt_iff F _ _).2 ⟨hb, ha, h⟩)

theorem IsTop.ieee {V : Type} {F : Fmt} {opt : FitnessOption} {vals : List (V × Dbl F)} {y : Dbl F}
    (h : IsTop opt (fun x : Dbl F => x.val ≠ .nan) vals y) : IsBestNumber F opt vals y :=
  ⟨h.num, h.mem, fun v hv hn hb => h.best v hv (bt_ieee F opt _ _ hn h.num hb)⟩

section
variable {V ω : Type} {F : Fmt}

/-- The calls of the loop, for any comparison of the values. -/
theorem swarmLoop_calls_any {G : Type} [LT G] [DecidableLT G] (opt : FitnessOption) (u : SwarmFns V G ω)
    (h : SwarmHost V G ω) (hh : FairSwarm h) (maxGen maxFail : Nat) :
    ∀ (fuel gen : Nat) (s : PSOState V G) (w : ω) (l : List (SwarmCall V G)) (record : List G),
    s.swarm ≠ [] → gen ≤ maxGen → maxGen + 1 ≤ gen + fuel →
    ∃ r es, swarmLoop opt (swarmLogged u) (swarmUnaware h) maxGen maxFail fuel gen s (w, l) record = .ok r ∧
      r.generation ≤ maxGen ∧ r.world.2 = l ++ es ∧ (∀ e ∈ es, e.isFit) ∧
      es.length + s.swarm.length * gen = s.swarm.length * (r.generation + 1) ∧
      r.record.length + gen = record.length + r.generation + 1 ∧
      r.record.getLast? = some r.state.gBest.fitness ∧ r.state.swarm.length = s.swarm.length
  | 0, gen, s, w, l, record, hs, hg, hf => by omega
  | fuel + 1, gen, s, w, l, record, hs, hg, hf => by
    rw [swarmLoop]
    obtain ⟨sw, w1, fs, e1, e2, e3, e4, e5, -⟩ := swarmEvaluate_spec u h hh.order s.swarm w l
    rw [e1]
    simp only [Out.ok_bind]
    have hlen : sw.length = s.swarm.length := by
      have := congrArg List.length e5
      simpa using this
    have hne : sw ≠ [] := fun hn => hs (List.length_eq_zero_iff.1 (by rw [← hlen, hn]; rfl))
    obtain ⟨t, ht, htl, -⟩ := updatePGBest_total opt { s with swarm := sw } hne
    simp only at htl
    rw [ht]
    simp only [Out.ok_bind]
    split
    · refine ⟨_, fs, rfl, hg, rfl, e2, ?_, by simp; omega, by simp, htl.trans hlen⟩
      show fs.length + s.swarm.length * gen = s.swarm.length * (gen + 1)
      rw [Nat.mul_succ]; omega
    · split
      · refine ⟨_, fs, rfl, hg, rfl, e2, ?_, by simp; omega, by simp, htl.trans hlen⟩
        show fs.length + s.swarm.length * gen = s.swarm.length * (gen + 1)
        rw [Nat.mul_succ]; omega
      · rw [swarmMove_forget]
        simp only
        have hkeep := congrArg List.length (swarmMove_keeps h hh t.gBest.position t.swarm w1)
        simp only [List.length_map] at hkeep
        obtain ⟨r, es, r1, r2, r3, r4, r5, r6, r7, r8⟩ := swarmLoop_calls_any opt u h hh maxGen maxFail fuel (gen + 1)
          { t with swarm := (swarmMove h t.gBest.position t.swarm w1).1 } (swarmMove h t.gBest.position t.swarm w1).2
          (l ++ fs) (record ++ [t.gBest.fitness])
          (fun hn => by simp only at hn; rw [hn] at hkeep; exact hne (List.length_eq_zero_iff.1 (by rw [← htl, ← hkeep]; rfl)))
          (by omega) (by omega)
        simp only [hkeep, htl, hlen] at r5 r8
        refine ⟨r, fs ++ es, r1, r2, by rw [r3, List.append_assoc], ?_, ?_, ?_, r7, r8⟩
        · intro e he
          rcases List.mem_append.1 he with he | he
          · exact e2 e he
          · exact r4 e he
        · rw [Nat.mul_succ] at r5
          rw [List.length_append]; omega
        · rw [List.length_append, List.length_singleton] at r6; omega

/-- C150: a run on `double`s of a swarm with at least one particle ends within the given number of generations, whatever
the fitness function returns – NaN too –; it calls the fitness function `generation() + 1` times for each particle and
no other function. -/
theorem pso_ieee_calls (opt : FitnessOption) (u : SwarmFns V (Dbl F) ω) (h : SwarmHost V (Dbl F) ω) (hh : FairSwarm h)
    (maxGen maxFail : Nat) (s : PSOState V (Dbl F)) (hs : s.swarm ≠ []) (w : ω) (l : List (SwarmCall V (Dbl F))) :
    ∃ r es, swarmRun opt (swarmLogged u) (swarmUnaware h) maxGen maxFail s (w, l) = .ok r ∧
      r.generation ≤ maxGen ∧ r.world.2 = l ++ es ∧ (∀ e ∈ es, e.isFit) ∧
      es.length = s.swarm.length * (r.generation + 1) ∧ r.record.length = r.generation + 1 ∧
      r.record.getLast? = some r.state.gBest.fitness ∧ r.state.swarm.length = s.swarm.length := by
  obtain ⟨r, es, r1, r2, r3, r4, r5, r6, r7, r8⟩ := swarmLoop_calls_any opt u h hh maxGen maxFail (maxGen + 1) 0
    { s with fail := 0 } w l [] hs (Nat.zero_le _) (by omega)
  exact ⟨r, es, r1, r2, r3, r4, by simpa using r5, by simpa using r6, r7, r8⟩

/-- A new swarm whose first evaluations gave no NaN. -/
theorem swarm_start_inv (opt : FitnessOption) (u : SwarmFns V (Dbl F) ω) (K : Nat) (blank : Particle V (Dbl F))
    (old : List (Particle V (Dbl F))) (w : ω) (s : PSOState V (Dbl F)) (w' : ω × List (SwarmCall V (Dbl F)))
    (hi : swarmInitialize (swarmLogged u) K blank old (w, []) = .ok (s, w'))
    (hn : ∀ v ∈ swarmValues w'.2, v.2.val ≠ .nan) :
    s.swarm ≠ [] ∧ SwarmInvN opt (fun x : Dbl F => x.val ≠ .nan) s (swarmValues w'.2) := by
  have hK : 0 < K := by
    rcases Nat.eq_zero_or_pos K with h0 | h0
    · rw [(pso_init_calls u K blank old w []).1 h0] at hi; cases hi
    · exact h0
  obtain ⟨s1, w1, es, h1, h2, h3, h4, h5, h6, p0, hp0, hp1⟩ := (pso_init_calls u K blank old w []).2 hK
  have he := Out.ok.inj (h1.symm.trans hi)
  simp only [Prod.mk.injEq, List.nil_append] at he
  obtain ⟨rfl, rfl⟩ := he
  have hp : ∀ p ∈ s1.swarm, (p.pBest.position, p.pBest.fitness) ∈ swarmValues es := by
    intro p hp
    rw [h5, h6 p hp]
    exact List.mem_map.2 ⟨p, hp, rfl⟩
  refine ⟨(fun h0 => by rw [h0] at hp0; cases hp0), ⟨hp, (by rw [hp1]; exact hp p0 hp0), ?_,
    fun p hpm => hn _ (hp p hpm), (by rw [hp1]; exact hn _ (hp p0 hp0))⟩⟩
  intro v hv
  rw [h5] at hv
  obtain ⟨p, hpm, rfl⟩ := List.mem_map.1 hv
  refine .inr ⟨p, hpm, ?_⟩
  rw [h6 p hpm]
  exact (partialNumbers_ieee F opt).irrefl _

/-- C150: let none of the values that `initializePop` computes be NaN.  Then in a run – the fitness function may be noisy
and may return NaN in any of its calls – the `j`-th entry of the record is a best one among all values other than NaN that
were returned by the end of round `j`, the start included; the final best is a best of all, stored with the position for
which it was returned; and no stored best is ever NaN. -/
theorem pso_ieee_best_of_all_calls (opt : FitnessOption) (u : SwarmFns V (Dbl F) ω) (h : SwarmHost V (Dbl F) ω)
    (hh : FairSwarm h) (maxGen maxFail K : Nat) (blank : Particle V (Dbl F)) (old : List (Particle V (Dbl F))) (w : ω)
    (s : PSOState V (Dbl F)) (w' : ω × List (SwarmCall V (Dbl F)))
    (hi : swarmInitialize (swarmLogged u) K blank old (w, []) = .ok (s, w'))
    (hn : ∀ v ∈ swarmValues w'.2, v.2.val ≠ .nan) :
    ∃ r, swarmRun opt (swarmLogged u) (swarmUnaware h) maxGen maxFail s w' = .ok r ∧ r.generation ≤ maxGen ∧
      (∃ blocks : List (List (SwarmCall V (Dbl F))), r.world.2 = w'.2 ++ blocks.flatten ∧
        blocks.length = r.record.length ∧ (∀ b ∈ blocks, b.length = s.swarm.length) ∧
        ∀ (j : Nat) (y : Dbl F), r.record[j]? = some y →
          IsBestNumber F opt (swarmValues (w'.2 ++ (blocks.take (j + 1)).flatten)) y) ∧
      (r.state.gBest.position, r.state.gBest.fitness) ∈ swarmValues r.world.2 ∧
      IsBestNumber F opt (swarmValues r.world.2) r.state.gBest.fitness ∧
      (∀ p ∈ r.state.swarm, p.pBest.fitness.val ≠ .nan ∧
        (p.pBest.position, p.pBest.fitness) ∈ swarmValues r.world.2) := by
  obtain ⟨hs, hinv⟩ := swarm_start_inv opt u K blank old w s w' hi hn
  have P := partialNumbers_ieee F opt
  obtain ⟨r, hr, hg⟩ := swarmLoop_okN P u h hh maxGen maxFail (maxGen + 1) 0 { s with fail := 0 } w'.1 w'.2 [] hs
    hinv.numP (Nat.zero_le _) (by omega)
  obtain ⟨blocks, recs, r1, r2, r3, r4, r5, r6, r7, r8, r9, r10⟩ := swarmLoop_logN P u h hh maxGen maxFail _ _ _ _ _ _ _ hr
    ⟨hinv.pBests, hinv.gBest, hinv.cover, hinv.numP, hinv.numG⟩
  obtain ⟨j1, j2⟩ := r10
  have r3' : r.record = recs := by simpa using r3
  refine ⟨r, hr, hg, ⟨blocks, r1, by rw [r3']; exact r2, fun b hb => (r6 b hb).2,
    fun j y hy => (j1 j y (r3' ▸ hy)).ieee⟩, j2.gBest, ?_, fun p hp => ⟨j2.numP p hp, j2.pBests p hp⟩⟩
  rw [r3'] at r5
  have hne : recs ≠ [] := fun hn => by rw [hn] at r5; cases r5
  rw [List.getLast?_eq_getElem?] at r5
  have := (j1 _ _ r5).ieee
  have hl : recs.length - 1 + 1 = recs.length := Nat.sub_add_cancel (List.length_pos_iff.2 hne)
  rw [hl, ← r2, List.take_length, ← r1] at this
  exact this

/-- C150: the same over any number of runs after one `initializePop` that gave no NaN. -/
theorem pso_ieee_best_over_runs (opt : FitnessOption) (u : SwarmFns V (Dbl F) ω) (h : SwarmHost V (Dbl F) ω)
    (hh : FairSwarm h) (os : List (Nat × Nat)) (hos : os ≠ []) (K : Nat) (blank : Particle V (Dbl F))
    (old : List (Particle V (Dbl F))) (w : ω) (s : PSOState V (Dbl F)) (w' : ω × List (SwarmCall V (Dbl F)))
    (hi : swarmInitialize (swarmLogged u) K blank old (w, []) = .ok (s, w'))
    (hn : ∀ v ∈ swarmValues w'.2, v.2.val ≠ .nan) :
    ∃ s' w'' log, swarmRuns opt (swarmLogged u) (swarmUnaware h) os (s, w') = .ok (s', (w'', log)) ∧
      (s'.gBest.position, s'.gBest.fitness) ∈ swarmValues log ∧
      IsBestNumber F opt (swarmValues log) s'.gBest.fitness := by
  obtain ⟨hs, hinv⟩ := swarm_start_inv opt u K blank old w s w' hi hn
  obtain ⟨s', w'', l', t1, t2, t3⟩ := swarmRuns_invN (partialNumbers_ieee F opt) u h hh os s w'.1 w'.2 hs hinv
  exact ⟨s', w'', w'.2 ++ l', t1, t2.gBest, (t3 hos).ieee⟩

/-! ## NaN at the start -/

theorem updatePGBest_nanBest (opt : FitnessOption) (s t : PSOState V (Dbl F)) (hg : s.gBest.fitness.val = .nan)
    (h : updatePGBest opt s = .ok t) : t.gBest = s.gBest ∧ t.fail = s.fail + 1 := by
  have hb : ∀ x : Dbl F, psoBetter opt x s.gBest.fitness = false := by
    intro x
    have h1 : ¬ s.gBest.fitness < x := by
      show ¬ s.gBest.fitness.val.lt x.val = true
      rw [hg]; simp [Fl.lt]
    have h2 : ¬ x < s.gBest.fitness := by
      show ¬ x.val.lt s.gBest.fitness.val = true
      rw [hg]; cases x.val <;> simp [Fl.lt]
    cases opt <;> simp [psoBetter, h1, h2]
  unfold updatePGBest at h
  split at h
  · cases h
  · simp only at h
    split at h
    · cases h
    · rw [hb] at h
      simp only [Bool.false_eq_true, if_false] at h
      cases h
      exact ⟨rfl, rfl⟩

theorem swarmLoop_nan (opt : FitnessOption) (u : SwarmFns V (Dbl F) ω) (h : SwarmHost V (Dbl F) ω) (hh : FairSwarm h)
    (maxGen maxFail : Nat) : ∀ (fuel gen : Nat) (s : PSOState V (Dbl F)) (w : ω) (record : List (Dbl F))
    (r : SwarmResult V (Dbl F) ω),
    s.gBest.fitness.val = .nan → s.fail = gen → gen ≤ maxGen → (0 < maxFail → gen ≤ maxFail) →
    (∀ y ∈ record, y = s.gBest.fitness) →
    swarmLoop opt u h maxGen maxFail fuel gen s w record = .ok r →
    r.state.gBest = s.gBest ∧ (∀ y ∈ r.record, y = s.gBest.fitness) ∧
      r.generation = if maxFail = 0 then maxGen else min maxGen maxFail
  | 0, gen, s, w, record, r, hg, hf, h1, h2, hrec, hr => by cases hr
  | fuel + 1, gen, s, w, record, r, hg, hf, h1, h2, hrec, hr => by
    rw [swarmLoop] at hr
    obtain ⟨e, he, hr⟩ := Out.bind_eq_ok.1 hr
    obtain ⟨t, ht, hr⟩ := Out.bind_eq_ok.1 hr
    obtain ⟨g1, g2⟩ := updatePGBest_nanBest opt { s with swarm := e.1 } t hg ht
    simp only at g1 g2
    have hrec' : ∀ y ∈ record ++ [t.gBest.fitness], y = s.gBest.fitness := by
      intro y hy
      rcases List.mem_append.1 hy with hy | hy
      · exact hrec y hy
      · rw [List.mem_singleton.1 hy, g1]
    split at hr
    · rename_i hc
      have := Out.ok.inj hr
      subst this
      refine ⟨g1, hrec', ?_⟩
      show gen = _
      split <;> omega
    · rename_i hc
      split at hr
      · rename_i hc2
        have := Out.ok.inj hr
        subst this
        refine ⟨g1, hrec', ?_⟩
        show gen = _
        rw [if_neg (by omega)]
        omega
      · rename_i hc2
        have hk := swarmLoop_nan opt u h hh maxGen maxFail fuel (gen + 1)
          { t with swarm := (swarmMove h t.gBest.position t.swarm e.2).1 } _ _ r (by simp only [g1]; exact hg)
          (by simp only; omega) (by omega) (by omega) (by simp only [g1] at hrec' ⊢; exact hrec') hr
        simp only [g1] at hk
        exact hk

/-- C150: if the first call of the fitness function – that for the first particle in `initializePop` – returns NaN, every
run reports that particle's position at the start and NaN as its best, whatever is found; the record consists of NaN,
and the run stops when `maxFailTimes` (if not `0`) or `maxGenerations` allows no more. -/
theorem pso_ieee_first_nan (opt : FitnessOption) (u : SwarmFns V (Dbl F) ω) (h : SwarmHost V (Dbl F) ω)
    (hh : FairSwarm h) (maxGen maxFail K : Nat) (blank : Particle V (Dbl F)) (old : List (Particle V (Dbl F))) (w : ω)
    (s : PSOState V (Dbl F)) (w' : ω × List (SwarmCall V (Dbl F)))
    (hi : swarmInitialize (swarmLogged u) K blank old (w, []) = .ok (s, w'))
    (x : V) (y : Dbl F) (hx : (swarmValues w'.2).head? = some (x, y)) (hy : y.val = .nan) :
    ∃ r, swarmRun opt (swarmLogged u) (swarmUnaware h) maxGen maxFail s w' = .ok r ∧
      r.state.gBest.position = x ∧ r.state.gBest.fitness = y ∧ (∀ z ∈ r.record, z.val = .nan) ∧
      r.generation = if maxFail = 0 then maxGen else min maxGen maxFail := by
  have hK : 0 < K := by
    rcases Nat.eq_zero_or_pos K with h0 | h0
    · rw [(pso_init_calls u K blank old w []).1 h0] at hi; cases hi
    · exact h0
  obtain ⟨s1, w1, es, h1, h2, h3, h4, h5, h6, h7⟩ := (pso_init_calls u K blank old w []).2 hK
  have he := Out.ok.inj (h1.symm.trans hi)
  simp only [Prod.mk.injEq, List.nil_append] at he
  obtain ⟨rfl, rfl⟩ := he
  have hs : s1.swarm ≠ [] := fun hn => by rw [hn] at h2; simp at h2; omega
  have hg : s1.gBest = ⟨x, y⟩ := by
    have hi' := hi
    unfold swarmInitialize at hi'
    simp only at hi'
    split at hi'
    · cases hi'
    · rename_i p ps hps
      have := Out.ok.inj hi'
      simp only [Prod.mk.injEq] at this
      obtain ⟨e1, -⟩ := this
      rw [← e1] at h5 ⊢
      simp only at h5 ⊢
      rw [h5, hps] at hx
      simp only [List.map_cons, List.head?_cons, Option.some.injEq, Prod.mk.injEq] at hx
      rw [hx.1, hx.2]
  obtain ⟨r, es', r1, -⟩ := pso_ieee_calls opt u h hh maxGen maxFail s1 hs w1 es
  have hh' : FairSwarm (swarmUnaware h) := ⟨hh.order, fun g p w => hh.move g p w.1⟩
  obtain ⟨k1, k2, k3⟩ := swarmLoop_nan opt (swarmLogged u) (swarmUnaware h) hh' maxGen maxFail (maxGen + 1) 0
    { s1 with fail := 0 } (w1, es) [] r (by simp only [hg]; exact hy) rfl (Nat.zero_le _) (fun _ => Nat.zero_le _) (by simp)
    r1
  simp only [hg] at k1 k2
  exact ⟨r, r1, by rw [k1], by rw [k1], fun z hz => by rw [k2 z hz]; exact hy, k3⟩

/-- The own best of a particle, once NaN, is never replaced. -/
theorem swarmLoop_frozen (opt : FitnessOption) (u : SwarmFns V (Dbl F) ω) (h : SwarmHost V (Dbl F) ω)
    (hh : FairSwarm h) (maxGen maxFail : Nat) :
    ∀ (fuel gen : Nat) (s : PSOState V (Dbl F)) (w : ω) (l : List (SwarmCall V (Dbl F))) (record : List (Dbl F))
      (r : SwarmResult V (Dbl F) (ω × List (SwarmCall V (Dbl F)))),
    swarmLoop opt (swarmLogged u) (swarmUnaware h) maxGen maxFail fuel gen s (w, l) record = .ok r →
    ∀ (k : Nat) (m : Point V (Dbl F)), (s.swarm.map (·.pBest))[k]? = some m → m.fitness.val = .nan →
      (r.state.swarm.map (·.pBest))[k]? = some m
  | 0, gen, s, w, l, record, r, hr, k, m, hk, hm => by cases hr
  | fuel + 1, gen, s, w, l, record, r, hr, k, m, hk, hm => by
    rw [swarmLoop] at hr
    obtain ⟨sw, w1, fs, e1, -, -, -, e5, -⟩ := swarmEvaluate_spec u h hh.order s.swarm w l
    rw [e1] at hr
    simp only [Out.ok_bind] at hr
    obtain ⟨t, ht, hr⟩ := Out.bind_eq_ok.1 hr
    have hp : (sw.map (·.pBest))[k]? = some m := by
      have := congrArg (List.map fun x : V × V × Point V (Dbl F) => x.2.2) e5
      simp only [List.map_map, Function.comp_def] at this
      rw [this]; exact hk
    have hts : (t.swarm.map (·.pBest))[k]? = some m := by
      rw [(updatePGBest_shape opt _ t ht).1, List.map_map]
      rw [List.getElem?_map] at hp ⊢
      cases hq : sw[k]? with
      | none => rw [hq] at hp; cases hp
      | some q =>
        rw [hq] at hp
        simp only [Option.map_some, Option.some.injEq] at hp
        simp only [Option.map_some, Option.some.injEq, Function.comp_apply]
        have hb : psoBetter opt q.fitness q.pBest.fitness = false := by
          have h1 : ¬ q.pBest.fitness < q.fitness := by
            show ¬ q.pBest.fitness.val.lt q.fitness.val = true
            rw [hp, hm]; simp [Fl.lt]
          have h2 : ¬ q.fitness < q.pBest.fitness := by
            show ¬ q.fitness.val.lt q.pBest.fitness.val = true
            rw [hp, hm]; cases q.fitness.val <;> simp [Fl.lt]
          cases opt <;> simp [psoBetter, h1, h2]
        unfold updatePBest
        rw [hb]
        exact hp
    split at hr
    · rw [← Out.ok.inj hr]; exact hts
    · split at hr
      · rw [← Out.ok.inj hr]; exact hts
      · rw [swarmMove_forget] at hr
        refine swarmLoop_frozen opt u h hh maxGen maxFail fuel (gen + 1) _ _ _ _ r hr k m ?_ hm
        have := congrArg (List.map fun x : Point V (Dbl F) × Dbl F => x.1)
          (swarmMove_keeps h hh t.gBest.position t.swarm w1)
        simp only [List.map_map, Function.comp_def] at this
        simp only
        rw [this]
        exact hts

/-- C150: a particle for which the call of `initializePop` returns NaN keeps this position and NaN as its own best
through any number of runs, whatever the function returns for it later. -/
theorem pso_ieee_frozen_particle (opt : FitnessOption) (u : SwarmFns V (Dbl F) ω) (h : SwarmHost V (Dbl F) ω)
    (hh : FairSwarm h) (K : Nat) (blank : Particle V (Dbl F)) (old : List (Particle V (Dbl F))) (w : ω)
    (s : PSOState V (Dbl F)) (w' : ω × List (SwarmCall V (Dbl F)))
    (hi : swarmInitialize (swarmLogged u) K blank old (w, []) = .ok (s, w'))
    (k : Nat) (x : V) (y : Dbl F) (hx : (swarmValues w'.2)[k]? = some (x, y)) (hy : y.val = .nan)
    (os : List (Nat × Nat)) (q : PSOState V (Dbl F) × (ω × List (SwarmCall V (Dbl F))))
    (hq : swarmRuns opt (swarmLogged u) (swarmUnaware h) os (s, w') = .ok q) :
    ∃ p, q.1.swarm[k]? = some p ∧ p.pBest.position = x ∧ p.pBest.fitness = y := by
  have hK : 0 < K := by
    rcases Nat.eq_zero_or_pos K with h0 | h0
    · rw [(pso_init_calls u K blank old w []).1 h0] at hi; cases hi
    · exact h0
  obtain ⟨s1, w1, es, h1, h2, h3, h4, h5, h6, h7⟩ := (pso_init_calls u K blank old w []).2 hK
  have he := Out.ok.inj (h1.symm.trans hi)
  simp only [Prod.mk.injEq, List.nil_append] at he
  obtain ⟨rfl, rfl⟩ := he
  have hstart : (s1.swarm.map (·.pBest))[k]? = some ⟨x, y⟩ := by
    simp only at hx
    rw [h5, List.getElem?_map] at hx
    rw [List.getElem?_map]
    cases hp : s1.swarm[k]? with
    | none => rw [hp] at hx; cases hx
    | some p =>
      rw [hp] at hx
      simp only [Option.map_some, Option.some.injEq, Prod.mk.injEq] at hx ⊢
      rw [h6 p (List.mem_of_getElem? hp), hx.1, hx.2]
  have key : ∀ (os : List (Nat × Nat)) (z : PSOState V (Dbl F) × (ω × List (SwarmCall V (Dbl F)))),
      (z.1.swarm.map (·.pBest))[k]? = some ⟨x, y⟩ →
      swarmRuns opt (swarmLogged u) (swarmUnaware h) os z = .ok q → (q.1.swarm.map (·.pBest))[k]? = some ⟨x, y⟩ := by
    intro os
    induction os with
    | nil =>
      intro z hz hq
      rw [swarmRuns] at hq
      rw [← Out.ok.inj hq]; exact hz
    | cons o os ih =>
      intro z hz hq
      rw [swarmRuns] at hq
      obtain ⟨r, hr, hq⟩ := Out.bind_eq_ok.1 hq
      unfold swarmRun at hr
      exact ih _ (swarmLoop_frozen opt u h hh o.1 o.2 (o.1 + 1) 0 { z.1 with fail := 0 } z.2.1 z.2.2 [] r hr k _ hz hy) hq
  have := key os (s1, (w1, es)) hstart hq
  rw [List.getElem?_map] at this
  cases hp : q.1.swarm[k]? with
  | none => rw [hp] at this; cases this
  | some p =>
    rw [hp] at this
    simp only [Option.map_some, Option.some.injEq] at this
    exact ⟨p, rfl, by rw [this], by rw [this]⟩

end

/-! ## Examples -/

/-- A noisy function: from its fourth call on every second value is NaN. -/
def noisySwarmFl : SwarmFns (List (Dbl binary64)) (Dbl binary64) Nat where
  ini v w := (([Dbl.nat binary64 (w + 1)], [Dbl.nat binary64 0]), w)
  fit v _ w := (if 3 ≤ w ∧ w % 2 = 1 then ⟨.nan⟩ else Dbl.nat binary64 (w * 3 % 8), w + 1)

/-- The library's moves on `double`s, evaluated in reverse order. -/
def noisySwarmHostFl : SwarmHost (List (Dbl binary64)) (Dbl binary64) Nat :=
  swarmHost demoBoxFl demoFactorsFl (fun w => (⟨.fin false 0⟩, w)) List.reverse

example : FairSwarm noisySwarmHostFl := swarmHost_fair _ _ _ _ fun l => l.reverse_perm

/-- Four calls, one of them NaN, after three at the start: the smallest value `0` of the start stays the best. -/
example : (swarmInitialize (swarmLogged noisySwarmFl) 3 ⟨[], ⟨.nan⟩, [], ⟨[], ⟨.nan⟩⟩⟩ [] (0, [])).satisfies
    (fun s => decide ((swarmValues s.2.2).all (fun v => decide (v.2.val ≠ .nan)) = true ∧ s.1.swarm.length = 3 ∧
      s.1.gBest.fitness = Dbl.nat binary64 0)) = true := by decide +kernel

example : ((swarmInitialize (swarmLogged noisySwarmFl) 3 ⟨[], ⟨.nan⟩, [], ⟨[], ⟨.nan⟩⟩⟩ [] (0, [])).bind fun s =>
      swarmRun .greaterBetter (swarmLogged noisySwarmFl) (swarmUnaware noisySwarmHostFl) 3 0 s.1 s.2).satisfies
    (fun r => decide (r.generation = 3 ∧ (swarmValues r.world.2).any (fun v => decide (v.2.val = .nan)) = true ∧
      r.record = [Dbl.nat binary64 6, Dbl.nat binary64 6, Dbl.nat binary64 6, Dbl.nat binary64 6])) = true := by
  decide +kernel

/-- The same functions when the fifth, a NaN, is the first call of `initializePop`. -/
example : ((swarmInitialize (swarmLogged noisySwarmFl) 3 ⟨[], ⟨.nan⟩, [], ⟨[], ⟨.nan⟩⟩⟩ [] (5, [])).bind fun s =>
      swarmRun .greaterBetter (swarmLogged noisySwarmFl) (swarmUnaware noisySwarmHostFl) 9 4 s.1 s.2).satisfies
    (fun r => decide (r.generation = 4 ∧ r.state.gBest.fitness = ⟨.nan⟩ ∧
      (swarmValues r.world.2).any (fun v => decide (v.2.val ≠ .nan)) = true)) = true := by
  decide +kernel

/-- Two particles; the function is NaN in its second call only; later calls of the first give small values, those of the second large ones. -/
def onceNaNFl : SwarmFns (List (Dbl binary64)) (Dbl binary64) Nat where
  ini v w := (([Dbl.nat binary64 (w + 1)], [Dbl.nat binary64 0]), w)
  fit v _ w := (if w = 1 then ⟨.nan⟩ else if w % 2 = 0 then Dbl.nat binary64 w else Dbl.nat binary64 (90 + w), w + 1)

/-- **C150** fails when a particle other than the first starts with NaN: maximising, with the values 93 and 95 of the
second particle the run reports 4, the best of the first one. -/
theorem pso_ieee_frozen_loses_best :
    ((swarmInitialize (swarmLogged onceNaNFl) 2 ⟨[], ⟨.nan⟩, [], ⟨[], ⟨.nan⟩⟩⟩ [] (0, [])).bind fun s =>
      swarmRun .greaterBetter (swarmLogged onceNaNFl)
        (swarmUnaware (swarmHost demoBoxFl demoFactorsFl (fun w => (⟨.fin false 0⟩, w)) id)) 1 0 s.1 s.2).satisfies
    (fun r => decide ((swarmValues r.world.2).map (·.2) = [Dbl.nat binary64 0, ⟨.nan⟩, Dbl.nat binary64 2,
        Dbl.nat binary64 93, Dbl.nat binary64 4, Dbl.nat binary64 95] ∧ r.generation = 1 ∧
      r.record = [Dbl.nat binary64 2, Dbl.nat binary64 4])) = true := by
  decide +kernel

end Heu
