import Verif.Model.AOSCallsFl
import Verif.Spec.PSOCallsFl
import Verif.Props.AOSCalls
import Verif.Props.AOSFl

/-!
# C151: runs of the atomic orbital search on `double`s, whatever the user's functions do
-/

set_option linter.unusedVariables false
set_option linter.unusedSectionVars false
set_option linter.unusedSimpArgs false

namespace Heu
open Spec

section run
variable {ω : Type} {F : Fmt}

/-- One iteration of the loop, inverted. -/
theorem aosCallsLoopFl_inv {impl : AOSImpl} {opt : FitnessOption} {o : AOSOption} {b : Box (Dbl F)} {u : UserFns (List (Dbl F)) (Dbl F) ω}
    {order : List Addr → List Addr} (ho : ∀ l, (order l).Perm l) {env : ω → AOSEnvFl F} {after : ω → ω} {fuel gen : Nat}
    {s : AOSState (Dbl F)} {w : ω} {l : List (UserCall (List (Dbl F)) (Dbl F))} {record : List (Dbl F)}
    {r : AOSCallsResult (Dbl F) (ω × List (UserCall (List (Dbl F)) (Dbl F)))} (hd : DistinctNodes s.electrons)
    (hr : aosCallsLoopFl impl opt o b (logged u) order (fun s => env s.1) (fun s => (after s.1, s.2)) (fuel + 1) gen s
      (w, l) record = .ok r) :
    ∃ (pop1 : Pop (Gene (List (Dbl F)) (Dbl F))) (w1 : ω) (fs : List (UserCall (List (Dbl F)) (Dbl F)))
      (t v : AOSState (Dbl F)) (y : Dbl F) (S : List (Cell (Gene (List (Dbl F)) (Dbl F)))), PopEvaluated s.electrons pop1 fs ∧ ((values fs).map (·.1)).Perm (unvaluedPop s.electrons) ∧
      t.electrons = pop1 ∧ (NumericEnergies pop1 → ∃ c, c.2.fitness = y ∧ Unbeaten opt energyValue pop1 c) ∧
      v.electrons = keptFl o S t ∧ S.Perm t.electrons ∧ S.Pairwise (fun a b => electronCompare opt b a = false) ∧
      (v.layers.map (·.members.length)).sum = min o.electronNum pop1.length ∧
      ((r = ⟨v, gen, record ++ [y], (after w1, l ++ fs)⟩) ∨
        ∃ x new, x.electrons = v.electrons ++ new ∧ new.length = min o.electronNum pop1.length ∧
          (∀ c ∈ new, c.2.computed = false) ∧ DistinctNodes x.electrons ∧ gen < o.maxGeneration ∧
          aosCallsLoopFl impl opt o b (logged u) order (fun s => env s.1) (fun s => (after s.1, s.2)) fuel (gen + 1) x
            (after w1, l ++ fs) (record ++ [y]) = .ok r) := by
  rw [aosCallsLoopFl] at hr
  obtain ⟨e, he, hr⟩ := Out.bind_eq_ok.1 hr
  obtain ⟨t, ht, hr⟩ := Out.bind_eq_ok.1 hr
  obtain ⟨bst, hb, hr⟩ := Out.bind_eq_ok.1 hr
  obtain ⟨v, hv, hr⟩ := Out.bind_eq_ok.1 hr
  unfold aosEvaluateCalls at he
  obtain ⟨e', he', he⟩ := Out.bind_eq_ok.1 he
  have hp := ho (evalTasks s.electrons)
  obtain ⟨pop1, w1, fs, e1, e2⟩ := evalCalls_spec u (order (evalTasks s.electrons)) s.electrons w l hd
    (hp.nodup_iff.2 (evalTasks_nodup hd)) (fun a ha => by
      have := hp.mem_iff.1 ha
      unfold evalTasks at this
      obtain ⟨c, hc, rfl⟩ := List.mem_map.1 this
      exact List.mem_map_of_mem (List.mem_filter.1 hc).1)
  have e3 := Out.ok.inj (e1.symm.trans he')
  subst e3
  have e4 := Out.ok.inj he
  subst e4
  simp only at ht hv hr
  have hev : PopEvaluated s.electrons pop1 fs := by
    refine ⟨e2.fits, ?_, ?_, ?_, ?_, ?_, ?_⟩
    · unfold DistinctNodes; rw [e2.addrs]; exact hd
    · have := congrArg List.length e2.addrs
      simpa using this
    · intro c hc
      rcases e2.origin c hc with ⟨h1, h2⟩ | ⟨-, h2, -⟩
      · by_contra h3
        exact h1 (hp.mem_iff.2 ((mem_evalTasks hd h2).2 (by simpa using h3)))
      · exact h2
    · intro c hc hcc
      exact e2.keep c hc (fun h => by
        have := (mem_evalTasks hd hc).1 (hp.mem_iff.1 h)
        rw [hcc] at this; cases this)
    · intro c hc
      rcases e2.origin c hc with ⟨h1, h2⟩ | ⟨-, h2, h3⟩
      · refine List.mem_append_left _ (mem_valuedPop.2 ⟨c, h2, ?_, rfl⟩)
        by_contra h3
        exact h1 (hp.mem_iff.2 ((mem_evalTasks hd h2).2 (by simpa using h3)))
      · exact List.mem_append_right _ h3
    · intro p hpv
      obtain ⟨c, hc, -, h2, h3⟩ := e2.stored p hpv
      exact ⟨c, hc, h2, h3⟩
  -- the best
  have hbest : t.electrons = pop1 ∧
      (NumericEnergies pop1 → ∃ c, c.2.fitness = bst.fitness ∧ Unbeaten opt energyValue pop1 c) := by
    unfold computeAtomBSBELE at ht
    simp only at ht
    cases hpop : pop1 with
    | nil => rw [hpop] at ht; cases ht
    | cons front rest =>
      rw [hpop] at ht
      dsimp only at ht
      obtain ⟨prev, hprev, ht⟩ := Out.bind_eq_ok.1 ht
      have ht := Out.ok.inj ht
      subst ht
      refine ⟨rfl, fun hn => ?_⟩
      have hscan := atomScan_fl opt (front :: rest) front (fun x hx => hn x (by
        simp only [List.mem_cons] at hx ⊢; tauto))
      have hmem : atomScan opt front (front :: rest) ∈ front :: rest := by
        rcases hscan.1 with h | h
        · rw [h]; exact List.mem_cons_self
        · exact h
      have hdd : DistinctNodes (front :: rest) := by rw [← hpop]; exact hev.distinct
      have hb' := deref_of_mem hdd hmem
      have hbb := Out.ok.inj (hb'.symm.trans hb)
      exact ⟨_, by rw [hbb], hmem, fun c hc => hscan.2 c (List.mem_cons_of_mem _ hc)⟩
  obtain ⟨S, cs, ls, -, hpS, hsrt, s1, s2, s3, -, -, -, -, s6⟩ := select_okFl hv
  have hdt : DistinctNodes t.electrons := by rw [hbest.1]; exact hev.distinct
  have hsum : (v.layers.map (·.members.length)).sum = min o.electronNum pop1.length := by
    have h5 : (v.layers.map (·.members.length)).sum = ((v.layers.map (·.members)).flatten).length := by
      rw [List.length_flatten, List.map_map]; rfl
    rw [h5, (makeLayersFl_flatten s6).1, List.length_map, ← (keptFl_perm hdt hpS).length_eq, keptFl_length hdt hpS,
      hbest.1]
  refine ⟨pop1, w1, fs, t, v, bst.fitness, S, hev, evaluated_args_perm hd hp e2.args, hbest.1, hbest.2, s1, hpS, hsrt, hsum, ?_⟩
  split at hr
  · exact .inl (Out.ok.inj hr).symm
  · rename_i hstop
    obtain ⟨x, hx, hr⟩ := Out.bind_eq_ok.1 hr
    obtain ⟨q, q1, q2, q3, q4, q5, q6, q7⟩ := children_ok hx
    have hg := updateElectrons_ok (P := fun _ => True) (fun _ _ _ _ _ _ _ _ _ _ _ _ _ => trivial) q7
    have hmem := layers_members q6
    have hsum' : (q.layers.map (·.members.length)).sum = (v.layers.map (·.members.length)).sum := by
      have := congrArg (fun l => (l.map List.length).sum) hmem
      simpa [List.map_map, Function.comp_def] using this
    obtain ⟨new, n1, n2, n3⟩ := hg.new
    refine .inr ⟨x, new, by rw [n1, q1], n2.trans (hsum'.trans hsum), fun c hc => (n3 c hc).1, hg.distinct ?_, ?_, hr⟩
    · rw [q1, s1]
      exact distinct_filter hdt _
    · by_contra h
      exact hstop (.inl (by omega))

/-- What holds between iterations: all stored values are from the log, and no value of the log is better than all that
are stored. -/
structure AOSCoverFl (opt : FitnessOption) (pop : Pop (Gene (List (Dbl F)) (Dbl F)))
    (vals : List (List (Dbl F) × Dbl F)) : Prop where
  stored : ∀ p ∈ valuedPop pop, p ∈ vals
  cover : ∀ v ∈ vals, ∃ c ∈ pop, c.2.computed = true ∧ ¬ Better opt (extended F v.2.val) (energyValue c.2)

theorem aosCallsLoopFl_log {impl : AOSImpl} {opt : FitnessOption} {o : AOSOption} {b : Box (Dbl F)} {u : UserFns (List (Dbl F)) (Dbl F) ω}
    {order : List Addr → List Addr} (ho : ∀ l, (order l).Perm l) {env : ω → AOSEnvFl F} {after : ω → ω} :
    ∀ (fuel gen : Nat) (s : AOSState (Dbl F)) (w : ω) (l : List (UserCall (List (Dbl F)) (Dbl F))) (record : List (Dbl F))
      (r : AOSCallsResult (Dbl F) (ω × List (UserCall (List (Dbl F)) (Dbl F)))), DistinctNodes s.electrons →
    aosCallsLoopFl impl opt o b (logged u) order (fun s => env s.1) (fun s => (after s.1, s.2)) fuel gen s
      (w, l) record = .ok r →
    ∃ (blocks : List (List (UserCall (List (Dbl F)) (Dbl F)))) (recs : List (Dbl F)),
      r.world.2 = l ++ blocks.flatten ∧ blocks.length = recs.length ∧ r.record = record ++ recs ∧
      gen + recs.length = r.generation + 1 ∧ (gen ≤ o.maxGeneration → r.generation ≤ o.maxGeneration) ∧
      (∀ b ∈ blocks, ∀ e ∈ b, e.isFit) ∧
      (∃ b, blocks.head? = some b ∧ ((values b).map (·.1)).Perm (unvaluedPop s.electrons)) ∧
      (o.electronNum ≤ s.electrons.length →
        (∀ b ∈ blocks.tail, b.length = o.electronNum) ∧ r.state.electrons.length = o.electronNum) ∧
      (∀ c ∈ r.state.electrons, c.2.computed = true ∧
        (c.2.var, c.2.fitness) ∈ valuedPop s.electrons ++ values blocks.flatten) ∧
      DistinctNodes r.state.electrons ∧
      ((∀ p ∈ values r.world.2, p.2.val ≠ .nan) → 0 < o.electronNum → AOSCoverFl opt s.electrons (values l) →
        (∀ (j : Nat) (y : Dbl F), recs[j]? = some y → IsBestNumber F opt (values (l ++ (blocks.take (j + 1)).flatten)) y) ∧
        (∃ c ∈ r.state.electrons, ∃ y, r.record.getLast? = some y ∧ energyValue c.2 = extended F y.val) ∧
        AOSCoverFl opt r.state.electrons (values r.world.2))
  | 0, gen, s, w, l, record, r, hd, hr => by cases hr
  | fuel + 1, gen, s, w, l, record, r, hd, hr => by
    obtain ⟨pop1, w1, fs, t, v, y, S, e1, e2, e3, ebest, e6, hpS, hsrt, e7, hcase⟩ := aosCallsLoopFl_inv ho hd hr
    have hdt : DistinctNodes t.electrons := by rw [e3]; exact e1.distinct
    have hvl : v.electrons.length = min o.electronNum s.electrons.length := by
      rw [e6, keptFl_length hdt hpS, e3, e1.length]
    have hvd : DistinctNodes v.electrons := by rw [e6]; exact distinct_filter hdt _
    have hvm : ∀ c ∈ v.electrons, c ∈ pop1 := fun c hc => by
      rw [e6] at hc
      rw [← e3]
      exact keptFl_sub c hc
    have hvc : ∀ c ∈ v.electrons, c.2.computed = true ∧
        (c.2.var, c.2.fitness) ∈ valuedPop s.electrons ++ values fs := fun c hc =>
      ⟨e1.done c (hvm c hc), e1.origin c (hvm c hc)⟩
    have hval : values (l ++ fs) = values l ++ values fs := values_append _ _
    have hcov : (∀ p ∈ values (l ++ fs), p.2.val ≠ .nan) → 0 < o.electronNum → AOSCoverFl opt s.electrons (values l) →
        IsBestNumber F opt (values (l ++ fs)) y ∧ AOSCoverFl opt v.electrons (values (l ++ fs)) ∧
        ∃ c ∈ v.electrons, energyValue c.2 = extended F y.val := by
      intro hnan hN hc
      have hlogged : ∀ c ∈ pop1, (c.2.var, c.2.fitness) ∈ values (l ++ fs) := by
        intro c hcm
        rw [hval]
        rcases List.mem_append.1 (e1.origin c hcm) with h | h
        · exact List.mem_append_left _ (hc.stored _ h)
        · exact List.mem_append_right _ h
      have hnum : NumericEnergies pop1 := fun c hcm => hnan _ (hlogged c hcm)
      obtain ⟨cb, e4, e5⟩ := ebest hnum
      have hy : energyValue cb.2 = extended F y.val := by unfold energyValue; rw [e4]
      have hall : ∀ x ∈ values (l ++ fs), ¬ Better opt (extended F x.2.val) (extended F y.val) := by
        intro x hx
        rw [hval] at hx
        rw [← hy]
        rcases List.mem_append.1 hx with h | h
        · obtain ⟨c, hcm, hcc, hcb⟩ := hc.cover x h
          exact not_better_trans hcb (e5.2 c (e1.keep c hcm hcc))
        · obtain ⟨c, hcm, -, hcf⟩ := e1.stored x h
          rw [← hcf]
          exact e5.2 c hcm
      obtain ⟨d, hdm, hdf⟩ := bestEnergy_survivesFl (o := o) hdt hpS hsrt (by rw [e3]; exact hnum) hN (by rw [e3]; exact e5)
      rw [← e6] at hdm
      refine ⟨⟨by rw [← e4]; exact hnum cb e5.1, ⟨cb.2.var, by rw [← e4]; exact hlogged cb e5.1⟩, fun v hv _ => hall v hv⟩,
        ⟨?_, ?_⟩, d, hdm, by rw [hdf, hy]⟩
      · intro p hp
        obtain ⟨c, hcm, -, rfl⟩ := mem_valuedPop.1 hp
        exact hlogged c (hvm c hcm)
      · intro x hx
        exact ⟨d, hdm, (hvc d hdm).1, by rw [hdf, hy]; exact hall x hx⟩
    rcases hcase with rfl | ⟨x, new, x1, x2, x3, x4, x5, hr'⟩
    · refine ⟨[fs], [y], by simp, rfl, rfl, rfl, id, ?_, ⟨fs, rfl, e2⟩, ?_, ?_, hvd, ?_⟩
      · intro b hb
        simp only [List.mem_singleton] at hb
        subst hb
        exact e1.fits
      · intro hN
        exact ⟨by simp, by rw [hvl]; omega⟩
      · intro c hc
        simpa using hvc c hc
      · intro hnan hN hc
        obtain ⟨c1, c2, d, hdm, hdf⟩ := hcov hnan hN hc
        refine ⟨?_, ⟨d, hdm, y, by simp, hdf⟩, c2⟩
        intro j z hz
        cases j with
        | zero =>
          have := Option.some.inj hz
          subst this
          simpa using c1
        | succ j => simp at hz
    · obtain ⟨blocks, recs, r1, r2, r3, r4, r5, r6, ⟨b0, r7, r7'⟩, r8, r9, r10, r11⟩ := aosCallsLoopFl_log ho fuel (gen + 1) x
        (after w1) (l ++ fs) (record ++ [y]) r x4 hr'
      obtain ⟨u1, u2⟩ := unvalued_append v.electrons new (fun c hc => (hvc c hc).1) x3
      rw [← x1] at u1 u2
      refine ⟨fs :: blocks, y :: recs, ?_, by simp [r2], ?_, ?_, fun _ => r5 (by omega), ?_, ⟨fs, rfl, e2⟩, ?_, ?_, r10, ?_⟩
      · rw [r1]; simp
      · rw [r3]; simp
      · rw [List.length_cons]; omega
      · intro b hb
        rcases List.mem_cons.1 hb with rfl | hb
        · exact e1.fits
        · exact r6 b hb
      · intro hN
        have hlx : x.electrons.length = 2 * o.electronNum := by
          rw [x1, List.length_append, x2, hvl, e1.length]; omega
        obtain ⟨k1, k2⟩ := r8 (by omega)
        refine ⟨?_, k2⟩
        intro b hb
        simp only [List.tail_cons] at hb
        cases blocks with
        | nil => cases hb
        | cons b1 bs =>
          have hb01 : b1 = b0 := Option.some.inj r7
          rcases List.mem_cons.1 hb with rfl | hb
          · have h1 := r7'.length_eq
            rw [← hb01, u1, List.length_map, List.length_map, x2, e1.length,
              fits_length _ (fun e he => r6 b List.mem_cons_self e he)] at h1
            omega
          · exact k1 b hb
      · intro c hc
        obtain ⟨d1, d2⟩ := r9 c hc
        refine ⟨d1, ?_⟩
        rw [List.flatten_cons, values_append, ← List.append_assoc]
        rw [u2] at d2
        rcases List.mem_append.1 d2 with h | h
        · obtain ⟨c', hc', he⟩ := List.mem_map.1 h
          rw [← he]
          exact List.mem_append_left _ (hvc c' hc').2
        · exact List.mem_append_right _ h
      · intro hnan hN hc
        obtain ⟨c1, c2, -⟩ := hcov (fun p hp => hnan p (by
          rw [r1, values_append]; exact List.mem_append_left _ hp)) hN hc
        have hx : AOSCoverFl opt x.electrons (values (l ++ fs)) := by
          refine ⟨?_, ?_⟩
          · intro p hp
            rw [u2] at hp
            obtain ⟨c, hcm, rfl⟩ := List.mem_map.1 hp
            exact c2.stored _ (mem_valuedPop.2 ⟨c, hcm, (hvc c hcm).1, rfl⟩)
          · intro p hp
            obtain ⟨c, hcm, h1, h2⟩ := c2.cover p hp
            exact ⟨c, by rw [x1]; exact List.mem_append_left _ hcm, h1, h2⟩
        obtain ⟨j1, j2, j3⟩ := r11 hnan hN hx
        refine ⟨?_, j2, j3⟩
        intro j z hz
        cases j with
        | zero =>
          have := Option.some.inj hz
          subst this
          simpa using c1
        | succ j =>
          have := j1 j z hz
          simpa [List.append_assoc] using this

/-- C151: the calls of a run of the atomic orbital search that does not run into undefined behaviour: only the fitness
function is called, in `generation() + 1` rounds; the first evaluates the electrons that have no energy yet, each once;
every later round evaluates exactly `electronNum` electrons; at the end every electron has the energy that a call for
its state returned. -/
theorem aos_ieee_run_calls (impl : AOSImpl) (opt : FitnessOption) (o : AOSOption) (b : Box (Dbl F)) (u : UserFns (List (Dbl F)) (Dbl F) ω)
    (order : List Addr → List Addr) (ho : ∀ l, (order l).Perm l) (env : ω → AOSEnvFl F) (after : ω → ω)
    (fuel : Nat) (s : AOSState (Dbl F)) (hd : DistinctNodes s.electrons) (hN : o.electronNum ≤ s.electrons.length)
    (w : ω) (l : List (UserCall (List (Dbl F)) (Dbl F))) (r : AOSCallsResult (Dbl F) (ω × List (UserCall (List (Dbl F)) (Dbl F))))
    (hr : aosCallsLoopFl impl opt o b (logged u) order (fun s => env s.1) (fun s => (after s.1, s.2)) fuel 0 s
      (w, l) [] = .ok r) :
    r.generation ≤ o.maxGeneration ∧ r.record.length = r.generation + 1 ∧
    r.state.electrons.length = o.electronNum ∧
    ∃ (b0 : List (UserCall (List (Dbl F)) (Dbl F))) (blocks : List (List (UserCall (List (Dbl F)) (Dbl F)))), r.world.2 = l ++ b0 ++ blocks.flatten ∧
      blocks.length = r.generation ∧ (∀ e ∈ b0, e.isFit) ∧ ((values b0).map (·.1)).Perm (unvaluedPop s.electrons) ∧
      (∀ b ∈ blocks, (∀ e ∈ b, e.isFit) ∧ b.length = o.electronNum) ∧
      ∀ c ∈ r.state.electrons, c.2.computed = true ∧
        (c.2.var, c.2.fitness) ∈ valuedPop s.electrons ++ values (b0 ++ blocks.flatten) := by
  obtain ⟨blocks, recs, r1, r2, r3, r4, r5, r6, ⟨b0, r7, r7'⟩, r8, r9, r10, -⟩ := aosCallsLoopFl_log ho fuel 0 s w l [] r hd hr
  have r3' : r.record = recs := by simpa using r3
  cases blocks with
  | nil => cases r7
  | cons b1 bs =>
    have hb01 : b1 = b0 := Option.some.inj r7
    subst hb01
    simp only [List.length_cons] at r2
    refine ⟨r5 (Nat.zero_le _), by rw [r3']; omega, (r8 hN).2, b1, bs, by rw [r1]; simp, by omega,
      r6 b1 List.mem_cons_self, r7', ?_, ?_⟩
    · intro b hb
      exact ⟨r6 b (List.mem_cons_of_mem _ hb), (r8 hN).1 b hb⟩
    · intro c hc
      simpa using r9 c hc

/-- C151: after `initializePop`, a run that returns has called the fitness function `electronNum * (generation() + 1)`
times, and the initialiser only in `initializePop`, `electronNum` times. -/
theorem aos_ieee_run_counts (impl : AOSImpl) (opt : FitnessOption) (o : AOSOption) (b : Box (Dbl F)) (u : UserFns (List (Dbl F)) (Dbl F) ω)
    (order : List Addr → List Addr) (ho : ∀ l, (order l).Perm l) (env : ω → AOSEnvFl F) (after : ω → ω)
    (fuel : Nat) (blank : Gene (List (Dbl F)) (Dbl F)) (w : ω) (s : AOSState (Dbl F)) (w' : ω × List (UserCall (List (Dbl F)) (Dbl F)))
    (hi : aosInitializeCalls (logged u) o blank (w, []) = .ok (s, w'))
    (r : AOSCallsResult (Dbl F) (ω × List (UserCall (List (Dbl F)) (Dbl F))))
    (hr : aosCallsLoopFl impl opt o b (logged u) order (fun s => env s.1) (fun s => (after s.1, s.2)) fuel 0 s
      w' [] = .ok r) :
    r.world.2.countP UserCall.isIni = o.electronNum ∧
    r.world.2.countP UserCall.isFit = o.electronNum * (r.generation + 1) ∧
    r.world.2.length = o.electronNum * (r.generation + 2) := by
  have hpre : o.maxLayerNum ≤ o.electronNum ∧ 0 < o.electronNum := by
    by_contra hc
    rw [(aos_init_calls u o blank w []).1 (by omega)] at hi
    cases hi
  obtain ⟨s1, w1, is, h1, h2, h3, h4, h5, h6, h7, -⟩ := (aos_init_calls u o blank w []).2 hpre.1 hpre.2
  have he := Out.ok.inj (h1.symm.trans hi)
  simp only [Prod.mk.injEq, List.nil_append] at he
  obtain ⟨rfl, rfl⟩ := he
  obtain ⟨-, -, -, b0, blocks, b1, b2, b3, b4, b5, -⟩ := aos_ieee_run_calls impl opt o b u order ho env after fuel s1 h5
    (by omega) w1 is r hr
  have key : ∀ (bs : List (List (UserCall (List (Dbl F)) (Dbl F)))),
      (∀ b ∈ bs, (∀ e ∈ b, e.isFit) ∧ b.length = o.electronNum) →
      bs.flatten.countP UserCall.isIni = 0 ∧ bs.flatten.countP UserCall.isFit = o.electronNum * bs.length ∧
      bs.flatten.length = o.electronNum * bs.length := by
    intro bs
    induction bs with
    | nil => intro _; exact ⟨rfl, rfl, rfl⟩
    | cons b bs ih =>
      intro hb
      obtain ⟨i1, i2, i3⟩ := ih (fun c hc => hb c (List.mem_cons_of_mem _ hc))
      obtain ⟨j1, j2⟩ := hb b (by simp)
      rw [List.flatten_cons, List.countP_append, List.countP_append, List.length_append, i1, i2, i3]
      refine ⟨?_, ?_, ?_⟩
      · rw [Nat.add_zero, List.countP_eq_zero]
        intro e he
        have := j1 e he
        cases e <;> simp_all [UserCall.isFit, UserCall.isIni]
      · rw [List.countP_eq_length.2 j1, j2, List.length_cons]
        ring
      · rw [j2, List.length_cons]
        ring
  have hb0 : b0.length = o.electronNum := by
    have h8 := b4.length_eq
    have hun : (unvaluedPop s1.electrons).length = s1.electrons.length := by
      unfold unvaluedPop
      rw [List.length_map, List.filter_eq_self.2 (fun c hc => by
        by_contra hcc
        have : (c.2.var, c.2.fitness) ∈ valuedPop s1.electrons := mem_valuedPop.2 ⟨c, hc, by simpa using hcc, rfl⟩
        rw [h7] at this
        cases this)]
    rw [List.length_map, fits_length _ b3, hun] at h8
    omega
  obtain ⟨k1, k2, k3⟩ := key (b0 :: blocks) (fun b hb => by
    rcases List.mem_cons.1 hb with rfl | hb
    · exact ⟨b3, hb0⟩
    · exact b5 b hb)
  simp only [List.flatten_cons, List.length_cons, b2] at k1 k2 k3
  have hw : r.world.2 = is ++ (b0 ++ blocks.flatten) := by rw [b1]; simp
  rw [hw, List.countP_append (p := UserCall.isIni) (l₁ := is), List.countP_append (p := UserCall.isFit) (l₁ := is),
    List.length_append (as := is)]
  rw [k1, k2, k3, List.countP_eq_length.2 h2, h3]
  refine ⟨by omega, ?_, by ring⟩
  have : is.countP UserCall.isFit = 0 := by
    rw [List.countP_eq_zero]
    intro e he
    have := h2 e he
    cases e <;> simp_all [UserCall.isFit, UserCall.isIni]
  omega

/-- C151: after `initializePop`, each entry of the record of a run is a best one of all values the fitness function had
returned by then; the last entry is the energy of an electron that is still there. -/
theorem aos_ieee_best_of_all_calls (impl : AOSImpl) (opt : FitnessOption) (o : AOSOption) (b : Box (Dbl F))
    (u : UserFns (List (Dbl F)) (Dbl F) ω)
    (order : List Addr → List Addr) (ho : ∀ l, (order l).Perm l) (env : ω → AOSEnvFl F) (after : ω → ω)
    (fuel : Nat) (blank : Gene (List (Dbl F)) (Dbl F)) (w : ω) (s : AOSState (Dbl F)) (w' : ω × List (UserCall (List (Dbl F)) (Dbl F)))
    (hi : aosInitializeCalls (logged u) o blank (w, []) = .ok (s, w'))
    (r : AOSCallsResult (Dbl F) (ω × List (UserCall (List (Dbl F)) (Dbl F))))
    (hr : aosCallsLoopFl impl opt o b (logged u) order (fun s => env s.1) (fun s => (after s.1, s.2)) fuel 0 s
      w' [] = .ok r) (hnan : ∀ p ∈ values r.world.2, p.2.val ≠ .nan) :
    (∃ blocks : List (List (UserCall (List (Dbl F)) (Dbl F))), r.world.2 = w'.2 ++ blocks.flatten ∧
      blocks.length = r.record.length ∧ ∀ (j : Nat) (y : Dbl F), r.record[j]? = some y →
        IsBestNumber F opt (values (blocks.take (j + 1)).flatten) y) ∧
    ∃ c ∈ r.state.electrons, ∃ y, r.record.getLast? = some y ∧ energyValue c.2 = extended F y.val ∧
      IsBestNumber F opt (values r.world.2) y := by
  have hpre : o.maxLayerNum ≤ o.electronNum ∧ 0 < o.electronNum := by
    by_contra hc
    rw [(aos_init_calls u o blank w []).1 (by omega)] at hi
    cases hi
  obtain ⟨s1, w1, is, h1, h2, h3, h4, h5, h6, h7, -⟩ := (aos_init_calls u o blank w []).2 hpre.1 hpre.2
  have he := Out.ok.inj (h1.symm.trans hi)
  simp only [Prod.mk.injEq, List.nil_append] at he
  obtain ⟨rfl, rfl⟩ := he
  have hv0 : values is = [] := by
    unfold values
    rw [List.flatMap_eq_nil_iff]
    intro e he
    have := h2 e he
    cases e <;> simp_all [UserCall.isIni, UserCall.valued]
  obtain ⟨blocks, recs, r1, r2, r3, r4, r5, r6, r7, r8, r9, r10, r11⟩ :=
    aosCallsLoopFl_log ho fuel 0 s1 w1 is [] r h5 hr
  have r3' : r.record = recs := by simpa using r3
  obtain ⟨j1, ⟨c, j2, z, j3, j3'⟩, j4⟩ := r11 hnan hpre.2 ⟨by rw [h7]; simp, by rw [hv0]; simp⟩
  have j1' : ∀ (j : Nat) (y : Dbl F), recs[j]? = some y → IsBestNumber F opt (values (blocks.take (j + 1)).flatten) y := by
    intro j y hy
    have := j1 j y hy
    rw [values_append, hv0, List.nil_append] at this
    exact this
  refine ⟨⟨blocks, r1, by rw [r3']; exact r2, fun j y hy => j1' j y (r3' ▸ hy)⟩, c, j2, z, j3, j3', ?_⟩
  rw [r3'] at j3
  have hne : recs ≠ [] := fun hn => by rw [hn] at j3; cases j3
  rw [List.getLast?_eq_getElem?] at j3
  have := j1' _ _ j3
  have hl : recs.length - 1 + 1 = recs.length := Nat.sub_add_cancel (List.length_pos_iff.2 hne)
  rw [hl, ← r2, List.take_length] at this
  have r1' : r.world.2 = is ++ blocks.flatten := r1
  rw [r1', values_append, hv0, List.nil_append]
  exact this

/-- C151: a run makes at most `maxGeneration + 1` iterations of its loop, whatever the functions do. -/
theorem aos_ieee_calls_terminates (impl : AOSImpl) (opt : FitnessOption) (o : AOSOption) (b : Box (Dbl F))
    (u : UserFns (List (Dbl F)) (Dbl F) ω) (order : List Addr → List Addr) (env : ω → AOSEnvFl F) (after : ω → ω) :
    ∀ (fuel gen : Nat) (s : AOSState (Dbl F)) (w : ω) (record : List (Dbl F)), gen ≤ o.maxGeneration →
    o.maxGeneration < gen + fuel → aosCallsLoopFl impl opt o b u order env after fuel gen s w record ≠ .timeout
  | 0, gen, s, w, record, hg, h => by omega
  | fuel + 1, gen, s, w, record, hg, h => by
    have hev : ∀ (as : List Addr) (pop : Pop (Gene (List (Dbl F)) (Dbl F))) (w : ω), evalCalls u as pop w ≠ .timeout := by
      intro as
      induction as with
      | nil => intro pop w; simp [evalCalls]
      | cons a as ih =>
        intro pop w
        rw [evalCalls]
        cases h1 : Heu.deref pop a with
        | ub => simp
        | timeout => exact absurd h1 deref_no_timeout
        | ok g => rw [Out.ok_bind]; exact ih _ _
    rw [aosCallsLoopFl]
    unfold aosEvaluateCalls
    cases h1 : evalCalls u (order (evalTasks s.electrons)) s.electrons w with
    | ub => simp
    | timeout => exact absurd h1 (hev _ _ _)
    | ok e =>
      simp only [Out.ok_bind]
      cases h2 : computeAtomBSBELE opt { s with electrons := e.1 } with
      | ub => simp
      | timeout =>
        exfalso
        unfold computeAtomBSBELE at h2
        simp only at h2
        cases hp : e.1 with
        | nil => rw [hp] at h2; cases h2
        | cons front rest =>
          rw [hp] at h2
          dsimp only at h2
          cases h3 : Heu.deref (front :: rest) s.best with
          | ub => rw [h3] at h2; cases h2
          | timeout => exact absurd h3 deref_no_timeout
          | ok g => rw [h3] at h2; cases h2
      | ok t =>
        simp only [Out.ok_bind]
        cases h3 : Heu.deref t.electrons t.best with
        | ub => simp
        | timeout => exact absurd h3 deref_no_timeout
        | ok bst =>
          simp only [Out.ok_bind]
          cases h4 : selectAndMakeLayersFl opt o (env e.2).sort (env e.2).layerNum (env e.2).gauss (env e.2).total t with
          | ub => simp
          | timeout => exact absurd h4 selectFl_no_timeout
          | ok v =>
            simp only [Out.ok_bind]
            split
            · simp
            · rename_i hstop
              cases h5 : aosChildren impl opt b (env e.2).toAOSEnv v with
              | ub => simp
              | timeout => exact absurd h5 aosChildren_no_timeout
              | ok x =>
                rw [Out.ok_bind]
                exact aos_ieee_calls_terminates impl opt o b u order env after fuel (gen + 1) x _ _
                  (by omega) (by omega)

/-- C151: writing the calls down changes nothing else. -/
theorem aos_ieee_log_transparent (impl : AOSImpl) (opt : FitnessOption) (o : AOSOption) (b : Box (Dbl F))
    (u : UserFns (List (Dbl F)) (Dbl F) ω) (order : List Addr → List Addr) (env : ω → AOSEnvFl F) (after : ω → ω) :
    ∀ (fuel gen : Nat) (s : AOSState (Dbl F)) (w : ω) (l : List (UserCall (List (Dbl F)) (Dbl F))) (record : List (Dbl F)),
    (aosCallsLoopFl impl opt o b (logged u) order (fun s => env s.1) (fun s => (after s.1, s.2)) fuel gen s (w, l)
      record).bind (fun r => .ok (aosForget r)) = aosCallsLoopFl impl opt o b u order env after fuel gen s w record
  | 0, _, _, _, _, _ => rfl
  | fuel + 1, gen, s, w, l, record => by
    rw [aosCallsLoopFl, aosCallsLoopFl]
    have h1 := evalCalls_forget u (order (evalTasks s.electrons)) s.electrons w l
    unfold aosEvaluateCalls
    rw [← h1]
    cases evalCalls (logged u) (order (evalTasks s.electrons)) s.electrons (w, l) with
    | ub => rfl
    | timeout => rfl
    | ok e =>
      obtain ⟨pop1, w1, l1⟩ := e
      show Out.bind (computeAtomBSBELE opt { s with electrons := pop1 } >>= _) _ =
        computeAtomBSBELE opt { s with electrons := pop1 } >>= _
      cases computeAtomBSBELE opt { s with electrons := pop1 } with
      | ub => rfl
      | timeout => rfl
      | ok t =>
        simp only [Out.ok_bind]
        cases Heu.deref t.electrons t.best with
        | ub => rfl
        | timeout => rfl
        | ok bst =>
          simp only [Out.ok_bind]
          cases selectAndMakeLayersFl opt o (env w1).sort (env w1).layerNum (env w1).gauss (env w1).total t with
          | ub => rfl
          | timeout => rfl
          | ok v =>
            simp only [Out.ok_bind]
            split
            · rfl
            · cases aosChildren impl opt b (env w1).toAOSEnv v with
              | ub => rfl
              | timeout => rfl
              | ok x => exact aos_ieee_log_transparent impl opt o b u order env after fuel (gen + 1) x _ _ _

/-- C151: when, in some round, an electron's energy is NaN and two others have different energies, the behaviour of
the program is undefined, whatever else happened before. -/
theorem aos_ieee_calls_nan_undefined (impl : AOSImpl) (opt : FitnessOption) (o : AOSOption) (b : Box (Dbl F))
    (u : UserFns (List (Dbl F)) (Dbl F) ω) (order : List Addr → List Addr) (env : ω → AOSEnvFl F) (after : ω → ω)
    (fuel gen : Nat) (s : AOSState (Dbl F)) (w : ω) (record : List (Dbl F)) (e : AOSState (Dbl F) × ω)
    (he : aosEvaluateCalls u order s w = .ok e) (hnan : ∃ c ∈ e.1.electrons, c.2.fitness.val = .nan)
    (hdiff : ∃ x ∈ e.1.electrons, ∃ y ∈ e.1.electrons, x.2.fitness < y.2.fitness) :
    aosCallsLoopFl impl opt o b u order env after (fuel + 1) gen s w record = .ub := by
  rw [aosCallsLoopFl, he, Out.ok_bind]
  cases h2 : computeAtomBSBELE opt e.1 with
  | ub => simp
  | timeout =>
    exfalso
    unfold computeAtomBSBELE at h2
    simp only at h2
    cases hp : e.1.electrons with
    | nil => rw [hp] at h2; cases h2
    | cons front rest =>
      rw [hp] at h2
      dsimp only at h2
      cases h3 : Heu.deref (front :: rest) e.1.best with
      | ub => rw [h3] at h2; cases h2
      | timeout => exact absurd h3 deref_no_timeout
      | ok g => rw [h3] at h2; cases h2
  | ok t =>
    have ht : t.electrons = e.1.electrons := by
      unfold computeAtomBSBELE at h2
      simp only at h2
      cases hp : e.1.electrons with
      | nil => rw [hp] at h2; cases h2
      | cons front rest =>
        rw [hp] at h2
        dsimp only at h2
        obtain ⟨prev, -, h2⟩ := Out.bind_eq_ok.1 h2
        rw [← Out.ok.inj h2]
    simp only [Out.ok_bind]
    cases h3 : Heu.deref t.electrons t.best with
    | ub => simp
    | timeout => exact absurd h3 deref_no_timeout
    | ok bst =>
      simp only [Out.ok_bind]
      rw [aos_ieee_nan_selection_undefined opt o _ _ _ _ t (by rw [ht]; exact hnan) (by rw [ht]; exact hdiff)]
      rfl

/-- C151: with an objective function without side effects, in whatever order the electrons are evaluated and with the
draws a function of a round counter in the rest of the program, the run is that of the model of C127. -/
theorem aos_ieee_calls_agree (impl : AOSImpl) (opt : FitnessOption) (o : AOSOption) (b : Box (Dbl F))
    (u : UserFns (List (Dbl F)) (Dbl F) Nat) (order : List Addr → List Addr) (ho : ∀ l, (order l).Perm l)
    (f : List (Dbl F) → Dbl F) (hf : ∀ v y w, u.fit v y w = (f v, w)) (env : Nat → AOSEnvFl F) :
    ∀ (fuel gen : Nat) (s : AOSState (Dbl F)) (record : List (Dbl F)), DistinctNodes s.electrons →
    (aosCallsLoopFl impl opt o b u order env (· + 1) fuel gen s gen record).bind
      (fun r => .ok (⟨r.state, r.generation, r.record⟩ : RunResult (AOSState (Dbl F)) (Dbl F))) =
    aosLoopFl impl opt o b f env fuel gen s record
  | 0, _, _, _, _ => rfl
  | fuel + 1, gen, s, record, hd => by
    have hp := ho (evalTasks s.electrons)
    have hE : aosEvaluateCalls u order s gen = .ok (aosComputeFitness f s, gen) := by
      unfold aosEvaluateCalls
      rw [evalCalls_pure u f hf _ s.electrons gen hd (hp.nodup_iff.2 (evalTasks_nodup hd)) (fun a ha => by
        have := hp.mem_iff.1 ha
        unfold evalTasks at this
        obtain ⟨c, hc, rfl⟩ := List.mem_map.1 this
        exact List.mem_map_of_mem (List.mem_filter.1 hc).1)]
      simp only [Out.ok_bind]
      unfold aosComputeFitness computeAllFitness
      congr 3
      apply List.map_congr_left
      intro c hc
      have hmem : c.1 ∈ order (evalTasks s.electrons) ↔ c.2.computed = false :=
        hp.mem_iff.trans (mem_evalTasks hd hc)
      unfold evalGene
      cases hcc : c.2.computed with
      | true => rw [if_neg (by rw [hmem, hcc]; simp)]; simp
      | false => rw [if_pos (hmem.2 hcc)]; simp
    have hev : aosEvaluate opt f s = computeAtomBSBELE opt (aosComputeFitness f s) := rfl
    rw [aosCallsLoopFl, aosLoopFl, hE, hev, Out.ok_bind]
    cases h2 : computeAtomBSBELE opt (aosComputeFitness f s) with
    | ub => rfl
    | timeout => rfl
    | ok t =>
      simp only [Out.ok_bind]
      cases h3 : Heu.deref t.electrons t.best with
      | ub => rfl
      | timeout => rfl
      | ok bst =>
        simp only [Out.ok_bind]
        cases h4 : selectAndMakeLayersFl opt o (env gen).sort (env gen).layerNum (env gen).gauss (env gen).total t with
        | ub => rfl
        | timeout => rfl
        | ok v =>
          simp only [Out.ok_bind]
          split
          · rfl
          · cases h5 : aosChildren impl opt b (env gen).toAOSEnv v with
            | ub => rfl
            | timeout => rfl
            | ok x =>
              simp only [Out.ok_bind]
              refine aos_ieee_calls_agree impl opt o b u order ho f hf env fuel (gen + 1) x _ ?_
              obtain ⟨S, cs, ls, -, hpS, hsrt, s1, s2, s3, -, -, -, -, s6⟩ := select_okFl h4
              obtain ⟨q, q1, q2, q3, q4, q5, q6, q7⟩ := children_ok h5
              have hg := updateElectrons_ok (P := fun _ => True)
                (fun _ _ _ _ _ _ _ _ _ _ _ _ _ => trivial) q7
              refine hg.distinct ?_
              rw [q1, s1]
              refine distinct_filter ?_ _
              have : (t.electrons).map (·.1) = s.electrons.map (·.1) := by
                unfold computeAtomBSBELE at h2
                simp only at h2
                cases hp : (aosComputeFitness f s).electrons with
                | nil => rw [hp] at h2; cases h2
                | cons front rest =>
                  rw [hp] at h2
                  dsimp only at h2
                  obtain ⟨prev, -, h2⟩ := Out.bind_eq_ok.1 h2
                  rw [← Out.ok.inj h2]
                  show (front :: rest).map (·.1) = _
                  rw [← hp]
                  simp [aosComputeFitness, computeAllFitness, List.map_map, Function.comp_def]
              unfold DistinctNodes
              rw [this]
              exact hd

end run

/-! ## Examples -/

/-- On doubles: the `n`-th call of the fitness function adds `n % 3` and is infinite at 0; the initialiser gives 0, 1, …. -/
def noisyElectronsFl : UserFns (List (Dbl binary64)) (Dbl binary64) Nat where
  ini _ w := ([Dbl.nat binary64 (w % 4)], w + 1)
  fit v _ w := (v.getD 0 0 * v.getD 0 0 + Dbl.nat binary64 1 / v.getD 0 0 + Dbl.nat binary64 (w % 3), w + 1)
  cross p q w := ((p, q), w)
  muta v w := (v, w)

/-- A whole run: four electrons, four generations, sixteen evaluations, none of them NaN, one of them infinite. -/
example : ∀ impl ∈ [AOSImpl.eigen, AOSImpl.std],
    ((aosInitializeCalls (logged noisyElectronsFl) demoAOSOption ⟨[], ⟨.nan⟩, true⟩ (0, [])).bind fun s =>
      aosCallsLoopFl impl .lessBetter demoAOSOption demoAOSBoxFl (logged noisyElectronsFl) List.reverse
        (fun _ => demoAOSEnvFl) (fun s => (s.1 + 5, s.2)) 4 0 s.1 s.2 []).satisfies
      (fun r => r.generation == 3 && r.record.length == 4 && r.state.electrons.length == 4 &&
        r.world.2.countP UserCall.isFit == 16 && r.world.2.countP UserCall.isIni == 4 &&
        (values r.world.2).all (fun p => p.2.val != .nan) && (values r.world.2).any (fun p => p.2.val == .inf false)) =
      true := by
  decide +kernel

/-- The same point evaluated twice. -/
example : (noisyElectronsFl.fit [Dbl.nat binary64 2] 0 0).1 ≠ (noisyElectronsFl.fit [Dbl.nat binary64 2] 0 1).1 := by
  decide +kernel

/-- A function that is NaN in its third call only: undefined. -/
def brokenOnceFl : UserFns (List (Dbl binary64)) (Dbl binary64) Nat :=
  { noisyElectronsFl with fit := fun v _ w => (if w = 6 then ⟨.nan⟩ else Dbl.nat binary64 w, w + 1) }

example : ((aosInitializeCalls brokenOnceFl demoAOSOption ⟨[], ⟨.nan⟩, true⟩ 0).bind fun s =>
      (aosEvaluateCalls brokenOnceFl id s.1 s.2)).satisfies
    (fun e => e.1.electrons.any (fun c => c.2.fitness.val == .nan) &&
      e.1.electrons.any fun x => e.1.electrons.any fun y => decide (x.2.fitness < y.2.fitness)) = true := by
  decide +kernel

end Heu
