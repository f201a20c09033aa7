import Verif.Lemmas.MOCalls

/-!
# C148: multi-objective runs with user functions that have side effects

`nsga2Host`, `nsga3Host` (ordered field) and `nsga2HostFl`, `nsga3HostFl` (`double`s) are the solvers; `u` are the user's
functions: they may be noisy, count, print or use the solver's random generator.  `logged`/`unaware` write down all
calls (`ga_log_transparent`: this changes nothing).
-/

set_option linter.unusedSectionVars false
set_option linter.unusedVariables false

namespace Heu
open Spec

section generic
variable {κ V α ω : Type} {m : Nat} [Zero α] [LE κ] [DecidableLE κ]
variable (D : (Fin m → α) → (Fin m → α) → Prop) (Q : (Fin m → α) → Prop)
variable (hirr : ∀ A, ¬ D A A) (htr : ∀ A B C, D A B → D B C → D A C)
variable (best : List (Fin m → α) → Out (Fin m → α)) (hbest : ∀ l, l ≠ [] → ∃ b, best l = .ok b)
variable (K : Nat) (hK : 1 ≤ K)
variable (sel : ω → (Addr → Fin m → α) → List Addr → Out (SelectResult Addr)) (hg : ∀ w, GoodSelectionG D Q K (sel w))
variable (R : Rest κ V (Fin m → α) ω) (hR : FairRest R)
variable (u : UserFns V (Fin m → α) ω) (hu : ∀ v y w, Q (u.fit v y w).1) (o : GALimits κ)

open Classical in
theorem front_of_end {r : CallsResult V (Fin m → α) (ω × List (UserCall V (Fin m → α))) (Finset Addr × Nat) (Fin m → α)}
    (h : MOEnd D Q best K r) (order : Finset Addr → List Addr) (hord : Iterates order) :
    ∃ front, reportedFront order r = .ok front ∧ IsFrontBy D id (r.pop.map fun c => c.2.fitness) front ∧
      front.length = r.rest.1.card ∧ ∀ c ∈ r.pop, c.1 ∈ r.rest.1 → c.2.fitness ∈ front := by
  have hfit : ∀ a ∈ order r.rest.1, (deref r.pop a >>= fun g => Out.ok g.fitness) = .ok (fitAt r.pop a) := by
    intro a ha
    rw [(hord _).2, h.front] at ha
    obtain ⟨c, hc, rfl, -⟩ := ha
    rw [deref_of_mem h.distinct hc, Out.ok_bind, fitAt_of_memG h.distinct hc]
  refine ⟨(order r.rest.1).map (fitAt r.pop), ?_, ?_, ?_, ?_⟩
  · unfold reportedFront paretoFront
    dsimp only
    revert hfit
    generalize order r.rest.1 = l
    intro hfit
    induction l with
    | nil => rfl
    | cons a l ih =>
      rw [List.mapM_cons, hfit a (by simp), Out.ok_bind, ih (fun x hx => hfit x (by simp [hx]))]
      rfl
  · unfold IsFrontBy
    obtain ⟨nd, hnd⟩ : ∃ nd, nd = r.pop.filter fun c =>
      decide (∀ z ∈ r.pop, ¬ D z.2.fitness c.2.fitness) := ⟨_, rfl⟩
    suffices hs : ((order r.rest.1).map (fitAt r.pop)).Perm ((nd.map fun c => c.2.fitness).map id) by
      convert hs using 2
      rw [hnd, List.filter_map]
      congr 1
      apply List.filter_congr
      intro c _
      simp only [Function.comp, List.forall_mem_map, id]
    rw [List.map_map]
    have e2 : nd.map (id ∘ fun c => c.2.fitness) = (nd.map (·.1)).map (fitAt r.pop) := by
      rw [List.map_map]
      apply List.map_congr_left
      intro c hc
      have hc' : c ∈ r.pop := by rw [hnd] at hc; exact (List.mem_filter.1 hc).1
      exact (fitAt_of_memG h.distinct hc').symm
    rw [e2]
    apply List.Perm.map
    apply (List.perm_ext_iff_of_nodup (hord _).1 ?_).2
    · intro a
      rw [(hord _).2, h.front, hnd]
      simp only [List.mem_map, List.mem_filter, decide_eq_true_eq]
      constructor
      · rintro ⟨c, h1, h2, h3⟩; exact ⟨c, ⟨h1, h3⟩, h2⟩
      · rintro ⟨c, ⟨h1, h3⟩, h2⟩; exact ⟨c, h1, h2, h3⟩
    · rw [hnd]; exact List.Nodup.sublist (List.filter_sublist.map _) h.distinct
  · rw [List.length_map, ← List.toFinset_card_of_nodup (hord r.rest.1).1]
    congr 1
    ext a
    rw [List.mem_toFinset, (hord _).2]
  · intro c hc ha
    rw [← fitAt_of_memG h.distinct hc]
    exact List.mem_map_of_mem (((hord _).2 _).2 ha)

include hirr htr hbest hK hg hR hu in
theorem mo_calls_run (pop : Pop (Gene V (Fin m → α))) (hd : DistinctNodes pop) (hlen : K ≤ pop.length)
    (hq : ∀ c ∈ pop, c.2.computed = true → Q c.2.fitness) (t : Finset Addr × Nat) (w : ω)
    (order : Finset Addr → List Addr) (hord : Iterates order) :
    ∃ r front b, callsRun (logged u) (unaware (moHostBy best sel R.next R.rnd R.shuffle R.order R.junk)) o pop t (w, []) =
        .ok r ∧
      r.generation = o.maxGen ∧ r.record.length = o.maxGen + 1 ∧ r.pop.length = K ∧
      (∀ c ∈ r.pop, (c.2.var, c.2.fitness) ∈ valuedPop pop ++ values r.world.2) ∧
      reportedFront order r = .ok front ∧ IsFrontBy D id (r.pop.map fun c => c.2.fitness) front ∧
      r.record.getLast? = some b ∧ best (r.pop.map fun c => c.2.fitness) = .ok b ∧ (∀ y ∈ returned pop r.world.2, Q y) ∧
      ((∀ j, j ≤ o.maxGen → ∀ r' front', callsRun (logged u)
          (unaware (moHostBy best sel R.next R.rnd R.shuffle R.order R.junk)) { o with maxGen := j } pop t (w, []) =
            .ok r' → reportedFront order r' = .ok front' → front'.length < K) →
        Covers D front (returned pop r.world.2)) := by
  obtain ⟨r, es, h1, h2, h3, h4, h5, hqv, h6⟩ := mo_calls_loop D Q hirr htr best hbest K hK sel hg R hR u hu o o.maxGen 0 pop
    t.1 w [] [] hd hlen hq (by omega)
  have hr : callsRun (logged u) (unaware (moHostBy best sel R.next R.rnd R.shuffle R.order R.junk)) o pop t (w, []) =
    .ok r := h1
  obtain ⟨front, f1, f2, f3, f4⟩ := front_of_end D Q best K h5 order hord
  obtain ⟨b, b1, b2⟩ := h5.last
  obtain ⟨es', ks, a1, -, -, a4⟩ := ga_run_calls u _ (moHostBy_fair best sel R hR) o pop hd t w [] r hr
  rw [List.nil_append] at h2 a1
  subst h2
  subst a1
  refine ⟨r, front, b, hr, h3, by simpa using h4, h5.size, fun c hc => (a4 c hc).2, f1, f2, b1, b2, ?_, ?_⟩
  · intro y hy
    obtain ⟨p, hp, rfl⟩ := List.mem_map.1 hy
    rcases List.mem_append.1 hp with hp | hp
    · obtain ⟨c, hc, hcc, rfl⟩ := mem_valuedPop.1 hp
      exact hq c hc hcc
    · exact hqv p hp
  intro hroom y hy
  obtain ⟨p, hp, rfl⟩ := List.mem_map.1 hy
  obtain ⟨c, hc, hcf, hcd⟩ := h6 (fun j _ hj r' hr' he' => by
    obtain ⟨front', g1, -, g3, -⟩ := front_of_end D Q best K he' order hord
    rw [← g3]
    exact hroom j hj r' front' hr' g1) p hp
  exact ⟨c.2.fitness, f4 c hc hcf, hcd⟩

end generic

/-! ## Over an ordered field -/

section exact_
variable {κ V α ω : Type} {m : Nat} [Field α] [LinearOrder α] [IsStrictOrderedRing α] [LE κ] [DecidableLE κ]

theorem good_of_exact {o : FitnessOption} {K : Nat} {sel : (Addr → Fin m → α) → List Addr → Out (SelectResult Addr)}
    (h : GoodSelection o K sel) : GoodSelectionG (Dominates o) (fun _ => True) K sel :=
  fun fit pop h1 h2 h3 _ => h fit pop h1 h2 h3

/-- The last record entry of a run that ends in `pop`, if the front covers everything. -/
theorem ideal_of_all (o : FitnessOption) (pop0 : Pop (Gene V (Fin m → α))) (log : List (UserCall V (Fin m → α)))
    {pop : Pop (Gene V (Fin m → α))} {front : List (Fin m → α)} {b : Fin m → α} (hne : pop ≠ [])
    (horig : ∀ c ∈ pop, (c.2.var, c.2.fitness) ∈ valuedPop pop0 ++ values log)
    (hfront : IsFrontBy (Dominates o) id (pop.map fun c => c.2.fitness) front)
    (hb : moBestFitness o (pop.map fun c => c.2.fitness) = .ok b)
    (hcov : Covers (Dominates o) front (returned pop0 log)) :
    ∀ j, (∃ y ∈ returned pop0 log, b j = y j) ∧ ∀ y ∈ returned pop0 log, ¬ Better o (y j) (b j) := by
  classical
  obtain ⟨b', hb', hbi⟩ := bestFitness_ideal o (pop.map fun c => c.2.fitness) (by simpa using hne)
  rw [hb] at hb'
  obtain rfl := Out.ok.inj hb'
  intro j
  obtain ⟨⟨y, hy, hyj⟩, hall⟩ := hbi j
  obtain ⟨c, hc, rfl⟩ := List.mem_map.1 hy
  refine ⟨⟨c.2.fitness, List.mem_map.2 ⟨_, horig c hc, rfl⟩, hyj⟩, fun y hy => ?_⟩
  obtain ⟨z, hz, hzy⟩ := hcov y hy
  have hz' : z ∈ pop.map fun c => c.2.fitness := by
    have := hfront.mem_iff.1 hz
    obtain ⟨z', hz', rfl⟩ := List.mem_map.1 this
    exact (List.mem_filter.1 hz').1
  have h1 := hall z hz'
  have h2 : ¬ Better o (y j) (z j) := by
    rcases hzy with rfl | e
    · exact better_irrefl _ _
    · exact e.1 j
  exact not_better_trans h2 h1

variable (u : UserFns V (Fin m → α) ω) (lim : GALimits κ) (R : Rest κ V (Fin m → α) ω)

/-- **C148**, NSGA-II: whatever the user's functions do, `run()` from a population of at least `K ≥ 1` individuals
returns after exactly `maxGenerations` generations, leaves `K` individuals, each with the value the one call for it
returned, and `paretoFront` dereferences no dangling pointer and returns the values of exactly the individuals of the
final population that no other one dominates.  If no run of at most this many generations reports a front as large as
the population, then the final front matches or dominates every value the fitness function has ever returned, and the
last entry of the record is the ideal point of all these values. -/
theorem nsga2_calls_run (o : FitnessOption) (K : Nat) (hK : 1 ≤ K) (eps : α) (e : ω → NSGA2Env m) (hR : FairRest R)
    (pop : Pop (Gene V (Fin m → α))) (hd : DistinctNodes pop) (hlen : K ≤ pop.length) (t : Finset Addr × Nat) (w : ω)
    (order : Finset Addr → List Addr) (hord : Iterates order) :
    ∃ r front b, callsRun (logged u) (unaware (nsga2Host o K eps e R)) lim pop t (w, []) = .ok r ∧
      r.generation = lim.maxGen ∧ r.record.length = lim.maxGen + 1 ∧ r.pop.length = K ∧
      (∀ c ∈ r.pop, (c.2.var, c.2.fitness) ∈ valuedPop pop ++ values r.world.2) ∧
      reportedFront order r = .ok front ∧ IsFrontBy (Dominates o) id (r.pop.map fun c => c.2.fitness) front ∧
      r.record.getLast? = some b ∧
      ((∀ j, j ≤ lim.maxGen → ∀ r' front', callsRun (logged u) (unaware (nsga2Host o K eps e R))
          { lim with maxGen := j } pop t (w, []) = .ok r' → reportedFront order r' = .ok front' → front'.length < K) →
        Covers (Dominates o) front (returned pop r.world.2) ∧
        ∀ j, (∃ y ∈ returned pop r.world.2, b j = y j) ∧ ∀ y ∈ returned pop r.world.2, ¬ Better o (y j) (b j)) := by
  obtain ⟨r, front, b, h1, h2, h3, h4, h5, h6, h7, h8, h9, -, h10⟩ := mo_calls_run (Dominates o) (fun _ => True)
    (dominates_irrefl' o) (fun A B C => dominates_trans') (moBestFitness o)
    (fun l hl => by obtain ⟨b, hb, -⟩ := bestFitness_ideal o l hl; exact ⟨b, hb⟩) K hK _
    (fun w => good_of_exact (good_nsga2 o K eps (e w))) R hR u (fun _ _ _ => trivial) lim pop hd hlen
    (fun _ _ _ => trivial) t w order hord
  refine ⟨r, front, b, h1, h2, h3, h4, h5, h6, h7, h8, fun hroom => ⟨h10 hroom, ?_⟩⟩
  exact ideal_of_all o pop _ (by intro hh; rw [hh] at h4; simp at h4; omega) h5 h7 h9 (h10 hroom)

/-- **C148**, NSGA-III: as for NSGA-II. -/
theorem nsga3_calls_run (K : Nat) (hK : 1 ≤ K) (hK32 : K < 2 ^ 32) (tiny : α) (ht : 0 ≤ tiny) (refs : List (Fin m → α))
    (hrefs : refs ≠ []) (hw : ∀ w ∈ refs, ∃ i, w i ≠ 0) (e : ω → NSGA3Env α) (he : ∀ w, (e w).Legal)
    (fuel : Nat → Nat) (hfuel : ∀ n, n + refs.length ≤ fuel n) (hR : FairRest R)
    (pop : Pop (Gene V (Fin m → α))) (hd : DistinctNodes pop) (hlen : K ≤ pop.length) (t : Finset Addr × Nat) (w : ω)
    (order : Finset Addr → List Addr) (hord : Iterates order) :
    ∃ r front b, callsRun (logged u) (unaware (nsga3Host K tiny refs e fuel R)) lim pop t (w, []) = .ok r ∧
      r.generation = lim.maxGen ∧ r.record.length = lim.maxGen + 1 ∧ r.pop.length = K ∧
      (∀ c ∈ r.pop, (c.2.var, c.2.fitness) ∈ valuedPop pop ++ values r.world.2) ∧
      reportedFront order r = .ok front ∧
      IsFrontBy (Dominates .lessBetter) id (r.pop.map fun c => c.2.fitness) front ∧
      r.record.getLast? = some b ∧
      ((∀ j, j ≤ lim.maxGen → ∀ r' front', callsRun (logged u) (unaware (nsga3Host K tiny refs e fuel R))
          { lim with maxGen := j } pop t (w, []) = .ok r' → reportedFront order r' = .ok front' → front'.length < K) →
        Covers (Dominates .lessBetter) front (returned pop r.world.2) ∧
        ∀ j, (∃ y ∈ returned pop r.world.2, b j = y j) ∧
          ∀ y ∈ returned pop r.world.2, ¬ Better .lessBetter (y j) (b j)) := by
  obtain ⟨r, front, b, h1, h2, h3, h4, h5, h6, h7, h8, h9, -, h10⟩ := mo_calls_run (Dominates .lessBetter)
    (fun _ => True) (dominates_irrefl' _) (fun A B C => dominates_trans') (moBestFitness .lessBetter)
    (fun l hl => by obtain ⟨b, hb, -⟩ := bestFitness_ideal .lessBetter l hl; exact ⟨b, hb⟩) K hK _
    (fun w => good_of_exact (good_nsga3 K hK32 tiny ht refs hrefs hw (e w) (he w) fuel hfuel)) R hR u
    (fun _ _ _ => trivial) lim pop hd hlen (fun _ _ _ => trivial) t w order hord
  refine ⟨r, front, b, h1, h2, h3, h4, h5, h6, h7, h8, fun hroom => ⟨h10 hroom, ?_⟩⟩
  exact ideal_of_all .lessBetter pop _ (by intro hh; rw [hh] at h4; simp at h4; omega) h5 h7 h9 (h10 hroom)

end exact_

/-! ## On `double`s -/

section ieee
variable {κ V ω : Type} {m : Nat} [LE κ] [DecidableLE κ]

/-- As `ideal_of_all`, for numbers. -/
theorem ideal_of_allFl {F : Fmt} {o : FitnessOption} {pick : Fl → Fl → Fl} (hp : PicksBetter F o pick)
    (pop0 : Pop (Gene V (Fin m → Fl))) (log : List (UserCall V (Fin m → Fl)))
    {pop : Pop (Gene V (Fin m → Fl))} {front : List (Fin m → Fl)} {b : Fin m → Fl}
    (horig : ∀ c ∈ pop, (c.2.var, c.2.fitness) ∈ valuedPop pop0 ++ values log)
    (hn : ∀ y ∈ returned pop0 log, ∀ j, y j ≠ .nan)
    (hfront : IsFrontBy (DominatesFl F o) id (pop.map fun c => c.2.fitness) front)
    (hb : moBestFitnessFl pick (pop.map fun c => c.2.fitness) = .ok b)
    (hcov : Covers (DominatesFl F o) front (returned pop0 log)) :
    IsIdealFl F o id (returned pop0 log) b := by
  classical
  have hret : ∀ c ∈ pop, c.2.fitness ∈ returned pop0 log := fun c hc => List.mem_map.2 ⟨_, horig c hc, rfl⟩
  have hid := moBestFl_ideal hp id (pop.map fun c => c.2.fitness) b (by simpa using hb) (by
    intro x hx j
    obtain ⟨c, hc, rfl⟩ := List.mem_map.1 hx
    exact hn _ (hret c hc) j)
  intro j
  obtain ⟨⟨y, hy, hyj⟩, hall⟩ := hid j
  obtain ⟨c, hc, rfl⟩ := List.mem_map.1 hy
  refine ⟨⟨c.2.fitness, hret c hc, hyj⟩, fun y hy => ?_⟩
  obtain ⟨z, hz, hzy⟩ := hcov y hy
  have hz' : z ∈ pop.map fun c => c.2.fitness := by
    have := hfront.mem_iff.1 hz
    obtain ⟨z', hz', rfl⟩ := List.mem_map.1 this
    exact (List.mem_filter.1 hz').1
  have h1 := hall z hz'
  have h2 : ¬ Better o (extended F (y j)) (extended F (z j)) := by
    rcases hzy with rfl | e
    · exact better_irrefl _ _
    · exact e.2.1 j
  exact not_better_trans h2 h1

variable (u : UserFns V (Fin m → Fl) ω) (lim : GALimits κ) (R : Rest κ V (Fin m → Fl) ω)

/-- **C148**, NSGA-III on `double`s: as above, whatever `double`s (NaN and infinities included) the fitness function
returns; for the statement about the record no value may be NaN. -/
theorem nsga3_ieee_calls_run (F : Fmt) (hF : F.Good) (E : Geometry m) (K : Nat) (hK : 1 ≤ K) (hK32 : K < 2 ^ 32) (tiny : Fl)
    (refs : List (Fin m → Fl)) (hrefs : refs ≠ []) (e : ω → NSGA3Env Fl) (he : ∀ w k, LegalDrawFl F ((e w).ds k))
    (fuel : Nat → Nat) (hfuel : ∀ n, n + refs.length ≤ fuel n) (hR : FairRest R)
    (pop : Pop (Gene V (Fin m → Fl))) (hd : DistinctNodes pop) (hlen : K ≤ pop.length) (t : Finset Addr × Nat) (w : ω)
    (order : Finset Addr → List Addr) (hord : Iterates order) :
    ∃ r front b, callsRun (logged u) (unaware (nsga3HostFl F E K tiny refs e fuel R)) lim pop t (w, []) = .ok r ∧
      r.generation = lim.maxGen ∧ r.record.length = lim.maxGen + 1 ∧ r.pop.length = K ∧
      (∀ c ∈ r.pop, (c.2.var, c.2.fitness) ∈ valuedPop pop ++ values r.world.2) ∧
      reportedFront order r = .ok front ∧
      IsFrontBy (DominatesFl F .lessBetter) id (r.pop.map fun c => c.2.fitness) front ∧
      r.record.getLast? = some b ∧
      ((∀ j, j ≤ lim.maxGen → ∀ r' front', callsRun (logged u) (unaware (nsga3HostFl F E K tiny refs e fuel R))
          { lim with maxGen := j } pop t (w, []) = .ok r' → reportedFront order r' = .ok front' → front'.length < K) →
        Covers (DominatesFl F .lessBetter) front (returned pop r.world.2) ∧
        (PicksBetter F .lessBetter E.min → (∀ y ∈ returned pop r.world.2, ∀ j, y j ≠ .nan) →
          IsIdealFl F .lessBetter id (returned pop r.world.2) b)) := by
  obtain ⟨r, front, b, h1, h2, h3, h4, h5, h6, h7, h8, h9, -, h10⟩ := mo_calls_run (DominatesFl F .lessBetter)
    (fun _ => True) (dominatesFl_irrefl F _) (dominatesFl_trans _ _) (moBestFitnessFl E.min)
    (moBestFl_total _) K hK _
    (fun w => good_nsga3Fl F E K tiny refs fuel hF hK32 hrefs (e w) (he w) hfuel) R hR u
    (fun _ _ _ => trivial) lim pop hd hlen (fun _ _ _ => trivial) t w order hord
  exact ⟨r, front, b, h1, h2, h3, h4, h5, h6, h7, h8, fun hroom => ⟨h10 hroom, fun hp hn =>
    ideal_of_allFl hp pop _ h5 hn h7 h9 (h10 hroom)⟩⟩

/-- **C148**, NSGA-II on `double`s: as above, if all values the fitness function returns (and those the individuals have
at the start) are `double`s below `2^1023` in absolute value. -/
theorem nsga2_ieee_calls_run (o : FitnessOption) (K : Nat) (hK : 1 ≤ K) (pick : Fl → Fl → Fl) (e : ω → NSGA2Env m)
    (hR : FairRest R) (hu : ∀ v y w, ModerateFl (u.fit v y w).1)
    (pop : Pop (Gene V (Fin m → Fl))) (hd : DistinctNodes pop) (hlen : K ≤ pop.length)
    (hq : ∀ c ∈ pop, c.2.computed = true → ModerateFl c.2.fitness) (t : Finset Addr × Nat) (w : ω)
    (order : Finset Addr → List Addr) (hord : Iterates order) :
    ∃ r front b, callsRun (logged u) (unaware (nsga2HostFl binary64 o K demoEps pick e R)) lim pop t (w, []) = .ok r ∧
      r.generation = lim.maxGen ∧ r.record.length = lim.maxGen + 1 ∧ r.pop.length = K ∧
      (∀ c ∈ r.pop, (c.2.var, c.2.fitness) ∈ valuedPop pop ++ values r.world.2) ∧
      reportedFront order r = .ok front ∧
      IsFrontBy (DominatesFl binary64 o) id (r.pop.map fun c => c.2.fitness) front ∧
      r.record.getLast? = some b ∧
      ((∀ j, j ≤ lim.maxGen → ∀ r' front', callsRun (logged u) (unaware (nsga2HostFl binary64 o K demoEps pick e R))
          { lim with maxGen := j } pop t (w, []) = .ok r' → reportedFront order r' = .ok front' → front'.length < K) →
        Covers (DominatesFl binary64 o) front (returned pop r.world.2) ∧
        (PicksBetter binary64 o pick →
          IsIdealFl binary64 o id (returned pop r.world.2) b)) := by
  obtain ⟨r, front, b, h1, h2, h3, h4, h5, h6, h7, h8, h9, hn, h10⟩ := mo_calls_run (DominatesFl binary64 o)
    ModerateFl (dominatesFl_irrefl _ _) (dominatesFl_trans _ _) (moBestFitnessFl pick)
    (moBestFl_total _) K hK _ (fun w => good_nsga2Fl o K (e w)) R hR u hu lim pop hd hlen hq t w order hord
  exact ⟨r, front, b, h1, h2, h3, h4, h5, h6, h7, h8, fun hroom => ⟨h10 hroom, fun hp =>
    ideal_of_allFl hp pop _ h5 (fun y hy j hnan => by have := (hn y hy j).1; rw [hnan] at this; obtain ⟨s, n, h, -⟩ := this; cases h) h7 h9 (h10 hroom)⟩⟩

end ieee

/-! ## Examples -/

/-- Noisy: the world counts all calls; the `n`-th call adds `n % 2` to both objectives; minimising `x²` and `(x - 2)²`. -/
def noisyMO : UserFns ℚ (Fin 2 → ℚ) Nat where
  ini _ w := (w, w + 1)
  fit v _ w := (![v ^ 2 + (w % 2 : Nat), (v - 2) ^ 2 + (w % 2 : Nat)], w + 1)
  cross p q w := ((p + 4, q + 7), w + 1)
  muta v w := (v + 5, w + 1)

/-- All draws are accepted by `≤ 1`; the order of the list is kept. -/
def noisyRest : Rest ℚ ℚ (Fin 2 → ℚ) Nat where
  next w := w + 1
  rnd w := ((w % 3 : Nat), w + 1)
  shuffle l w := (l, w)
  order := id
  junk := 0

example : FairRest noisyRest := ⟨fun _ _ => .refl _, fun _ => .refl _⟩

/-- a host with population size 4 -/
def noisyNSGA2 : GAHost ℚ ℚ (Fin 2 → ℚ) Nat (Finset Addr × Nat) (Fin 2 → ℚ) :=
  nsga2Host .lessBetter 4 (1 / 10000000000) (fun _ => ⟨insertionSorter, fun _ => insertionSorter, insertionSorter⟩)
    noisyRest

def noisyStart : Pop (Gene ℚ (Fin 2 → ℚ)) × (Nat × List (UserCall ℚ (Fin 2 → ℚ))) :=
  initializeCalls (logged noisyMO) 4 ⟨0, 0, false⟩ [] (0, [])

/-- the hypotheses about the start hold -/
example : DistinctNodes noisyStart.1 ∧ 4 ≤ noisyStart.1.length := by
  unfold DistinctNodes; decide +kernel

/-- … and so does the one about the fronts of runs of up to two generations: three members, four places, although the
value of candidate 1 is overstated by noise. -/
example : ∀ j, j < 3 → (callsRun (logged noisyMO) (unaware noisyNSGA2) ⟨j, 0, 1, 1⟩ noisyStart.1 (∅, 0)
      noisyStart.2).satisfies (fun r => decide (r.rest.1.card = 3 ∧ r.pop.length = 4 ∧ r.generation = j) &&
      decide (r.world.2.length = 8 + 11 * j)) = true := by
  decide +kernel

end Heu
