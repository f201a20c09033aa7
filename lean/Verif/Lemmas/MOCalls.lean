import Verif.Spec.MOCalls
import Verif.Lemmas.MORunG
import Verif.Props.Calls
import Verif.Props.MORunFl

/-! Multi-objective selections and the loop, with the values the individuals have (not a fixed function). -/

set_option linter.unusedSectionVars false
set_option linter.unusedVariables false
set_option linter.unusedSimpArgs false

namespace Heu
open Spec

section
variable {V α : Type} {m : Nat} [Zero α]


/-- What one selection does, in terms of individuals. -/
structure MOStepV (D : (Fin m → α) → (Fin m → α) → Prop) (K : Nat) (s t : MOState V m α) : Prop where
  sub : t.pop.Sublist s.pop
  size : t.pop.length = K
  fail : t.fail = s.fail
  elitism : ∀ x ∈ s.pop, ∀ y ∈ t.pop, D x.2.fitness y.2.fitness → x ∈ t.pop
  front : ∀ a, a ∈ t.pf ↔ ∃ c ∈ t.pop, c.1 = a ∧ ∀ d ∈ t.pop, ¬ D d.2.fitness c.2.fitness
  complete : t.pf.card < K → ∀ c ∈ s.pop, (∀ d ∈ s.pop, ¬ D d.2.fitness c.2.fitness) →
    c ∈ t.pop ∧ c.1 ∈ t.pf

theorem moSelect_stepV {D : (Fin m → α) → (Fin m → α) → Prop} {Q : (Fin m → α) → Prop} {K : Nat} (hK : 1 ≤ K)
    {sel : (Addr → Fin m → α) → List Addr → Out (SelectResult Addr)} (hg : GoodSelectionG D Q K sel)
    (s : MOState V m α) (hd : DistinctNodes s.pop) (hQ : ∀ c ∈ s.pop, Q c.2.fitness) (hlen : K ≤ s.pop.length) :
    ∃ t, moSelect sel s = .ok t ∧ MOStepV D K s t := by
  have hne : s.pop.map (·.1) ≠ [] := by
    intro h
    have : s.pop.length = 0 := by simpa using congrArg List.length h
    omega
  have hd' : (s.pop.map (·.1)).Nodup := hd
  have hfit : ∀ c ∈ s.pop, fitAt s.pop c.1 = c.2.fitness := fun c hc =>
    fitAt_of_memG hd hc
  obtain ⟨r, hr, h1, h2, h3, h4, h5⟩ := hg (fitAt s.pop) _ hd' hne (by simpa using hlen) (by
    intro a ha
    obtain ⟨c, hc, rfl⟩ := List.mem_map.1 ha
    rw [hfit c hc]; exact hQ c hc)
  have hmap : (s.pop.filter (fun c => c.1 ∈ r.population)).map (·.1) = r.population := by
    have := filter_sublist_eq hd h2
    rw [List.filter_map] at this
    exact this
  have hmem : ∀ c, c ∈ s.pop.filter (fun c => c.1 ∈ r.population) ↔ c ∈ s.pop ∧ c.1 ∈ r.population := by
    intro c; simp [List.mem_filter]
  have hrm : ∀ a ∈ r.population, ∃ c ∈ s.pop, c.1 = a := fun a ha => List.mem_map.1 (h2.subset ha)
  have hnd : ∀ c ∈ s.pop, (NonDominatedBy D (fitAt s.pop) (s.pop.map (·.1)) c.1 ↔
      ∀ d ∈ s.pop, ¬ D d.2.fitness c.2.fitness) := by
    intro c hc
    constructor
    · intro h d hdm
      have := h d.1 (List.mem_map_of_mem hdm)
      rwa [hfit d hdm, hfit c hc] at this
    · intro h y hy
      obtain ⟨d, hdm, rfl⟩ := List.mem_map.1 hy
      rw [hfit d hdm, hfit c hc]; exact h d hdm
  refine ⟨{ s with pop := s.pop.filter (fun c => c.1 ∈ r.population), pf := r.pf }, ?_, ?_⟩
  · unfold moSelect; rw [hr]; rfl
  have hel : ∀ x ∈ s.pop, ∀ y ∈ s.pop.filter (fun c => c.1 ∈ r.population),
      D x.2.fitness y.2.fitness → x ∈ s.pop.filter (fun c => c.1 ∈ r.population) := by
    intro x hx y hy hdom
    obtain ⟨hy1, hy2⟩ := (hmem y).1 hy
    refine (hmem x).2 ⟨hx, h3 y.1 hy2 x.1 (List.mem_map_of_mem hx) ?_⟩
    rw [hfit x hx, hfit y hy1]; exact hdom
  classical
  obtain ⟨nd, hndef⟩ : ∃ nd, nd = (s.pop.map (·.1)).filter
      (fun g => decide (NonDominatedBy D (fitAt s.pop) (s.pop.map (·.1)) g)) := ⟨_, rfl⟩
  have hndm : ∀ g, g ∈ nd ↔ g ∈ s.pop.map (·.1) ∧ NonDominatedBy D (fitAt s.pop) (s.pop.map (·.1)) g := by
    intro g; rw [hndef, List.mem_filter]; simp
  obtain ⟨h6, h7⟩ := h5 nd (by rw [hndef]; exact List.Nodup.filter _ hd) hndm
  constructor
  · exact List.filter_sublist
  · have := congrArg List.length hmap
    simpa [h1] using this
  · rfl
  · exact hel
  · intro a
    constructor
    · intro ha
      obtain ⟨hp, hn⟩ := h4 a ha
      obtain ⟨c, hc, rfl⟩ := hrm a hp
      exact ⟨c, (hmem c).2 ⟨hc, hp⟩, rfl, fun d hdm => (hnd c hc).1 hn d ((hmem d).1 hdm).1⟩
    · rintro ⟨c, hc, rfl, hcn⟩
      obtain ⟨hc1, hc2⟩ := (hmem c).1 hc
      have hn : NonDominatedBy D (fitAt s.pop) (s.pop.map (·.1)) c.1 := by
        rw [hnd c hc1]
        intro d hdm hdom
        exact hcn d (hel d hdm c hc hdom) hdom
      rcases le_or_gt nd.length K with h | h
      · rw [h6 h, List.mem_toFinset, hndm]; exact ⟨List.mem_map_of_mem hc1, hn⟩
      · rw [h7 h, List.mem_toFinset]; exact hc2
  · intro hcard c hc hcn
    have hle : nd.length ≤ K := by
      by_contra hcon
      have := h7 (by omega)
      dsimp only at hcard
      rw [this, List.card_toFinset, List.Nodup.dedup (List.Nodup.sublist h2 hd), h1] at hcard
      omega
    have hin : c.1 ∈ r.pf := by
      rw [h6 hle, List.mem_toFinset, hndm]; exact ⟨List.mem_map_of_mem hc, (hnd c hc).2 hcn⟩
    exact ⟨(hmem c).2 ⟨hc, (h4 _ hin).1⟩, hin⟩

end

section loop
variable {κ V F ω τ R : Type} [LE κ] [DecidableLE κ]

/-- One round of the main loop when nothing goes wrong and nobody has failed. -/
theorem callsLoop_step (u : UserFns V F ω) (h : GAHost κ V F ω τ R) (o : GALimits κ) (fuel gen : Nat)
    (pop : Pop (Gene V F)) (t : τ) (w : ω) (record : List R) {e s b}
    (he : evaluateCalls u h pop w = .ok e) (hs : h.select e.1 t e.2 = .ok s)
    (hb : h.bestFitness s.1.1 s.1.2 = .ok b) (hf : h.failTimes s.1.2 = 0) :
    callsLoop u h o (fuel + 1) gen pop t w record =
      if gen + 1 > o.maxGen then .ok ⟨s.1.1, s.1.2, gen, record ++ [b], s.2⟩
      else callsLoop u h o fuel (gen + 1)
        (mutateCalls u h o.muProb (crossoverCalls u h o.cxProb s.1.1 s.2).1 (crossoverCalls u h o.cxProb s.1.1 s.2).2).1
        s.1.2
        (mutateCalls u h o.muProb (crossoverCalls u h o.cxProb s.1.1 s.2).1 (crossoverCalls u h o.cxProb s.1.1 s.2).2).2
        (record ++ [b]) := by
  rw [callsLoop, he]
  simp only [Out.ok_bind, hs, hb, hf]
  have : ¬ (o.maxFail > 0 ∧ 0 > o.maxFail) := by omega
  split
  · rfl
  · rfl

theorem cross_values {cs : List (UserCall V F)} (h : ∀ e ∈ cs, e.isCross) : values cs = [] := by
  unfold values
  rw [List.flatMap_eq_nil_iff]
  intro e hce
  have := h e hce
  cases e <;> simp_all [UserCall.isCross, UserCall.valued]

theorem mut_values {cs : List (UserCall V F)} (h : ∀ e ∈ cs, e.isMut) : values cs = [] := by
  unfold values
  rw [List.flatMap_eq_nil_iff]
  intro e hce
  have := h e hce
  cases e <;> simp_all [UserCall.isMut, UserCall.valued]

/-- What holds of all values the fitness function returns holds of all evaluated individuals. -/
theorem evalCalls_values (u : UserFns V F ω) (Q : F → Prop) (hQ : ∀ v y w, Q (u.fit v y w).1) :
    ∀ (as : List Addr) (pop : Pop (Gene V F)) (w : ω) (r : Pop (Gene V F) × ω),
      (∀ c ∈ pop, c.2.computed = true → Q c.2.fitness) → evalCalls u as pop w = .ok r →
      ∀ c ∈ r.1, c.2.computed = true → Q c.2.fitness
  | [], pop, w, r, h, hr => by
    have := Out.ok.inj hr
    subst this
    exact h
  | a :: as, pop, w, r, h, hr => by
    rw [evalCalls] at hr
    obtain ⟨g, hg, hr⟩ := Out.bind_eq_ok.1 hr
    refine evalCalls_values u Q hQ as _ _ r ?_ hr
    intro c hc hcc
    obtain ⟨d, hd, rfl⟩ := List.mem_map.1 hc
    by_cases hda : d.1 = a
    · rw [if_pos hda]; exact hQ _ _ _
    · rw [if_neg hda] at hcc ⊢; exact h d hd hcc

end loop

section mo
variable {κ V α ω : Type} {m : Nat} [Zero α] [LE κ] [DecidableLE κ]

theorem moHostBy_fair (best : List (Fin m → α) → Out (Fin m → α))
    (sel : ω → (Addr → Fin m → α) → List Addr → Out (SelectResult Addr))
    (R : Rest κ V (Fin m → α) ω) (hR : FairRest R) :
    FairHost (moHostBy (κ := κ) best sel R.next R.rnd R.shuffle R.order R.junk) := by
  refine ⟨hR.shuffle, hR.order, ?_⟩
  intro pop t w r hd hr
  simp only [moHostBy, moSelect] at hr
  obtain ⟨s, hs, h2⟩ := Out.bind_eq_ok.1 hr
  obtain ⟨s', hs', h3⟩ := Out.bind_eq_ok.1 hs
  have h4 := Out.ok.inj h3
  subst h4
  have h5 := Out.ok.inj h2
  subst h5
  exact ⟨(List.Sublist.map _ List.filter_sublist).nodup hd, fun c hc => ⟨c, (List.mem_filter.1 hc).1, rfl⟩⟩

variable (D : (Fin m → α) → (Fin m → α) → Prop) (Q : (Fin m → α) → Prop)
variable (hirr : ∀ A, ¬ D A A) (htr : ∀ A B C, D A B → D B C → D A C)
variable (best : List (Fin m → α) → Out (Fin m → α)) (hbest : ∀ l, l ≠ [] → ∃ b, best l = .ok b)
variable (K : Nat) (hK : 1 ≤ K)
variable (sel : ω → (Addr → Fin m → α) → List Addr → Out (SelectResult Addr)) (hg : ∀ w, GoodSelectionG D Q K (sel w))
variable (R : Rest κ V (Fin m → α) ω) (hR : FairRest R)
variable (u : UserFns V (Fin m → α) ω) (hu : ∀ v y w, Q (u.fit v y w).1) (o : GALimits κ)

/-- What a run leaves. -/
structure MOEnd
    (r : CallsResult V (Fin m → α) (ω × List (UserCall V (Fin m → α))) (Finset Addr × Nat) (Fin m → α)) : Prop where
  size : r.pop.length = K
  distinct : DistinctNodes r.pop
  quality : ∀ c ∈ r.pop, Q c.2.fitness
  front : ∀ a, a ∈ r.rest.1 ↔ ∃ c ∈ r.pop, c.1 = a ∧ ∀ d ∈ r.pop, ¬ D d.2.fitness c.2.fitness
  last : ∃ b, r.record.getLast? = some b ∧ best (r.pop.map fun c => c.2.fitness) = .ok b

include hirr htr in
/-- With room in the front, selection keeps somebody for everybody. -/
theorem mo_round_covers {pop pop1 : Pop (Gene V (Fin m → α))} {fs : List (UserCall V (Fin m → α))} {pf : Finset Addr}
    {t : MOState V m α} (h2 : PopEvaluated pop pop1 fs) (h5 : MOStepV D K { pop := pop1, pf := pf, fail := 0 } t)
    (hcard : t.pf.card < K) :
    ∀ p ∈ valuedPop pop ++ values fs, ∃ c ∈ t.pop, c.1 ∈ t.pf ∧ (c.2.fitness = p.2 ∨ D c.2.fitness p.2) := by
  classical
  intro p hp
  obtain ⟨x, hx, hxp⟩ : ∃ x ∈ pop1, x.2.fitness = p.2 := by
    rcases List.mem_append.1 hp with hp | hp
    · obtain ⟨c, hc, hcc, rfl⟩ := mem_valuedPop.1 hp
      exact ⟨c, h2.keep c hc hcc, rfl⟩
    · obtain ⟨c, hc, -, h⟩ := h2.stored p hp
      exact ⟨c, hc, h⟩
  obtain ⟨y, hy, hy1, hy2⟩ := dominated_by_nondominatedG D hirr htr (fun c => c.2.fitness) pop1 _ x hx le_rfl
  obtain ⟨hy3, hy4⟩ := h5.complete hcard y hy hy1
  refine ⟨y, hy3, hy4, ?_⟩
  rcases hy2 with rfl | hy2
  · exact Or.inl hxp
  · exact Or.inr (hxp ▸ hy2)

include hbest hK hg hR hu in
/-- One round: evaluation, selection, best fitness. -/
theorem mo_round (pop : Pop (Gene V (Fin m → α))) (pf : Finset Addr) (w : ω) (l : List (UserCall V (Fin m → α)))
    (hd : DistinctNodes pop) (hlen : K ≤ pop.length) (hq : ∀ c ∈ pop, c.2.computed = true → Q c.2.fitness) :
    ∃ pop1 w1 fs t b,
      evaluateCalls (logged u) (unaware (moHostBy best sel R.next R.rnd R.shuffle R.order R.junk)) pop (w, l) =
        .ok (pop1, (w1, l ++ fs)) ∧ PopEvaluated pop pop1 fs ∧
      (unaware (moHostBy best sel R.next R.rnd R.shuffle R.order R.junk) :
        GAHost κ V (Fin m → α) (ω × List (UserCall V (Fin m → α))) _ _).select pop1 (pf, 0) (w1, l ++ fs) =
        .ok ((t.pop, (t.pf, 0)), (R.next w1, l ++ fs)) ∧
      best (t.pop.map fun c => c.2.fitness) = .ok b ∧
      MOStepV D K { pop := pop1, pf := pf, fail := 0 } t ∧ DistinctNodes t.pop ∧ ∀ c ∈ pop1, Q c.2.fitness := by
  obtain ⟨pop1, w1, fs, h1, h2, -⟩ := evaluateCalls_spec u (moHostBy best sel R.next R.rnd R.shuffle R.order R.junk)
    hR.order pop w l hd
  have hq1 : ∀ c ∈ pop1, Q c.2.fitness := fun c hc =>
    evalCalls_values (logged u) Q (fun v y w => hu v y w.1) _ pop (w, l) _ hq h1 c hc (h2.done c hc)
  obtain ⟨t, ht, hs⟩ := moSelect_stepV hK (hg w1) { pop := pop1, pf := pf, fail := 0 } h2.distinct hq1
    (by rw [h2.length]; exact hlen)
  obtain ⟨b, hb⟩ := hbest (t.pop.map fun c => c.2.fitness) (by
    intro h
    have h3 : t.pop.length = 0 := by simpa using congrArg List.length h
    have := hs.size
    omega)
  refine ⟨pop1, w1, fs, t, b, h1, h2, ?_, hb, hs, (hs.sub.map _).nodup h2.distinct, hq1⟩
  show (Out.bind (moSelect (sel w1) { pop := pop1, pf := pf, fail := 0 } >>= fun s =>
    Out.ok ((s.pop, (s.pf, s.fail)), R.next w1)) fun r => .ok (r.1, (r.2, l ++ fs))) = _
  rw [ht, Out.ok_bind]
  show Out.ok ((t.pop, (t.pf, t.fail)), (R.next w1, l ++ fs)) = _
  rw [hs.fail]

include hirr htr hbest hK hg hR hu in
theorem mo_calls_loop : ∀ (fuel gen : Nat) (pop : Pop (Gene V (Fin m → α))) (pf : Finset Addr) (w : ω)
    (l : List (UserCall V (Fin m → α))) (record : List (Fin m → α)), DistinctNodes pop → K ≤ pop.length →
    (∀ c ∈ pop, c.2.computed = true → Q c.2.fitness) → fuel + gen = o.maxGen →
    ∃ r es, callsLoop (logged u) (unaware (moHostBy best sel R.next R.rnd R.shuffle R.order R.junk)) o (fuel + 1) gen pop
        (pf, 0) (w, l) record = .ok r ∧
      r.world.2 = l ++ es ∧ r.generation = o.maxGen ∧ r.record.length = record.length + fuel + 1 ∧
      MOEnd D Q best K r ∧ (∀ p ∈ values es, Q p.2) ∧
      ((∀ j, gen ≤ j → j ≤ o.maxGen → ∀ r', callsLoop (logged u)
          (unaware (moHostBy best sel R.next R.rnd R.shuffle R.order R.junk)) { o with maxGen := j } (j - gen + 1) gen pop
          (pf, 0) (w, l) record = .ok r' → MOEnd D Q best K r' → r'.rest.1.card < K) →
        ∀ p ∈ valuedPop pop ++ values es, ∃ c ∈ r.pop, c.1 ∈ r.rest.1 ∧ (c.2.fitness = p.2 ∨ D c.2.fitness p.2)) := by
  classical
  intro fuel
  induction fuel with
  | zero =>
    intro gen pop pf w l record hd hlen hq hfg
    obtain ⟨pop1, w1, fs, t, b, h1, h2, h3, h4, h5, h6, h7⟩ := mo_round D Q best hbest K hK sel hg R hR u hu pop pf w l hd
      hlen hq
    have hqv : ∀ p ∈ values fs, Q p.2 := fun p hp => by
      obtain ⟨c, hc, -, h⟩ := h2.stored p hp
      rw [← h]; exact h7 c hc
    have hst := callsLoop_step (logged u) (unaware (moHostBy best sel R.next R.rnd R.shuffle R.order R.junk)) o 0 gen pop
      (pf, 0) (w, l) record h1 h3 h4 rfl
    rw [if_pos (by omega)] at hst
    have hend : MOEnd D Q best K (⟨t.pop, (t.pf, 0), gen, record ++ [b], (R.next w1, l ++ fs)⟩ :
        CallsResult V (Fin m → α) (ω × List (UserCall V (Fin m → α))) (Finset Addr × Nat) (Fin m → α)) :=
      ⟨h5.size, h6, fun c hc => h7 c (h5.sub.subset hc), h5.front, b, by simp, h4⟩
    refine ⟨_, fs, hst, rfl, by simp; omega, by simp, hend, hqv, fun hroom => ?_⟩
    have hcard : t.pf.card < K := by
      refine hroom gen (le_refl _) (by omega) _ ?_ hend
      rw [Nat.sub_self, callsLoop_step (logged u) (unaware (moHostBy best sel R.next R.rnd R.shuffle R.order R.junk))
        { o with maxGen := gen } 0 gen pop (pf, 0) (w, l) record h1 h3 h4 rfl, if_pos (by simp)]
    exact mo_round_covers D hirr htr K h2 h5 hcard
  | succ fuel ih =>
    intro gen pop pf w l record hd hlen hq hfg
    obtain ⟨pop1, w1, fs, t, b, h1, h2, h3, h4, h5, h6, h7⟩ := mo_round D Q best hbest K hK sel hg R hR u hu pop pf w l hd
      hlen hq
    have hqv : ∀ p ∈ values fs, Q p.2 := fun p hp => by
      obtain ⟨c, hc, -, h⟩ := h2.stored p hp
      rw [← h]; exact h7 c hc
    have hst := callsLoop_step (logged u) (unaware (moHostBy best sel R.next R.rnd R.shuffle R.order R.junk)) o (fuel + 1)
      gen pop (pf, 0) (w, l) record h1 h3 h4 rfl
    rw [if_neg (by omega)] at hst
    have hend : MOEnd D Q best K (⟨t.pop, (t.pf, 0), gen, record ++ [b], (R.next w1, l ++ fs)⟩ :
        CallsResult V (Fin m → α) (ω × List (UserCall V (Fin m → α))) (Finset Addr × Nat) (Fin m → α)) :=
      ⟨h5.size, h6, fun c hc => h7 c (h5.sub.subset hc), h5.front, b, by simp, h4⟩
    obtain ⟨pop3, w3, cs, c1, c2, c3, -, -⟩ := crossoverCalls_spec u
      (moHostBy best sel R.next R.rnd R.shuffle R.order R.junk) hR.shuffle o.cxProb t.pop (R.next w1) (l ++ fs)
    obtain ⟨pop4, w4, ms, m1, m2, m3, -, -⟩ := mutateCalls_spec u
      (moHostBy best sel R.next R.rnd R.shuffle R.order R.junk) o.muProb pop3 w3 (l ++ fs ++ cs)
    dsimp only at hst
    rw [c1] at hst
    dsimp only at hst
    rw [m1] at hst
    dsimp only at hst
    have hstep : ∀ j, gen + 1 ≤ j → callsLoop (logged u)
        (unaware (moHostBy best sel R.next R.rnd R.shuffle R.order R.junk)) { o with maxGen := j } (j - gen + 1) gen pop
          (pf, 0) (w, l) record = callsLoop (logged u)
        (unaware (moHostBy best sel R.next R.rnd R.shuffle R.order R.junk)) { o with maxGen := j } (j - (gen + 1) + 1)
          (gen + 1) pop4 (t.pf, 0) (w4, l ++ fs ++ cs ++ ms) (record ++ [b]) := fun j hj => by
      have := callsLoop_step (logged u) (unaware (moHostBy best sel R.next R.rnd R.shuffle R.order R.junk))
        { o with maxGen := j } (j - (gen + 1) + 1) gen pop (pf, 0) (w, l) record h1 h3 h4 rfl
      dsimp only at this
      rw [if_neg (by omega), c1] at this
      dsimp only at this
      rw [m1] at this
      rw [show j - gen + 1 = j - (gen + 1) + 1 + 1 by omega]
      exact this
    have hcomp : ∀ c ∈ t.pop, c.2.computed = true := fun c hc => h2.done c (h5.sub.subset hc)
    obtain ⟨n1, n2⟩ := grown_unvalued (c2.trans m2) hcomp
    obtain ⟨new, na, nb, -⟩ := (c2.trans m2).app
    obtain ⟨r, es, r1, r2, r3, r4, r5, rq, r6⟩ := ih (gen + 1) pop4 t.pf w4 (l ++ fs ++ cs ++ ms) (record ++ [b])
      (m2.distinct (c2.distinct h6)) (by rw [na, List.length_append, h5.size]; omega)
      (by
        intro c hc hcc
        rw [na] at hc
        rcases List.mem_append.1 hc with hc | hc
        · exact h7 c (h5.sub.subset hc)
        · rw [nb c hc] at hcc; cases hcc) (by omega)
    rw [← hst] at r1
    have hval : values (fs ++ cs ++ ms ++ es) = values fs ++ values es := by
      have c0 := cross_values c3
      have m0 := mut_values m3
      simp only [values_append, c0, m0, List.append_nil]
    refine ⟨r, fs ++ cs ++ ms ++ es, r1, by rw [r2]; simp [List.append_assoc], r3, by rw [r4]; simp; omega, r5,
      fun p hp => by
        rw [hval] at hp
        rcases List.mem_append.1 hp with hp | hp
        · exact hqv p hp
        · exact rq p hp,
      fun hroom => ?_⟩
    have hcard : t.pf.card < K := by
      refine hroom gen (le_refl _) (by omega) _ ?_ hend
      rw [Nat.sub_self, callsLoop_step (logged u) (unaware (moHostBy best sel R.next R.rnd R.shuffle R.order R.junk))
        { o with maxGen := gen } 0 gen pop (pf, 0) (w, l) record h1 h3 h4 rfl, if_pos (by simp)]
    have hcov := mo_round_covers D hirr htr K h2 h5 hcard
    have hlater := r6 (fun j hj hj' r' hr' he' => hroom j (by omega) hj' r' ((hstep j hj).trans hr') he')
    rw [hval]
    intro p hp
    rw [← List.append_assoc] at hp
    rcases List.mem_append.1 hp with hp | hp
    · obtain ⟨c, hc, -, hc2⟩ := hcov p hp
      obtain ⟨d, hd1, hd2, hd3⟩ := hlater (c.2.var, c.2.fitness) (List.mem_append_left _ (by
        rw [n2]; exact List.mem_map_of_mem hc))
      refine ⟨d, hd1, hd2, ?_⟩
      dsimp only at hd3
      rcases hc2 with e | e <;> rcases hd3 with e' | e'
      · exact Or.inl (e'.trans e)
      · exact Or.inr (e ▸ e')
      · exact Or.inr (e'.symm ▸ e)
      · exact Or.inr (htr _ _ _ e' e)
    · exact hlater p (List.mem_append_right _ hp)

end mo
end Heu
