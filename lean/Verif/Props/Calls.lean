import Verif.Lemmas.Calls
import Verif.Props.SOGA
import Verif.Props.MORun

/-!
# C144: the calls of the user's functions during a run of a genetic solver

The user's functions may have side effects and depend on them.  Every candidate is evaluated exactly once, in the
generation after it was made, and keeps the value it got.
-/

set_option linter.unusedSectionVars false
set_option linter.unusedVariables false

namespace Heu
open Spec

section
variable {κ V F ω τ R : Type}

/-! ## The log does not change anything -/

theorem evalCalls_forget (u : UserFns V F ω) : ∀ (as : List Addr) (pop : Pop (Gene V F)) (w : ω)
    (l : List (UserCall V F)),
    (evalCalls (logged u) as pop (w, l)).bind (fun r => .ok (r.1, r.2.1)) = evalCalls u as pop w
  | [], pop, w, l => rfl
  | a :: as, pop, w, l => by
    rw [evalCalls, evalCalls]
    rcases deref_ok_or_ub pop a with ⟨g, hg⟩ | hu
    · rw [hg]
      simp only [Out.ok_bind]
      exact evalCalls_forget u as _ _ _
    · rw [hu]
      rfl

theorem crossCalls_forget (u : UserFns V F ω) (junk : F) : ∀ (q : List (Cell (Gene V F))) (pop : Pop (Gene V F))
    (w : ω) (l : List (UserCall V F)),
    (crossCalls (logged u) junk q pop (w, l)).1 = (crossCalls u junk q pop w).1 ∧
    (crossCalls (logged u) junk q pop (w, l)).2.1 = (crossCalls u junk q pop w).2
  | [], pop, w, l => ⟨rfl, rfl⟩
  | [a], pop, w, l => ⟨rfl, rfl⟩
  | a :: b :: q, pop, w, l => crossCalls_forget u junk q _ _ _

theorem mutCalls_forget (u : UserFns V F ω) (junk : F) : ∀ (q : List (Cell (Gene V F))) (pop : Pop (Gene V F))
    (w : ω) (l : List (UserCall V F)),
    (mutCalls (logged u) junk q pop (w, l)).1 = (mutCalls u junk q pop w).1 ∧
    (mutCalls (logged u) junk q pop (w, l)).2.1 = (mutCalls u junk q pop w).2
  | [], pop, w, l => ⟨rfl, rfl⟩
  | a :: q, pop, w, l => mutCalls_forget u junk q _ _ _

section vary
variable [LE κ] [DecidableLE κ]

theorem crossoverCalls_forget (u : UserFns V F ω) (h : GAHost κ V F ω τ R) (p : κ) (pop : Pop (Gene V F)) (w : ω)
    (l : List (UserCall V F)) :
    (crossoverCalls (logged u) (unaware h) p pop (w, l)).1 = (crossoverCalls u h p pop w).1 ∧
    (crossoverCalls (logged u) (unaware h) p pop (w, l)).2.1 = (crossoverCalls u h p pop w).2 := by
  unfold crossoverCalls
  rw [drawn_unaware]
  exact crossCalls_forget u h.junk _ pop _ l

theorem mutateCalls_forget (u : UserFns V F ω) (h : GAHost κ V F ω τ R) (p : κ) (pop : Pop (Gene V F)) (w : ω)
    (l : List (UserCall V F)) :
    (mutateCalls (logged u) (unaware h) p pop (w, l)).1 = (mutateCalls u h p pop w).1 ∧
    (mutateCalls (logged u) (unaware h) p pop (w, l)).2.1 = (mutateCalls u h p pop w).2 := by
  unfold mutateCalls
  rw [drawn_unaware]
  exact mutCalls_forget u h.junk _ pop _ l

theorem callsLoop_forget (u : UserFns V F ω) (h : GAHost κ V F ω τ R) (o : GALimits κ) : ∀ (fuel gen : Nat)
    (pop : Pop (Gene V F)) (t : τ) (w : ω) (l : List (UserCall V F)) (record : List R),
    (callsLoop (logged u) (unaware h) o fuel gen pop t (w, l) record).bind (fun r => .ok (forgetLog r)) =
      callsLoop u h o fuel gen pop t w record
  | 0, _, _, _, _, _, _ => rfl
  | fuel + 1, gen, pop, t, w, l, record => by
    rw [callsLoop, callsLoop]
    have h1 := evalCalls_forget u (h.order (evalTasks pop)) pop w l
    have e1 : evaluateCalls (logged u) (unaware h) pop (w, l) =
      evalCalls (logged u) (h.order (evalTasks pop)) pop (w, l) := rfl
    have e2 : evaluateCalls u h pop w = evalCalls u (h.order (evalTasks pop)) pop w := rfl
    rw [e1, e2, ← h1]
    cases evalCalls (logged u) (h.order (evalTasks pop)) pop (w, l) with
    | ub => rfl
    | timeout => rfl
    | ok e =>
      obtain ⟨pop1, w1, l1⟩ := e
      show ((((h.select pop1 t w1).bind fun r => .ok (r.1, (r.2, l1))) >>= _).bind _ : Out _) = h.select pop1 t w1 >>= _
      cases h.select pop1 t w1 with
      | ub => rfl
      | timeout => rfl
      | ok s =>
        obtain ⟨⟨pop2, t2⟩, w2⟩ := s
        show ((h.bestFitness pop2 t2 >>= _).bind _ : Out _) = h.bestFitness pop2 t2 >>= _
        cases h.bestFitness pop2 t2 with
        | ub => rfl
        | timeout => rfl
        | ok b =>
          simp only [Out.ok_bind]
          show Out.bind (if gen + 1 > o.maxGen then _ else if o.maxFail > 0 ∧ h.failTimes t2 > o.maxFail then _ else _) _ =
            (if gen + 1 > o.maxGen then _ else if o.maxFail > 0 ∧ h.failTimes t2 > o.maxFail then _ else _)
          split
          · rfl
          · split
            · rfl
            · have c := crossoverCalls_forget u h o.cxProb pop2 w2 l1
              revert c
              show _ → Out.bind (callsLoop (logged u) (unaware h) o fuel (gen + 1)
                (mutateCalls (logged u) (unaware h) o.muProb (crossoverCalls (logged u) (unaware h) o.cxProb pop2 (w2, l1)).1
                  (crossoverCalls (logged u) (unaware h) o.cxProb pop2 (w2, l1)).2).1 t2
                (mutateCalls (logged u) (unaware h) o.muProb (crossoverCalls (logged u) (unaware h) o.cxProb pop2 (w2, l1)).1
                  (crossoverCalls (logged u) (unaware h) o.cxProb pop2 (w2, l1)).2).2 (record ++ [b])) _ = _
              generalize crossoverCalls (logged u) (unaware h) o.cxProb pop2 (w2, l1) = x
              generalize crossoverCalls u h o.cxProb pop2 w2 = y
              obtain ⟨x1, x2, x3⟩ := x
              obtain ⟨y1, y2⟩ := y
              rintro ⟨rfl, rfl⟩
              have c := mutateCalls_forget u h o.muProb x1 x2 x3
              revert c
              generalize mutateCalls (logged u) (unaware h) o.muProb x1 (x2, x3) = x'
              generalize mutateCalls u h o.muProb x1 x2 = y'
              obtain ⟨z1, z2, z3⟩ := x'
              obtain ⟨v1, v2⟩ := y'
              rintro ⟨rfl, rfl⟩
              exact callsLoop_forget u h o fuel (gen + 1) z1 t2 z2 z3 (record ++ [b])

/-- C144: writing the log changes nothing: without the log, the result of the run with wrapped functions is that of the
run with the user's own functions. -/
theorem ga_log_transparent (u : UserFns V F ω) (h : GAHost κ V F ω τ R) (o : GALimits κ) (pop : Pop (Gene V F)) (t : τ)
    (w : ω) (l : List (UserCall V F)) :
    (callsRun (logged u) (unaware h) o pop t (w, l)).bind (fun r => .ok (forgetLog r)) = callsRun u h o pop t w :=
  callsLoop_forget u h o _ _ _ _ _ _ _

/-! ## The calls of a run -/

/-- One generation up to selection, inverted. -/
theorem callsLoop_inv (u : UserFns V F ω) (h : GAHost κ V F ω τ R) (hh : FairHost h) (o : GALimits κ) (fuel gen : Nat)
    (pop : Pop (Gene V F)) (t : τ) (w : ω) (l : List (UserCall V F)) (record : List R)
    (r : CallsResult V F (ω × List (UserCall V F)) τ R) (hd : DistinctNodes pop)
    (hr : callsLoop (logged u) (unaware h) o (fuel + 1) gen pop t (w, l) record = .ok r) :
    ∃ pop1 w1 fs pop2 t2 w2 b,
      evaluateCalls (logged u) (unaware h) pop (w, l) = .ok (pop1, (w1, l ++ fs)) ∧ PopEvaluated pop pop1 fs ∧
      (values fs).map (fun p => some p.1) = (h.order (evalTasks pop)).map (varAt pop) ∧
      h.select pop1 t w1 = .ok ((pop2, t2), w2) ∧ h.bestFitness pop2 t2 = .ok b ∧
      DistinctNodes pop2 ∧ (∀ c' ∈ pop2, ∃ c ∈ pop1, c.2 = c'.2) ∧
      (r = ⟨pop2, t2, gen, record ++ [b], (w2, l ++ fs)⟩ ∨
        ∃ pop3 cs pop4 w4 ms,
          PopGrown pop2 pop3 cs ∧ (∀ e ∈ cs, e.isCross) ∧ 2 * cs.length ≤ pop2.length ∧
          (∀ e ∈ cs, ∀ p ∈ e.parents, p ∈ pop2.map fun c => c.2.var) ∧
          PopGrown pop3 pop4 ms ∧ (∀ e ∈ ms, e.isMut) ∧ ms.length ≤ pop3.length ∧
          (∀ e ∈ ms, ∀ p ∈ e.parents, p ∈ pop3.map fun c => c.2.var) ∧
          callsLoop (logged u) (unaware h) o fuel (gen + 1) pop4 t2 (w4, l ++ fs ++ cs ++ ms) (record ++ [b]) =
            .ok r) := by
  rw [callsLoop] at hr
  obtain ⟨pop1, w1, fs, e1, e2, e3⟩ := evaluateCalls_spec u h hh.order pop w l hd
  rw [e1] at hr
  simp only [Out.ok_bind] at hr
  have hsel : (unaware h).select pop1 t (w1, l ++ fs) =
      (h.select pop1 t w1).bind fun r => .ok (r.1, (r.2, l ++ fs)) := rfl
  rw [hsel] at hr
  cases hs : h.select pop1 t w1 with
  | ub => rw [hs] at hr; cases hr
  | timeout => rw [hs] at hr; cases hr
  | ok s =>
    obtain ⟨⟨pop2, t2⟩, w2⟩ := s
    rw [hs] at hr
    change ((h.bestFitness pop2 t2 >>= _) : Out _) = _ at hr
    cases hb : h.bestFitness pop2 t2 with
    | ub => rw [hb] at hr; cases hr
    | timeout => rw [hb] at hr; cases hr
    | ok b =>
      rw [hb] at hr
      simp only [Out.ok_bind] at hr
      obtain ⟨f1, f2⟩ := hh.select pop1 t w1 _ e2.distinct hs
      refine ⟨pop1, w1, fs, pop2, t2, w2, b, e1, e2, e3, hs, hb, f1, f2, ?_⟩
      split at hr
      · exact Or.inl (Out.ok.inj hr).symm
      · split at hr
        · exact Or.inl (Out.ok.inj hr).symm
        · right
          obtain ⟨pop3, w3, cs, g1, g2, g3, g4, g5⟩ := crossoverCalls_spec u h hh.shuffle o.cxProb pop2 w2 (l ++ fs)
          rw [g1] at hr
          obtain ⟨pop4, w4, ms, m1, m2, m3, m4, m5⟩ := mutateCalls_spec u h o.muProb pop3 w3 (l ++ fs ++ cs)
          simp only at hr
          rw [m1] at hr
          exact ⟨pop3, cs, pop4, w4, ms, g2, g3, g4, g5, m2, m3, m4, m5, hr⟩

theorem callsLoop_log (u : UserFns V F ω) (h : GAHost κ V F ω τ R) (hh : FairHost h) (o : GALimits κ)
    (Match : List V → List V → Prop)
    (hM : ∀ (pop : Pop (Gene V F)) (fs : List (UserCall V F)), DistinctNodes pop →
      (values fs).map (fun p => some p.1) = (h.order (evalTasks pop)).map (varAt pop) →
      Match ((values fs).map (·.1)) (unvaluedPop pop)) :
    ∀ (fuel gen : Nat) (pop : Pop (Gene V F)) (t : τ) (w : ω) (l : List (UserCall V F)) (record : List R)
      (r : CallsResult V F (ω × List (UserCall V F)) τ R), DistinctNodes pop →
      callsLoop (logged u) (unaware h) o fuel gen pop t (w, l) record = .ok r →
      ∃ es ks, r.world.2 = l ++ es ∧ r.generation = gen + ks.length ∧
        (∀ known, (∀ p ∈ valuedPop pop, p ∈ known) → RunLog Match known (unvaluedPop pop) ks es) ∧
        (∀ c ∈ r.pop, c.2.computed = true ∧ (c.2.var, c.2.fitness) ∈ valuedPop pop ++ values es) ∧
        DistinctNodes r.pop ∧
        (∀ K, (∀ pop t w r, DistinctNodes pop → h.select pop t w = .ok r → r.1.1.length ≤ K) → ∀ k ∈ ks, k ≤ K)
  | 0, gen, pop, t, w, l, record, r, hd, hr => by cases hr
  | fuel + 1, gen, pop, t, w, l, record, r, hd, hr => by
    obtain ⟨pop1, w1, fs, pop2, t2, w2, b, e1, e2, e3, hs, hb, hd2, ho, hcase⟩ :=
      callsLoop_inv u h hh o fuel gen pop t w l record r hd hr
    have hcomp : ∀ c ∈ pop2, c.2.computed = true := fun c hc => by
      obtain ⟨d, hdm, he⟩ := ho c hc
      rw [← he]; exact e2.done d hdm
    have horig : ∀ c ∈ pop2, (c.2.var, c.2.fitness) ∈ valuedPop pop ++ values fs := fun c hc => by
      obtain ⟨d, hdm, he⟩ := ho c hc
      rw [← he]; exact e2.origin d hdm
    rcases hcase with rfl | ⟨pop3, cs, pop4, w4, ms, g2, g3, g4, g5, m2, m3, m4, m5, hrec⟩
    · refine ⟨fs, [], rfl, rfl, fun known _ => .last e2.fits (hM pop fs hd e3),
        fun c hc => ⟨hcomp c hc, horig c hc⟩, hd2, by simp⟩
    · have hd4 : DistinctNodes pop4 := m2.distinct (g2.distinct hd2)
      obtain ⟨es, ks, r1, r2, r3, r4, r5, r6⟩ := callsLoop_log u h hh o Match hM fuel (gen + 1) pop4 t2 w4
        (l ++ fs ++ cs ++ ms) (record ++ [b]) r hd4 hrec
      obtain ⟨n1, n2⟩ := grown_unvalued (g2.trans m2) hcomp
      rw [n1] at r3
      have hv : ∀ p ∈ valuedPop pop4, p ∈ valuedPop pop ++ values fs := by
        rw [n2]
        intro p hp
        obtain ⟨c, hc, rfl⟩ := List.mem_map.1 hp
        exact horig c hc
      refine ⟨fs ++ cs ++ ms ++ es, pop2.length :: ks, ?_, ?_, ?_, ?_, r5, ?_⟩
      · rw [r1]; simp [List.append_assoc]
      · rw [r2, List.length_cons]; omega
      · intro known hk
        have hk' : ∀ p ∈ valuedPop pop ++ values fs, p ∈ known ++ values fs := by
          intro p hp
          rcases List.mem_append.1 hp with h1 | h1
          · exact List.mem_append_left _ (hk p h1)
          · exact List.mem_append_right _ h1
        have hpar : ∀ x ∈ pop2.map (fun c => c.2.var), x ∈ (known ++ values fs).map (·.1) := by
          intro x hx
          obtain ⟨c, hc, rfl⟩ := List.mem_map.1 hx
          exact List.mem_map.2 ⟨_, hk' _ (horig c hc), rfl⟩
        obtain ⟨new, hnew, -, hnv⟩ := g2.app
        refine .step pop2.length e2.fits (hM pop fs hd e3) g3 (fun e he p hp => hpar p (g5 e he p hp)) g4 m3 ?_ ?_ ?_
        · intro e he p hp
          have := m5 e he p hp
          rw [hnew, List.map_append, hnv] at this
          rcases List.mem_append.1 this with h1 | h1
          · exact List.mem_append_left _ (hpar p h1)
          · exact List.mem_append_right _ h1
        · have h3 : pop3.length = pop2.length + 2 * cs.length := by
            have h4 := congrArg List.length hnv
            rw [List.length_map] at h4
            rw [hnew, List.length_append, h4]
            congr 1
            clear h4 hnv hnew g4 g5 g2 r3 n1 r1 hrec
            induction cs with
            | nil => rfl
            | cons e cs ih =>
              have h5 := ih (fun e he => g3 e (by simp [he]))
              have h6 := g3 e (by simp)
              cases e with
              | cross p q c d =>
                simp only [made, List.flatMap_cons, UserCall.created, List.length_append, List.length_cons,
                  List.length_nil]
                simp only [made] at h5
                omega
              | ini _ _ => simp [UserCall.isCross] at h6
              | fit _ _ => simp [UserCall.isCross] at h6
              | muta _ _ => simp [UserCall.isCross] at h6
          omega
        · rw [← made_append]
          exact r3 _ fun p hp => hk' p (hv p hp)
      · intro c hc
        obtain ⟨h1, h2⟩ := r4 c hc
        refine ⟨h1, ?_⟩
        have hval : values (fs ++ cs ++ ms ++ es) = values fs ++ values cs ++ values ms ++ values es := by
          simp only [values_append]
        rw [hval]
        rcases List.mem_append.1 h2 with h3 | h3
        · rcases List.mem_append.1 (hv _ h3) with h4 | h4
          · exact List.mem_append_left _ h4
          · simp [h4]
        · simp [h3]
      · intro K hK k hk
        rcases List.mem_cons.1 hk with rfl | hk
        · exact hK pop1 t w1 _ e2.distinct hs
        · exact r6 K hK k hk

/-- C144: the calls of a run, whatever the user's functions do, in whatever order the evaluation loop does its tasks:
every candidate that has no value yet is evaluated exactly once, in the generation after it was made, nothing else is
evaluated, and there is nothing left without a value at the end; in the final population everybody has the value that
the one call for it returned (or had at the start). -/
theorem ga_run_calls (u : UserFns V F ω) (h : GAHost κ V F ω τ R) (hh : FairHost h) (o : GALimits κ)
    (pop : Pop (Gene V F)) (hd : DistinctNodes pop) (t : τ) (w : ω) (l : List (UserCall V F))
    (r : CallsResult V F (ω × List (UserCall V F)) τ R)
    (hr : callsRun (logged u) (unaware h) o pop t (w, l) = .ok r) :
    ∃ es ks, r.world.2 = l ++ es ∧ ks.length = r.generation ∧
      RunLog List.Perm (valuedPop pop) (unvaluedPop pop) ks es ∧
      ∀ c ∈ r.pop, c.2.computed = true ∧ (c.2.var, c.2.fitness) ∈ valuedPop pop ++ values es := by
  obtain ⟨es, ks, h1, h2, h3, h4, -, -⟩ := callsLoop_log u h hh o List.Perm
    (fun pop fs hd hv => evaluated_args_perm hd (hh.order _) hv) _ _ _ _ _ _ _ r hd hr
  exact ⟨es, ks, h1, by omega, h3 _ (fun p hp => hp), h4⟩

/-- C144: without OpenMP the new candidates are evaluated in the order in which they were made. -/
theorem ga_run_calls_sequential (u : UserFns V F ω) (h : GAHost κ V F ω τ R) (hh : FairHost h)
    (hord : ∀ l, h.order l = l) (o : GALimits κ)
    (pop : Pop (Gene V F)) (hd : DistinctNodes pop) (t : τ) (w : ω) (l : List (UserCall V F))
    (r : CallsResult V F (ω × List (UserCall V F)) τ R)
    (hr : callsRun (logged u) (unaware h) o pop t (w, l) = .ok r) :
    ∃ es ks, r.world.2 = l ++ es ∧ ks.length = r.generation ∧
      RunLog Eq (valuedPop pop) (unvaluedPop pop) ks es := by
  obtain ⟨es, ks, h1, h2, h3, h4, -, -⟩ := callsLoop_log u h hh o Eq
    (fun pop fs hd hv => evaluated_args_eq hd (by rw [hord] at hv; exact hv)) _ _ _ _ _ _ _ r hd hr
  exact ⟨es, ks, h1, by omega, h3 _ (fun p hp => hp)⟩

/-! ## Counting -/

theorem countP_all {β : Type} {p : β → Bool} {l : List β} (h : ∀ e ∈ l, p e) : l.countP p = l.length :=
  List.countP_eq_length.2 h

theorem countP_none {β : Type} {p : β → Bool} {l : List β} (h : ∀ e ∈ l, p e = false) : l.countP p = 0 :=
  List.countP_eq_zero.2 fun e he => by rw [h e he]; simp

theorem fits_only {l : List (UserCall V F)} (h : ∀ e ∈ l, e.isFit) :
    l.countP UserCall.isFit = l.length ∧ l.countP UserCall.isCross = 0 ∧ l.countP UserCall.isMut = 0 ∧
      l.countP UserCall.isIni = 0 ∧ (values l).length = l.length ∧ made l = [] := by
  refine ⟨countP_all h, countP_none fun e he => ?_, countP_none fun e he => ?_, countP_none fun e he => ?_, ?_, ?_⟩
  · have := h e he; cases e <;> simp_all [UserCall.isFit, UserCall.isCross]
  · have := h e he; cases e <;> simp_all [UserCall.isFit, UserCall.isMut]
  · have := h e he; cases e <;> simp_all [UserCall.isFit, UserCall.isIni]
  · induction l with
    | nil => rfl
    | cons e l ih =>
      have h1 := h e (by simp)
      have h2 := ih fun e he => h e (by simp [he])
      cases e <;> simp_all [UserCall.isFit, values, UserCall.valued]
  · induction l with
    | nil => rfl
    | cons e l ih =>
      have h1 := h e (by simp)
      have h2 := ih fun e he => h e (by simp [he])
      cases e <;> simp_all [UserCall.isFit, made, UserCall.created]

theorem cross_only {l : List (UserCall V F)} (h : ∀ e ∈ l, e.isCross) :
    l.countP UserCall.isFit = 0 ∧ l.countP UserCall.isCross = l.length ∧ l.countP UserCall.isMut = 0 ∧
      l.countP UserCall.isIni = 0 ∧ (made l).length = 2 * l.length := by
  refine ⟨countP_none fun e he => ?_, countP_all h, countP_none fun e he => ?_, countP_none fun e he => ?_, ?_⟩
  · have := h e he; cases e <;> simp_all [UserCall.isFit, UserCall.isCross]
  · have := h e he; cases e <;> simp_all [UserCall.isCross, UserCall.isMut]
  · have := h e he; cases e <;> simp_all [UserCall.isCross, UserCall.isIni]
  · induction l with
    | nil => rfl
    | cons e l ih =>
      have h1 := h e (by simp)
      have h2 := ih fun e he => h e (by simp [he])
      cases e <;> simp_all [UserCall.isCross, made, UserCall.created]; omega

theorem mut_only {l : List (UserCall V F)} (h : ∀ e ∈ l, e.isMut) :
    l.countP UserCall.isFit = 0 ∧ l.countP UserCall.isCross = 0 ∧ l.countP UserCall.isMut = l.length ∧
      l.countP UserCall.isIni = 0 ∧ (made l).length = l.length := by
  refine ⟨countP_none fun e he => ?_, countP_none fun e he => ?_, countP_all h, countP_none fun e he => ?_, ?_⟩
  · have := h e he; cases e <;> simp_all [UserCall.isFit, UserCall.isMut]
  · have := h e he; cases e <;> simp_all [UserCall.isCross, UserCall.isMut]
  · have := h e he; cases e <;> simp_all [UserCall.isMut, UserCall.isIni]
  · induction l with
    | nil => rfl
    | cons e l ih =>
      have h1 := h e (by simp)
      have h2 := ih fun e he => h e (by simp [he])
      cases e <;> simp_all [UserCall.isMut, made, UserCall.created]

theorem runLog_counts {Match : List V → List V → Prop} (hM : ∀ a b, Match a b → a.length = b.length)
    {known : List (V × F)} {new : List V} {ks : List Nat} {es : List (UserCall V F)}
    (h : RunLog Match known new ks es) :
    es.countP UserCall.isFit = new.length + 2 * es.countP UserCall.isCross + es.countP UserCall.isMut ∧
    es.countP UserCall.isIni = 0 ∧
    2 * es.countP UserCall.isCross ≤ ks.sum ∧ es.countP UserCall.isMut ≤ 2 * ks.sum := by
  induction h with
  | last h1 h2 =>
    obtain ⟨a1, a2, a3, a4, a5, -⟩ := fits_only h1
    have h3 := hM _ _ h2
    rw [List.length_map, a5] at h3
    rw [a1, a2, a3, a4]
    simp [h3]
  | step k h1 h2 c1 c2 c3 m1 m2 m3 _ ih =>
    obtain ⟨a1, a2, a3, a4, a5, -⟩ := fits_only h1
    obtain ⟨b1, b2, b3, b4, b5⟩ := cross_only c1
    obtain ⟨d1, d2, d3, d4, d5⟩ := mut_only m1
    obtain ⟨i1, i2, i3, i4⟩ := ih
    have h3 := hM _ _ h2
    rw [List.length_map, a5] at h3
    rw [List.length_append, b5, d5] at i1
    simp only [List.countP_append, a1, a2, a3, a4, b1, b2, b3, b4, d1, d2, d3, d4, List.sum_cons]
    omega

/-- C144: the number of evaluations: one for each candidate without a value at the start, two for each call of the
crossover function, one for each call of the mutation function; the initialiser is not called. -/
theorem ga_run_counts (u : UserFns V F ω) (h : GAHost κ V F ω τ R) (hh : FairHost h) (o : GALimits κ)
    (pop : Pop (Gene V F)) (hd : DistinctNodes pop) (t : τ) (w : ω) (l : List (UserCall V F))
    (r : CallsResult V F (ω × List (UserCall V F)) τ R)
    (hr : callsRun (logged u) (unaware h) o pop t (w, l) = .ok r) :
    ∃ es, r.world.2 = l ++ es ∧
      es.countP UserCall.isFit =
        (unvaluedPop pop).length + 2 * es.countP UserCall.isCross + es.countP UserCall.isMut ∧
      es.countP UserCall.isIni = 0 := by
  obtain ⟨es, ks, h1, -, h3, -⟩ := ga_run_calls u h hh o pop hd t w l r hr
  obtain ⟨a, b, -, -⟩ := runLog_counts (fun a b hp => hp.length_eq) h3
  exact ⟨es, h1, a, b⟩

theorem sum_le_mul {K : Nat} : ∀ {ks : List Nat}, (∀ k ∈ ks, k ≤ K) → ks.sum ≤ K * ks.length
  | [], _ => by simp
  | k :: ks, h => by
    have h1 := h k (by simp)
    have h2 := sum_le_mul (ks := ks) fun k hk => h k (by simp [hk])
    rw [List.sum_cons, List.length_cons, Nat.mul_succ]
    omega

/-- C144: if selection leaves at most `K` individuals, a run of `G` generations calls crossover at most `G * K / 2` times,
mutation at most `2 * K * G` times and the fitness function at most `3 * K * G` times in addition to the first
evaluation. -/
theorem ga_run_bound (u : UserFns V F ω) (h : GAHost κ V F ω τ R) (hh : FairHost h) (o : GALimits κ) (K : Nat)
    (hK : ∀ pop t w r, DistinctNodes pop → h.select pop t w = .ok r → r.1.1.length ≤ K)
    (pop : Pop (Gene V F)) (hd : DistinctNodes pop) (t : τ) (w : ω) (l : List (UserCall V F))
    (r : CallsResult V F (ω × List (UserCall V F)) τ R)
    (hr : callsRun (logged u) (unaware h) o pop t (w, l) = .ok r) :
    ∃ es, r.world.2 = l ++ es ∧
      2 * es.countP UserCall.isCross ≤ K * r.generation ∧ es.countP UserCall.isMut ≤ 2 * (K * r.generation) ∧
      es.countP UserCall.isFit ≤ (unvaluedPop pop).length + 3 * (K * r.generation) := by
  obtain ⟨es, ks, h1, h2, h3, h4, -, h6⟩ := callsLoop_log u h hh o List.Perm
    (fun pop fs hd hv => evaluated_args_perm hd (hh.order _) hv) _ _ _ _ _ _ _ r hd hr
  obtain ⟨a, -, b, c⟩ := runLog_counts (fun a b hp => hp.length_eq) (h3 _ fun p hp => hp)
  have h7 := sum_le_mul (h6 K hK)
  rw [show ks.length = r.generation by omega] at h7
  exact ⟨es, h1, by omega, by omega, by omega⟩

end vary

/-! ## Initialisation -/

theorem iniCalls_spec (u : UserFns V F ω) : ∀ (pop : Pop (Gene V F)) (w : ω) (l : List (UserCall V F)),
    ∃ pop' w' is, iniCalls (logged u) pop (w, l) = (pop', (w', l ++ is)) ∧ (∀ e ∈ is, e.isIni) ∧
      is.length = pop.length ∧ pop'.map (·.1) = pop.map (·.1) ∧ (∀ c ∈ pop', c.2.computed = false) ∧
      pop'.map (fun c => c.2.var) = made is
  | [], w, l => ⟨[], w, [], by simp [iniCalls], by simp, rfl, rfl, by simp, rfl⟩
  | c :: cs, w, l => by
    obtain ⟨pop', w', is, h1, h2, h3, h4, h5, h6⟩ := iniCalls_spec u cs (u.ini c.2.var w).2
      (l ++ [.ini c.2.var (u.ini c.2.var w).1])
    refine ⟨(c.1, { c.2 with var := (u.ini c.2.var w).1, computed := false }) :: pop', w',
      .ini c.2.var (u.ini c.2.var w).1 :: is, ?_, ?_, by simp [h3], by simp [h4], ?_, ?_⟩
    · simp only [iniCalls]
      rw [show (logged u).ini c.2.var (w, l) = ((u.ini c.2.var w).1, ((u.ini c.2.var w).2,
        l ++ [.ini c.2.var (u.ini c.2.var w).1])) from rfl, h1]
      simp
    · intro e he
      rcases List.mem_cons.1 he with rfl | he
      · rfl
      · exact h2 e he
    · intro d hd
      rcases List.mem_cons.1 hd with rfl | hd
      · rfl
      · exact h5 d hd
    · simp [made, UserCall.created, h6]

/-- C144: `initializePop` calls the initialiser `populationSize` times and no other function; afterwards exactly the
candidates it made are in the population, in this order, and none has a value. -/
theorem ga_init_calls (u : UserFns V F ω) (K : Nat) (blank : Gene V F) (pop : Pop (Gene V F)) (hd : DistinctNodes pop)
    (w : ω) (l : List (UserCall V F)) :
    ∃ pop' w' is, initializeCalls (logged u) K blank pop (w, l) = (pop', (w', l ++ is)) ∧ (∀ e ∈ is, e.isIni) ∧
      is.length = K ∧ DistinctNodes pop' ∧ unvaluedPop pop' = made is ∧ valuedPop pop' = [] := by
  obtain ⟨h1, h2⟩ : (resizePop K blank pop).length = K ∧ DistinctNodes (resizePop K blank pop) := by
    unfold resizePop
    have key : ∀ (n : Nat) (p : Pop (Gene V F)), DistinctNodes p →
        ((List.replicate n blank).foldl emplaceBack p).length = p.length + n ∧
        DistinctNodes ((List.replicate n blank).foldl emplaceBack p) := by
      intro n
      induction n with
      | zero => intro p hp; exact ⟨rfl, hp⟩
      | succ n ih =>
        intro p hp
        obtain ⟨a, b⟩ := ih (emplaceBack p blank) (distinct_emplaceBack hp _)
        rw [List.replicate_succ, List.foldl_cons]
        refine ⟨?_, b⟩
        rw [a]; simp only [emplaceBack, List.length_append, List.length_cons, List.length_nil]; omega
    obtain ⟨a, b⟩ := key (K - pop.length) (pop.take K) ((List.Sublist.map _ (List.take_sublist _ _)).nodup hd)
    refine ⟨?_, b⟩
    rw [a, List.length_take]; omega
  obtain ⟨pop', w', is, a1, a2, a3, a4, a5, a6⟩ := iniCalls_spec u (resizePop K blank pop) w l
  refine ⟨pop', w', is, a1, a2, by rw [a3, h1], ?_, ?_, ?_⟩
  · unfold DistinctNodes; rw [a4]; exact h2
  · unfold unvaluedPop
    rw [List.filter_eq_self.2 fun c hc => by simp [a5 c hc], a6]
  · unfold valuedPop
    rw [List.filter_eq_nil_iff.2 fun c hc => by simp [a5 c hc]]
    rfl

end

/-! ## The solvers of the library -/

section soga
variable {κ V α ω : Type} [Field α] [LinearOrder α] [IsStrictOrderedRing α]

/-- The single-objective solver meets the assumptions, with all ten selection methods. -/
theorem sogaHost_fair (opt : FitnessOption) (m : SelectMethod) (K : Nat) (env : ω → SelectEnv (Gene V α) α)
    (he : ∀ w, ValidEnv (env w)) (next : ω → ω) (rnd : ω → κ × ω)
    (shuffle : List (Cell (Gene V α)) → ω → List (Cell (Gene V α)) × ω) (hsh : ∀ l w, (shuffle l w).1.Perm l)
    (order : List Addr → List Addr) (ho : ∀ l, (order l).Perm l) (junk : α) :
    FairHost (sogaHost opt m K env next rnd shuffle order junk) := by
  refine ⟨hsh, ho, ?_⟩
  intro pop t w r hd hr
  simp only [sogaHost] at hr
  obtain ⟨s, hs, h2⟩ := Out.bind_eq_ok.1 hr
  have h3 := Out.ok.inj h2
  subst h3
  have := runSelect_spec opt Gene.fitness m (env w) (he w) K { pop := pop, best := t.1, fail := t.2 } s hd hs
  exact ⟨this.distinct, this.noInvention⟩

variable [LE κ] [DecidableLE κ]

theorem soga_best_loop (opt : FitnessOption) (m : SelectMethod) (hm : m = .Truncation ∨ m = .EliteReserved) (K : Nat)
    (env : ω → SelectEnv (Gene V α) α) (he : ∀ w, ValidEnv (env w)) (hel : ∀ w, 1 ≤ (env w).eliteNum)
    (next : ω → ω) (rnd : ω → κ × ω)
    (shuffle : List (Cell (Gene V α)) → ω → List (Cell (Gene V α)) × ω) (hsh : ∀ l w, (shuffle l w).1.Perm l)
    (order : List Addr → List Addr) (ho : ∀ l, (order l).Perm l) (junk : α)
    (u : UserFns V α ω) (o : GALimits κ) :
    ∀ (fuel gen : Nat) (pop : Pop (Gene V α)) (t : Addr × Nat) (w : ω) (l : List (UserCall V α)) (record : List α)
      (r : CallsResult V α (ω × List (UserCall V α)) (Addr × Nat) α), DistinctNodes pop →
      callsLoop (logged u) (unaware (sogaHost opt m K env next rnd shuffle order junk)) o fuel gen pop t (w, l) record =
        .ok r →
      ∃ es g, r.world.2 = l ++ es ∧ deref r.pop r.rest.1 = .ok g ∧ r.record.getLast? = some g.fitness ∧
        ∀ p ∈ valuedPop pop ++ values es, ¬ Better opt p.2 g.fitness
  | 0, gen, pop, t, w, l, record, r, hd, hr => by cases hr
  | fuel + 1, gen, pop, t, w, l, record, r, hd, hr => by
    obtain ⟨pop1, w1, fs, pop2, t2, w2, b, e1, e2, e3, hs, hb, hd2, hor, hcase⟩ :=
      callsLoop_inv u (sogaHost opt m K env next rnd shuffle order junk)
        (sogaHost_fair opt m K env he next rnd shuffle hsh order ho junk) o fuel gen pop t w l record r hd hr
    simp only [sogaHost] at hs
    obtain ⟨s, hs1, hs2⟩ := Out.bind_eq_ok.1 hs
    have hs3 := Out.ok.inj hs2
    simp only [Prod.mk.injEq] at hs3
    obtain ⟨⟨rfl, rfl⟩, rfl⟩ := hs3
    obtain ⟨g, hg, hu⟩ := elitist_step opt Gene.fitness m hm (env w1) (hel w1) K _ s e2.distinct hs1
    have hbg : b = g.fitness := by
      simp only [sogaHost] at hb
      rw [hg] at hb
      exact (Out.ok.inj hb).symm
    have hall : ∀ p ∈ valuedPop pop ++ values fs, ¬ Better opt p.2 g.fitness := by
      intro p hp
      rcases List.mem_append.1 hp with h1 | h1
      · obtain ⟨c, hc, hcc, rfl⟩ := mem_valuedPop.1 h1
        exact hu c (e2.keep c hc hcc)
      · obtain ⟨c, hc, -, h2⟩ := e2.stored p h1
        rw [← h2]; exact hu c hc
    rcases hcase with rfl | ⟨pop3, cs, pop4, w4, ms, g2, g3, g4, g5, m2, m3, m4, m5, hrec⟩
    · exact ⟨fs, g, rfl, hg, by simp [hbg], hall⟩
    · have hcomp : ∀ c ∈ s.pop, c.2.computed = true := fun c hc => by
        obtain ⟨d, hdm, hde⟩ := hor c hc
        rw [← hde]; exact e2.done d hdm
      obtain ⟨es, g', r1, r2, r3, r4⟩ := soga_best_loop opt m hm K env he hel next rnd shuffle hsh order ho junk u o fuel
        (gen + 1) pop4 (s.best, s.fail) w4 (l ++ fs ++ cs ++ ms) (record ++ [b]) r (m2.distinct (g2.distinct hd2)) hrec
      obtain ⟨-, n2⟩ := grown_unvalued (g2.trans m2) hcomp
      have hgg : ¬ Better opt g.fitness g'.fitness := by
        refine r4 (g.var, g.fitness) (List.mem_append_left _ ?_)
        rw [n2]
        exact List.mem_map.2 ⟨_, deref_ok hg, rfl⟩
      refine ⟨fs ++ cs ++ ms ++ es, g', by rw [r1]; simp [List.append_assoc], r2, r3, ?_⟩
      have hval : values (fs ++ cs ++ ms ++ es) = values fs ++ values es := by
        have c0 : values cs = [] := by
          unfold values
          rw [List.flatMap_eq_nil_iff]
          intro e hce
          have := g3 e hce
          cases e <;> simp_all [UserCall.isCross, UserCall.valued]
        have m0 : values ms = [] := by
          unfold values
          rw [List.flatMap_eq_nil_iff]
          intro e hce
          have := m3 e hce
          cases e <;> simp_all [UserCall.isMut, UserCall.valued]
        simp only [values_append, c0, m0, List.append_nil]
      rw [hval]
      intro p hp
      rw [← List.append_assoc] at hp
      rcases List.mem_append.1 hp with h1 | h1
      · exact not_better_trans (hall p h1) hgg
      · exact r4 p (List.mem_append_right _ h1)

/-- C144: with Truncation or EliteReserved, the fitness reported at the end is the best of all values that the fitness
function returned during the run (and of those the population had before), even if the function is noisy. -/
theorem soga_best_of_all_calls (opt : FitnessOption) (m : SelectMethod) (hm : m = .Truncation ∨ m = .EliteReserved)
    (K : Nat) (env : ω → SelectEnv (Gene V α) α) (he : ∀ w, ValidEnv (env w)) (hel : ∀ w, 1 ≤ (env w).eliteNum)
    (next : ω → ω) (rnd : ω → κ × ω)
    (shuffle : List (Cell (Gene V α)) → ω → List (Cell (Gene V α)) × ω) (hsh : ∀ l w, (shuffle l w).1.Perm l)
    (order : List Addr → List Addr) (ho : ∀ l, (order l).Perm l) (junk : α)
    (u : UserFns V α ω) (o : GALimits κ) (pop : Pop (Gene V α)) (hd : DistinctNodes pop) (t : Addr × Nat) (w : ω)
    (r : CallsResult V α (ω × List (UserCall V α)) (Addr × Nat) α)
    (hr : callsRun (logged u) (unaware (sogaHost opt m K env next rnd shuffle order junk)) o pop t (w, []) = .ok r) :
    ∃ g, deref r.pop r.rest.1 = .ok g ∧ r.record.getLast? = some g.fitness ∧
      (g.var, g.fitness) ∈ valuedPop pop ++ values r.world.2 ∧
      ∀ p ∈ valuedPop pop ++ values r.world.2, ¬ Better opt p.2 g.fitness := by
  obtain ⟨es, g, h1, h2, h3, h4⟩ := soga_best_loop opt m hm K env he hel next rnd shuffle hsh order ho junk u o _ _ _ _ _
    _ _ r hd hr
  obtain ⟨es', ks, a1, -, -, a4⟩ := ga_run_calls u _
    (sogaHost_fair opt m K env he next rnd shuffle hsh order ho junk) o pop hd t w [] r hr
  rw [List.nil_append] at h1 a1
  rw [h1] at a1 ⊢
  subst a1
  exact ⟨g, h2, h3, (a4 _ (deref_ok h2)).2, h4⟩

/-- C144: with `populationSize` `K > 0` a run of `G` generations evaluates at most `K + 3 K G` candidates (all methods but
StochasticUniversal, which may keep everybody, and EliteReserved with more elites than places). -/
theorem soga_evaluations_bound (opt : FitnessOption) (m : SelectMethod) (hm : m ≠ .StochasticUniversal) (K : Nat)
    (hK : 0 < K) (env : ω → SelectEnv (Gene V α) α) (he : ∀ w, ValidEnv (env w))
    (hel : m = .EliteReserved → ∀ w, (env w).eliteNum ≤ K) (next : ω → ω) (rnd : ω → κ × ω)
    (shuffle : List (Cell (Gene V α)) → ω → List (Cell (Gene V α)) × ω) (hsh : ∀ l w, (shuffle l w).1.Perm l)
    (order : List Addr → List Addr) (ho : ∀ l, (order l).Perm l) (junk : α)
    (u : UserFns V α ω) (o : GALimits κ) (blank : Gene V α) (old : Pop (Gene V α)) (hd : DistinctNodes old)
    (t : Addr × Nat) (w : ω)
    (r : CallsResult V α (ω × List (UserCall V α)) (Addr × Nat) α)
    (hr : callsRun (logged u) (unaware (sogaHost opt m K env next rnd shuffle order junk)) o
      (initializeCalls (logged u) K blank old (w, [])).1 t (initializeCalls (logged u) K blank old (w, [])).2 = .ok r) :
    r.world.2.countP UserCall.isIni = K ∧
    r.world.2.countP UserCall.isFit = K + 2 * r.world.2.countP UserCall.isCross + r.world.2.countP UserCall.isMut ∧
    r.world.2.countP UserCall.isFit ≤ K + 3 * (K * r.generation) := by
  obtain ⟨pop', w', is, h1, h2, h3, h4, h5, h6⟩ := ga_init_calls u K blank old hd w []
  rw [h1] at hr
  simp only [List.nil_append] at hr
  have hlen : (unvaluedPop pop').length = K := by
    rw [h5, ← h3]
    clear h1 h3 h5 hr
    induction is with
    | nil => rfl
    | cons e is ih =>
      have i1 := h2 e (by simp)
      have i2 := ih fun e he => h2 e (by simp [he])
      cases e <;> simp_all [UserCall.isIni, made, UserCall.created]
  have hi : is.countP UserCall.isIni = K ∧ is.countP UserCall.isFit = 0 ∧ is.countP UserCall.isCross = 0 ∧
      is.countP UserCall.isMut = 0 := by
    refine ⟨by rw [countP_all h2, h3], countP_none fun e he => ?_, countP_none fun e he => ?_,
      countP_none fun e he => ?_⟩ <;>
    · have := h2 e he; cases e <;> simp_all [UserCall.isFit, UserCall.isCross, UserCall.isIni, UserCall.isMut]
  obtain ⟨es, a1, a2, a3⟩ := ga_run_counts u _ (sogaHost_fair opt m K env he next rnd shuffle hsh order ho junk) o pop' h4
    t w' is r hr
  obtain ⟨es', b1, -, -, b2⟩ := ga_run_bound u _ (sogaHost_fair opt m K env he next rnd shuffle hsh order ho junk) o K (by
    intro pop t w r hd hr
    simp only [sogaHost] at hr
    obtain ⟨s, hs, h2⟩ := Out.bind_eq_ok.1 hr
    have h3 := Out.ok.inj h2
    subst h3
    have := selection_exact_size_partial opt Gene.fitness m (env w) (he w) K hK
      { pop := pop, best := t.1, fail := t.2 } s hd (fun h => absurd h hm) (fun h => hel h w) hs
    show s.pop.length ≤ K
    rw [this]
    exact Nat.min_le_left _ _) pop' h4 t w' is r hr
  have hee : es' = es := List.append_cancel_left (b1.symm.trans a1)
  subst hee
  rw [a1]
  simp only [List.countP_append]
  omega

end soga

/-! ## Functions without side effects -/

section pure
variable {κ V F ω τ R : Type}

theorem evalCalls_pure (u : UserFns V F ω) (f : V → F) (hf : ∀ v y w, u.fit v y w = (f v, w)) :
    ∀ (as : List Addr) (pop : Pop (Gene V F)) (w : ω), DistinctNodes pop → as.Nodup →
      (∀ a ∈ as, a ∈ pop.map (·.1)) →
      evalCalls u as pop w = .ok (pop.map (fun c => if c.1 ∈ as then
        (c.1, { c.2 with fitness := f c.2.var, computed := true }) else c), w)
  | [], pop, w, _, _, _ => by simp [evalCalls]
  | a :: as, pop, w, hd, hn, ha => by
    obtain ⟨g, hg⟩ : ∃ g, deref pop a = .ok g := by
      obtain ⟨c, hc, rfl⟩ := List.mem_map.1 (ha a (by simp))
      exact ⟨c.2, deref_of_mem hd hc⟩
    rw [evalCalls, hg]
    simp only [Out.ok_bind, hf]
    have h := evalCalls_pure u f hf as (storeAt pop a (f g.var)) w (storeAt_distinct hd _ _) (List.nodup_cons.1 hn).2
      (fun b hb => by rw [storeAt_addrs]; exact ha b (by simp [hb]))
    unfold storeAt at h
    rw [h, List.map_map]
    congr 2
    apply List.map_congr_left
    intro c hc
    simp only [Function.comp, List.mem_cons]
    by_cases hca : c.1 = a
    · subst hca
      have : c.2 = g := by
        have h1 := deref_of_mem hd hc
        rw [hg] at h1
        exact (Out.ok.inj h1).symm
      simp [(List.nodup_cons.1 hn).1, this]
    · simp [hca]

theorem crossCalls_pure (u : UserFns V F ω) (cx : V → V → V × V) (hc : ∀ p q w, u.cross p q w = (cx p q, w)) (junk : F) :
    ∀ (n : Nat) (q : List (Cell (Gene V F))) (pop : Pop (Gene V F)) (w : ω),
      crossCalls u junk q pop w = (crossoverLoop junk (fun _ => cx) n q pop, w)
  | _, [], pop, w => rfl
  | _, [a], pop, w => rfl
  | n, a :: b :: q, pop, w => by
    rw [crossCalls, crossoverLoop, hc]
    exact crossCalls_pure u cx hc junk (n + 1) q _ w

theorem mutCalls_pure (u : UserFns V F ω) (mu : V → V) (hm : ∀ v w, u.muta v w = (mu v, w)) (junk : F) :
    ∀ (q : List (Cell (Gene V F))) (k : Nat) (pop : Pop (Gene V F)) (w : ω),
      mutCalls u junk q pop w = ((q.zipIdx k).foldl (fun (p : Pop (Gene V F)) s =>
        emplaceBack p { var := (fun (_ : Nat) => mu) s.2 s.1.2.var, fitness := junk, computed := false }) pop, w)
  | [], _, pop, w => rfl
  | a :: q, k, pop, w => by
    rw [mutCalls, hm, List.zipIdx_cons, List.foldl_cons]
    exact mutCalls_pure u mu hm junk q (k + 1) _ w

theorem drawn_filter [LE κ] [DecidableLE κ] (h : GAHost κ V F ω τ R) (p : κ) :
    ∀ (pop : Pop (Gene V F)) (w : ω), DistinctNodes pop →
      ∃ sel : Addr → Bool, (drawn h p pop w).1 = pop.filter fun c => sel c.1 := by
  intro pop w hd
  have hs := drawn_sublist h p pop w
  generalize (drawn h p pop w).1 = q at hs
  refine ⟨fun a => decide (a ∈ q.map (·.1)), ?_⟩
  unfold DistinctNodes at hd
  induction hs with
  | slnil => rfl
  | cons c hs ih =>
    rename_i l1 l2
    simp only [List.map_cons, List.nodup_cons] at hd
    have : c.1 ∉ l1.map (·.1) := fun hm => hd.1 ((hs.map _).subset hm)
    rw [List.filter_cons_of_neg (by simpa using this)]
    exact ih hd.2
  | cons_cons c hs ih =>
    rename_i l1 l2
    simp only [List.map_cons, List.nodup_cons] at hd
    rw [List.filter_cons_of_pos (by simp)]
    congr 1
    refine (ih hd.2).trans (List.filter_congr fun d hdm => ?_)
    have : d.1 ≠ c.1 := fun he => hd.1 (he ▸ List.mem_map_of_mem hdm)
    simp [this]

/-- The pieces agree with the models of `Genetic/GABase.hpp` used elsewhere (`Heu.computeAllFitness`, `Heu.crossover`,
`Heu.mutate`) when the user's functions have no side effects. -/
theorem calls_agree [LE κ] [DecidableLE κ] (u : UserFns V F ω) (h : GAHost κ V F ω τ R) (ho : ∀ l, (h.order l).Perm l)
    (f : V → F) (hf : ∀ v y w, u.fit v y w = (f v, w))
    (cx : V → V → V × V) (hc : ∀ p q w, u.cross p q w = (cx p q, w))
    (mu : V → V) (hm : ∀ v w, u.muta v w = (mu v, w)) (p : κ) (pop : Pop (Gene V F)) (hd : DistinctNodes pop) (w : ω) :
    evaluateCalls u h pop w = .ok (computeAllFitness f pop, w) ∧
    (∃ sel w', crossoverCalls u h p pop w = (crossover h.junk (fun _ => cx) sel
      (fun l => (h.shuffle l (drawn h p pop w).2).1) pop, w')) ∧
    ∃ sel w', mutateCalls u h p pop w = (mutate h.junk (fun _ => mu) sel pop, w') := by
  refine ⟨?_, ?_, ?_⟩
  · have hp := ho (evalTasks pop)
    unfold evaluateCalls
    rw [evalCalls_pure u f hf _ pop w hd (hp.nodup_iff.2 (evalTasks_nodup hd)) (fun a ha => by
      have := hp.mem_iff.1 ha
      unfold evalTasks at this
      obtain ⟨c, hc, rfl⟩ := List.mem_map.1 this
      exact List.mem_map_of_mem (List.mem_filter.1 hc).1)]
    unfold computeAllFitness
    congr 2
    apply List.map_congr_left
    intro c hc
    have hmem : c.1 ∈ h.order (evalTasks pop) ↔ c.2.computed = false := hp.mem_iff.trans (mem_evalTasks hd hc)
    unfold evalGene
    cases hcc : c.2.computed with
    | true => rw [if_neg (by rw [hmem, hcc]; simp)]; simp
    | false => rw [if_pos (hmem.2 hcc)]; simp
  · obtain ⟨sel, hs⟩ := drawn_filter h p pop w hd
    refine ⟨sel, (h.shuffle (drawn h p pop w).1 (drawn h p pop w).2).2, ?_⟩
    unfold crossoverCalls crossover
    simp only
    rw [crossCalls_pure u cx hc h.junk 0, hs]
  · obtain ⟨sel, hs⟩ := drawn_filter h p pop w hd
    refine ⟨sel, (drawn h p pop w).2, ?_⟩
    unfold mutateCalls mutate
    simp only
    rw [mutCalls_pure u mu hm h.junk _ 0, hs]

end pure

/-! ## Examples -/

/-- A noisy fitness function: the state counts all calls, and the `n`-th call adds `n % 3` to the value; crossover and
mutation count too; three survivors, all draws accepted. -/
def noisyFns : UserFns ℚ ℚ Nat where
  ini _ w := (4 + w, w + 1)
  fit v _ w := (v ^ 2 + (w % 3 : Nat), w + 1)
  cross p q w := ((p + q, p - 3), w + 1)
  muta v w := (v + 1, w + 1)

/-- Truncation with `populationSize = 3`; the draws of the generator are 0, 1, 2, 0, …. -/
def noisyHost : GAHost ℚ ℚ ℚ Nat (Addr × Nat) ℚ :=
  sogaHost .lessBetter .Truncation 3 (fun _ => demoEnv (Gene ℚ ℚ)) (fun w => w + 1)
    (fun w => ((w % 3 : Nat), w + 1)) (fun l w => (l, w)) id 0

/-- The assumptions hold for it … -/
example : FairHost noisyHost :=
  sogaHost_fair .lessBetter .Truncation 3 _ (fun _ => demoEnv_valid _) _ _ _ (fun _ _ => .refl _) _ (fun _ => .refl _) 0

/-- … and a whole run: initialisation, three evaluations, and three generations with their calls. -/
example : (callsRun (logged noisyFns) (unaware noisyHost) ⟨2, 0, 1, 0⟩
      (initializeCalls (logged noisyFns) 3 ⟨0, 0, false⟩ [] (0, [])).1 (1, 0)
      (initializeCalls (logged noisyFns) 3 ⟨0, 0, false⟩ [] (0, [])).2).satisfies
    (fun r => r.generation == 2 && r.record.length == 3 && r.pop.length == 3 &&
      r.world.2.countP UserCall.isIni == 3 && r.world.2.countP UserCall.isCross != 0 &&
      r.world.2.countP UserCall.isMut != 0 &&
      r.world.2.countP UserCall.isFit ==
        3 + 2 * r.world.2.countP UserCall.isCross + r.world.2.countP UserCall.isMut) = true := by
  decide +kernel

/-- The fitness function is noisy: two calls for the same candidate give different values (in the run above, 26 and 25
for the two candidates 5). -/
example : (noisyFns.fit 2 0 0).1 ≠ (noisyFns.fit 2 0 1).1 := by decide +kernel

end Heu
