import Verif.Model.SOGACallsFl
import Verif.Lemmas.MOCalls
import Verif.Props.SOGAFl

/-! A host whose selection is only specified for populations with good fitness values. -/

set_option linter.unusedSectionVars false
set_option linter.unusedVariables false
set_option linter.unusedSimpArgs false

namespace Heu
open Spec

section
variable {κ V F ω τ R : Type}

open Classical in
/-- The host, stopped if selection ever sees a fitness that is not `P`. -/
noncomputable def guarded (P : F → Prop) (h : GAHost κ V F ω τ R) : GAHost κ V F ω τ R :=
  { h with select := fun pop t w => if ∀ c ∈ pop, P c.2.fitness then h.select pop t w else .ub }

theorem guarded_select {P : F → Prop} {h : GAHost κ V F ω τ R} {pop : Pop (Gene V F)} {t : τ} {w : ω}
    {r : (Pop (Gene V F) × τ) × ω} (hr : (guarded P h).select pop t w = .ok r) :
    (∀ c ∈ pop, P c.2.fitness) ∧ h.select pop t w = .ok r := by
  unfold guarded at hr
  simp only at hr
  split at hr
  · next hp => exact ⟨hp, hr⟩
  · cases hr

theorem unaware_guarded_select {P : F → Prop} (h : GAHost κ V F ω τ R) {pop : Pop (Gene V F)} (t : τ)
    (w : ω × List (UserCall V F)) (hp : ∀ c ∈ pop, P c.2.fitness) :
    (unaware (guarded P h)).select pop t w = (unaware h).select pop t w := by
  unfold unaware guarded
  simp only
  rw [if_pos hp]

/-- evaluation leaves every node where it is -/
theorem evalCalls_addrs (u : UserFns V F ω) : ∀ (as : List Addr) (pop : Pop (Gene V F)) (w : ω)
    (r : Pop (Gene V F) × ω), evalCalls u as pop w = .ok r → r.1.map (·.1) = pop.map (·.1)
  | [], pop, w, r, hr => by
    have := Out.ok.inj hr
    subst this
    rfl
  | a :: as, pop, w, r, hr => by
    rw [evalCalls] at hr
    obtain ⟨g, hg, hr⟩ := Out.bind_eq_ok.1 hr
    rw [evalCalls_addrs u as _ _ r hr, List.map_map]
    apply List.map_congr_left
    intro c _
    simp only [Function.comp]
    split <;> rfl

theorem evaluated_addrs {u : UserFns V F ω} {h : GAHost κ V F ω τ R} {pop : Pop (Gene V F)} {w : ω}
    {r : Pop (Gene V F) × ω} (hr : evaluateCalls u h pop w = .ok r) : r.1.map (·.1) = pop.map (·.1) :=
  evalCalls_addrs u _ _ _ _ hr

variable [LE κ] [DecidableLE κ]

theorem drawn_guarded (P : F → Prop) (h : GAHost κ V F ω τ R) (p : κ) : ∀ (pop : Pop (Gene V F))
    (w : ω × List (UserCall V F)), drawn (unaware (guarded P h)) p pop w = drawn (unaware h) p pop w
  | [], _ => rfl
  | c :: cs, w => by
    rw [drawn, drawn, drawn_guarded P h p cs]
    rfl

theorem crossover_guarded (u : UserFns V F ω) (P : F → Prop) (h : GAHost κ V F ω τ R) (p : κ) (pop : Pop (Gene V F))
    (w : ω × List (UserCall V F)) :
    crossoverCalls (logged u) (unaware (guarded P h)) p pop w = crossoverCalls (logged u) (unaware h) p pop w := by
  unfold crossoverCalls
  rw [drawn_guarded]
  rfl

theorem mutate_guarded (u : UserFns V F ω) (P : F → Prop) (h : GAHost κ V F ω τ R) (p : κ) (pop : Pop (Gene V F))
    (w : ω × List (UserCall V F)) :
    mutateCalls (logged u) (unaware (guarded P h)) p pop w = mutateCalls (logged u) (unaware h) p pop w := by
  unfold mutateCalls
  rw [drawn_guarded]
  rfl

/-- If all values are good from the start, the guard makes no difference. -/
theorem callsLoop_guard (u : UserFns V F ω) (P : F → Prop) (hu : ∀ v y w, P (u.fit v y w).1)
    (h : GAHost κ V F ω τ R) (hg : FairHost (guarded P h)) (o : GALimits κ) :
    ∀ (fuel gen : Nat) (pop : Pop (Gene V F)) (t : τ) (w : ω) (l : List (UserCall V F)) (record : List R),
      DistinctNodes pop → (∀ c ∈ pop, c.2.computed = true → P c.2.fitness) →
      callsLoop (logged u) (unaware (guarded P h)) o fuel gen pop t (w, l) record =
        callsLoop (logged u) (unaware h) o fuel gen pop t (w, l) record
  | 0, _, _, _, _, _, _, _, _ => rfl
  | fuel + 1, gen, pop, t, w, l, record, hd, hp => by
    obtain ⟨pop1, w1, fs, e1, e2, e3⟩ := evaluateCalls_spec u (guarded P h) hg.order pop w l hd
    have e1' : evaluateCalls (logged u) (unaware h) pop (w, l) = .ok (pop1, (w1, l ++ fs)) := e1
    have hP1 : ∀ c ∈ pop1, P c.2.fitness := fun c hc =>
      evalCalls_values (logged u) P (fun v y s => hu v y s.1) _ _ _ _ hp e1 c hc (e2.done c hc)
    rw [callsLoop, callsLoop, e1, e1']
    simp only [Out.ok_bind]
    rw [unaware_guarded_select h t _ hP1]
    cases hs : (unaware h).select pop1 t (w1, l ++ fs) with
    | ub => rfl
    | timeout => rfl
    | ok s =>
      obtain ⟨⟨pop2, t2⟩, w2, l2⟩ := s
      have hs' : ∃ w2', (guarded P h).select pop1 t w1 = .ok ((pop2, t2), w2') := by
        rw [← unaware_guarded_select h t _ hP1] at hs
        change ((guarded P h).select pop1 t w1).bind _ = _ at hs
        obtain ⟨r, h1, h2⟩ := Out.bind_eq_ok.1 hs
        have h3 := Out.ok.inj h2
        refine ⟨r.2, ?_⟩
        rw [h1]
        simp only [Prod.mk.injEq] at h3
        rw [← h3.1]
      obtain ⟨w2', hs'⟩ := hs'
      obtain ⟨f1, f2⟩ := hg.select pop1 t w1 _ e2.distinct hs'
      simp only [Out.ok_bind]
      show ((h.bestFitness pop2 t2 >>= _) : Out _) = (h.bestFitness pop2 t2 >>= _)
      cases hb : h.bestFitness pop2 t2 with
      | ub => rfl
      | timeout => rfl
      | ok b =>
        simp only [Out.ok_bind]
        split
        · rfl
        · show (if o.maxFail > 0 ∧ h.failTimes t2 > o.maxFail then _ else _) = (if o.maxFail > 0 ∧ h.failTimes t2 > o.maxFail then _ else _)
          split
          · rfl
          · obtain ⟨pop3, w3, cs, g1, g2, -, -, -⟩ := crossoverCalls_spec u (guarded P h) hg.shuffle o.cxProb pop2 w2 l2
            have g1' : crossoverCalls (logged u) (unaware h) o.cxProb pop2 (w2, l2) = (pop3, (w3, l2 ++ cs)) := by
              rw [← crossover_guarded u P h]; exact g1
            rw [g1, g1']
            obtain ⟨pop4, w4, ms, m1, m2, -, -, -⟩ := mutateCalls_spec u (guarded P h) o.muProb pop3 w3 (l2 ++ cs)
            have m1' : mutateCalls (logged u) (unaware h) o.muProb pop3 (w3, l2 ++ cs) = (pop4, (w4, l2 ++ cs ++ ms)) := by
              rw [← mutate_guarded u P h]; exact m1
            simp only
            rw [m1, m1']
            refine callsLoop_guard u P hu h hg o fuel (gen + 1) pop4 t2 w4 _ _ (m2.distinct (g2.distinct f1)) ?_
            intro c hc hcc
            obtain ⟨⟨n3, rfl, hn3, -⟩, -⟩ := g2
            obtain ⟨⟨n4, rfl, hn4, -⟩, -⟩ := m2
            rcases List.mem_append.1 hc with h1 | h1
            · rcases List.mem_append.1 h1 with h1 | h1
              · obtain ⟨d, hdm, hde⟩ := f2 c h1
                rw [← hde]; exact hP1 d hdm
              · rw [hn3 c h1] at hcc; cases hcc
            · rw [hn4 c h1] at hcc; cases hcc

end

end Heu
