import Verif.Spec.Calls
import Verif.Lemmas.GA
import Verif.Lemmas.SOGA
import Verif.Props.Box

/-! Lemmas for `Props/Calls`: the pieces of a run with a log. -/

set_option linter.unusedSectionVars false
set_option linter.unusedVariables false
set_option linter.unusedSimpArgs false

namespace Heu
open Spec

section
variable {κ V F ω τ R : Type}

theorem values_append (a b : List (UserCall V F)) : values (a ++ b) = values a ++ values b := by
  simp [values]

theorem made_append (a b : List (UserCall V F)) : made (a ++ b) = made a ++ made b := by
  simp [made]

/-- looking up the variables at an address -/
def varAt (pop : Pop (Gene V F)) (a : Addr) : Option V := (pop.find? (fun c => c.1 == a)).map fun c => c.2.var

theorem varAt_of_mem {pop : Pop (Gene V F)} (hd : DistinctNodes pop) {c : Cell (Gene V F)} (hc : c ∈ pop) :
    varAt pop c.1 = some c.2.var := by
  have h := deref_of_mem hd hc
  unfold deref at h
  unfold varAt
  cases hf : pop.find? (fun d => d.1 == c.1) with
  | none => rw [hf] at h; cases h
  | some d => rw [hf] at h; simp only [Out.ok.injEq] at h; simp [h]

/-- storing the value of one node -/
def storeAt (pop : Pop (Gene V F)) (a : Addr) (y : F) : Pop (Gene V F) :=
  pop.map fun c => if c.1 = a then (c.1, { c.2 with fitness := y, computed := true }) else c

theorem storeAt_addrs (pop : Pop (Gene V F)) (a : Addr) (y : F) : (storeAt pop a y).map (·.1) = pop.map (·.1) := by
  unfold storeAt
  rw [List.map_map]
  apply List.map_congr_left
  intro c _
  simp only [Function.comp]
  split <;> rfl

theorem storeAt_distinct {pop : Pop (Gene V F)} (hd : DistinctNodes pop) (a : Addr) (y : F) :
    DistinctNodes (storeAt pop a y) := by
  unfold DistinctNodes at *
  rw [storeAt_addrs]; exact hd

theorem storeAt_varAt (pop : Pop (Gene V F)) (a b : Addr) (y : F) : varAt (storeAt pop a y) b = varAt pop b := by
  unfold varAt storeAt
  induction pop with
  | nil => rfl
  | cons c cs ih =>
    simp only [List.map_cons, List.find?_cons]
    by_cases h : c.1 = a
    · simp only [h, if_true]
      by_cases hb : a == b
      · simp [hb]
      · simp only [hb]
        exact ih
    · simp only [h, if_false]
      by_cases hb : c.1 == b
      · simp [hb]
      · simp only [hb]
        exact ih

theorem storeAt_vars (pop : Pop (Gene V F)) (a : Addr) (y : F) :
    (storeAt pop a y).map (fun c => c.2.var) = pop.map fun c => c.2.var := by
  unfold storeAt
  rw [List.map_map]
  apply List.map_congr_left
  intro c _
  simp only [Function.comp]
  split <;> rfl

theorem mem_storeAt {pop : Pop (Gene V F)} {a : Addr} {y : F} {c : Cell (Gene V F)} :
    c ∈ storeAt pop a y ↔ (c.1 ≠ a ∧ c ∈ pop) ∨
      ∃ d ∈ pop, d.1 = a ∧ c = (d.1, { d.2 with fitness := y, computed := true }) := by
  unfold storeAt
  rw [List.mem_map]
  constructor
  · rintro ⟨d, hd, h⟩
    by_cases e : d.1 = a
    · rw [if_pos e] at h
      exact Or.inr ⟨d, hd, e, h.symm⟩
    · rw [if_neg e] at h
      subst h
      exact Or.inl ⟨e, hd⟩
  · rintro (⟨e, h⟩ | ⟨d, hd, e, h⟩)
    · exact ⟨c, h, by rw [if_neg e]⟩
    · exact ⟨d, hd, by rw [if_pos e, h]⟩

/-- What the evaluation of a list of nodes does to population and log. -/
structure EvalSpec (pop pop' : Pop (Gene V F)) (as : List Addr) (fs : List (UserCall V F)) : Prop where
  fits : ∀ e ∈ fs, e.isFit
  args : (values fs).map (fun p => some p.1) = as.map (varAt pop)
  addrs : pop'.map (·.1) = pop.map (·.1)
  vars : pop'.map (fun c => c.2.var) = pop.map (fun c => c.2.var)
  keep : ∀ c ∈ pop, c.1 ∉ as → c ∈ pop'
  origin : ∀ c ∈ pop', (c.1 ∉ as ∧ c ∈ pop) ∨
    (c.1 ∈ as ∧ c.2.computed = true ∧ (c.2.var, c.2.fitness) ∈ values fs)
  stored : ∀ p ∈ values fs, ∃ c ∈ pop', c.2.computed = true ∧ c.2.var = p.1 ∧ c.2.fitness = p.2

theorem evalCalls_spec (u : UserFns V F ω) : ∀ (as : List Addr) (pop : Pop (Gene V F)) (w : ω)
    (l : List (UserCall V F)), DistinctNodes pop → as.Nodup → (∀ a ∈ as, a ∈ pop.map (·.1)) →
    ∃ pop' w' fs, evalCalls (logged u) as pop (w, l) = .ok (pop', (w', l ++ fs)) ∧ EvalSpec pop pop' as fs
  | [], pop, w, l, _, _, _ =>
    ⟨pop, w, [], by simp [evalCalls], ⟨by simp, by simp [values], rfl, rfl, fun c h _ => h,
      fun c h => Or.inl ⟨by simp, h⟩, by simp [values]⟩⟩
  | a :: as, pop, w, l, hd, hn, ha => by
    obtain ⟨hna, hn'⟩ := List.nodup_cons.1 hn
    obtain ⟨g0, hg0, hga⟩ := List.mem_map.1 (ha a (by simp))
    obtain ⟨a0, g⟩ := g0
    obtain rfl : a0 = a := hga
    have hder : deref pop a0 = .ok g := deref_of_mem hd hg0
    set y := (u.fit g.var g.fitness w).1 with hy
    have hd1 := storeAt_distinct hd a0 y
    obtain ⟨pop', w', fs, hrun, hs⟩ := evalCalls_spec u as (storeAt pop a0 y)
      (u.fit g.var g.fitness w).2 (l ++ [.fit g.var y]) hd1 hn'
      (fun b hb => by rw [storeAt_addrs]; exact ha b (by simp [hb]))
    refine ⟨pop', w', .fit g.var y :: fs, ?_, ?_⟩
    · rw [evalCalls, hder]
      simp only [Out.ok_bind]
      rw [show l ++ UserCall.fit g.var y :: fs = (l ++ [.fit g.var y]) ++ fs by simp]
      exact hrun
    · have hval : values (UserCall.fit g.var y :: fs) = (g.var, y) :: values fs := by
        simp [values, UserCall.valued]
      -- the node just stored stays
      have hstay : (a0, ({ g with fitness := y, computed := true } : Gene V F)) ∈ pop' :=
        hs.keep _ (mem_storeAt.2 (Or.inr ⟨(a0, g), hg0, rfl, rfl⟩)) hna
      refine ⟨?_, ?_, ?_, ?_, ?_, ?_, ?_⟩
      · intro e he
        rcases List.mem_cons.1 he with rfl | he
        · rfl
        · exact hs.fits e he
      · rw [hval]
        simp only [List.map_cons]
        rw [hs.args, varAt_of_mem hd hg0]
        congr 1
        apply List.map_congr_left
        intro b _
        exact storeAt_varAt _ _ _ _
      · rw [hs.addrs, storeAt_addrs]
      · rw [hs.vars, storeAt_vars]
      · intro c hc hca
        simp only [List.mem_cons, not_or] at hca
        exact hs.keep c (mem_storeAt.2 (Or.inl ⟨hca.1, hc⟩)) hca.2
      · intro c hc
        rw [hval]
        rcases hs.origin c hc with ⟨h1, h2⟩ | ⟨h1, h2, h3⟩
        · rcases mem_storeAt.1 h2 with ⟨h4, h5⟩ | ⟨d, hdm, hda, hdc⟩
          · exact Or.inl ⟨by simp [h1, h4], h5⟩
          · have hdg : d = (a0, g) := by
              have h6 := deref_of_mem hd hdm
              rw [hda, hder] at h6
              exact Prod.ext hda (Out.ok.inj h6).symm
            subst hdg
            subst hdc
            exact Or.inr ⟨by simp, rfl, by simp⟩
        · exact Or.inr ⟨by simp [h1], h2, by simp [h3]⟩
      · intro p hp
        rw [hval] at hp
        rcases List.mem_cons.1 hp with rfl | hp
        · exact ⟨_, hstay, rfl, rfl, rfl⟩
        · exact hs.stored p hp

theorem evalTasks_nodup {pop : Pop (Gene V F)} (hd : DistinctNodes pop) : (evalTasks pop).Nodup := by
  unfold evalTasks
  exact (List.Sublist.map _ List.filter_sublist).nodup hd

theorem mem_evalTasks {pop : Pop (Gene V F)} (hd : DistinctNodes pop) {c : Cell (Gene V F)} (hc : c ∈ pop) :
    c.1 ∈ evalTasks pop ↔ c.2.computed = false := by
  unfold evalTasks
  rw [List.mem_map]
  constructor
  · rintro ⟨d, hdm, he⟩
    rw [List.mem_filter] at hdm
    have h1 := deref_of_mem hd hdm.1
    rw [he, deref_of_mem hd hc] at h1
    rw [Out.ok.inj h1]
    simpa using hdm.2
  · intro h
    exact ⟨c, List.mem_filter.2 ⟨hc, by simp [h]⟩, rfl⟩

theorem evalTasks_vars {pop : Pop (Gene V F)} (hd : DistinctNodes pop) :
    (evalTasks pop).map (varAt pop) = (unvaluedPop pop).map some := by
  unfold evalTasks unvaluedPop
  rw [List.map_map, List.map_map]
  apply List.map_congr_left
  intro c hc
  exact varAt_of_mem hd (List.mem_filter.1 hc).1

/-- One evaluation phase of a run. -/
structure PopEvaluated (pop pop' : Pop (Gene V F)) (fs : List (UserCall V F)) : Prop where
  fits : ∀ e ∈ fs, e.isFit
  distinct : DistinctNodes pop'
  length : pop'.length = pop.length
  done : ∀ c ∈ pop', c.2.computed = true
  keep : ∀ c ∈ pop, c.2.computed = true → c ∈ pop'
  origin : ∀ c ∈ pop', (c.2.var, c.2.fitness) ∈ valuedPop pop ++ values fs
  stored : ∀ p ∈ values fs, ∃ c ∈ pop', c.2.var = p.1 ∧ c.2.fitness = p.2

theorem mem_valuedPop {pop : Pop (Gene V F)} {p : V × F} :
    p ∈ valuedPop pop ↔ ∃ c ∈ pop, c.2.computed = true ∧ (c.2.var, c.2.fitness) = p := by
  unfold valuedPop
  simp only [List.mem_map, List.mem_filter]
  constructor
  · rintro ⟨c, ⟨h1, h2⟩, h3⟩; exact ⟨c, h1, h2, h3⟩
  · rintro ⟨c, h1, h2, h3⟩; exact ⟨c, ⟨h1, h2⟩, h3⟩

theorem evaluateCalls_spec (u : UserFns V F ω) (h : GAHost κ V F ω τ R) (ho : ∀ l, (h.order l).Perm l)
    (pop : Pop (Gene V F)) (w : ω) (l : List (UserCall V F)) (hd : DistinctNodes pop) :
    ∃ pop' w' fs, evaluateCalls (logged u) (unaware h) pop (w, l) = .ok (pop', (w', l ++ fs)) ∧
      PopEvaluated pop pop' fs ∧
      (values fs).map (fun p => some p.1) = (h.order (evalTasks pop)).map (varAt pop) := by
  have hp := ho (evalTasks pop)
  obtain ⟨pop', w', fs, hrun, hs⟩ := evalCalls_spec u (h.order (evalTasks pop)) pop w l hd
    (hp.nodup_iff.2 (evalTasks_nodup hd)) (fun a ha => by
      have := hp.mem_iff.1 ha
      unfold evalTasks at this
      obtain ⟨c, hc, rfl⟩ := List.mem_map.1 this
      exact List.mem_map_of_mem (List.mem_filter.1 hc).1)
  refine ⟨pop', w', fs, hrun, ⟨hs.fits, ?_, ?_, ?_, ?_, ?_, ?_⟩, hs.args⟩
  · unfold DistinctNodes; rw [hs.addrs]; exact hd
  · have := congrArg List.length hs.addrs
    simpa using this
  · intro c hc
    rcases hs.origin c hc with ⟨h1, h2⟩ | ⟨-, h2, -⟩
    · cases hcc : c.2.computed with
      | true => rfl
      | false => exact absurd (hp.mem_iff.2 ((mem_evalTasks hd h2).2 hcc)) h1
    · exact h2
  · intro c hc hcc
    refine hs.keep c hc fun hm => ?_
    have := (mem_evalTasks hd hc).1 (hp.mem_iff.1 hm)
    rw [hcc] at this
    cases this
  · intro c hc
    rw [List.mem_append]
    rcases hs.origin c hc with ⟨h1, h2⟩ | ⟨-, -, h3⟩
    · left
      refine mem_valuedPop.2 ⟨c, h2, ?_, rfl⟩
      cases hcc : c.2.computed with
      | true => rfl
      | false => exact absurd (hp.mem_iff.2 ((mem_evalTasks hd h2).2 hcc)) h1
    · exact Or.inr h3
  · intro p hp
    obtain ⟨c, h1, -, h2, h3⟩ := hs.stored p hp
    exact ⟨c, h1, h2, h3⟩

theorem evaluated_args_perm {pop : Pop (Gene V F)} (hd : DistinctNodes pop) {as : List Addr}
    (ho : as.Perm (evalTasks pop)) {fs : List (UserCall V F)}
    (h : (values fs).map (fun p => some p.1) = as.map (varAt pop)) :
    ((values fs).map (·.1)).Perm (unvaluedPop pop) := by
  have h1 : (((values fs).map (·.1)).map some).Perm ((unvaluedPop pop).map some) := by
    rw [← evalTasks_vars hd, List.map_map]
    show ((values fs).map (fun p => some p.1)).Perm _
    rw [h]
    exact ho.map _
  exact (List.map_perm_map_iff (Option.some_injective _)).1 h1

theorem evaluated_args_eq {pop : Pop (Gene V F)} (hd : DistinctNodes pop)
    {fs : List (UserCall V F)} (h : (values fs).map (fun p => some p.1) = (evalTasks pop).map (varAt pop)) :
    (values fs).map (·.1) = unvaluedPop pop := by
  have h1 : ((values fs).map (·.1)).map some = (unvaluedPop pop).map some := by
    rw [← evalTasks_vars hd, List.map_map, ← h]
    rfl
  exact (List.map_injective_iff.2 (Option.some_injective _)) h1

section vary
variable [LE κ] [DecidableLE κ]

theorem drawn_unaware (h : GAHost κ V F ω τ R) (p : κ) : ∀ (pop : Pop (Gene V F)) (w : ω) (l : List (UserCall V F)),
    drawn (unaware h) p pop (w, l) = ((drawn h p pop w).1, ((drawn h p pop w).2, l))
  | [], w, l => rfl
  | c :: cs, w, l => by
    have := drawn_unaware h p cs (h.rnd w).2 l
    simp only [drawn]
    rw [show (unaware h).rnd (w, l) = ((h.rnd w).1, ((h.rnd w).2, l)) from rfl, this]

theorem drawn_sublist (h : GAHost κ V F ω τ R) (p : κ) : ∀ (pop : Pop (Gene V F)) (w : ω),
    (drawn h p pop w).1.Sublist pop
  | [], w => List.Sublist.slnil
  | c :: cs, w => by
    simp only [drawn]
    split
    · exact (drawn_sublist h p cs _).cons_cons c
    · exact (drawn_sublist h p cs _).cons c

/-- What crossover and mutation append. -/
structure PopGrown (pop pop' : Pop (Gene V F)) (es : List (UserCall V F)) : Prop where
  app : ∃ new : Pop (Gene V F), pop' = pop ++ new ∧ (∀ c ∈ new, c.2.computed = false) ∧
    new.map (fun c => c.2.var) = made es
  distinct : DistinctNodes pop → DistinctNodes pop'

theorem PopGrown.refl (pop : Pop (Gene V F)) : PopGrown pop pop [] :=
  ⟨⟨[], by simp [made]⟩, id⟩

theorem PopGrown.trans {p q r : Pop (Gene V F)} {a b : List (UserCall V F)} (h1 : PopGrown p q a) (h2 : PopGrown q r b) :
    PopGrown p r (a ++ b) := by
  obtain ⟨⟨n1, e1, c1, l1⟩, d1⟩ := h1
  obtain ⟨⟨n2, e2, c2, l2⟩, d2⟩ := h2
  refine ⟨⟨n1 ++ n2, by rw [e2, e1, List.append_assoc], ?_, by rw [List.map_append, l1, l2, made_append]⟩,
    fun h => d2 (d1 h)⟩
  intro c hc
  rcases List.mem_append.1 hc with h | h
  · exact c1 c h
  · exact c2 c h

theorem crossCalls_spec (u : UserFns V F ω) (junk : F) : ∀ (q : List (Cell (Gene V F))) (pop : Pop (Gene V F)) (w : ω)
    (l : List (UserCall V F)), ∃ pop' w' cs, crossCalls (logged u) junk q pop (w, l) = (pop', (w', l ++ cs)) ∧
      PopGrown pop pop' cs ∧ (∀ e ∈ cs, e.isCross) ∧ 2 * cs.length ≤ q.length ∧
      (∀ e ∈ cs, ∀ p ∈ e.parents, p ∈ q.map fun c => c.2.var)
  | [], pop, w, l => ⟨pop, w, [], by simp [crossCalls], PopGrown.refl _, by simp, by simp, by simp⟩
  | [a], pop, w, l => ⟨pop, w, [], by simp [crossCalls], PopGrown.refl _, by simp, by simp, by simp⟩
  | a :: b :: q, pop, w, l => by
    set r := u.cross a.2.var b.2.var w with hr
    obtain ⟨pop', w', cs, h1, h2, h3, h4, h5⟩ := crossCalls_spec u junk q
      (emplaceBack (emplaceBack pop { var := r.1.1, fitness := junk, computed := false })
        { var := r.1.2, fitness := junk, computed := false }) r.2 (l ++ [.cross a.2.var b.2.var r.1.1 r.1.2])
    refine ⟨pop', w', .cross a.2.var b.2.var r.1.1 r.1.2 :: cs, ?_, ?_, ?_, ?_, ?_⟩
    · rw [crossCalls]
      rw [show l ++ UserCall.cross a.2.var b.2.var r.1.1 r.1.2 :: cs =
        (l ++ [.cross a.2.var b.2.var r.1.1 r.1.2]) ++ cs by simp]
      exact h1
    · have h0 : PopGrown pop (emplaceBack (emplaceBack pop { var := r.1.1, fitness := junk, computed := false })
          { var := r.1.2, fitness := junk, computed := false }) [.cross a.2.var b.2.var r.1.1 r.1.2] := by
        refine ⟨⟨[(freshAddr pop, ⟨r.1.1, junk, false⟩), (freshAddr (emplaceBack pop ⟨r.1.1, junk, false⟩),
          ⟨r.1.2, junk, false⟩)], by simp [emplaceBack], by simp, by simp [made, UserCall.created]⟩,
          fun h => distinct_emplaceBack (distinct_emplaceBack h _) _⟩
      exact h0.trans h2
    · intro e he
      rcases List.mem_cons.1 he with rfl | he
      · rfl
      · exact h3 e he
    · simp only [List.length_cons]; omega
    · intro e he p hp
      rcases List.mem_cons.1 he with rfl | he
      · simp only [UserCall.parents, List.mem_cons, List.not_mem_nil, or_false] at hp
        rcases hp with rfl | rfl <;> simp
      · have := h5 e he p hp
        simp only [List.map_cons, List.mem_cons]
        exact Or.inr (Or.inr this)

theorem mutCalls_spec (u : UserFns V F ω) (junk : F) : ∀ (q : List (Cell (Gene V F))) (pop : Pop (Gene V F)) (w : ω)
    (l : List (UserCall V F)), ∃ pop' w' ms, mutCalls (logged u) junk q pop (w, l) = (pop', (w', l ++ ms)) ∧
      PopGrown pop pop' ms ∧ (∀ e ∈ ms, e.isMut) ∧ ms.length = q.length ∧
      (∀ e ∈ ms, ∀ p ∈ e.parents, p ∈ q.map fun c => c.2.var)
  | [], pop, w, l => ⟨pop, w, [], by simp [mutCalls], PopGrown.refl _, by simp, by simp, by simp⟩
  | a :: q, pop, w, l => by
    set r := u.muta a.2.var w with hr
    obtain ⟨pop', w', ms, h1, h2, h3, h4, h5⟩ := mutCalls_spec u junk q
      (emplaceBack pop { var := r.1, fitness := junk, computed := false }) r.2 (l ++ [.muta a.2.var r.1])
    refine ⟨pop', w', .muta a.2.var r.1 :: ms, ?_, ?_, ?_, ?_, ?_⟩
    · rw [mutCalls]
      rw [show l ++ UserCall.muta a.2.var r.1 :: ms = (l ++ [.muta a.2.var r.1]) ++ ms by simp]
      exact h1
    · have h0 : PopGrown pop (emplaceBack pop { var := r.1, fitness := junk, computed := false })
          [.muta a.2.var r.1] := by
        refine ⟨⟨[(freshAddr pop, ⟨r.1, junk, false⟩)], by simp [emplaceBack], by simp,
          by simp [made, UserCall.created]⟩, fun h => distinct_emplaceBack h _⟩
      exact h0.trans h2
    · intro e he
      rcases List.mem_cons.1 he with rfl | he
      · rfl
      · exact h3 e he
    · simp [h4]
    · intro e he p hp
      rcases List.mem_cons.1 he with rfl | he
      · simp only [UserCall.parents, List.mem_cons, List.not_mem_nil, or_false] at hp
        subst hp; simp
      · have := h5 e he p hp
        simp only [List.map_cons, List.mem_cons]
        exact Or.inr this

theorem crossoverCalls_spec (u : UserFns V F ω) (h : GAHost κ V F ω τ R) (hsh : ∀ l w, (h.shuffle l w).1.Perm l)
    (p : κ) (pop : Pop (Gene V F)) (w : ω) (l : List (UserCall V F)) :
    ∃ pop' w' cs, crossoverCalls (logged u) (unaware h) p pop (w, l) = (pop', (w', l ++ cs)) ∧
      PopGrown pop pop' cs ∧ (∀ e ∈ cs, e.isCross) ∧ 2 * cs.length ≤ pop.length ∧
      (∀ e ∈ cs, ∀ p ∈ e.parents, p ∈ pop.map fun c => c.2.var) := by
  have hsub := drawn_sublist h p pop w
  have hperm := hsh (drawn h p pop w).1 (drawn h p pop w).2
  have hrun : crossoverCalls (logged u) (unaware h) p pop (w, l) =
      crossCalls (logged u) h.junk (if (h.shuffle (drawn h p pop w).1 (drawn h p pop w).2).1.length % 2 = 1
        then (h.shuffle (drawn h p pop w).1 (drawn h p pop w).2).1.dropLast
        else (h.shuffle (drawn h p pop w).1 (drawn h p pop w).2).1).reverse pop
        ((h.shuffle (drawn h p pop w).1 (drawn h p pop w).2).2, l) := by
    unfold crossoverCalls
    rw [drawn_unaware]
    rfl
  rw [hrun]
  clear hrun
  revert hperm
  generalize h.shuffle (drawn h p pop w).1 (drawn h p pop w).2 = q
  intro hperm
  have hmem : ∀ c ∈ (if q.1.length % 2 = 1 then q.1.dropLast else q.1).reverse, c ∈ pop := by
    intro c hc
    rw [List.mem_reverse] at hc
    have : c ∈ q.1 := by
      split at hc
      · exact List.dropLast_subset _ hc
      · exact hc
    exact hsub.subset (hperm.mem_iff.1 this)
  have hlen : (if q.1.length % 2 = 1 then q.1.dropLast else q.1).reverse.length ≤ pop.length := by
    rw [List.length_reverse]
    have h1 := hsub.length_le
    have h2 := hperm.length_eq
    split
    · rw [List.length_dropLast]; omega
    · omega
  obtain ⟨pop', w', cs, h1, h2, h3, h4, h5⟩ := crossCalls_spec u h.junk _ pop q.2 l
  refine ⟨pop', w', cs, h1, h2, h3, le_trans h4 hlen, ?_⟩
  intro e he x hx
  obtain ⟨c, hc, rfl⟩ := List.mem_map.1 (h5 e he x hx)
  exact List.mem_map_of_mem (hmem c hc)

theorem mutateCalls_spec (u : UserFns V F ω) (h : GAHost κ V F ω τ R)
    (p : κ) (pop : Pop (Gene V F)) (w : ω) (l : List (UserCall V F)) :
    ∃ pop' w' ms, mutateCalls (logged u) (unaware h) p pop (w, l) = (pop', (w', l ++ ms)) ∧
      PopGrown pop pop' ms ∧ (∀ e ∈ ms, e.isMut) ∧ ms.length ≤ pop.length ∧
      (∀ e ∈ ms, ∀ p ∈ e.parents, p ∈ pop.map fun c => c.2.var) := by
  unfold mutateCalls
  rw [drawn_unaware]
  simp only [unaware]
  have hsub := drawn_sublist h p pop w
  obtain ⟨pop', w', ms, h1, h2, h3, h4, h5⟩ := mutCalls_spec u h.junk (drawn h p pop w).1 pop (drawn h p pop w).2 l
  refine ⟨pop', w', ms, h1, h2, h3, by rw [h4]; exact hsub.length_le, ?_⟩
  intro e he x hx
  obtain ⟨c, hc, rfl⟩ := List.mem_map.1 (h5 e he x hx)
  exact List.mem_map_of_mem (hsub.subset hc)

end vary

/-- the new ones of a grown population are those without a value -/
theorem grown_unvalued {pop pop' : Pop (Gene V F)} {es : List (UserCall V F)} (h : PopGrown pop pop' es)
    (hc : ∀ c ∈ pop, c.2.computed = true) :
    unvaluedPop pop' = made es ∧ valuedPop pop' = pop.map fun c => (c.2.var, c.2.fitness) := by
  obtain ⟨⟨new, rfl, hn, hv⟩, -⟩ := h
  unfold unvaluedPop valuedPop
  rw [List.filter_append, List.filter_append]
  have e1 : pop.filter (fun c => !c.2.computed) = [] := List.filter_eq_nil_iff.2 fun c h => by simp [hc c h]
  have e2 : new.filter (fun c => !c.2.computed) = new := List.filter_eq_self.2 fun c h => by simp [hn c h]
  have e3 : pop.filter (fun c => c.2.computed) = pop := List.filter_eq_self.2 fun c h => by simp [hc c h]
  have e4 : new.filter (fun c => c.2.computed) = [] := List.filter_eq_nil_iff.2 fun c h => by simp [hn c h]
  rw [e1, e2, e3, e4]
  simp [hv]

end

end Heu
