import Verif.Props.GAFull2
import Verif.Props.Session2

/-! # C131: pointers that are not used, recording, `initializePop`, NSGA-II, concrete histories -/

set_option linter.unusedSectionVars false
set_option linter.unusedVariables false
set_option linter.unusedSimpArgs false

namespace Heu
open Spec

section core
variable {κ A Ω V F : Type}

theorem emplace_getElem? (pop : Pop (Gene V F)) : ∀ (n : Nat) (blank : Gene V F) (i : Nat) c,
    ((List.replicate n blank).foldl emplaceBack pop)[i]? = some c →
    pop[i]? = some c ∨ (pop.length ≤ i ∧ c.2 = blank) := by
  intro n
  induction n generalizing pop with
  | zero => intro blank i c h; exact .inl h
  | succ n ih =>
    intro blank i c h
    rw [List.replicate_succ, List.foldl_cons] at h
    rcases ih _ blank i c h with h | ⟨h1, h2⟩
    · simp only [emplaceBack] at h
      rcases Nat.lt_or_ge i pop.length with hi | hi
      · rw [List.getElem?_append_left hi] at h; exact .inl h
      · rw [List.getElem?_append_right hi] at h
        refine .inr ⟨hi, ?_⟩
        rcases Nat.eq_zero_or_pos (i - pop.length) with h0 | h0
        · rw [h0] at h; have := Option.some.inj h; rw [← this]
        · rw [List.getElem?_cons, if_neg (by omega)] at h; simp at h
    · simp only [emplaceBack, List.length_append] at h1
      exact .inr ⟨by omega, h2⟩

/-- The initialiser is called on what is there: on the old variables for individuals that exist already, on the
content of new nodes for the others. -/
theorem resize_getElem? (K : Nat) (blank : Gene V F) (pop : Pop (Gene V F)) (i : Nat) (c : Cell (Gene V F))
    (h : (resizePop K blank pop)[i]? = some c) :
    (i < pop.length → pop[i]? = some c) ∧ (pop.length ≤ i → c.2 = blank) := by
  have hi : i < K := by
    have := (List.getElem?_eq_some_iff.1 h).1
    rwa [resizePop_length] at this
  rcases emplace_getElem? _ _ _ _ _ h with h | ⟨h1, h2⟩
  · rw [List.getElem?_take] at h
    rw [if_pos hi] at h
    refine ⟨fun _ => h, fun hl => ?_⟩
    rw [List.getElem?_eq_none hl] at h; cases h
  · rw [List.length_take] at h1
    exact ⟨fun hl => by omega, fun _ => h2⟩

/-- What `initializePop` does to the population, with or without initialiser. -/
theorem core_init_iff (x : GACore κ A Ω V F) (w : Nat → Ω) (blank : Gene V F) (pop : Pop (Gene V F)) :
    ((∃ t, x.initializePop w blank pop = .ok t) ↔ x.iFun ≠ none ∨ x.K = 0) ∧
    (¬ (x.iFun ≠ none ∨ x.K = 0) → x.initializePop w blank pop = .ub) ∧
    ∀ t, x.initializePop w blank pop = .ok t → t.length = x.K ∧
      ∀ (i : Nat) c, t[i]? = some c → c.2.computed = false ∧
        ∃ f, x.iFun = some f ∧ (∀ old, pop[i]? = some old → c.1 = old.1 ∧ c.2.var = f x.arg (w i) old.2.var) ∧
          (pop.length ≤ i → c.2.var = f x.arg (w i) blank.var) := by
  have hz : resizePop x.K blank pop = [] ↔ x.K = 0 := by
    rw [← List.length_eq_zero_iff, resizePop_length]
  unfold GACore.initializePop
  dsimp only
  by_cases h0 : x.K = 0
  · rw [if_pos (hz.2 h0)]
    refine ⟨⟨fun _ => .inr h0, fun _ => ⟨_, rfl⟩⟩, fun h => absurd (.inr h0) h, ?_⟩
    intro t ht
    have := Out.ok.inj ht
    subst this
    exact ⟨by simp [h0], fun i c h => by simp at h⟩
  · rw [if_neg (fun h => h0 (hz.1 h))]
    cases hf : x.iFun with
    | none =>
      refine ⟨⟨fun ⟨t, ht⟩ => (by cases ht), fun h => ?_⟩, fun _ => rfl, fun t ht => (by cases ht)⟩
      rcases h with h | h
      · exact absurd rfl h
      · exact absurd h h0
    | some f =>
      refine ⟨⟨fun _ => .inl (by simp), fun _ => ⟨_, rfl⟩⟩, fun h => absurd (.inl (by simp)) h, ?_⟩
      intro t ht
      have ht' := Out.ok.inj ht
      subst ht'
      refine ⟨by simp [resizePop_length], fun i c h => ?_⟩
      rw [List.getElem?_map, List.getElem?_zipIdx] at h
      cases hr : (resizePop x.K blank pop)[i]? with
      | none => rw [hr] at h; cases h
      | some o =>
        rw [hr] at h
        have hc := Option.some.inj h
        obtain ⟨h1, h2⟩ := resize_getElem? _ _ _ _ _ hr
        refine ⟨by rw [← hc], f, rfl, fun old ho => ?_, fun hl => ?_⟩
        · have hi := (List.getElem?_eq_some_iff.1 ho).1
          have := h1 hi
          rw [ho] at this
          have := Option.some.inj this
          rw [← hc, this]
          exact ⟨rfl, by simp⟩
        · rw [← hc, ← h2 hl]; simp

end core

section core
variable {κ A Ω V F : Type} [CommRing κ] [LinearOrder κ]

/-- Crossover does not call the function if nobody's draw is small enough. -/
theorem crossover_unused (x : GACore κ A Ω V F) (f : Option (A → Ω → V → V → V × V)) (d : VaryDraw κ Ω V F)
    (hp : VaryDraw.Legal d) (h : ∀ a, x.cxProb < d.cxU a) (pop : Pop (Gene V F)) :
    ({ x with cFun := f } : GACore κ A Ω V F).crossover d pop = x.crossover d pop := by
  have : (d.cxShuffle (pop.filter fun c => decide (d.cxU c.1 ≤ x.cxProb))).length < 2 := by
    rw [(hp _).length_eq, List.filter_eq_nil_iff.2]
    · simp
    · intro c _; simpa using h c.1
  unfold GACore.crossover
  rw [if_pos this, if_pos this]

/-- Mutation does not call the function if nobody's draw is small enough. -/
theorem mutate_unused (cap : Nat) (x : GACore κ A Ω V F) (f : Option (A → Ω → V → V)) (d : VaryDraw κ Ω V F)
    (h : ∀ a, x.muProb < d.muU a) (pop : Pop (Gene V F)) :
    ({ x with mFun := f } : GACore κ A Ω V F).mutate cap d pop = x.mutate cap d pop := by
  have : (pop.all fun c => !decide (d.muU c.1 ≤ x.muProb)) = true := by
    rw [List.all_eq_true]; intro c _; simpa using h c.1
  unfold GACore.mutate
  rw [if_pos this, if_pos this]

/-- **C131**: which calls go through a null pointer.  Without a fitness function the evaluation is undefined exactly
if somebody is not evaluated yet; without a crossover function, crossover is undefined exactly if at least two
individuals have a draw of at most `crossoverProb`; without a mutation function, mutation is undefined exactly if
somebody has a draw of at most `mutateProb` (or the reservation fails, with or without function); otherwise nothing
changes. -/
theorem null_functions (cap : Nat) (x : GACore κ A Ω V F) (d : VaryDraw κ Ω V F) (hp : VaryDraw.Legal d)
    (pop : Pop (Gene V F)) :
    (x.fFun = none → x.evaluate pop = if ∀ c ∈ pop, c.2.computed = true then .ok pop else .ub) ∧
    (x.cFun = none → x.crossover d pop =
      if (pop.filter fun c => decide (d.cxU c.1 ≤ x.cxProb)).length ≤ 1 then .ok pop else .ub) ∧
    (x.mFun = none → -1 < (pop.length : κ) * x.muProb * 2 → (pop.length : κ) * x.muProb * 2 < (cap : κ) + 1 →
      x.mutate cap d pop = if ∀ c ∈ pop, x.muProb < d.muU c.1 then .ok pop else .ub) := by
  refine ⟨fun h => ?_, fun h => ?_, fun h h1 h2 => ?_⟩
  · unfold GACore.evaluate
    rw [h]
    by_cases hc : ∀ c ∈ pop, c.2.computed = true
    · rw [if_pos hc, if_pos (List.all_eq_true.2 hc)]
    · rw [if_neg hc, if_neg (fun h => hc (List.all_eq_true.1 h))]; rfl
  · unfold GACore.crossover
    rw [h, (hp _).length_eq]
    by_cases hc : (pop.filter fun c => decide (d.cxU c.1 ≤ x.cxProb)).length ≤ 1
    · rw [if_pos hc, if_pos (by omega)]
    · rw [if_neg hc, if_neg (by omega)]; rfl
  · unfold GACore.mutate
    rw [h, if_pos ⟨h1, h2⟩]
    by_cases hc : ∀ c ∈ pop, x.muProb < d.muU c.1
    · rw [if_pos hc, if_pos (List.all_eq_true.2 fun c hm => by simpa using hc c hm)]
    · rw [if_neg hc, if_neg]
      · rfl
      · intro h
        exact hc fun c hm => by simpa using List.all_eq_true.1 h c hm

end core

section soga
variable {κ A Ω V α : Type} [Field α] [LinearOrder α] [IsStrictOrderedRing α]
variable [CommRing κ] [LinearOrder κ]
variable (opt : FitnessOption) (cap : Nat) (junk : α)

/-- **C131**: `initializePop` of a `SOGA` returns exactly if an initialiser is set (or `populationSize` is 0), and
calls a null pointer otherwise.  It leaves `populationSize` individuals, none of them evaluated; the initialiser was
called once for each, with the arguments in force: individuals that were there before keep their place and the
initialiser is called on their old variables.  `result()` then is the first individual. -/
theorem sogaFull_init (rec : Bool) (x : SOGAFull κ A Ω V α) (w : Nat → Ω) (blank : Gene V α) :
    ((∃ y, sogaFullCall rec opt cap junk x (.initializePop w blank) = .ok y) ↔
      x.core.iFun ≠ none ∨ x.core.K = 0) ∧
    (¬ (x.core.iFun ≠ none ∨ x.core.K = 0) → sogaFullCall rec opt cap junk x (.initializePop w blank) = .ub) ∧
    ∀ y, sogaFullCall rec opt cap junk x (.initializePop w blank) = .ok y →
      y.st.pop.length = x.core.K ∧
      (∀ (i : Nat) c, y.st.pop[i]? = some c → c.2.computed = false ∧
        ∃ f, x.core.iFun = some f ∧
          (∀ old, x.st.pop[i]? = some old → c.2.var = f x.core.arg (w i) old.2.var) ∧
          (x.st.pop.length ≤ i → c.2.var = f x.core.arg (w i) blank.var)) ∧
      (∀ c, y.st.pop[0]? = some c → y.result = .ok c.2.var) := by
  obtain ⟨h1, h2, h3⟩ := core_init_iff x.core w blank x.st.pop
  refine ⟨⟨fun ⟨y, hy⟩ => ?_, fun h => ?_⟩, fun h => ?_, fun y hy => ?_⟩
  · simp only [sogaFullCall, Out.bind_eq_ok] at hy
    obtain ⟨pop, hp, -⟩ := hy
    exact h1.1 ⟨pop, hp⟩
  · obtain ⟨t, ht⟩ := h1.2 h
    exact ⟨_, by simp only [sogaFullCall, ht, Out.ok_bind]; rfl⟩
  · simp only [sogaFullCall, h2 h, Out.ub_bind]
  · simp only [sogaFullCall, Out.bind_eq_ok] at hy
    obtain ⟨pop, hp, hy⟩ := hy
    have hy' := Out.ok.inj hy
    subst hy'
    obtain ⟨g1, g2⟩ := h3 pop hp
    refine ⟨g1, fun i c hc => ?_, fun c hc => ?_⟩
    · obtain ⟨g3, f, g4, g5, g6⟩ := g2 i c hc
      exact ⟨g3, f, g4, fun old ho => (g5 old ho).2, g6⟩
    · cases pop with
      | nil => cases hc
      | cons c' l =>
        have : c' = c := Option.some.inj hc
        subst this
        simp [SOGAFull.result, deref]

/-- **C131**: a pointer that is not used does not matter.  If the run makes no generation, or nobody's draw is at
most `crossoverProb`, the run is the same with any crossover function and with none. -/
theorem sogaFull_unused_crossover (rec : Bool) (x : SOGAFull κ A Ω V α) (f : Option (A → Ω → V → V → V × V))
    (e : Nat → SelDraw (Gene V α) α) (d : Nat → VaryDraw κ Ω V α) (hp : ∀ g, VaryDraw.Legal (d g))
    (h : x.core.maxGen = 0 ∨ ∀ g a, x.core.cxProb < (d g).cxU a) :
    sogaFullCall rec opt cap junk { x with core := { x.core with cFun := f } } (.run e d) =
      sogaFullCall rec opt cap junk x (.run e d) >>= fun y =>
        .ok { y with core := { y.core with cFun := f } } := by
  have hloop : gaOpsLoop rec (SOGAFull.ops opt cap junk { x with core := { x.core with cFun := f } } e d)
      x.core.maxGen x.core.maxFail (x.core.maxGen + 1) 0 { x.st with fail := 0 } [] =
      gaOpsLoop rec (x.ops opt cap junk e d)
      x.core.maxGen x.core.maxFail (x.core.maxGen + 1) 0 { x.st with fail := 0 } [] := by
    rcases h with h | h
    · rw [h]; exact opsLoop_zero rfl rfl rfl rfl _ _ _
    · have : SOGAFull.ops opt cap junk { x with core := { x.core with cFun := f } } e d = x.ops opt cap junk e d := by
        refine opsLoop_congr (rec := rec) rfl rfl ?_ rfl rfl rfl
        funext g s
        simp only [SOGAFull.ops, crossover_unused x.core f (d g) (hp g) (h g)]
      rw [this]
  simp only [sogaFullCall]
  split
  · rw [hloop, bind_assoc]; simp only [Out.ok_bind]
  · rfl

/-- The same for the mutation function. -/
theorem sogaFull_unused_mutation (rec : Bool) (x : SOGAFull κ A Ω V α) (f : Option (A → Ω → V → V))
    (e : Nat → SelDraw (Gene V α) α) (d : Nat → VaryDraw κ Ω V α)
    (h : x.core.maxGen = 0 ∨ ∀ g a, x.core.muProb < (d g).muU a) :
    sogaFullCall rec opt cap junk { x with core := { x.core with mFun := f } } (.run e d) =
      sogaFullCall rec opt cap junk x (.run e d) >>= fun y =>
        .ok { y with core := { y.core with mFun := f } } := by
  have hloop : gaOpsLoop rec (SOGAFull.ops opt cap junk { x with core := { x.core with mFun := f } } e d)
      x.core.maxGen x.core.maxFail (x.core.maxGen + 1) 0 { x.st with fail := 0 } [] =
      gaOpsLoop rec (x.ops opt cap junk e d)
      x.core.maxGen x.core.maxFail (x.core.maxGen + 1) 0 { x.st with fail := 0 } [] := by
    rcases h with h | h
    · rw [h]; exact opsLoop_zero rfl rfl rfl rfl _ _ _
    · have : SOGAFull.ops opt cap junk { x with core := { x.core with mFun := f } } e d = x.ops opt cap junk e d := by
        refine opsLoop_congr (rec := rec) rfl rfl rfl ?_ rfl rfl
        funext g s
        simp only [SOGAFull.ops, mutate_unused cap x.core f (d g) (h g)]
      rw [this]
  simp only [sogaFullCall]
  split
  · rw [hloop, bind_assoc]; simp only [Out.ok_bind]
  · rfl

/-- The initialiser is not used by a run at all. -/
theorem sogaFull_unused_initializer (rec : Bool) (x : SOGAFull κ A Ω V α) (f : Option (A → Ω → V → V))
    (e : Nat → SelDraw (Gene V α) α) (d : Nat → VaryDraw κ Ω V α) :
    sogaFullCall rec opt cap junk { x with core := { x.core with iFun := f } } (.run e d) =
      sogaFullCall rec opt cap junk x (.run e d) >>= fun y =>
        .ok { y with core := { y.core with iFun := f } } := by
  have hloop : gaOpsLoop rec (SOGAFull.ops opt cap junk { x with core := { x.core with iFun := f } } e d)
      x.core.maxGen x.core.maxFail (x.core.maxGen + 1) 0 { x.st with fail := 0 } [] =
      gaOpsLoop rec (x.ops opt cap junk e d)
      x.core.maxGen x.core.maxFail (x.core.maxGen + 1) 0 { x.st with fail := 0 } [] := rfl
  simp only [sogaFullCall]
  split
  · rw [hloop, bind_assoc]; simp only [Out.ok_bind]
  · rfl

/-- **C131**: recording changes nothing but the record: a call that returns on a recording solver returns on one that
does not record, with the same members (the record is empty after a run). -/
theorem sogaFull_recording (x y : SOGAFull κ A Ω V α) (c : SOGAFullCall κ A Ω V α)
    (h : sogaFullCall true opt cap junk x c = .ok y) (r0 : List α) :
    ∃ r1, sogaFullCall false opt cap junk { x with core := { x.core with record := r0 } } c =
      .ok { y with core := { y.core with record := r1 } } ∧ ((∃ e d, c = .run e d) → r1 = []) := by
  cases c with
  | set c =>
    have := Out.ok.inj h
    subst this
    refine ⟨r0, ?_, (by rintro ⟨_, _, h⟩; cases h)⟩
    cases c <;> rfl
  | sel c =>
    simp only [sogaFullCall, Out.bind_eq_ok] at h ⊢
    obtain ⟨s, hs, hy⟩ := h
    have := Out.ok.inj hy
    subst this
    exact ⟨r0, ⟨s, hs, rfl⟩, (by rintro ⟨_, _, h⟩; cases h)⟩
  | initializePop w b =>
    simp only [sogaFullCall, Out.bind_eq_ok] at h ⊢
    obtain ⟨s, hs, hy⟩ := h
    have := Out.ok.inj hy
    subst this
    exact ⟨r0, ⟨s, hs, rfl⟩, (by rintro ⟨_, _, h⟩; cases h)⟩
  | run e d =>
    refine ⟨[], ?_, fun _ => rfl⟩
    simp only [sogaFullCall] at h ⊢
    split at h
    · simp only [Out.bind_eq_ok] at h
      obtain ⟨r, hr, hy⟩ := h
      have := Out.ok.inj hy
      subst this
      rw [if_pos (by simp [clearRecordOK])]
      have := opsLoop_record (record' := []) hr
      have hops : SOGAFull.ops opt cap junk { x with core := { x.core with record := r0 } } e d =
        x.ops opt cap junk e d := rfl
      rw [hops]
      simp only [this, Out.ok_bind]
    · cases h

/-- The same for a whole history. -/
theorem sogaFull_session_recording (x y : SOGAFull κ A Ω V α) (cs : List (SOGAFullCall κ A Ω V α))
    (h : sogaFullSession true opt cap junk x cs = .ok y) (r0 : List α) :
    ∃ r1, sogaFullSession false opt cap junk { x with core := { x.core with record := r0 } } cs =
      .ok { y with core := { y.core with record := r1 } } := by
  induction cs generalizing x r0 with
  | nil => have := Out.ok.inj h; subst this; exact ⟨r0, rfl⟩
  | cons c cs ih =>
    simp only [sogaFullSession, List.foldlM_cons, Out.bind_eq_ok] at h ⊢
    obtain ⟨z, hz, hy⟩ := h
    obtain ⟨r1, h1, -⟩ := sogaFull_recording opt cap junk x z c hz r0
    obtain ⟨r2, h2⟩ := ih z hy r1
    exact ⟨r2, _, h1, h2⟩

end soga

section mo
variable {κ A Ω V α : Type} {m : Nat} [Field α] [LinearOrder α] [IsStrictOrderedRing α]
variable [CommRing κ] [LinearOrder κ]
variable (opt : FitnessOption) (cap : Nat)

/-- **C131**, several objectives: an unused crossover function does not matter. -/
theorem moFull_unused_crossover (rec : Bool) (x : MOFull κ A Ω V m α) (f : Option (A → Ω → V → V → V × V))
    (sel : Nat → Nat → (Addr → Fin m → α) → List Addr → Out (SelectResult Addr))
    (d : Nat → VaryDraw κ Ω V (Fin m → α)) (hp : ∀ g, VaryDraw.Legal (d g))
    (h : x.core.maxGen = 0 ∨ ∀ g a, x.core.cxProb < (d g).cxU a) :
    moFullCall rec opt cap { x with core := { x.core with cFun := f } } (.run sel d) =
      moFullCall rec opt cap x (.run sel d) >>= fun y =>
        .ok { y with core := { y.core with cFun := f } } := by
  have hloop : gaOpsLoop rec (MOFull.ops opt cap { x with core := { x.core with cFun := f } } sel d)
      x.core.maxGen x.core.maxFail (x.core.maxGen + 1) 0 { x.st with fail := 0 } [] =
      gaOpsLoop rec (x.ops opt cap sel d)
      x.core.maxGen x.core.maxFail (x.core.maxGen + 1) 0 { x.st with fail := 0 } [] := by
    rcases h with h | h
    · rw [h]; exact opsLoop_zero rfl rfl rfl rfl _ _ _
    · have : MOFull.ops opt cap { x with core := { x.core with cFun := f } } sel d = x.ops opt cap sel d := by
        refine opsLoop_congr (rec := rec) rfl rfl ?_ rfl rfl rfl
        funext g s
        simp only [MOFull.ops, crossover_unused x.core f (d g) (hp g) (h g)]
      rw [this]
  simp only [moFullCall]
  split
  · rw [hloop, bind_assoc]; simp only [Out.ok_bind]
  · rfl

/-- **C131**, several objectives: an unused mutation function does not matter. -/
theorem moFull_unused_mutation (rec : Bool) (x : MOFull κ A Ω V m α) (f : Option (A → Ω → V → V))
    (sel : Nat → Nat → (Addr → Fin m → α) → List Addr → Out (SelectResult Addr))
    (d : Nat → VaryDraw κ Ω V (Fin m → α))
    (h : x.core.maxGen = 0 ∨ ∀ g a, x.core.muProb < (d g).muU a) :
    moFullCall rec opt cap { x with core := { x.core with mFun := f } } (.run sel d) =
      moFullCall rec opt cap x (.run sel d) >>= fun y =>
        .ok { y with core := { y.core with mFun := f } } := by
  have hloop : gaOpsLoop rec (MOFull.ops opt cap { x with core := { x.core with mFun := f } } sel d)
      x.core.maxGen x.core.maxFail (x.core.maxGen + 1) 0 { x.st with fail := 0 } [] =
      gaOpsLoop rec (x.ops opt cap sel d)
      x.core.maxGen x.core.maxFail (x.core.maxGen + 1) 0 { x.st with fail := 0 } [] := by
    rcases h with h | h
    · rw [h]; exact opsLoop_zero rfl rfl rfl rfl _ _ _
    · have : MOFull.ops opt cap { x with core := { x.core with mFun := f } } sel d = x.ops opt cap sel d := by
        refine opsLoop_congr (rec := rec) rfl rfl rfl ?_ rfl rfl
        funext g s
        simp only [MOFull.ops, mutate_unused cap x.core f (d g) (h g)]
      rw [this]
  simp only [moFullCall]
  split
  · rw [hloop, bind_assoc]; simp only [Out.ok_bind]
  · rfl

/-- **C131**, several objectives: recording changes nothing but the record. -/
theorem moFull_recording (x y : MOFull κ A Ω V m α) (c : MOFullCall κ A Ω V m α)
    (h : moFullCall true opt cap x c = .ok y) (r0 : List (Fin m → α)) :
    ∃ r1, moFullCall false opt cap { x with core := { x.core with record := r0 } } c =
      .ok { y with core := { y.core with record := r1 } } ∧ (MOFullCall.IsRun c → r1 = []) := by
  cases c with
  | set c =>
    have := Out.ok.inj h
    subst this
    refine ⟨r0, ?_, (by rintro ⟨_, _, h⟩; cases h)⟩
    cases c <;> rfl
  | initializePop w b =>
    simp only [moFullCall, Out.bind_eq_ok] at h ⊢
    obtain ⟨s, hs, hy⟩ := h
    have := Out.ok.inj hy
    subst this
    exact ⟨r0, ⟨s, hs, rfl⟩, (by rintro ⟨_, _, h⟩; cases h)⟩
  | run sel d =>
    refine ⟨[], ?_, fun _ => rfl⟩
    simp only [moFullCall] at h ⊢
    split at h
    · simp only [Out.bind_eq_ok] at h
      obtain ⟨r, hr, hy⟩ := h
      have := Out.ok.inj hy
      subst this
      rw [if_pos (by simp [clearRecordOK])]
      have := opsLoop_record (record' := []) hr
      have hops : MOFull.ops opt cap { x with core := { x.core with record := r0 } } sel d =
        x.ops opt cap sel d := rfl
      rw [hops]
      simp only [this, Out.ok_bind]
    · cases h

/-- All runs of the history are runs of NSGA-II with possible draws, and the population sizes are usable. -/
structure NSGA2FullLegal (eps : α) (cs : List (MOFullCall κ A Ω V m α)) : Prop where
  nsga2 : ∀ sel d, MOFullCall.run sel d ∈ cs → ∃ e : Nat → NSGA2Env m,
    sel = fun K g fit => nsga2Select opt K eps fit (e g).sortD (e g).sortF (e g).sortC
  draws : ∀ sel d, MOFullCall.run sel d ∈ cs → ∀ g, VaryDraw.Legal (d g)
  size : ∀ K G L p q, MOFullCall.set (.setOption K G L p q) ∈ cs → 1 ≤ K ∧ K < 2 ^ 32

/-- Histories of an NSGA-II object are legal in the sense of the theorems above. -/
theorem nsga2Full_legal {eps : α} {cs : List (MOFullCall κ A Ω V m α)} (h : NSGA2FullLegal opt eps cs) :
    MOFullLegal opt cs := by
  refine ⟨fun sel d hm K hK hK' g => ?_, h.draws, h.size⟩
  obtain ⟨e, rfl⟩ := h.nsga2 sel d hm
  exact ⟨good_nsga2 opt K eps (e g), short_nsga2 opt K eps (e g)⟩

/-- **C131** for NSGA-II (`moFull_defined`). -/
theorem nsga2Full_defined [IsStrictOrderedRing κ] (eps : α) (p q : κ) (arg : A) (fail gen : Nat)
    (cs : List (MOFullCall κ A Ω V m α))
    (hl : NSGA2FullLegal opt eps cs) (hp : MOFullPrepared true cap p q cs) :
    (MOFullRoom p q cs ↔ ∃ x, moFullSession true opt cap (.new p q arg fail gen) cs = .ok x) ∧
    (¬ MOFullRoom p q cs ↔ moFullSession true opt cap (.new p q arg fail gen) cs = .ub) ∧
    ∀ x, moFullSession true opt cap (.new p q arg fail gen) cs = .ok x →
      x.st.pop.length = moFullCount cs ∧
      (∀ order, (∀ S a, a ∈ order S ↔ a ∈ S) → ∃ front, paretoFront order x.st = .ok front) :=
  moFull_defined opt cap p q arg fail gen cs (nsga2Full_legal opt hl) hp

/-- **C131** for NSGA-II (`moFull_session_run`). -/
theorem nsga2Full_session_run [IsStrictOrderedRing κ] (eps : α) (p q : κ) (arg : A) (fail gen : Nat)
    (cs : List (MOFullCall κ A Ω V m α))
    (sel : Nat → Nat → (Addr → Fin m → α) → List Addr → Out (SelectResult Addr))
    (d : Nat → VaryDraw κ Ω V (Fin m → α)) (hl : NSGA2FullLegal opt eps (cs ++ [.run sel d]))
    (hk : MOFullFitnessKept cs) (x : MOFull κ A Ω V m α)
    (hx : moFullSession true opt cap (.new p q arg fail gen) (cs ++ [.run sel d]) = .ok x)
    (order : Finset Addr → List Addr) (hord : ∀ S, (order S).Nodup ∧ ∀ a, a ∈ order S ↔ a ∈ S) :
    ∃ f a, lastSet (fun c => (MOFullCall.set? c).bind GASetter.fFun?) cs none = some f ∧
      a = lastSet (fun c => (MOFullCall.set? c).bind GASetter.arg?) cs arg ∧
      x.core.generation = x.core.maxGen ∧ x.core.record.length = x.core.maxGen + 1 ∧
      x.st.pop.length = x.core.K ∧ (∀ c ∈ x.st.pop, c.2.fitness = f a c.2.var) ∧
      ∃ front, paretoFront order x.st = .ok front ∧
        IsFrontOf opt (f a) (x.st.pop.map fun c => c.2.var) front :=
  moFull_session_run opt cap p q arg fail gen cs sel d (nsga2Full_legal opt hl) hk x hx order hord

end mo

/-! ## Concrete histories -/

theorem out_ub_of {β : Type} (o : Out β) (h : (match o with | .ub => true | _ => false) = true) : o = .ub := by
  cases o <;> first | rfl | cases h

/-- The fitness is `(argument) * v²`; the initialiser adds its draw to the old variable. -/
def demoGASet : List (GASetter ℚ ℚ ℚ ℚ ℚ) :=
  [.setOption 3 2 0 (1 / 2) (1 / 2), .setiFun (some fun _ w old => old + w), .setfFun (some fun a v => a * v ^ 2),
    .setcFun (some fun _ w u v => (u - w, v - w)), .setmFun (some fun _ w v => v + w), .setArgs 2]
def demoSelDraw : SelDraw (Gene ℚ ℚ) ℚ := ⟨demoEnv _, fun _ n _ _ => n - 1⟩
/-- Draws for crossover `u`, for mutation `v`. -/
def demoVaryDraw (u v : ℚ) : VaryDraw ℚ ℚ ℚ ℚ := ⟨fun _ => u, id, fun _ => 1, fun _ => v, fun _ => 5, 999⟩
def demoSOGARun (u v : ℚ) : SOGAFullCall ℚ ℚ ℚ ℚ ℚ := .run (fun _ => demoSelDraw) (fun _ => demoVaryDraw u v)
def demoSOGAInit (b : ℚ) : SOGAFullCall ℚ ℚ ℚ ℚ ℚ := .initializePop (fun i => 4 + (i : ℚ)) ⟨b, 999, true⟩
def demoGAJunk : GAJunk ℚ ℚ := ⟨17, 18, 19, 20, 21⟩

theorem demoSelDraw_legal : SelDraw.Legal demoSelDraw where
  shuffle l := .refl _
  order l := .refl _
  idx t n k j h := ⟨by simp only [demoSelDraw]; omega, by simp only [demoSelDraw]; omega⟩
  u0 := by norm_num [demoSelDraw, demoEnv]
  u i := by norm_num [demoSelDraw, demoEnv]

/-- Set everything, initialise, run, initialise again (on the old variables), run again. -/
def demoSOGAHistory : List (SOGAFullCall ℚ ℚ ℚ ℚ ℚ) :=
  demoGASet.map .set ++ [.sel (.setSelectMethod .Truncation), demoSOGAInit 0, demoSOGARun (1 / 4) 1,
    .set (.setArgs 3), demoSOGAInit 0]

theorem demoSOGA_legal : SOGAFullLegal (demoSOGAHistory ++ [demoSOGARun (1 / 4) 1]) := by
  refine ⟨fun e d h g => ?_, fun n h => ?_⟩
  · simp only [demoSOGAHistory, demoGASet, demoSOGAInit, demoSOGARun, List.map_cons, List.map_nil, List.cons_append,
      List.nil_append, List.mem_cons, List.not_mem_nil, or_false, reduceCtorEq, false_or,
      SOGAFullCall.run.injEq] at h
    rcases h with h | h <;> rw [h.1] <;> exact demoSelDraw_legal
  · simp [demoSOGAHistory, demoGASet, demoSOGAInit, demoSOGARun] at h

/-- Non-vacuity of `sogaFull_settings`, `sogaFull_session`, `sogaFull_session_recording`: the run returns,
and the arguments given last count. -/
example : (sogaFullSession true .lessBetter 1000 (0 : ℚ) (.new (4 / 5) (1 / 20) demoGAJunk)
    (demoSOGAHistory ++ [demoSOGARun (1 / 4) 1])).satisfies
    (fun x => x.core.generation == 2 && x.core.record.length == 3 && x.st.pop.length == 3 && x.core.arg == 3
      && x.result == .ok 6 && x.bestFitness == .ok 108
      && x.core.record == [147, 108, 108]) = true := by
  simp only [demoSOGAHistory, demoGASet, demoSOGAInit, demoSOGARun, List.map_cons, List.map_nil, List.cons_append,
      List.nil_append, sogaFullSession, sogaFullCall, SOGAFull.ops, dispatched_table]
  decide +kernel

/-- Neither fitness function nor arguments change after the last `initializePop`. -/
example : SOGAFullFitnessKept demoSOGAHistory := by
  intro before c after h hc
  have hlen := congrArg List.length h
  simp only [demoSOGAHistory, demoGASet, List.map_cons, List.map_nil, List.length_cons, List.length_nil,
    List.length_append] at hlen
  have hg := congrArg (fun l => l[before.length]?) h
  simp only [List.getElem?_append_right (le_refl _), Nat.sub_self, List.getElem?_cons_zero] at hg
  have h4 : before.length < 10 := by
    by_contra hb
    have hb : before.length = 10 := by omega
    rw [hb] at hg
    simp [demoSOGAHistory, demoGASet, demoSOGAInit, demoSOGARun] at hg
  have hd := congrArg (fun l => l[10]?) h
  have : demoSOGAHistory[10]? = some (demoSOGAInit 0) := rfl
  simp only [this] at hd
  rw [List.getElem?_append_right (by omega), List.getElem?_cons, if_neg (by omega)] at hd
  exact ⟨_, List.mem_of_getElem? hd.symm, ⟨_, _, rfl⟩⟩

/-- Non-vacuity of `sogaFull_unused_crossover` and `sogaFull_unused_mutation`: with these draws nobody takes part,
and the run returns without the two functions. -/
example : (∀ (g : Nat) (a : Addr), (1 / 2 : ℚ) < ((fun _ : Nat => demoVaryDraw 1 1) g).cxU a ∧
      (1 / 2 : ℚ) < ((fun _ : Nat => demoVaryDraw 1 1) g).muU a) ∧
    (sogaFullSession true .lessBetter 1000 (0 : ℚ) (.new (4 / 5) (1 / 20) demoGAJunk)
      ((demoGASet.take 3).map .set ++ [demoSOGAInit 0, demoSOGARun 1 1])).satisfies
      (fun x => x.core.generation == 2 && x.result == .ok 4) = true := by
  refine ⟨fun g a => ⟨by norm_num [demoVaryDraw], by norm_num [demoVaryDraw]⟩, ?_⟩
  simp only [demoGASet, demoSOGAInit, demoSOGARun, List.map_cons, List.map_nil, List.cons_append,
      List.nil_append, sogaFullSession, sogaFullCall, SOGAFull.ops, dispatched_table, List.take]
  decide +kernel

/-- `sogaFull_init`, on an initialised population: the initialiser sees the old variables. -/
example : (sogaFullSession true .lessBetter 1000 (0 : ℚ) (.new (4 / 5) (1 / 20) demoGAJunk)
      ((demoGASet.take 3).map .set ++ [demoSOGAInit 0, .set (.setOption 4 2 0 (1 / 2) (1 / 2)), demoSOGAInit 9])).satisfies
      (fun x => x.st.pop.map (fun c => c.2.var) == [8, 10, 12, 16] && x.result == .ok 8) = true := by
  decide +kernel

/-- **C131** fails without an initialiser … -/
theorem soga_init_null :
    sogaFullSession true .lessBetter 1000 (0 : ℚ) (.new (4 / 5 : ℚ) (1 / 20) demoGAJunk) [demoSOGAInit 0] = .ub :=
  out_ub_of _ (by decide +kernel)

/-- … without fitness, crossover or mutation function if they are needed … -/
theorem soga_run_null :
    sogaFullSession true .lessBetter 1000 (0 : ℚ) (.new (4 / 5 : ℚ) (1 / 20) demoGAJunk)
      ((demoGASet.take 2).map .set ++ [demoSOGAInit 0, demoSOGARun 1 1]) = .ub ∧
    sogaFullSession true .lessBetter 1000 (0 : ℚ) (.new (4 / 5 : ℚ) (1 / 20) demoGAJunk)
      ((demoGASet.take 3).map .set ++ [demoSOGAInit 0, demoSOGARun (1 / 4) 1]) = .ub ∧
    sogaFullSession true .lessBetter 1000 (0 : ℚ) (.new (4 / 5 : ℚ) (1 / 20) demoGAJunk)
      ((demoGASet.take 3).map .set ++ [demoSOGAInit 0, demoSOGARun 1 (1 / 4)]) = .ub := by
  refine ⟨out_ub_of _ ?_, out_ub_of _ ?_, out_ub_of _ ?_⟩ <;>
  · simp only [demoGASet, demoSOGAInit, demoSOGARun, List.map_cons, List.map_nil, List.cons_append,
      List.nil_append, sogaFullSession, sogaFullCall, SOGAFull.ops, dispatched_table, List.take]
    decide +kernel

/-- … and with a mutation probability of -1, although every function is set. -/
theorem soga_negative_mutateProb :
    sogaFullSession true .lessBetter 1000 (0 : ℚ) (.new (4 / 5 : ℚ) (1 / 20) demoGAJunk)
      (demoGASet.map .set ++ [.set (.setOption 3 2 0 (1 / 2) (-1)), demoSOGAInit 0, demoSOGARun 1 1]) = .ub := by
  refine out_ub_of _ ?_
  simp only [demoGASet, demoSOGAInit, demoSOGARun, List.map_cons, List.map_nil, List.cons_append,
      List.nil_append, sogaFullSession, sogaFullCall, SOGAFull.ops, dispatched_table, List.take]
  decide +kernel

/-- The draws are at most the probability, not below it: with a crossover probability of 0 and a draw of 0 (which
`randD()` can return) the crossover function is called. -/
theorem soga_probability_zero_is_not_never :
    (sogaFullSession true .lessBetter 1000 (0 : ℚ) (.new (4 / 5 : ℚ) (1 / 20) demoGAJunk)
      (demoGASet.map .set ++ [.set (.setOption 3 1 0 0 0), .sel (.setSelectMethod .Truncation), demoSOGAInit 0,
        demoSOGARun 0 1])).satisfies (fun x => x.result == .ok 3) = true := by
  simp only [demoGASet, demoSOGAInit, demoSOGARun, List.map_cons, List.map_nil, List.cons_append,
      List.nil_append, sogaFullSession, sogaFullCall, SOGAFull.ops, dispatched_table, List.take]
  decide +kernel

/-! ### Several objectives -/

def demoMOSet : List (GASetter ℚ Unit (Fin 2 → ℚ) (Fin 2 → ℚ) (Fin 2 → ℚ)) :=
  [.setOption 3 1 0 (1 / 2) (1 / 2), .setiFun (some fun _ w _ => w), .setfFun (some fun _ v => v),
    .setcFun (some fun _ w u v => (w + u, w + v)), .setmFun (some fun _ w v => w + v)]
def demoMOVary (u v : ℚ) : VaryDraw ℚ (Fin 2 → ℚ) (Fin 2 → ℚ) (Fin 2 → ℚ) :=
  ⟨fun _ => u, id, fun _ => ![1, 0], fun _ => v, fun _ => ![0, 1], 0⟩
def demoMOFullRun (u v : ℚ) : MOFullCall ℚ Unit (Fin 2 → ℚ) (Fin 2 → ℚ) 2 ℚ :=
  .run (fun K _ fit => nsga2Select .lessBetter K (1 / 10000000000 : ℚ) fit insertionSorter
      (fun _ => insertionSorter) insertionSorter) (fun _ => demoMOVary u v)
def demoMOFullInit : MOFullCall ℚ Unit (Fin 2 → ℚ) (Fin 2 → ℚ) 2 ℚ :=
  .initializePop (fun i => [![1, 2], ![2, 1], ![3, 3]].getD i 0) ⟨0, ![99, 99], true⟩

def demoMOFullHistory : List (MOFullCall ℚ Unit (Fin 2 → ℚ) (Fin 2 → ℚ) 2 ℚ) :=
  demoMOSet.map .set ++ [demoMOFullInit, demoMOFullRun (1 / 4) 1, .set (.setOption 2 2 0 (1 / 2) (1 / 2))]

/-- Non-vacuity of `nsga2Full_session_run`: the run returns … -/
example : (moFullSession true .lessBetter 1000 (.new (4 / 5 : ℚ) (1 / 20) () 5 6)
    (demoMOFullHistory ++ [demoMOFullRun 1 (1 / 4)])).satisfies (fun x =>
    decide (x.core.generation = 2 ∧ x.core.record.length = 3 ∧ x.st.pop.length = 2 ∧ x.st.pf.card = 2)) = true := by
  decide +kernel

/-- … the history is legal and every call finds what it needs. -/
theorem demoMOFull_legal : NSGA2FullLegal .lessBetter (1 / 10000000000 : ℚ)
    (demoMOFullHistory ++ [demoMOFullRun 1 (1 / 4)]) := by
  refine ⟨fun sel d h => ?_, fun sel d h g => ?_, fun K G L p q h => ?_⟩
  · refine ⟨fun _ => ⟨insertionSorter, fun _ => insertionSorter, insertionSorter⟩, ?_⟩
    simp only [demoMOFullHistory, demoMOSet, demoMOFullInit, demoMOFullRun, List.map_cons, List.map_nil,
      List.cons_append, List.nil_append, List.mem_cons, List.not_mem_nil, or_false, reduceCtorEq,
      false_or, MOFullCall.run.injEq] at h
    rcases h with h | h <;> exact h.1
  · simp only [demoMOFullHistory, demoMOSet, demoMOFullInit, demoMOFullRun, List.map_cons, List.map_nil,
      List.cons_append, List.nil_append, List.mem_cons, List.not_mem_nil, or_false, reduceCtorEq,
      false_or, MOFullCall.run.injEq] at h
    rcases h with h | h <;> rw [h.2] <;> exact fun l => .refl _
  · simp only [demoMOFullHistory, demoMOSet, demoMOFullInit, demoMOFullRun, List.map_cons, List.map_nil,
      List.cons_append, List.nil_append, List.mem_cons, List.not_mem_nil, or_false, reduceCtorEq,
      false_or, MOFullCall.set.injEq, GASetter.setOption.injEq] at h
    rcases h with h | h <;> omega

/-- Non-vacuity of `nsga2Full_defined`: the requirements are met, the room as well. -/
theorem demoMOFull_prepared : MOFullPrepared true 1000 (4 / 5 : ℚ) (1 / 20)
    (demoMOFullHistory ++ [demoMOFullRun 1 (1 / 4)]) ∧
    MOFullRoom (4 / 5 : ℚ) (1 / 20) (demoMOFullHistory ++ [demoMOFullRun 1 (1 / 4)]) := by
  have s1 : ∀ (n : Nat), n ≤ 5 → MOFullPrepared true 1000 (4 / 5 : ℚ) (1 / 20)
      ((demoMOSet.map MOFullCall.set).take n : List (MOFullCall ℚ Unit (Fin 2 → ℚ) (Fin 2 → ℚ) 2 ℚ)) ∧
      MOFullRoom (4 / 5 : ℚ) (1 / 20)
        ((demoMOSet.map MOFullCall.set).take n : List (MOFullCall ℚ Unit (Fin 2 → ℚ) (Fin 2 → ℚ) 2 ℚ)) := by
    intro n hn
    refine ⟨fun before c after h => ?_, fun before s d after h => ?_⟩
    · have : c ∈ ((demoMOSet.map MOFullCall.set).take n : List (MOFullCall ℚ Unit (Fin 2 → ℚ) (Fin 2 → ℚ) 2 ℚ)) := by
        rw [h]; simp
      obtain ⟨g, -, rfl⟩ := List.mem_map.1 (List.mem_of_mem_take this)
      trivial
    · have : MOFullCall.run s d ∈ ((demoMOSet.map MOFullCall.set).take n : List (MOFullCall ℚ Unit (Fin 2 → ℚ) (Fin 2 → ℚ) 2 ℚ)) := by
        rw [h]; simp
      obtain ⟨g, -, hg⟩ := List.mem_map.1 (List.mem_of_mem_take this)
      cases hg
  have e : demoMOFullHistory ++ [demoMOFullRun 1 (1 / 4)] =
      (((demoMOSet.map MOFullCall.set).take 5 ++ [demoMOFullInit]) ++ [demoMOFullRun (1 / 4) 1] ++
        [.set (.setOption 2 2 0 (1 / 2) (1 / 2))]) ++ [demoMOFullRun 1 (1 / 4)] := rfl
  rw [e]
  have noRun : ∀ {c : MOFullCall ℚ Unit (Fin 2 → ℚ) (Fin 2 → ℚ) 2 ℚ} {P : Prop},
      (∀ s d, c ≠ .run s d) → MOFullCall.IsRun c → P := fun h ⟨s, d, hc⟩ => absurd hc (h s d)
  refine ⟨?_, ?_⟩
  · rw [moFullPrepared_snoc, moFullPrepared_snoc, moFullPrepared_snoc, moFullPrepared_snoc]
    refine ⟨⟨⟨⟨(s1 5 le_rfl).1, ?_⟩, ?_⟩, trivial⟩, ?_⟩
    · intro h; exact absurd (congrArg Option.isSome h) (by decide +kernel)
    · refine ⟨fun h => absurd (congrArg Option.isSome h) (by decide +kernel),
        fun h => absurd (congrArg Option.isSome h) (by decide +kernel),
        fun h => absurd (congrArg Option.isSome h) (by decide +kernel), ?_, ?_, fun _ => ?_⟩ <;> decide +kernel
    · refine ⟨fun h => absurd (congrArg Option.isSome h) (by decide +kernel),
        fun h => absurd (congrArg Option.isSome h) (by decide +kernel),
        fun h => absurd (congrArg Option.isSome h) (by decide +kernel), ?_, ?_, fun _ => ?_⟩ <;> decide +kernel
  · rw [moFullRoom_snoc, moFullRoom_snoc, moFullRoom_snoc, moFullRoom_snoc]
    refine ⟨⟨⟨⟨(s1 5 le_rfl).2, ?_⟩, fun _ => ?_⟩, ?_⟩, fun _ => ?_⟩
    · exact noRun (fun s d h => by cases h)
    · exact le_refl 3
    · exact noRun (fun s d h => by cases h)
    · show 2 ≤ 3; omega

/-- Neither fitness function nor arguments change after `initializePop`. -/
example : MOFullFitnessKept demoMOFullHistory := by
  intro before c after h hc
  have hlen := congrArg List.length h
  simp only [demoMOFullHistory, demoMOSet, List.map_cons, List.map_nil, List.length_cons, List.length_nil,
    List.length_append] at hlen
  have hg := congrArg (fun l => l[before.length]?) h
  simp only [List.getElem?_append_right (le_refl _), Nat.sub_self, List.getElem?_cons_zero] at hg
  have h4 : before.length < 5 := by
    by_contra hb
    have hb : before.length = 5 ∨ before.length = 6 ∨ before.length = 7 := by omega
    rcases hb with hb | hb | hb <;> rw [hb] at hg <;>
      simp [demoMOFullHistory, demoMOSet, demoMOFullInit, demoMOFullRun] at hg
    rw [← hg] at hc
    rcases hc with ⟨f, hf⟩ | ⟨f, hf⟩ <;> cases hf
  have hd := congrArg (fun l => l[5]?) h
  have : demoMOFullHistory[5]? = some demoMOFullInit := rfl
  simp only [this] at hd
  rw [List.getElem?_append_right (by omega), List.getElem?_cons, if_neg (by omega)] at hd
  exact ⟨_, List.mem_of_getElem? hd.symm, ⟨_, _, rfl⟩⟩

/-- The populations that make `moFull_run_needs_crossover`, `moFull_run_needs_mutation` and
`moFull_negative_mutateProb` undefined exist: initialised, but without the function. -/
example : ((moFullSession true .lessBetter 1000 (.new (4 / 5 : ℚ) (1 / 20) () 5 6)
    ((demoMOSet.take 3).map .set ++ [demoMOFullInit, .set (.setOption 3 1 0 1 1)])).satisfies (fun x =>
    decide (2 ≤ x.core.K ∧ 1 ≤ x.core.maxGen ∧ x.core.K ≤ x.st.pop.length ∧ 1 ≤ x.core.cxProb ∧
      1 ≤ x.core.muProb ∧ (x.st.pop.map (fun c => c.1)).Nodup) && x.core.fFun.isSome && x.core.cFun.isNone
      && x.core.mFun.isNone)) = true ∧ (∀ a, (demoMOVary (1 / 4) (1 / 4)).cxU a < 1) ∧
    2 * ((3 : Nat) : ℚ) * (-1 / 6) ≤ -1 := by
  refine ⟨?_, fun a => by norm_num [demoMOVary], by norm_num⟩
  decide +kernel

end Heu
