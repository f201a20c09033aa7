import Verif.Lemmas.GAFull

/-! # C131: histories of calls on a genetic solver object -/

set_option linter.unusedSectionVars false
set_option linter.unusedVariables false
set_option linter.unusedSimpArgs false

namespace Heu
open Spec

theorem forall₂_split {β γ : Type} {R : β → γ → Prop} {a' : List γ} {x' : γ} : ∀ {b' : List γ} {cs : List β},
    List.Forall₂ R cs (b' ++ x' :: a') →
    ∃ b x a, cs = b ++ x :: a ∧ R x x' ∧ List.Forall₂ R a a' := by
  intro b'
  induction b' with
  | nil =>
    intro cs h
    cases h with
    | cons h1 h2 => exact ⟨[], _, _, rfl, h1, h2⟩
  | cons y b' ih =>
    intro cs h
    cases h with
    | cons h1 h2 =>
      obtain ⟨b, x, a, rfl, h3, h4⟩ := ih h2
      exact ⟨_ :: b, x, a, rfl, h3, h4⟩

section settings
variable {κ A Ω V F C : Type}

theorem lastSet_snoc_bind {T U : Type} (set? : C → Option U) (get : U → Option T) (cs : List C) (c : C) (i : T) :
    lastSet (fun c => (set? c).bind get) (cs ++ [c]) i =
      ((set? c).bind get).getD (lastSet (fun c => (set? c).bind get) cs i) := lastSet_snoc _ _ _ _

theorem settings_new (set? : C → Option (GASetter κ A Ω V F)) (p q : κ) (a : A) (g : Nat) :
    GASettings set? p q a [] (GACore.new p q a g) := ⟨rfl, rfl, rfl, rfl, rfl, rfl⟩

theorem settings_set {set? : C → Option (GASetter κ A Ω V F)} {p q : κ} {a : A} {cs : List C}
    {x : GACore κ A Ω V F} (h : GASettings set? p q a cs x) {c : C} {s : GASetter κ A Ω V F}
    (hc : set? c = some s) : GASettings set? p q a (cs ++ [c]) (x.set s) := by
  obtain ⟨h1, h2, h3, h4, h5, h6⟩ := h
  constructor <;> rw [lastSet_snoc_bind, hc] <;>
    cases s <;>
    simp only [Option.bind_some, GASetter.option?, GASetter.iFun?, GASetter.fFun?, GASetter.cFun?, GASetter.mFun?,
      GASetter.arg?, Option.getD_some, Option.getD_none, GACore.set] <;> assumption

theorem settings_keepOther {set? : C → Option (GASetter κ A Ω V F)} {p q : κ} {a : A} {cs : List C}
    {x y : GACore κ A Ω V F} (h : GASettings set? p q a cs x) {c : C} (hc : set? c = none)
    (hy : y = { x with generation := y.generation, record := y.record }) :
    GASettings set? p q a (cs ++ [c]) y := by
  obtain ⟨h1, h2, h3, h4, h5, h6⟩ := h
  rw [hy]
  constructor <;> rw [lastSet_snoc_bind, hc] <;> assumption

end settings

/-! ### Single objective -/

section soga
variable {κ A Ω V α : Type} [Field α] [LinearOrder α] [IsStrictOrderedRing α] [CommRing κ] [LinearOrder κ]
variable (opt : FitnessOption) (cap : Nat) (junk : α)

theorem sogaFull_snoc (rec : Bool) (x : SOGAFull κ A Ω V α) (cs : List (SOGAFullCall κ A Ω V α))
    (c : SOGAFullCall κ A Ω V α) :
    sogaFullSession rec opt cap junk x (cs ++ [c]) =
      sogaFullSession rec opt cap junk x cs >>= fun y => sogaFullCall rec opt cap junk y c := by
  unfold sogaFullSession
  rw [List.foldlM_append]
  congr 1
  funext y
  simp only [List.foldlM_cons, List.foldlM_nil]
  exact bind_pure _

/-- **C131**, the settings.  After any history of calls that returned, the five options, the four functions and
the arguments are those given last (the defaults, null pointers and the indeterminate content of `_args` if none
were given), and the selection parameters are what the calls on them give; `initializePop` and `run` change none of
them. -/
theorem sogaFull_settings (rec : Bool) (p q : κ) (j : GAJunk A α) (cs : List (SOGAFullCall κ A Ω V α))
    (x : SOGAFull κ A Ω V α) (h : sogaFullSession rec opt cap junk (.new p q j) cs = .ok x) :
    GASettings SOGAFullCall.set? p q j.arg cs x.core ∧
    selSession (cs.filterMap SOGAFullCall.sel?) = .ok x.sel := by
  induction cs using List.reverseRecOn generalizing x with
  | nil => cases h; exact ⟨settings_new _ _ _ _ _, rfl⟩
  | append_singleton cs c ih =>
    rw [sogaFull_snoc, Out.bind_eq_ok] at h
    obtain ⟨y, hy, hc⟩ := h
    obtain ⟨h1, h2⟩ := ih y hy
    cases c with
    | set c =>
      cases hc
      exact ⟨settings_set h1 rfl, by
        rw [List.filterMap_append]; simpa [SOGAFullCall.sel?, List.filterMap] using h2⟩
    | sel c =>
      simp only [sogaFullCall, Out.bind_eq_ok] at hc
      obtain ⟨s, hs, hx⟩ := hc
      cases hx
      refine ⟨settings_keepOther h1 rfl rfl, ?_⟩
      have : (cs ++ [SOGAFullCall.sel c]).filterMap SOGAFullCall.sel? =
          cs.filterMap SOGAFullCall.sel? ++ [c] := by simp [SOGAFullCall.sel?]
      rw [this]
      unfold selSession at h2 ⊢
      rw [List.foldlM_append, h2, Out.ok_bind]
      simp [hs]
    | initializePop w b =>
      simp only [sogaFullCall, Out.bind_eq_ok] at hc
      obtain ⟨pop, hp, hx⟩ := hc
      cases hx
      exact ⟨settings_keepOther h1 rfl rfl, by
        rw [List.filterMap_append]; simpa [SOGAFullCall.sel?, List.filterMap] using h2⟩
    | run e d =>
      simp only [sogaFullCall] at hc
      split at hc
      · simp only [Out.bind_eq_ok] at hc
        obtain ⟨r, hr, hx⟩ := hc
        cases hx
        exact ⟨settings_keepOther h1 rfl rfl, by
        rw [List.filterMap_append]; simpa [SOGAFullCall.sel?, List.filterMap] using h2⟩
      · cases hc

/-- The object and the simpler one of `Model/Session.lean` agree. -/
structure SOGAMatch (x : SOGAFull κ A Ω V α) (y : SOGAObj V α) : Prop where
  K : y.K = x.core.K
  maxGen : y.maxGen = x.core.maxGen
  maxFail : y.maxFail = x.core.maxFail
  method : y.method = x.sel.method
  st : y.st = x.st
  generation : y.generation = x.core.generation
  record : y.record = x.core.record
  f : ∀ g, x.core.fFun = some g → y.f = g x.core.arg

/-- What a call of the simpler object has in common with the call it stands for. -/
structure SOGAMirror (c : SOGAFullCall κ A Ω V α) (c' : SOGACall V α) : Prop where
  init : SOGACall.IsInit c' ↔ SOGAFullCall.IsInit c
  fitness : ∀ f, c' = .setFitness f → ∃ s, c = .set s ∧ GASetter.ChangesFitness s
  run : ∀ e v fuel, c' = .run e v fuel → ∀ g, ValidEnv (e g)

theorem soga_ops_refine {x : SOGAFull κ A Ω V α} {y : SOGAObj V α} (h : SOGAMatch x y)
    (e : Nat → SelDraw (Gene V α) α) (d : Nat → VaryDraw κ Ω V α) :
    OpsRefine (x.ops opt cap junk e d)
      (sogaSolver opt y.f (dispatchedMethod y.method) y.K (fun g => (e g).with x.sel junk)
        (fun g => pureVary x.core (d g))) := by
  refine ⟨?_, ?_, ?_, ?_, fun _ => rfl, fun _ => rfl⟩
  · intro s t hs
    simp only [SOGAFull.ops, Out.bind_eq_ok] at hs
    obtain ⟨p, hp, ht⟩ := hs
    rw [← Out.ok.inj ht, core_evaluate (f := y.f) (h.f) hp]
    rfl
  · intro g s
    simp only [SOGAFull.ops, sogaSolver, h.method, h.K]
  · intro g s t hs
    simp only [SOGAFull.ops, Out.bind_eq_ok] at hs
    obtain ⟨p, hp, ht⟩ := hs
    rw [← Out.ok.inj ht, core_crossover hp]
    rfl
  · intro g s t hs
    simp only [SOGAFull.ops, Out.bind_eq_ok] at hs
    obtain ⟨p, hp, ht⟩ := hs
    rw [← Out.ok.inj ht, core_mutate hp]
    rfl

theorem selDraw_valid {γ : Type} {d : SelDraw γ α} (h : SelDraw.Legal d) (c : SelConfig α)
    (hc : 1 ≤ c.tournamentSize) : ValidEnv (d.with c junk) := by
  refine ⟨h.shuffle, h.order, ?_, fun n k j hn => h.idx _ n k j hn, h.u0, h.u⟩
  show 1 ≤ c.tournamentSize.toNat
  omega

/-- **C131**, refinement: a `run` that returns is exactly a run of the solver modelled in `Model/SOGA.lean`, with the
fitness function applied to the arguments in force, the crossover and mutation functions in force, and the
individuals whose draw does not exceed the probability in force taking part. -/
theorem sogaFull_run_refines {x x' : SOGAFull κ A Ω V α} {y : SOGAObj V α} (h : SOGAMatch x y)
    (e : Nat → SelDraw (Gene V α) α) (d : Nat → VaryDraw κ Ω V α)
    (hr : sogaFullCall true opt cap junk x (.run e d) = .ok x') :
    ∃ y', sogaCall opt y (.run (fun g => (e g).with x.sel junk) (fun g => pureVary x.core (d g))
      (x.core.maxGen + 1)) = .ok y' ∧ SOGAMatch x' y' := by
  simp only [sogaFullCall] at hr
  split at hr
  · simp only [Out.bind_eq_ok] at hr
    obtain ⟨r, hr, hx⟩ := hr
    cases hx
    have hloop := opsLoop_refines (soga_ops_refine opt cap junk h e d) hr
    refine ⟨{ y with st := r.state, generation := r.generation, record := r.record }, ?_, ?_⟩
    · simp only [sogaCall, Out.bind_eq_ok]
      refine ⟨r, ?_, rfl⟩
      unfold gaRun
      rw [← h.maxGen, ← h.maxFail] at hloop
      rw [← h.maxGen]
      have : (sogaSolver opt y.f (dispatchedMethod y.method) y.K (fun g => (e g).with x.sel junk)
          (fun g => pureVary x.core (d g))).resetFailTimes y.st = { x.st with fail := 0 } := by
        rw [h.st]; rfl
      rw [this]
      exact hloop
    · exact ⟨h.K, h.maxGen, h.maxFail, h.method, rfl, rfl, rfl, h.f⟩
  · cases hr

theorem soga_step {x x' : SOGAFull κ A Ω V α} {y : SOGAObj V α} (h : SOGAMatch x y)
    (hts : 1 ≤ x.sel.tournamentSize) (c : SOGAFullCall κ A Ω V α)
    (hl : ∀ e d, c = .run e d → ∀ g, SelDraw.Legal (e g))
    (hc : sogaFullCall true opt cap junk x c = .ok x') :
    ∃ c' y', sogaCall opt y c' = .ok y' ∧ SOGAMatch x' y' ∧ SOGAMirror c c' := by
  have skip : ∀ (c : SOGAFullCall κ A Ω V α), ¬ SOGAFullCall.IsInit c → SOGAMatch x' y →
      ∃ c' y', sogaCall opt y c' = .ok y' ∧ SOGAMatch x' y' ∧ SOGAMirror c c' := by
    intro c hn hm
    refine ⟨.setOption y.K y.maxGen y.maxFail, y, rfl, hm, ?_, ?_, ?_⟩
    · exact ⟨(by rintro ⟨_, _, h⟩; cases h), fun h => absurd h hn⟩
    · intro f hf; cases hf
    · intro e v fuel hf; cases hf
  cases c with
  | set c =>
    have hx := (Out.ok.inj hc).symm
    subst hx
    have hni : ¬ SOGAFullCall.IsInit (.set c : SOGAFullCall κ A Ω V α) := by rintro ⟨_, _, h⟩; cases h
    cases c with
    | setOption K G L p q =>
      refine ⟨.setOption K G L, _, rfl, ⟨rfl, rfl, rfl, h.method, h.st, h.generation, h.record, h.f⟩, ?_, ?_, ?_⟩
      · exact ⟨(by rintro ⟨_, _, h⟩; cases h), fun h => absurd h hni⟩
      · intro f hf; cases hf
      · intro e v fuel hf; cases hf
    | setiFun f => exact skip _ hni ⟨h.K, h.maxGen, h.maxFail, h.method, h.st, h.generation, h.record, h.f⟩
    | setcFun f => exact skip _ hni ⟨h.K, h.maxGen, h.maxFail, h.method, h.st, h.generation, h.record, h.f⟩
    | setmFun f => exact skip _ hni ⟨h.K, h.maxGen, h.maxFail, h.method, h.st, h.generation, h.record, h.f⟩
    | setfFun f =>
      refine ⟨.setFitness ((f.map fun g => g x.core.arg).getD y.f), _, rfl,
        ⟨h.K, h.maxGen, h.maxFail, h.method, h.st, h.generation, h.record, ?_⟩, ?_, ?_, ?_⟩
      · intro g hg
        have : f = some g := hg
        subst this; rfl
      · exact ⟨(by rintro ⟨_, _, h⟩; cases h), fun h => absurd h hni⟩
      · intro f hf; exact ⟨_, rfl, .inl ⟨_, rfl⟩⟩
      · intro e v fuel hf; cases hf
    | setArgs a =>
      refine ⟨.setFitness ((x.core.fFun.map fun g => g a).getD y.f), _, rfl,
        ⟨h.K, h.maxGen, h.maxFail, h.method, h.st, h.generation, h.record, ?_⟩, ?_, ?_, ?_⟩
      · intro g hg
        have : x.core.fFun = some g := hg
        simp [this, GACore.set]
      · exact ⟨(by rintro ⟨_, _, h⟩; cases h), fun h => absurd h hni⟩
      · intro f hf; exact ⟨_, rfl, .inr ⟨_, rfl⟩⟩
      · intro e v fuel hf; cases hf
  | sel c =>
    simp only [sogaFullCall, Out.bind_eq_ok] at hc
    obtain ⟨s, hs, hx⟩ := hc
    cases hx
    have hni : ¬ SOGAFullCall.IsInit (.sel c : SOGAFullCall κ A Ω V α) := by rintro ⟨_, _, h⟩; cases h
    have hch := selCall_changes _ _ _ hs
    cases c with
    | setSelectMethod m =>
      simp only [selCall, Out.bind_eq_ok] at hs
      obtain ⟨m', hm', hs⟩ := hs
      cases hs
      refine ⟨.setSelectMethod m, { y with method := m' }, ?_,
        ⟨h.K, h.maxGen, h.maxFail, rfl, h.st, h.generation, h.record, h.f⟩, ?_, ?_, ?_⟩
      · simp only [sogaCall, h.method, hm', Out.ok_bind]
      · exact ⟨(by rintro ⟨_, _, h⟩; cases h), fun h => absurd h hni⟩
      · intro f hf; cases hf
      · intro e v fuel hf; cases hf
    | _ =>
      refine skip _ hni ⟨h.K, h.maxGen, h.maxFail, ?_, h.st, h.generation, h.record, h.f⟩
      rw [hch.2.2.2.2.2]; exact h.method
  | initializePop w b =>
    simp only [sogaFullCall, Out.bind_eq_ok] at hc
    obtain ⟨pop, hp, hx⟩ := hc
    cases hx
    obtain ⟨init, hi, -⟩ := core_init b.var hp
    refine ⟨.initializePop init b, _, rfl, ⟨h.K, h.maxGen, h.maxFail, h.method, ?_, h.generation, h.record, h.f⟩,
      ?_, ?_, ?_⟩
    · subst hi
      show (SOState.mk _ _ _ : SOState (Gene V α)) = _
      rw [h.st, h.K]
      dsimp only
      cases reinitializePop x.core.K init b x.st.pop <;> rfl
    · exact ⟨fun _ => ⟨_, _, rfl⟩, fun _ => ⟨_, _, rfl⟩⟩
    · intro f hf; cases hf
    · intro e v fuel hf; cases hf
  | run e d =>
    obtain ⟨y', h1, h2⟩ := sogaFull_run_refines opt cap junk h e d hc
    refine ⟨_, y', h1, h2, ?_, ?_, ?_⟩
    · exact ⟨(by rintro ⟨_, _, h⟩; cases h), (by rintro ⟨_, _, h⟩; cases h)⟩
    · intro f hf; cases hf
    · intro e' v fuel hf
      cases hf
      intro g
      exact selDraw_valid junk (hl e d rfl g) _ hts

theorem soga_tournament_pos (rec : Bool) (p q : κ) (j : GAJunk A α) (cs : List (SOGAFullCall κ A Ω V α))
    (hl : SOGAFullLegal cs) (x : SOGAFull κ A Ω V α)
    (h : sogaFullSession rec opt cap junk (.new p q j) cs = .ok x) : 1 ≤ x.sel.tournamentSize := by
  have hs := (sogaFull_settings opt cap junk rec p q j cs x h).2
  have ha := (selection_settings_accepted _).1 ⟨_, hs⟩
  rw [(selection_settings _ _ hs).1]
  refine lastSet_all _ (fun n : Int => 1 ≤ n) _ _ (by norm_num) ?_
  intro c hc t ht
  obtain ⟨d, hd, hdc⟩ := List.mem_filterMap.1 hc
  have hd' : d = .sel c := by cases d <;> simp_all [SOGAFullCall.sel?]
  cases c with
  | setTournamentSize n =>
    have := ha _ hc
    simp only [AllowedSelCall] at this
    have ht' := Option.some.inj ht
    omega
  | writeTournamentSize n =>
    have ht' := Option.some.inj ht
    rw [← ht']
    exact hl.tournament n (hd' ▸ hd)
  | _ => cases ht

theorem sogaFull_simulates (f0 : V → α) (p q : κ) (j : GAJunk A α) (cs : List (SOGAFullCall κ A Ω V α))
    (hl : SOGAFullLegal cs) (x : SOGAFull κ A Ω V α)
    (h : sogaFullSession true opt cap junk (.new p q j) cs = .ok x) :
    ∃ cs' y, sogaSession opt (.new f0 (j.best, j.fail, j.generation)) cs' = .ok y ∧ SOGAMatch x y ∧
      List.Forall₂ SOGAMirror cs cs' := by
  induction cs using List.reverseRecOn generalizing x with
  | nil =>
    cases h
    exact ⟨[], _, rfl, ⟨rfl, rfl, rfl, rfl, rfl, rfl, rfl, fun g hg => by cases hg⟩, .nil⟩
  | append_singleton cs c ih =>
    rw [sogaFull_snoc, Out.bind_eq_ok] at h
    obtain ⟨x0, hx0, hc⟩ := h
    have hl' : SOGAFullLegal cs := ⟨fun e d hm => hl.draws e d (List.mem_append_left _ hm),
      fun n hm => hl.tournament n (List.mem_append_left _ hm)⟩
    obtain ⟨cs', y, hy, hm, h2⟩ := ih hl' x0 hx0
    have hts := soga_tournament_pos opt cap junk true p q j cs hl' x0 hx0
    obtain ⟨c', y', hy', hm', hmir⟩ := soga_step opt cap junk hm hts c
      (fun e d hcd => hl.draws e d (hcd ▸ by simp)) hc
    refine ⟨cs' ++ [c'], y', ?_, hm', List.rel_append h2 (.cons hmir .nil)⟩
    rw [sogaSession_snoc, hy, Out.ok_bind, hy']

theorem mirror_valid {cs : List (SOGAFullCall κ A Ω V α)} {cs' : List (SOGACall V α)}
    (h : List.Forall₂ SOGAMirror cs cs') : SOGAValid cs' := by
  intro e v fuel hm g
  obtain ⟨b', a', rfl⟩ := List.append_of_mem hm
  obtain ⟨-, x, -, -, hx, -⟩ := forall₂_split h
  exact hx.run _ _ _ rfl g

theorem mirror_init {cs : List (SOGAFullCall κ A Ω V α)} {cs' : List (SOGACall V α)}
    (h : List.Forall₂ SOGAMirror cs cs') : (∃ c ∈ cs', SOGACall.IsInit c) ↔ ∃ c ∈ cs, SOGAFullCall.IsInit c := by
  induction h with
  | nil => simp
  | cons h1 h2 ih => simp only [List.mem_cons, exists_eq_or_imp, h1.init, ih]

theorem mirror_kept {cs : List (SOGAFullCall κ A Ω V α)} {cs' : List (SOGACall V α)}
    (h : List.Forall₂ SOGAMirror cs cs') (hk : SOGAFullFitnessKept cs) : SOGAFitnessUnchanged cs' := by
  intro b' f a' hcs
  rw [hcs] at h
  obtain ⟨b, x, a, rfl, hx, ha⟩ := forall₂_split h
  obtain ⟨s, rfl, hs⟩ := hx.fitness f rfl
  exact (mirror_init ha).2 (hk b s a rfl hs)

theorem kept_snoc {cs : List (SOGAFullCall κ A Ω V α)} {c : SOGAFullCall κ A Ω V α}
    (hc : ¬ SOGAFullCall.IsInit c) (h : SOGAFullFitnessKept (cs ++ [c])) : SOGAFullFitnessKept cs := by
  intro b s a hcs hs
  obtain ⟨d, hd, hdi⟩ := h b s (a ++ [c]) (by rw [hcs]; simp) hs
  rcases List.mem_append.1 hd with h | h
  · exact ⟨d, h, hdi⟩
  · rw [List.mem_singleton.1 h] at hdi; exact absurd hdi hc

/-- A run that returns started with a population, and with a fitness function if nobody was evaluated. -/
theorem soga_run_start (p q : κ) (j : GAJunk A α) (cs : List (SOGAFullCall κ A Ω V α))
    (e : Nat → SelDraw (Gene V α) α) (d : Nat → VaryDraw κ Ω V α) (hl : SOGAFullLegal (cs ++ [.run e d]))
    (x0 x : SOGAFull κ A Ω V α) (hx0 : sogaFullSession true opt cap junk (.new p q j) cs = .ok x0)
    (hc : sogaFullCall true opt cap junk x0 (.run e d) = .ok x) :
    x0.st.pop ≠ [] ∧ ((∀ c ∈ x0.st.pop, c.2.computed = false) → x0.core.fFun ≠ none) := by
  have hl' : SOGAFullLegal cs := ⟨fun e d hm => hl.draws e d (List.mem_append_left _ hm),
    fun n hm => hl.tournament n (List.mem_append_left _ hm)⟩
  have hts := soga_tournament_pos opt cap junk true p q j cs hl' x0 hx0
  obtain ⟨cs', y0, hy0, hm0, hF⟩ := sogaFull_simulates opt cap junk (fun _ => 0) p q j cs hl' x0 hx0
  obtain ⟨y, hy1, hm⟩ := sogaFull_run_refines opt cap junk hm0 e d hc
  have he' : ∀ g, ValidEnv ((e g).with x0.sel junk) := fun g =>
    selDraw_valid junk (hl.draws e d (by simp) g) _ hts
  have hreach := soga_reachable opt _ _ cs' (mirror_valid hF) y0 hy0
  simp only [sogaCall, Out.bind_eq_ok] at hy1
  obtain ⟨r, hr, -⟩ := hy1
  have hne : x0.st.pop ≠ [] := by
    rw [← hm0.st]
    exact run_needs_population opt y0.f _ y0.K _ _ he' hreach.distinct hr
  refine ⟨hne, fun hu hf => ?_⟩
  simp only [sogaFullCall] at hc
  split at hc
  · have : gaOpsLoop true (x0.ops opt cap junk e d) x0.core.maxGen x0.core.maxFail (x0.core.maxGen + 1) 0
        { x0.st with fail := 0 } [] = .ub := by
      unfold gaOpsLoop
      have : (x0.ops opt cap junk e d).evaluate { x0.st with fail := 0 } = .ub := by
        simp only [SOGAFull.ops, GACore.evaluate]
        rw [if_neg, hf]
        · rfl
        · obtain ⟨c, l, hcl⟩ := List.exists_cons_of_ne_nil hne
          have := hu c (by rw [hcl]; simp)
          rw [hcl]
          simp [this]
      rw [this]; rfl
    rw [this] at hc
    cases hc
  · cases hc

theorem soga_uncomputed (p q : κ) (j : GAJunk A α) (cs : List (SOGAFullCall κ A Ω V α))
    (hl : SOGAFullLegal cs) (hk : SOGAFullFitnessKept cs) (x : SOGAFull κ A Ω V α)
    (h : sogaFullSession true opt cap junk (.new p q j) cs = .ok x) (hf : x.core.fFun = none) :
    ∀ c ∈ x.st.pop, c.2.computed = false := by
  induction cs using List.reverseRecOn generalizing x with
  | nil => cases h; intro c hc; cases hc
  | append_singleton cs c ih =>
    rw [sogaFull_snoc, Out.bind_eq_ok] at h
    obtain ⟨x0, hx0, hc⟩ := h
    have hl' : SOGAFullLegal cs := ⟨fun e d hm => hl.draws e d (List.mem_append_left _ hm),
      fun n hm => hl.tournament n (List.mem_append_left _ hm)⟩
    cases c with
    | set c =>
      have hx := (Out.ok.inj hc).symm
      subst hx
      have hk' := kept_snoc (by rintro ⟨_, _, h⟩; cases h) hk
      have hnc : ¬ GASetter.ChangesFitness c := by
        intro hcf
        obtain ⟨d, hd, -⟩ := hk cs c [] rfl hcf
        cases hd
      have : x0.core.fFun = none := by
        rw [← hf]
        cases c with
        | setfFun f => exact absurd (.inl ⟨_, rfl⟩) hnc
        | _ => rfl
      exact ih hl' hk' x0 hx0 this
    | sel c =>
      simp only [sogaFullCall, Out.bind_eq_ok] at hc
      obtain ⟨s, hs, hx⟩ := hc
      cases hx
      exact ih hl' (kept_snoc (by rintro ⟨_, _, h⟩; cases h) hk) x0 hx0 hf
    | initializePop w b =>
      simp only [sogaFullCall, Out.bind_eq_ok] at hc
      obtain ⟨pop, hp, hx⟩ := hc
      cases hx
      obtain ⟨init, hi, -⟩ := core_init b.var hp
      intro c hc
      have hc' : c ∈ pop := hc
      rw [hi] at hc'
      obtain ⟨s, -, rfl⟩ := List.mem_map.1 hc'
      rfl
    | run e d =>
      have hk' := kept_snoc (by rintro ⟨_, _, h⟩; cases h) hk
      have hst := soga_run_start opt cap junk p q j cs e d hl x0 x hx0 hc
      have hf0 : x0.core.fFun = none := by
        rw [← hf]
        simp only [sogaFullCall] at hc
        split at hc
        · simp only [Out.bind_eq_ok] at hc
          obtain ⟨r, -, hx⟩ := hc
          cases hx; rfl
        · cases hc
      exact absurd hf0 (hst.2 (ih hl' hk' x0 hx0 hf0))

theorem soga_run_has_function (p q : κ) (j : GAJunk A α) (cs : List (SOGAFullCall κ A Ω V α))
    (e : Nat → SelDraw (Gene V α) α) (d : Nat → VaryDraw κ Ω V α) (hl : SOGAFullLegal (cs ++ [.run e d]))
    (hk : SOGAFullFitnessKept cs)
    (x0 x : SOGAFull κ A Ω V α) (hx0 : sogaFullSession true opt cap junk (.new p q j) cs = .ok x0)
    (hc : sogaFullCall true opt cap junk x0 (.run e d) = .ok x) : x0.core.fFun ≠ none := fun hf =>
  (soga_run_start opt cap junk p q j cs e d hl x0 x hx0 hc).2
    (soga_uncomputed opt cap junk p q j cs
      ⟨fun e d hm => hl.draws e d (List.mem_append_left _ hm),
        fun n hm => hl.tournament n (List.mem_append_left _ hm)⟩ hk x0 hx0 hf) hf

/-- **C131**, single objective.  Let any sequence of setter calls (options, the four functions, arguments, selection
parameters), `initializePop` and `run` calls on a new `SOGA` end with a `run` that returns.  Then the population had
been initialised; `generation()` and `record()` describe this run only; `result()` is a live individual; and if
neither fitness function nor arguments were changed since the last `initializePop`, then everybody carries the value
of the fitness function given last at the arguments given last, `bestFitness()` and the last record entry are that
of `result()`, and nobody in the population is better. -/
theorem sogaFull_session (p q : κ) (j : GAJunk A α) (cs : List (SOGAFullCall κ A Ω V α))
    (e : Nat → SelDraw (Gene V α) α) (d : Nat → VaryDraw κ Ω V α)
    (hl : SOGAFullLegal (cs ++ [.run e d])) (x : SOGAFull κ A Ω V α)
    (h : sogaFullSession true opt cap junk (.new p q j) (cs ++ [.run e d]) = .ok x) :
    (∃ c ∈ cs, SOGAFullCall.IsInit c) ∧
    x.core.record.length = x.core.generation + 1 ∧ x.core.generation ≤ x.core.maxGen ∧
    (x.core.generation < x.core.maxGen → 0 < x.core.maxFail ∧ x.core.maxFail < x.st.fail) ∧
    ∃ res, x.result = .ok res ∧
      (SOGAFullFitnessKept cs →
        ∃ f a, lastSet (fun c => (SOGAFullCall.set? c).bind GASetter.fFun?) cs none = some f ∧
          a = lastSet (fun c => (SOGAFullCall.set? c).bind GASetter.arg?) cs j.arg ∧
          (∀ c ∈ x.st.pop, c.2.fitness = f a c.2.var) ∧
          x.bestFitness = .ok (f a res) ∧ x.core.record.getLast? = some (f a res) ∧
          ∀ c ∈ x.st.pop, ¬ Better opt (f a c.2.var) (f a res)) := by
  have hset := sogaFull_settings opt cap junk true p q j _ x h
  have h' := h
  rw [sogaFull_snoc, Out.bind_eq_ok] at h'
  obtain ⟨x0, hx0, hc⟩ := h'
  have hl' : SOGAFullLegal cs := ⟨fun e d hm => hl.draws e d (List.mem_append_left _ hm),
    fun n hm => hl.tournament n (List.mem_append_left _ hm)⟩
  have hset0 := sogaFull_settings opt cap junk true p q j _ x0 hx0
  have hts := soga_tournament_pos opt cap junk true p q j cs hl' x0 hx0
  obtain ⟨cs', y0, hy0, hm0, hF⟩ := sogaFull_simulates opt cap junk (fun _ => 0) p q j cs hl' x0 hx0
  obtain ⟨y, hy1, hm⟩ := sogaFull_run_refines opt cap junk hm0 e d hc
  have he' : ∀ g, ValidEnv ((e g).with x0.sel junk) := fun g =>
    selDraw_valid junk (hl.draws e d (by simp) g) _ hts
  have hy := sogaSession_snoc (opt := opt) (.new (fun _ => 0) (j.best, j.fail, j.generation)) cs'
    (.run (fun g => (e g).with x0.sel junk) (fun g => pureVary x0.core (d g)) (x0.core.maxGen + 1))
  rw [hy0, Out.ok_bind, hy1] at hy
  obtain ⟨h1, h2, h3, h4, res, hres, h5⟩ :=
    soga_session opt (fun _ => 0) _ cs' (mirror_valid hF) _ he' _ _ y hy
  refine ⟨(mirror_init hF).1 h1, ?_, ?_, ?_, res, ?_, ?_⟩
  · rw [← hm.record, ← hm.generation]; exact h2
  · rw [← hm.generation, ← hm.maxGen]; exact h3
  · rw [← hm.generation, ← hm.maxGen, ← hm.maxFail, ← hm.st]; exact h4
  · rw [← hres]; unfold SOGAFull.result SOGAObj.result; rw [hm.st]
  · intro hk
    have hne := soga_run_has_function opt cap junk p q j cs e d hl hk x0 x hx0 hc
    obtain ⟨f, hf⟩ := Option.ne_none_iff_exists'.1 hne
    have hfx : x.core.fFun = some f := by
      have h6 := hset.1.fFun
      rw [lastSet_snoc_bind] at h6
      rw [h6, ← hf]; exact hset0.1.fFun.symm
    have hax : x.core.arg = x0.core.arg := by
      have h6 := hset.1.arg
      rw [lastSet_snoc_bind] at h6
      rw [h6]; exact hset0.1.arg.symm
    have hyf : y.f = f x0.core.arg := by rw [hm.f f hfx, hax]
    obtain ⟨g1, g2, g3, g4⟩ := h5 (mirror_kept hF hk)
    rw [hyf] at g1 g2 g3 g4
    refine ⟨f, x0.core.arg, ?_, hset0.1.arg, ?_, ?_, ?_, ?_⟩
    · rw [← hf]; exact hset0.1.fFun.symm
    · rw [← hm.st]; exact g1
    · rw [← g2]; unfold SOGAFull.bestFitness SOGAObj.bestFitness; rw [hm.st]
    · rw [← hm.record]; exact g3
    · rw [← hm.st]; exact g4

end soga

/-! ### Several objectives -/

section mo
variable {κ A Ω V α : Type} {m : Nat} [Field α] [LinearOrder α] [IsStrictOrderedRing α]
variable [CommRing κ] [LinearOrder κ]
variable (opt : FitnessOption) (cap : Nat)

theorem moFull_snoc (rec : Bool) (x : MOFull κ A Ω V m α) (cs : List (MOFullCall κ A Ω V m α))
    (c : MOFullCall κ A Ω V m α) :
    moFullSession rec opt cap x (cs ++ [c]) =
      moFullSession rec opt cap x cs >>= fun y => moFullCall rec opt cap y c := by
  unfold moFullSession
  rw [List.foldlM_append]
  congr 1
  funext y
  simp only [List.foldlM_cons, List.foldlM_nil]
  exact bind_pure _

/-- **C131**, the settings, several objectives (see `sogaFull_settings`). -/
theorem moFull_settings (rec : Bool) (p q : κ) (arg : A) (fail gen : Nat) (cs : List (MOFullCall κ A Ω V m α))
    (x : MOFull κ A Ω V m α) (h : moFullSession rec opt cap (.new p q arg fail gen) cs = .ok x) :
    GASettings MOFullCall.set? p q arg cs x.core := by
  induction cs using List.reverseRecOn generalizing x with
  | nil => cases h; exact settings_new _ _ _ _ _
  | append_singleton cs c ih =>
    rw [moFull_snoc, Out.bind_eq_ok] at h
    obtain ⟨y, hy, hc⟩ := h
    have h1 := ih y hy
    cases c with
    | set c => cases hc; exact settings_set h1 rfl
    | initializePop w b =>
      simp only [moFullCall, Out.bind_eq_ok] at hc
      obtain ⟨pop, hp, hx⟩ := hc
      cases hx
      exact settings_keepOther h1 rfl rfl
    | run e d =>
      simp only [moFullCall] at hc
      split at hc
      · simp only [Out.bind_eq_ok] at hc
        obtain ⟨r, hr, hx⟩ := hc
        cases hx
        exact settings_keepOther h1 rfl rfl
      · cases hc

/-- The object and the simpler one of `Model/Session.lean` agree. -/
structure MOMatch (x : MOFull κ A Ω V m α) (y : MOObj V m α) : Prop where
  K : y.K = x.core.K
  maxGen : y.maxGen = x.core.maxGen
  maxFail : y.maxFail = x.core.maxFail
  st : y.st = x.st
  generation : y.generation = x.core.generation
  record : y.record = x.core.record
  f : ∀ g, x.core.fFun = some g → y.f = g x.core.arg

/-- All runs use a selection that meets the specification and needs `populationSize` candidates, `populationSize` is
positive and fits 32 bits, and the shuffles permute. -/
structure MOFullLegal (cs : List (MOFullCall κ A Ω V m α)) : Prop where
  select : ∀ sel d, MOFullCall.run sel d ∈ cs → ∀ K, 1 ≤ K → K < 2 ^ 32 →
    ∀ g, GoodSelection opt K (sel K g) ∧ ShortIsUB K (sel K g)
  draws : ∀ sel d, MOFullCall.run sel d ∈ cs → ∀ g, VaryDraw.Legal (d g)
  size : ∀ K G L p q, MOFullCall.set (.setOption K G L p q) ∈ cs → 1 ≤ K ∧ K < 2 ^ 32

theorem MOFullLegal.left {cs ds : List (MOFullCall κ A Ω V m α)} (h : MOFullLegal opt (cs ++ ds)) :
    MOFullLegal opt cs :=
  ⟨fun s d hm => h.select s d (List.mem_append_left _ hm), fun s d hm => h.draws s d (List.mem_append_left _ hm),
    fun K G L p q hm => h.size K G L p q (List.mem_append_left _ hm)⟩

/-- What a call of the simpler object has in common with the call it stands for. -/
structure MOMirror (c : MOFullCall κ A Ω V m α) (c' : MOCall V m α) : Prop where
  init : MOCall.IsInit c' ↔ MOFullCall.IsInit c
  fitness : ∀ f, c' = .setFitness f → ∃ s, c = .set s ∧ GASetter.ChangesFitness s
  run : ∀ sel v, c' = .run sel v → ∃ d, c = .run sel d
  size : ∀ K G F, c' = .setOption K G F → 1 ≤ K ∧ K < 2 ^ 32

theorem mo_ops_refine {x : MOFull κ A Ω V m α} {f : V → Fin m → α}
    (hf : ∀ g, x.core.fFun = some g → f = g x.core.arg)
    (sel : Nat → Nat → (Addr → Fin m → α) → List Addr → Out (SelectResult Addr))
    (d : Nat → VaryDraw κ Ω V (Fin m → α)) :
    OpsRefine (x.ops opt cap sel d)
      (moSolver opt f (sel x.core.K) (fun g => pureVary x.core (d g))) := by
  refine ⟨?_, ?_, ?_, ?_, fun _ => rfl, fun _ => rfl⟩
  · intro s t hs
    simp only [MOFull.ops, Out.bind_eq_ok] at hs
    obtain ⟨p, hp, ht⟩ := hs
    rw [← Out.ok.inj ht, core_evaluate (f := f) hf hp]
    rfl
  · intro g s; rfl
  · intro g s t hs
    simp only [MOFull.ops, Out.bind_eq_ok] at hs
    obtain ⟨p, hp, ht⟩ := hs
    rw [← Out.ok.inj ht, core_crossover hp]
    rfl
  · intro g s t hs
    simp only [MOFull.ops, Out.bind_eq_ok] at hs
    obtain ⟨p, hp, ht⟩ := hs
    rw [← Out.ok.inj ht, core_mutate hp]
    rfl

/-- **C131**, refinement, several objectives (see `sogaFull_run_refines`). -/
theorem moFull_run_refines {x x' : MOFull κ A Ω V m α} {y : MOObj V m α} (h : MOMatch x y)
    (sel : Nat → Nat → (Addr → Fin m → α) → List Addr → Out (SelectResult Addr))
    (d : Nat → VaryDraw κ Ω V (Fin m → α))
    (hr : moFullCall true opt cap x (.run sel d) = .ok x') :
    ∃ y', moCall opt y (.run sel (fun g => pureVary x.core (d g))) = .ok y' ∧ MOMatch x' y' := by
  simp only [moFullCall] at hr
  split at hr
  · simp only [Out.bind_eq_ok] at hr
    obtain ⟨r, hr, hx⟩ := hr
    cases hx
    have hloop := opsLoop_refines (mo_ops_refine opt cap h.f sel d) hr
    refine ⟨{ y with st := r.state, generation := r.generation, record := r.record }, ?_, ?_⟩
    · simp only [moCall, Out.bind_eq_ok]
      refine ⟨r, ?_, rfl⟩
      unfold gaRun
      rw [← h.maxGen, ← h.maxFail, ← h.K] at hloop
      have : (moSolver opt y.f (sel y.K) (fun g => pureVary x.core (d g))).resetFailTimes y.st =
          { x.st with fail := 0 } := by
        rw [h.st]; rfl
      rw [this]
      exact hloop
    · exact ⟨h.K, h.maxGen, h.maxFail, rfl, rfl, rfl, h.f⟩
  · cases hr

theorem mo_step {x x' : MOFull κ A Ω V m α} {y : MOObj V m α} (h : MOMatch x y)
    (hK : 1 ≤ x.core.K ∧ x.core.K < 2 ^ 32) (c : MOFullCall κ A Ω V m α)
    (hz : ∀ K G L p q, c = .set (.setOption K G L p q) → 1 ≤ K ∧ K < 2 ^ 32)
    (hc : moFullCall true opt cap x c = .ok x') :
    ∃ c' y', moCall opt y c' = .ok y' ∧ MOMatch x' y' ∧ MOMirror c c' := by
  have skip : ∀ (c : MOFullCall κ A Ω V m α), ¬ MOFullCall.IsInit c → MOMatch x' y →
      ∃ c' y', moCall opt y c' = .ok y' ∧ MOMatch x' y' ∧ MOMirror c c' := by
    intro c hn hm
    refine ⟨.setOption y.K y.maxGen y.maxFail, y, rfl, hm, ?_, ?_, ?_, ?_⟩
    · exact ⟨(by rintro ⟨_, _, h⟩; cases h), fun h => absurd h hn⟩
    · intro f hf; cases hf
    · intro s v hf; cases hf
    · intro K G F hf; cases hf; rw [h.K]; exact hK
  cases c with
  | set c =>
    have hx := (Out.ok.inj hc).symm
    subst hx
    have hni : ¬ MOFullCall.IsInit (.set c : MOFullCall κ A Ω V m α) := by rintro ⟨_, _, h⟩; cases h
    cases c with
    | setOption K G L p q =>
      refine ⟨.setOption K G L, _, rfl, ⟨rfl, rfl, rfl, h.st, h.generation, h.record, h.f⟩, ?_, ?_, ?_, ?_⟩
      · exact ⟨(by rintro ⟨_, _, h⟩; cases h), fun h => absurd h hni⟩
      · intro f hf; cases hf
      · intro s v hf; cases hf
      · intro K G F hf; cases hf; exact hz _ _ _ _ _ rfl
    | setiFun f => exact skip _ hni ⟨h.K, h.maxGen, h.maxFail, h.st, h.generation, h.record, h.f⟩
    | setcFun f => exact skip _ hni ⟨h.K, h.maxGen, h.maxFail, h.st, h.generation, h.record, h.f⟩
    | setmFun f => exact skip _ hni ⟨h.K, h.maxGen, h.maxFail, h.st, h.generation, h.record, h.f⟩
    | setfFun f =>
      refine ⟨.setFitness ((f.map fun g => g x.core.arg).getD y.f), _, rfl,
        ⟨h.K, h.maxGen, h.maxFail, h.st, h.generation, h.record, ?_⟩, ?_, ?_, ?_, ?_⟩
      · intro g hg
        have : f = some g := hg
        subst this; rfl
      · exact ⟨(by rintro ⟨_, _, h⟩; cases h), fun h => absurd h hni⟩
      · intro f hf; exact ⟨_, rfl, .inl ⟨_, rfl⟩⟩
      · intro s v hf; cases hf
      · intro K G F hf; cases hf
    | setArgs a =>
      refine ⟨.setFitness ((x.core.fFun.map fun g => g a).getD y.f), _, rfl,
        ⟨h.K, h.maxGen, h.maxFail, h.st, h.generation, h.record, ?_⟩, ?_, ?_, ?_, ?_⟩
      · intro g hg
        have : x.core.fFun = some g := hg
        simp [this, GACore.set]
      · exact ⟨(by rintro ⟨_, _, h⟩; cases h), fun h => absurd h hni⟩
      · intro f hf; exact ⟨_, rfl, .inr ⟨_, rfl⟩⟩
      · intro s v hf; cases hf
      · intro K G F hf; cases hf
  | initializePop w b =>
    simp only [moFullCall, Out.bind_eq_ok] at hc
    obtain ⟨pop, hp, hx⟩ := hc
    cases hx
    obtain ⟨init, hi, -⟩ := core_init b.var hp
    refine ⟨.initializePop init b, _, rfl, ⟨h.K, h.maxGen, h.maxFail, ?_, h.generation, h.record, h.f⟩,
      ?_, ?_, ?_, ?_⟩
    · subst hi
      show (MOState.mk _ _ _ : MOState V m α) = _
      rw [h.st, h.K]
    · exact ⟨fun _ => ⟨_, _, rfl⟩, fun _ => ⟨_, _, rfl⟩⟩
    · intro f hf; cases hf
    · intro s v hf; cases hf
    · intro K G F hf; cases hf
  | run sel d =>
    obtain ⟨y', h1, h2⟩ := moFull_run_refines opt cap h sel d hc
    refine ⟨_, y', h1, h2, ?_, ?_, ?_, ?_⟩
    · exact ⟨(by rintro ⟨_, _, h⟩; cases h), (by rintro ⟨_, _, h⟩; cases h)⟩
    · intro f hf; cases hf
    · intro s v hf; cases hf; exact ⟨d, rfl⟩
    · intro K G F hf; cases hf

theorem moFull_size_pos (rec : Bool) (p q : κ) (arg : A) (fail gen : Nat) (cs : List (MOFullCall κ A Ω V m α))
    (hl : MOFullLegal opt cs) (x : MOFull κ A Ω V m α)
    (h : moFullSession rec opt cap (.new p q arg fail gen) cs = .ok x) : 1 ≤ x.core.K ∧ x.core.K < 2 ^ 32 := by
  have hs := (moFull_settings opt cap rec p q arg fail gen cs x h).option
  have h2 : (fun t : Nat × Nat × Nat × κ × κ => 1 ≤ t.1 ∧ t.1 < 2 ^ 32)
      (lastSet (fun c => (MOFullCall.set? c).bind GASetter.option?) cs (100, 300, 50, p, q)) := by
    refine lastSet_all _ (fun t : Nat × Nat × Nat × κ × κ => 1 ≤ t.1 ∧ t.1 < 2 ^ 32) _ _ ⟨by norm_num, by norm_num⟩ ?_
    intro c hc t ht
    cases c with
    | set s =>
      cases s with
      | setOption K G L p q =>
        have ht' := Option.some.inj ht
        rw [← ht']
        exact hl.size K G L p q hc
      | _ => cases ht
    | initializePop w b => cases ht
    | run s d => cases ht
  rw [← hs] at h2
  exact h2

theorem moFull_simulates (f0 : V → Fin m → α) (p q : κ) (arg : A) (fail gen : Nat)
    (cs : List (MOFullCall κ A Ω V m α)) (hl : MOFullLegal opt cs) (x : MOFull κ A Ω V m α)
    (h : moFullSession true opt cap (.new p q arg fail gen) cs = .ok x) :
    ∃ cs' y, moSession opt (.new f0 (fail, gen)) cs' = .ok y ∧ MOMatch x y ∧
      List.Forall₂ MOMirror cs cs' := by
  induction cs using List.reverseRecOn generalizing x with
  | nil =>
    cases h
    exact ⟨[], _, rfl, ⟨rfl, rfl, rfl, rfl, rfl, rfl, fun g hg => by cases hg⟩, .nil⟩
  | append_singleton cs c ih =>
    rw [moFull_snoc, Out.bind_eq_ok] at h
    obtain ⟨x0, hx0, hc⟩ := h
    obtain ⟨cs', y, hy, hm, h2⟩ := ih (MOFullLegal.left opt hl) x0 hx0
    have hts := moFull_size_pos opt cap true p q arg fail gen cs (MOFullLegal.left opt hl) x0 hx0
    obtain ⟨c', y', hy', hm', hmir⟩ := mo_step opt cap hm hts c
      (fun K G L p q hcd => hl.size K G L p q (hcd ▸ by simp)) hc
    refine ⟨cs' ++ [c'], y', ?_, hm', List.rel_append h2 (.cons hmir .nil)⟩
    rw [moSession_snoc, hy, Out.ok_bind, hy']

theorem moMirror_valid {cs : List (MOFullCall κ A Ω V m α)} {cs' : List (MOCall V m α)}
    (h : List.Forall₂ MOMirror cs cs') (hl : MOFullLegal opt cs) : MOValid opt cs' := by
  intro sel v hm K h1 h2 g
  obtain ⟨b', a', rfl⟩ := List.append_of_mem hm
  obtain ⟨b, x, a, rfl, hx, -⟩ := forall₂_split h
  obtain ⟨d, rfl⟩ := hx.run _ _ rfl
  exact hl.select sel d (by simp) K h1 h2 g

theorem moMirror_sizes {cs : List (MOFullCall κ A Ω V m α)} {cs' : List (MOCall V m α)}
    (h : List.Forall₂ MOMirror cs cs') : MOSizes cs' := by
  intro K G F hm
  obtain ⟨b', a', rfl⟩ := List.append_of_mem hm
  obtain ⟨b, x, a, rfl, hx, -⟩ := forall₂_split h
  exact hx.size _ _ _ rfl

theorem moMirror_init {cs : List (MOFullCall κ A Ω V m α)} {cs' : List (MOCall V m α)}
    (h : List.Forall₂ MOMirror cs cs') : (∃ c ∈ cs', MOCall.IsInit c) ↔ ∃ c ∈ cs, MOFullCall.IsInit c := by
  induction h with
  | nil => simp
  | cons h1 h2 ih => simp only [List.mem_cons, exists_eq_or_imp, h1.init, ih]

theorem moMirror_kept {cs : List (MOFullCall κ A Ω V m α)} {cs' : List (MOCall V m α)}
    (h : List.Forall₂ MOMirror cs cs') (hk : MOFullFitnessKept cs) : MOFitnessUnchanged cs' := by
  intro b' f a' hcs
  rw [hcs] at h
  obtain ⟨b, x, a, rfl, hx, ha⟩ := forall₂_split h
  obtain ⟨s, rfl, hs⟩ := hx.fitness f rfl
  exact (moMirror_init ha).2 (hk b s a rfl hs)

theorem moKept_snoc {cs : List (MOFullCall κ A Ω V m α)} {c : MOFullCall κ A Ω V m α}
    (hc : ¬ MOFullCall.IsInit c) (h : MOFullFitnessKept (cs ++ [c])) : MOFullFitnessKept cs := by
  intro b s a hcs hs
  obtain ⟨d, hd, hdi⟩ := h b s (a ++ [c]) (by rw [hcs]; simp) hs
  rcases List.mem_append.1 hd with h | h
  · exact ⟨d, h, hdi⟩
  · rw [List.mem_singleton.1 h] at hdi; exact absurd hdi hc

theorem moSelect_short {K : Nat} {sel : (Addr → Fin m → α) → List Addr → Out (SelectResult Addr)}
    (hs : ShortIsUB K sel) {s : MOState V m α} (h : s.pop.length < K) : moSelect sel s = .ub := by
  unfold moSelect
  rw [hs _ _ (by simpa using h)]
  rfl

/-- A run in which nobody was evaluated and there is no fitness function. -/
theorem mo_run_no_function (rec : Bool) (x : MOFull κ A Ω V m α) (hf : x.core.fFun = none)
    (hu : ∀ c ∈ x.st.pop, c.2.computed = false) (hK : 1 ≤ x.core.K)
    (sel : Nat → Nat → (Addr → Fin m → α) → List Addr → Out (SelectResult Addr))
    (hs : ShortIsUB x.core.K (sel x.core.K 1)) (d : Nat → VaryDraw κ Ω V (Fin m → α)) :
    moFullCall rec opt cap x (.run sel d) = .ub := by
  simp only [moFullCall]
  split
  · have : gaOpsLoop rec (x.ops opt cap sel d) x.core.maxGen x.core.maxFail (x.core.maxGen + 1) 0
        { x.st with fail := 0 } [] = .ub := by
      unfold gaOpsLoop
      by_cases hne : x.st.pop = []
      · have h1 : (x.ops opt cap sel d).evaluate { x.st with fail := 0 } = .ok { x.st with fail := 0 } := by
          simp only [MOFull.ops, GACore.evaluate, hne, List.all_nil, if_true, Out.ok_bind]
        have h2 : (x.ops opt cap sel d).select (0 + 1) { x.st with fail := 0 } = .ub := by
          refine moSelect_short (K := x.core.K) hs ?_
          simp only [hne, List.length_nil]; omega
        rw [h1, Out.ok_bind, h2]; rfl
      · have : (x.ops opt cap sel d).evaluate { x.st with fail := 0 } = .ub := by
          simp only [MOFull.ops, GACore.evaluate]
          rw [if_neg, hf]
          · rfl
          · obtain ⟨c, l, hcl⟩ := List.exists_cons_of_ne_nil hne
            have := hu c (by rw [hcl]; simp)
            rw [hcl]
            simp [this]
        rw [this]; rfl
    rw [this]; rfl
  · rfl

theorem mo_uncomputed (rec : Bool) (p q : κ) (arg : A) (fail gen : Nat) (cs : List (MOFullCall κ A Ω V m α))
    (hl : MOFullLegal opt cs) (hk : MOFullFitnessKept cs) (x : MOFull κ A Ω V m α)
    (h : moFullSession rec opt cap (.new p q arg fail gen) cs = .ok x) (hf : x.core.fFun = none) :
    ∀ c ∈ x.st.pop, c.2.computed = false := by
  induction cs using List.reverseRecOn generalizing x with
  | nil => cases h; intro c hc; cases hc
  | append_singleton cs c ih =>
    rw [moFull_snoc, Out.bind_eq_ok] at h
    obtain ⟨x0, hx0, hc⟩ := h
    have hl' := MOFullLegal.left opt hl
    cases c with
    | set c =>
      have hx := (Out.ok.inj hc).symm
      subst hx
      have hk' := moKept_snoc (by rintro ⟨_, _, h⟩; cases h) hk
      have hnc : ¬ GASetter.ChangesFitness c := by
        intro hcf
        obtain ⟨d, hd, -⟩ := hk cs c [] rfl hcf
        cases hd
      have : x0.core.fFun = none := by
        rw [← hf]
        cases c with
        | setfFun f => exact absurd (.inl ⟨_, rfl⟩) hnc
        | _ => rfl
      exact ih hl' hk' x0 hx0 this
    | initializePop w b =>
      simp only [moFullCall, Out.bind_eq_ok] at hc
      obtain ⟨pop, hp, hx⟩ := hc
      cases hx
      obtain ⟨init, hi, -⟩ := core_init b.var hp
      intro c hc
      have hc' : c ∈ pop := hc
      rw [hi] at hc'
      obtain ⟨s, -, rfl⟩ := List.mem_map.1 hc'
      rfl
    | run sel d =>
      have hk' := moKept_snoc (by rintro ⟨_, _, h⟩; cases h) hk
      have hK := moFull_size_pos opt cap rec p q arg fail gen cs hl' x0 hx0
      have hf0 : x0.core.fFun = none := by
        rw [← hf]
        simp only [moFullCall] at hc
        split at hc
        · simp only [Out.bind_eq_ok] at hc
          obtain ⟨r, -, hx⟩ := hc
          cases hx; rfl
        · cases hc
      rw [mo_run_no_function opt cap rec x0 hf0 (ih hl' hk' x0 hx0 hf0) hK.1 sel
        (hl.select sel d (by simp) _ hK.1 hK.2 1).2 d] at hc
      cases hc

/-- **C131**: `run` without a fitness function is undefined if fitness function and arguments were left alone since
the last `initializePop` (nobody has a fitness then). -/
theorem moFull_run_needs_fitness (rec : Bool) (p q : κ) (arg : A) (fail gen : Nat)
    (cs : List (MOFullCall κ A Ω V m α))
    (sel : Nat → Nat → (Addr → Fin m → α) → List Addr → Out (SelectResult Addr))
    (d : Nat → VaryDraw κ Ω V (Fin m → α)) (hl : MOFullLegal opt (cs ++ [.run sel d]))
    (hk : MOFullFitnessKept cs)
    (hf : lastSet (fun c => (MOFullCall.set? c).bind GASetter.fFun?) cs none = none)
    (x : MOFull κ A Ω V m α) (h : moFullSession rec opt cap (.new p q arg fail gen) cs = .ok x) :
    moFullSession rec opt cap (.new p q arg fail gen) (cs ++ [.run sel d]) = .ub := by
  have hl' := MOFullLegal.left opt hl
  have hf0 : x.core.fFun = none := (moFull_settings opt cap rec p q arg fail gen cs x h).fFun.trans hf
  have hK := moFull_size_pos opt cap rec p q arg fail gen cs hl' x h
  rw [moFull_snoc, h, Out.ok_bind]
  exact mo_run_no_function opt cap rec x hf0 (mo_uncomputed opt cap rec p q arg fail gen cs hl' hk x h hf0) hK.1 sel
    (hl.select sel d (by simp) _ hK.1 hK.2 1).2 d

theorem resizePop_length {F : Type} (K : Nat) (blank : Gene V F) (pop : Pop (Gene V F)) :
    (resizePop K blank pop).length = K := by
  have : ∀ (l : List (Gene V F)) (p : Pop (Gene V F)), (l.foldl emplaceBack p).length = p.length + l.length := by
    intro l
    induction l with
    | nil => intro p; rfl
    | cons a l ih => intro p; rw [List.foldl_cons, ih]; simp [emplaceBack]; omega
  unfold resizePop
  rw [this, List.length_take, List.length_replicate]; omega

/-- **C131**: `initializePop` returns exactly if an initialiser is set; otherwise it calls a null pointer. -/
theorem moFull_init_iff (rec : Bool) (p q : κ) (arg : A) (fail gen : Nat)
    (cs : List (MOFullCall κ A Ω V m α)) (hl : MOFullLegal opt cs) (w : Nat → Ω) (blank : Gene V (Fin m → α))
    (x : MOFull κ A Ω V m α) (h : moFullSession rec opt cap (.new p q arg fail gen) cs = .ok x) :
    ((∃ y, moFullCall rec opt cap x (.initializePop w blank) = .ok y) ↔
      lastSet (fun c => (MOFullCall.set? c).bind GASetter.iFun?) cs none ≠ none) ∧
    (lastSet (fun c => (MOFullCall.set? c).bind GASetter.iFun?) cs none = none →
      moFullCall rec opt cap x (.initializePop w blank) = .ub) := by
  have hs := (moFull_settings opt cap rec p q arg fail gen cs x h).iFun
  rw [← hs]
  have hK := (moFull_size_pos opt cap rec p q arg fail gen cs hl x h).1
  have hne : resizePop x.core.K blank x.st.pop ≠ [] := by
    intro he
    have := resizePop_length x.core.K blank x.st.pop
    rw [he] at this
    simp at this; omega
  have hub : x.core.iFun = none → moFullCall rec opt cap x (.initializePop w blank) = .ub := by
    intro hi
    simp only [moFullCall, GACore.initializePop]
    rw [if_neg hne, hi]
    rfl
  refine ⟨⟨?_, ?_⟩, hub⟩
  · rintro ⟨y, hy⟩ hi
    rw [hub hi] at hy
    cases hy
  · intro hi
    obtain ⟨f, hf⟩ := Option.ne_none_iff_exists'.1 hi
    simp only [moFullCall, GACore.initializePop]
    rw [if_neg hne, hf]
    simp only [readMember, Out.ok_bind]
    exact ⟨_, rfl⟩

variable [IsStrictOrderedRing κ]

/-- What is true of the object after any history of calls that returned. -/
structure MOFullReach (cs : List (MOFullCall κ A Ω V m α)) (x : MOFull κ A Ω V m α) : Prop where
  count : x.st.pop.length = moFullCount cs
  distinct : DistinctNodes x.st.pop
  front : ∀ a ∈ x.st.pf, a ∈ x.st.pop.map (·.1)

theorem moFullCount_fst (cs : List (MOFullCall κ A Ω V m α)) (p q : κ) :
    (cs.foldl (fun (n : Nat × Nat) c => match c with
      | .set (.setOption K _ _ _ _) => (K, n.2)
      | .set _ => n
      | .initializePop _ _ => (n.1, n.1)
      | .run _ _ => (n.1, n.1)) (100, 0)).1 = (moFullOption p q cs).1 := by
  induction cs using List.reverseRecOn with
  | nil => rfl
  | append_singleton cs c ih =>
    rw [List.foldl_append]
    unfold moFullOption at ih ⊢
    rw [lastSet_snoc_bind]
    simp only [List.foldl_cons, List.foldl_nil]
    cases c with
    | set s => cases s <;> first | rfl | exact ih
    | initializePop w b => exact ih
    | run s d => exact ih

theorem moFullCount_snoc (cs : List (MOFullCall κ A Ω V m α)) (c : MOFullCall κ A Ω V m α) (p q : κ) :
    moFullCount (cs ++ [c]) = match c with
      | .set _ => moFullCount cs
      | _ => (moFullOption p q cs).1 := by
  rw [← moFullCount_fst cs p q]
  unfold moFullCount
  rw [List.foldl_append]
  cases c with
  | set s => cases s <;> rfl
  | initializePop w b => rfl
  | run s d => rfl

theorem moFullRoom_snoc {cs : List (MOFullCall κ A Ω V m α)} {c : MOFullCall κ A Ω V m α} {p q : κ} :
    MOFullRoom p q (cs ++ [c]) ↔
      MOFullRoom p q cs ∧ (MOFullCall.IsRun c → (moFullOption p q cs).1 ≤ moFullCount cs) := by
  constructor
  · intro h
    refine ⟨fun b s d a hcs => h b s d (a ++ [c]) (by rw [hcs]; simp), ?_⟩
    rintro ⟨s, d, rfl⟩
    exact h cs s d [] rfl
  · rintro ⟨h1, h2⟩ b s d a hcs
    rcases snoc_split hcs with ⟨-, hx, rfl⟩ | ⟨a', -, hcs'⟩
    · exact h2 ⟨s, d, hx.symm⟩
    · exact h1 b s d a' hcs'

theorem moFullPrepared_snoc {rec : Bool} {cs : List (MOFullCall κ A Ω V m α)} {c : MOFullCall κ A Ω V m α} {p q : κ} :
    MOFullPrepared rec cap p q (cs ++ [c]) ↔
      MOFullPrepared rec cap p q cs ∧ MOFullReadyFor rec cap p q cs c := by
  constructor
  · intro h
    exact ⟨fun b d a hcs => h b d (a ++ [c]) (by rw [hcs]; simp), h cs c [] rfl⟩
  · rintro ⟨h1, h2⟩ b d a hcs
    rcases snoc_split hcs with ⟨-, rfl, rfl⟩ | ⟨a', -, hcs'⟩
    · exact h2
    · exact h1 b d a' hcs'

theorem crossover_at_most_double {F : Type} (junk : F) (cx : Nat → V → V → V × V) (sel : Addr → Bool)
    (shuffle : List (Cell (Gene V F)) → List (Cell (Gene V F)))
    (hshuffle : ∀ l, (shuffle l).Perm l) (pop : Pop (Gene V F)) (hd : DistinctNodes pop) :
    pop.length ≤ (Heu.crossover junk cx sel shuffle pop).length ∧
      (Heu.crossover junk cx sel shuffle pop).length ≤ 2 * pop.length := by
  obtain ⟨new, couples, h1, -, h3, h4, -⟩ := crossover_appends junk cx sel shuffle hshuffle pop hd
  have := List.length_filter_le (fun c : Cell (Gene V F) => sel c.1) pop
  rw [h1, List.length_append]
  omega

/-- One run of an object whose functions are set. -/
theorem moFull_run_total {x : MOFull κ A Ω V m α} (hK : 1 ≤ x.core.K) (hf : x.core.fFun ≠ none)
    (hcf : x.core.cFun ≠ none) (hmf : x.core.mFun ≠ none) (hp0 : 0 ≤ x.core.muProb)
    (hp1 : 4 * (x.core.K : κ) * x.core.muProb ≤ (cap : κ))
    (sel : Nat → Nat → (Addr → Fin m → α) → List Addr → Out (SelectResult Addr))
    (hg : ∀ g, GoodSelection opt x.core.K (sel x.core.K g))
    (d : Nat → VaryDraw κ Ω V (Fin m → α)) (hd : ∀ g, VaryDraw.Legal (d g))
    {s : MOState V m α} (hs : MOSound x.core.K s) :
    ∃ r, gaOpsLoop true (x.ops opt cap sel d) x.core.maxGen x.core.maxFail (x.core.maxGen + 1) 0
      { s with fail := 0 } [] = .ok r ∧ MOSelected x.core.K r.state := by
  obtain ⟨f, hf'⟩ := Option.ne_none_iff_exists'.1 hf
  obtain ⟨r, hr, hsel⟩ := moSound_run opt (f x.core.arg) x.core.K (sel x.core.K)
    (fun g => pureVary x.core (d g)) hK hg hs x.core.maxGen x.core.maxFail
  refine ⟨r, ?_, hsel⟩
  have href := mo_ops_refine opt cap (x := x) (f := f x.core.arg) (fun g hg => by rw [hf'] at hg; cases hg; rfl)
    sel d
  refine opsLoop_total href (MOSound x.core.K) ?_ ?_ ⟨hs.distinct, hs.enough⟩ hr
  · intro s _
    obtain ⟨t, ht⟩ := core_evaluate_ok hf s.pop
    refine ⟨{ s with pop := t }, ?_⟩
    simp only [MOFull.ops, ht, Out.ok_bind]
  · intro g s t hsI ht
    obtain ⟨t', ht', hst⟩ := moSelect_sound hK (hg g)
      (moSound_compute opt (f x.core.arg) x.core.K (sel x.core.K) (fun g => pureVary x.core (d g)) hsI)
    have htt : t = t' := Out.ok.inj (ht.symm.trans ht')
    subst htt
    refine ⟨?_, ?_, moSound_next opt (f x.core.arg) x.core.K (sel x.core.K) _ hst⟩
    · obtain ⟨u, hu⟩ := core_crossover_ok hcf (d g) t.pop
      exact ⟨{ t with pop := u }, by simp only [MOFull.ops, hu, Out.ok_bind]⟩
    · obtain ⟨-, hlen⟩ := crossover_at_most_double (pureVary x.core (d g)).junk (pureVary x.core (d g)).cx
        (pureVary x.core (d g)).cxSel (pureVary x.core (d g)).cxShuffle (hd g) t.pop hst.distinct
      rw [hst.size] at hlen
      have hlen' : ((((moSolver opt (f x.core.arg) (sel x.core.K) fun g => pureVary x.core (d g)).crossover g
          t).pop.length : Nat) : κ) ≤ 2 * (x.core.K : κ) := by
        have : (((moSolver opt (f x.core.arg) (sel x.core.K) fun g => pureVary x.core (d g)).crossover g
          t).pop.length) ≤ 2 * x.core.K := hlen
        exact_mod_cast this
      have hn0 : (0 : κ) ≤ ((((moSolver opt (f x.core.arg) (sel x.core.K)
          fun g => pureVary x.core (d g)).crossover g t).pop.length : Nat) : κ) := Nat.cast_nonneg _
      have b1 := mul_nonneg hn0 hp0
      have b2 := mul_le_mul_of_nonneg_right hlen' hp0
      obtain ⟨u, hu⟩ := core_mutate_ok (cap := cap) hmf (d g)
        ((moSolver opt (f x.core.arg) (sel x.core.K) fun g => pureVary x.core (d g)).crossover g t).pop
        ⟨by linarith, by linarith⟩
      refine ⟨{ (moSolver opt (f x.core.arg) (sel x.core.K) fun g => pureVary x.core (d g)).crossover g t with
        pop := u }, ?_⟩
      simp only [MOFull.ops, hu, Out.ok_bind]

theorem moFull_cases (p q : κ) (arg : A) (fail gen : Nat) (cs : List (MOFullCall κ A Ω V m α))
    (hl : MOFullLegal opt cs) (hp : MOFullPrepared true cap p q cs) :
    (MOFullRoom p q cs → ∃ x, moFullSession true opt cap (.new p q arg fail gen) cs = .ok x ∧ MOFullReach cs x) ∧
    (¬ MOFullRoom p q cs → moFullSession true opt cap (.new p q arg fail gen) cs = .ub) := by
  induction cs using List.reverseRecOn with
  | nil =>
    refine ⟨fun _ => ⟨_, rfl, rfl, List.nodup_nil, ?_⟩, fun h => absurd ?_ h⟩
    · intro a ha; simp [MOFull.new] at ha
    · intro b s v a h; simp at h
  | append_singleton cs c ih =>
    have hl' := MOFullLegal.left opt hl
    obtain ⟨hp1, hp2⟩ := (moFullPrepared_snoc cap).1 hp
    obtain ⟨ih1, ih2⟩ := ih hl' hp1
    rw [moFull_snoc]
    by_cases hr1 : MOFullRoom p q cs
    swap
    · rw [ih2 hr1]
      exact ⟨fun h => absurd (moFullRoom_snoc.1 h).1 hr1, fun _ => rfl⟩
    obtain ⟨x, hx, hi⟩ := ih1 hr1
    have hset := moFull_settings opt cap true p q arg fail gen cs x hx
    have hK := moFull_size_pos opt cap true p q arg fail gen cs hl' x hx
    have hopt : (x.core.K, x.core.maxGen, x.core.maxFail, x.core.cxProb, x.core.muProb) = moFullOption p q cs :=
      hset.option
    have hxK : x.core.K = (moFullOption p q cs).1 := by rw [← hopt]
    rw [hx, Out.ok_bind]
    cases c with
    | set s =>
      refine ⟨fun _ => ⟨_, rfl, ?_, hi.distinct, hi.front⟩, fun h => absurd ?_ h⟩
      · rw [moFullCount_snoc _ _ p q]; exact hi.count
      · exact moFullRoom_snoc.2 ⟨hr1, by rintro ⟨_, _, h⟩; cases h⟩
    | initializePop w b =>
      refine ⟨fun _ => ?_, fun h => absurd ?_ h⟩
      · obtain ⟨y, hy⟩ := (moFull_init_iff opt cap true p q arg fail gen cs hl' w b x hx).1.2 hp2
        refine ⟨y, hy, ?_⟩
        simp only [moFullCall, Out.bind_eq_ok] at hy
        obtain ⟨pop, hp, hyx⟩ := hy
        cases hyx
        obtain ⟨init, hpi, -⟩ := core_init b.var hp
        obtain ⟨r1, r2, -⟩ := reinit_spec x.core.K init b x.st.pop hi.distinct
        rw [← hpi] at r1 r2
        refine ⟨?_, r1, ?_⟩
        · rw [moFullCount_snoc _ _ p q, ← hxK]; exact r2
        · intro a ha; simp at ha
      · exact moFullRoom_snoc.2 ⟨hr1, by rintro ⟨_, _, h⟩; cases h⟩
    | run sel d =>
      obtain ⟨q1, q2, q3, q4, q5, q6⟩ := hp2
      rw [← hset.fFun] at q1
      rw [← hset.cFun] at q2
      rw [← hset.mFun] at q3
      rw [← hopt] at q4 q5 q6
      have hrec : clearRecordOK true cap x.core.maxGen = true := by
        obtain ⟨c1, c2⟩ := q6 rfl
        have c1' : x.core.maxGen + 1 ≤ cap := c1
        have c2' : x.core.maxGen + 1 < 2 ^ 64 := c2
        simp only [clearRecordOK, Bool.not_true, Bool.false_or, decide_eq_true_eq]
        rw [Nat.mod_eq_of_lt c2']; exact c1'
      have hgood := hl.select sel d (by simp) x.core.K hK.1 hK.2
      refine ⟨fun hr => ?_, fun hr => ?_⟩
      · have hlen : x.core.K ≤ x.st.pop.length := by
          rw [hxK, hi.count]
          exact (moFullRoom_snoc.1 hr).2 ⟨_, _, rfl⟩
        obtain ⟨r, hrr, hs⟩ := moFull_run_total opt cap hK.1 q1 q2 q3 q4 q5 sel (fun g => (hgood g).1) d
          (hl.draws sel d (by simp)) (s := x.st) ⟨hi.distinct, hlen⟩
        refine ⟨{ x with st := r.state, core := { x.core with generation := r.generation, record := r.record } },
          ?_, ?_, hs.distinct, hs.front⟩
        · simp only [moFullCall, hrec, if_true, hrr, Out.ok_bind]
        · rw [moFullCount_snoc _ _ p q, ← hxK]; exact hs.size
      · have hlt : x.st.pop.length < x.core.K := by
          by_contra hcon
          refine hr (moFullRoom_snoc.2 ⟨hr1, fun _ => ?_⟩)
          rw [← hxK, ← hi.count]; omega
        simp only [moFullCall, hrec, if_true]
        have : gaOpsLoop true (x.ops opt cap sel d) x.core.maxGen x.core.maxFail (x.core.maxGen + 1) 0
            { x.st with fail := 0 } [] = .ub := by
          unfold gaOpsLoop
          obtain ⟨t, ht⟩ := core_evaluate_ok q1 x.st.pop
          obtain ⟨f, hf⟩ := Option.ne_none_iff_exists'.1 q1
          have ht' := core_evaluate (f := f x.core.arg) (fun g hg => by rw [hf] at hg; cases hg; rfl) ht
          have h1 : (x.ops opt cap sel d).evaluate { x.st with fail := 0 } =
              .ok { x.st with fail := 0, pop := t } := by
            simp only [MOFull.ops, ht, Out.ok_bind]
          have h2 : (x.ops opt cap sel d).select (0 + 1) { x.st with fail := 0, pop := t } = .ub := by
            refine moSelect_short (K := x.core.K) (hgood 1).2 ?_
            show t.length < _
            rw [ht']; simpa [computeAllFitness] using hlt
          rw [h1, Out.ok_bind, h2]; rfl
        rw [this]; rfl

end mo

end Heu
