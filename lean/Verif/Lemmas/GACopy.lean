import Verif.Spec.GACopy
import Verif.Lemmas.GAFull

/-! # Lemmas on copies of solver objects -/

set_option linter.unusedSectionVars false
set_option linter.unusedVariables false
set_option linter.unusedSimpArgs false

namespace Heu
open Spec

section select
variable {γ α : Type} [Field α] [LinearOrder α]

theorem runSelectFrom_own (opt : FitnessOption) (fit : γ → α) (m : SelectMethod) (e : SelectEnv γ α) (K : Nat)
    (s : SOState γ) :
    runSelectFrom (fun pop => deref pop s.best) opt fit m e K s = runSelect opt fit m e K s := by
  cases m <;> rfl

theorem bind_ne_ok {β δ : Type} {o : Out β} {f : β → Out δ} (h : ∀ b t, f b ≠ .ok t) (t : δ) : (o >>= f) ≠ .ok t := by
  cases o with
  | ok b => exact h b t
  | ub => exact fun h => by cases h
  | timeout => exact fun h => by cases h

theorem runSelectFrom_ub (opt : FitnessOption) (fit : γ → α) (m : SelectMethod) (e : SelectEnv γ α) (K : Nat)
    (s : SOState γ) (t : SOState γ) : runSelectFrom (fun _ => .ub) opt fit m e K s ≠ .ok t := by
  cases m with
  | Tournament =>
    simp only [runSelectFrom, selectTournamentFrom]
    split
    · exact fun h => by cases h
    · exact fun h => by cases h
  | Truncation =>
    simp only [runSelectFrom, selectTruncationFrom]
    split
    · exact fun h => by cases h
    · exact fun h => by cases h
  | EliteReserved =>
    simp only [runSelectFrom, selectEliteFrom]
    split
    · exact bind_ne_ok (fun b t h => by cases h) t
    · exact bind_ne_ok (fun b t => bind_ne_ok (fun b t h => by cases h) t) t
  | _ => exact fun h => by cases h

theorem find_filter_addr (pop : Pop γ) (P : Addr → Bool) (a : Addr) {g : γ}
    (h : deref (pop.filter fun c => P c.1) a = .ok g) : deref pop a = .ok g := by
  induction pop with
  | nil => exact h
  | cons c cs ih =>
    unfold deref at h ih ⊢
    by_cases hc : c.1 = a
    · by_cases hp : P c.1 = true
      · rw [List.filter_cons_of_pos (p := fun c : Cell γ => P c.1) hp] at h
        simpa [List.find?_cons, hc] using h
      · exfalso
        rw [List.filter_cons_of_neg (p := fun c : Cell γ => P c.1) hp] at h
        have : (cs.filter fun c => P c.1).find? (fun c => c.1 == a) = none := by
          rw [List.find?_eq_none]
          intro x hx hxa
          have h1 := (List.mem_filter.1 hx).2
          have : x.1 = a := by simpa using hxa
          rw [this, ← hc] at h1
          exact hp h1
        rw [this] at h; cases h
    · have hc' : (c.1 == a) = false := by simpa using hc
      rw [List.find?_cons, hc']
      apply ih
      by_cases hp : P c.1 = true
      · rw [List.filter_cons_of_pos (p := fun c : Cell γ => P c.1) hp, List.find?_cons, hc'] at h; exact h
      · rw [List.filter_cons_of_neg (p := fun c : Cell γ => P c.1) hp] at h; exact h

/-- A selection that returns read the previous best, and gives the same if the gene is read somewhere else. -/
theorem runSelectFrom_const (opt : FitnessOption) (fit : γ → α) (m : SelectMethod) (e : SelectEnv γ α) (K : Nat)
    (s t : SOState γ) (h : runSelect opt fit m e K s = .ok t) :
    ∃ g, deref s.pop s.best = .ok g ∧ runSelectFrom (fun _ => .ok g) opt fit m e K s = .ok t := by
  cases m with
  | Tournament =>
    simp only [runSelect, selectTournament] at h
    simp only [runSelectFrom, selectTournamentFrom]
    split at h
    · cases h
    · rename_i hts
      rw [Out.bind_eq_ok] at h
      obtain ⟨g, hg, h⟩ := h
      refine ⟨g, hg, ?_⟩
      rw [if_neg hts]
      exact h
  | Truncation =>
    simp only [runSelect, selectTruncation] at h
    simp only [runSelectFrom, selectTruncationFrom]
    split at h
    · cases h
    · rename_i b l hb
      rw [updateFail1, Out.bind_eq_ok] at h
      obtain ⟨g, hg, h⟩ := h
      refine ⟨g, find_filter_addr s.pop (fun a => !(((e.sort.run (geneItCompare opt fit) s.pop).drop K).map
        (·.1)).contains a) s.best hg, ?_⟩
      simp only [hb]
      exact h
  | EliteReserved =>
    simp only [runSelect, selectElite] at h
    simp only [runSelectFrom, selectEliteFrom]
    split at h
    · rename_i hK
      rw [Out.bind_eq_ok] at h
      obtain ⟨b, hb, h⟩ := h
      rw [updateFail1, Out.bind_eq_ok] at h
      obtain ⟨g, hg, h⟩ := h
      exact ⟨g, hg, by rw [if_pos hK, hb]; exact h⟩
    · rename_i hK
      rw [Out.bind_eq_ok] at h
      obtain ⟨es, hes, h⟩ := h
      rw [Out.bind_eq_ok] at h
      obtain ⟨b, hb, h⟩ := h
      rw [updateFail1, Out.bind_eq_ok] at h
      obtain ⟨g, hg, h⟩ := h
      refine ⟨g, find_filter_addr s.pop (fun a => !(es.map (fun q : Cell γ × α => q.1.1)).contains a) s.best hg, ?_⟩
      rw [if_neg hK, hes, Out.ok_bind, hb]; exact h
  | RunTimeSelectMethod => cases h
  | RouletteWheel => simp only [runSelect, selectRoulette, Out.bind_eq_ok] at h; obtain ⟨g, hg, h⟩ := h; exact ⟨g, hg, h⟩
  | MonteCarlo => simp only [runSelect, selectMonteCarlo] at h; rw [Out.bind_eq_ok] at h; obtain ⟨g, hg, h⟩ := h; exact ⟨g, hg, h⟩
  | Probability => simp only [runSelect, selectProbability] at h; rw [Out.bind_eq_ok] at h; obtain ⟨g, hg, h⟩ := h; exact ⟨g, hg, h⟩
  | LinearRank => simp only [runSelect, selectLinearRank] at h; rw [Out.bind_eq_ok] at h; obtain ⟨g, hg, h⟩ := h; exact ⟨g, hg, h⟩
  | ExponentialRank => simp only [runSelect, selectExponentialRank] at h; rw [Out.bind_eq_ok] at h; obtain ⟨g, hg, h⟩ := h; exact ⟨g, hg, h⟩
  | Boltzmann => simp only [runSelect, selectBoltzmann] at h; rw [Out.bind_eq_ok] at h; obtain ⟨g, hg, h⟩ := h; exact ⟨g, hg, h⟩
  | StochasticUniversal => simp only [runSelect, selectSUS] at h; rw [Out.bind_eq_ok] at h; obtain ⟨g, hg, h⟩ := h; exact ⟨g, hg, h⟩

end select

section loop
variable {κ A Ω V α : Type} [Field α] [LinearOrder α] [CommRing κ] [LinearOrder κ]
variable (opt : FitnessOption) (cap : Nat) (junk : α)

/-- Two solvers whose operations correspond along `f` make the same run. -/
theorem opsLoop_map {σ τ R : Type} {S : GAOps σ R} {T : GAOps τ R} (f : σ → τ)
    (h1 : ∀ s, T.evaluate (f s) = S.evaluate s >>= fun t => .ok (f t))
    (h2 : ∀ g s, T.select g (f s) = S.select g s >>= fun t => .ok (f t))
    (h3 : ∀ g s, T.crossover g (f s) = S.crossover g s >>= fun t => .ok (f t))
    (h4 : ∀ g s, T.mutate g (f s) = S.mutate g s >>= fun t => .ok (f t))
    (h5 : ∀ s, T.bestFitness (f s) = S.bestFitness s) (h6 : ∀ s, T.failTimes (f s) = S.failTimes s)
    (rec : Bool) (G L : Nat) : ∀ (fuel gen : Nat) (s : σ) (record : List R),
      gaOpsLoop rec T G L fuel gen (f s) record =
        gaOpsLoop rec S G L fuel gen s record >>= fun r => .ok ⟨f r.state, r.generation, r.record⟩ := by
  intro fuel
  induction fuel with
  | zero => intro gen s record; rfl
  | succ fuel ih =>
    intro gen s record
    unfold gaOpsLoop
    simp only [h1, bind_assoc, Out.ok_bind]
    cases S.evaluate s with
    | ub => rfl
    | timeout => rfl
    | ok s1 =>
      simp only [Out.ok_bind, h2, bind_assoc]
      cases S.select (gen + 1) s1 with
      | ub => rfl
      | timeout => rfl
      | ok t =>
        simp only [Out.ok_bind, h5, h6]
        have key : ∀ r : List R,
            (if gen + 1 > G then (Out.ok ⟨f t, gen + 1 - 1, r⟩ : Out (RunResult τ R))
              else if L > 0 ∧ S.failTimes t > L then .ok ⟨f t, gen + 1 - 1, r⟩
              else (T.crossover (gen + 1) (f t) >>= fun s => T.mutate (gen + 1) s >>= fun s =>
                gaOpsLoop rec T G L fuel (gen + 1) s r)) =
            (if gen + 1 > G then (Out.ok ⟨t, gen + 1 - 1, r⟩ : Out (RunResult σ R))
              else if L > 0 ∧ S.failTimes t > L then .ok ⟨t, gen + 1 - 1, r⟩
              else (S.crossover (gen + 1) t >>= fun s => S.mutate (gen + 1) s >>= fun s =>
                gaOpsLoop rec S G L fuel (gen + 1) s r)) >>= fun r =>
              .ok ⟨f r.state, r.generation, r.record⟩ := by
          intro r
          split
          · rfl
          · split
            · rfl
            · simp only [h3, bind_assoc, Out.ok_bind, h4, ih]
        cases rec with
        | false => exact key record
        | true =>
          cases S.bestFitness t with
          | ub => rfl
          | timeout => rfl
          | ok b => exact key _

/-- After the first selection the loop is the ordinary one. -/
theorem opsFrom_loop (rec : Bool) (rd : Pop (Gene V α) → Out (Gene V α)) (x : SOGAFull κ A Ω V α)
    (e : Nat → SelDraw (Gene V α) α) (d : Nat → VaryDraw κ Ω V α) (G L : Nat)
    (fuel gen : Nat) (s : SOState (Gene V α)) (record : List α) :
      gaOpsLoop rec (x.opsFrom opt cap junk rd e d) G L fuel gen (s, false) record =
        gaOpsLoop rec (x.ops opt cap junk e d) G L fuel gen s record >>= fun r =>
          .ok ⟨(r.state, false), r.generation, r.record⟩ := by
  refine opsLoop_map (fun s => (s, false)) ?_ ?_ ?_ ?_ ?_ ?_ rec G L fuel gen s record
  · intro s; simp only [SOGAFull.opsFrom, SOGAFull.ops, bind_assoc, Out.ok_bind]
  · intro g s
    simp only [SOGAFull.opsFrom, SOGAFull.ops, Bool.false_eq_true, if_false]
    rw [runSelectFrom_own]
  · intro g s; simp only [SOGAFull.opsFrom, SOGAFull.ops, bind_assoc, Out.ok_bind]
  · intro g s; simp only [SOGAFull.opsFrom, SOGAFull.ops, bind_assoc, Out.ok_bind]
  · intro s; rfl
  · intro s; rfl

/-- If the first selection reads the same as it would in the own list, the whole loop is the ordinary one. -/
theorem opsFrom_first (rec : Bool) (rd : Pop (Gene V α) → Out (Gene V α)) (x : SOGAFull κ A Ω V α)
    (e : Nat → SelDraw (Gene V α) α) (d : Nat → VaryDraw κ Ω V α) (G L fuel gen : Nat) (s : SOState (Gene V α))
    (record : List α)
    (h : ∀ p t, x.core.evaluate s.pop = .ok p →
      (x.ops opt cap junk e d).select (gen + 1) { s with pop := p } = .ok t →
      runSelectFrom rd opt Gene.fitness (dispatchedMethod x.sel.method) ((e (gen + 1)).with x.sel junk) x.core.K
        { s with pop := p } = .ok t) (r : RunResult (SOState (Gene V α)) α)
    (hr : gaOpsLoop rec (x.ops opt cap junk e d) G L (fuel + 1) gen s record = .ok r) :
    gaOpsLoop rec (x.opsFrom opt cap junk rd e d) G L (fuel + 1) gen (s, true) record =
      .ok ⟨(r.state, false), r.generation, r.record⟩ := by
  have h2 := opsFrom_loop opt cap junk rec rd x e d G L (fuel + 1) gen s record
  rw [hr, Out.ok_bind] at h2
  rw [← h2]
  simp only [gaOpsLoop, Out.bind_eq_ok] at hr
  obtain ⟨s1, hs1, t, ht, -⟩ := hr
  simp only [SOGAFull.ops, Out.bind_eq_ok] at hs1
  obtain ⟨p, hp, hs1'⟩ := hs1
  have hs1'' := Out.ok.inj hs1'
  subst hs1''
  have h3 := h p t hp ht
  have h4 : runSelect opt Gene.fitness (dispatchedMethod x.sel.method) ((e (gen + 1)).with x.sel junk) x.core.K
        { s with pop := p } = .ok t := ht
  have h5 : runSelectFrom (fun pop => deref pop s.best) opt Gene.fitness (dispatchedMethod x.sel.method)
        ((e (gen + 1)).with x.sel junk) x.core.K { s with pop := p } = .ok t := by
    rw [← h4]; exact runSelectFrom_own opt _ _ _ _ { s with pop := p }
  simp only [gaOpsLoop]
  simp only [SOGAFull.opsFrom, hp, Out.ok_bind, Bool.false_eq_true, if_false, if_true, h3, h5]

/-- If the first selection never returns, neither does the loop. -/
theorem opsFrom_never (rec : Bool) (x : SOGAFull κ A Ω V α)
    (e : Nat → SelDraw (Gene V α) α) (d : Nat → VaryDraw κ Ω V α) (G L fuel gen : Nat) (s : SOState (Gene V α))
    (record : List α) (rd : Pop (Gene V α) → Out (Gene V α)) (hrd : rd = fun _ => .ub)
    (r : RunResult (SOState (Gene V α) × Bool) α) :
    gaOpsLoop rec (x.opsFrom opt cap junk rd e d) G L fuel gen (s, true) record ≠ .ok r := by
  subst hrd
  intro h
  cases fuel with
  | zero => cases h
  | succ fuel =>
    simp only [gaOpsLoop, Out.bind_eq_ok] at h
    obtain ⟨s1, hs1, t, ht, -⟩ := h
    simp only [SOGAFull.opsFrom, Out.bind_eq_ok] at hs1
    obtain ⟨p, hp, hs1'⟩ := hs1
    have := Out.ok.inj hs1'
    subst this
    simp only [SOGAFull.opsFrom, Out.bind_eq_ok, if_true] at ht
    obtain ⟨u, hu, -⟩ := ht
    exact runSelectFrom_ub opt _ _ _ _ _ _ hu

end loop

section world
variable {O : Type}

/-- No object has a number that is still free, and no pointer leads there. -/
structure World.WF (w : World O) : Prop where
  fresh : ∀ j, w.next ≤ j → w.objs j = none
  homes : ∀ i x j v, w.objs i = some x → x.home = .at j v → j < w.next

theorem wf_empty : (World.empty : World O).WF := ⟨fun _ _ => rfl, fun i x j v h => by cases h⟩

theorem world_get {w : World O} {i : Nat} {x : Held O} (h : w.get i = .ok x) : w.objs i = some x := by
  unfold World.get at h
  cases hx : w.objs i with
  | none => rw [hx] at h; cases h
  | some y => rw [hx] at h; exact congrArg some (Out.ok.inj h)

theorem world_get' {w : World O} {i : Nat} {x : Held O} (h : w.objs i = some x) : w.get i = .ok x := by
  unfold World.get; rw [h]

theorem put_same (w : World O) (i : Nat) (x : Held O) : (w.put i x).objs i = some x := by simp [World.put]
theorem put_other (w : World O) {i j : Nat} (x : Held O) (h : j ≠ i) : (w.put i x).objs j = w.objs j := by
  simp [World.put, h]

theorem wf_lt {w : World O} (h : w.WF) {i : Nat} {x : Held O} (hx : w.objs i = some x) : i < w.next := by
  by_contra hn
  rw [h.fresh i (by omega)] at hx; cases hx

theorem copied_at {h : Home} {i v j u : Nat} (hc : h.copied i v = .at j u) : (h = .own ∧ j = i ∧ u = v) ∨ h = .at j u := by
  cases h with
  | unset => cases hc
  | own => have hc' : Home.at i v = .at j u := hc; cases hc'; exact .inl ⟨rfl, rfl, rfl⟩
  | «at» a b => exact .inr hc

theorem wf_put {w : World O} (h : w.WF) {i : Nat} {x y : Held O} (hx : w.objs i = some x)
    (hy : ∀ j v, y.home = .at j v → j < w.next) : (w.put i y).WF := by
  refine ⟨fun j hj => ?_, fun k z j v hz hh => ?_⟩
  · rw [put_other]
    · exact h.fresh j hj
    · have := wf_lt h hx
      show j ≠ i
      have : w.next ≤ j := hj
      omega
  · by_cases hk : k = i
    · subst hk
      rw [put_same] at hz
      have := Option.some.inj hz
      subst this
      exact hy j v hh
    · rw [put_other _ _ hk] at hz
      exact h.homes k z j v hz hh

theorem wf_make {w : World O} (h : w.WF) (o : O) (hm : Home) (hh : ∀ j v, hm = .at j v → j < w.next) :
    (w.make o hm).WF := by
  refine ⟨fun j hj => ?_, fun k z j v hz hz' => ?_⟩
  · have hj' : w.next + 1 ≤ j := hj
    show (if j = w.next then _ else w.objs j) = none
    rw [if_neg (by omega)]
    exact h.fresh j (by omega)
  · have hz1 : (if k = w.next then some ⟨o, 0, hm⟩ else w.objs k) = some z := hz
    show j < w.next + 1
    by_cases hk : k = w.next
    · rw [if_pos hk] at hz1
      have := Option.some.inj hz1
      subst this
      have := hh j v hz'
      omega
    · rw [if_neg hk] at hz1
      have := h.homes k z j v hz1 hz'
      omega

theorem wf_destroy {w w' : World O} (h : w.WF) {i : Nat} (hd : w.destroy i = .ok w') : w'.WF := by
  simp only [World.destroy, Out.bind_eq_ok] at hd
  obtain ⟨x, hx, hd⟩ := hd
  have := Out.ok.inj hd
  subst this
  refine ⟨fun j hj => ?_, fun k z j v hz hz' => ?_⟩
  · show (if j = i then none else w.objs j) = none
    split
    · rfl
    · exact h.fresh j hj
  · have hz1 : (if k = i then none else w.objs k) = some z := hz
    split at hz1
    · cases hz1
    · exact h.homes k z j v hz1 hz'

theorem wf_copy {w w' : World O} (h : w.WF) {i : Nat} (hc : w.copy i = .ok w') : w'.WF := by
  simp only [World.copy, Out.bind_eq_ok] at hc
  obtain ⟨x, hx, hc⟩ := hc
  have := Out.ok.inj hc
  subst this
  refine wf_make h _ _ fun j v hj => ?_
  rcases copied_at hj with ⟨-, rfl, -⟩ | hj
  · exact wf_lt h (world_get hx)
  · exact h.homes i x j v (world_get hx) hj

theorem wf_assign {w w' : World O} (h : w.WF) {i j : Nat} (hc : w.assign i j = .ok w') : w'.WF := by
  simp only [World.assign, Out.bind_eq_ok] at hc
  obtain ⟨x, hx, y, hy, hc⟩ := hc
  split at hc
  · have := Out.ok.inj hc; subst this; exact h
  · have := Out.ok.inj hc
    subst this
    refine wf_put h (world_get hx) fun k v hk => ?_
    rcases copied_at hk with ⟨-, rfl, -⟩ | hj
    · exact wf_lt h (world_get hy)
    · exact h.homes j y k v (world_get hy) hj

end world

end Heu
