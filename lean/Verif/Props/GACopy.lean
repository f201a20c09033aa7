import Verif.Lemmas.GACopy
import Verif.Props.GAFull3

/-! # C132: copies of genetic solver objects -/

set_option linter.unusedSectionVars false
set_option linter.unusedVariables false
set_option linter.unusedSimpArgs false

namespace Heu
open Spec

section world
variable {O γ : Type}

theorem make_other (w : World O) (o : O) (h : Home) {j : Nat} (hj : j ≠ w.next) : (w.make o h).objs j = w.objs j := by
  simp [World.make, hj]
theorem make_same (w : World O) (o : O) (h : Home) : (w.make o h).objs w.next = some ⟨o, 0, h⟩ := by simp [World.make]

/-- What the pointers of an object lead to does not change as long as neither the object nor the one they lead into changes. -/
theorem homePop_stable (pop : O → Pop γ) {w w' : World O} {x : Held O}
    (h : ∀ j v, x.home = .at j v → ∀ y, w.objs j = some y → ∃ y', w'.objs j = some y' ∧ y'.version = y.version ∧ pop y'.obj = pop y.obj)
    (p : Pop γ) (hp : w.homePop pop x = .ok p) : w'.homePop pop x = .ok p := by
  unfold World.homePop at hp ⊢
  cases hx : x.home with
  | unset => rw [hx] at hp; cases hp
  | own => rw [hx] at hp; exact hp
  | «at» j v =>
    rw [hx] at hp
    simp only [Out.bind_eq_ok] at hp
    obtain ⟨y, hy, hp⟩ := hp
    obtain ⟨y', hy', hv, hpop⟩ := h j v hx y (world_get hy)
    simp only [world_get' hy', Out.ok_bind, hv, hpop]
    exact hp

theorem homePop_copied (pop : O → Pop γ) {w : World O} {i : Nat} {x : Held O} (hw : w.WF) (hx : w.objs i = some x)
    (w' : World O) (hw' : ∀ j, j < w.next → w'.objs j = w.objs j) (u : Nat) :
    w'.homePop pop ⟨x.obj, u, x.home.copied i x.version⟩ = w.homePop pop x := by
  unfold World.homePop
  cases hh : x.home with
  | unset => rfl
  | own =>
    have : w'.get i = .ok x := world_get' (by rw [hw' i (wf_lt hw hx), hx])
    simp [Home.copied, this]
  | «at» j v =>
    have : w'.get j = w.get j := by unfold World.get; rw [hw' j (hw.homes i x j v hx hh)]
    simp [Home.copied, this]

end world

section soga
variable {κ A Ω V α : Type} [Field α] [LinearOrder α] [CommRing κ] [LinearOrder κ]
variable (rec : Bool) (opt : FitnessOption) (cap : Nat) (junk : α)

/-- What a call on an object does: it changes this object only. -/
theorem sogaWorldObj_spec {w w' : World (SOGAFull κ A Ω V α)} {i : Nat} {c : SOGAFullCall κ A Ω V α}
    (h : sogaWorldObjCall rec opt cap junk w i c = .ok w') :
    ∃ x y, w.objs i = some x ∧ w' = w.put i y ∧ (y.home = .own ∨ y.home = x.home) ∧
      (¬ (SOGAWorldCall.Touches i (.call i c)) → y.home = x.home ∧ y.version = x.version ∧ y.obj.st = x.obj.st) ∧
      (SOGAWorldCall.Touches i (.call i c) → y.home = .own) ∧
      (x.home = .own → sogaFullCall rec opt cap junk x.obj c = .ok y.obj ∧ y.home = .own) := by
  unfold sogaWorldObjCall at h
  rw [Out.bind_eq_ok] at h
  obtain ⟨x, hx, h⟩ := h
  refine ⟨x, ?_⟩
  have hx' := world_get hx
  cases c with
  | set c =>
    simp only [Out.bind_eq_ok] at h
    obtain ⟨y, hy, h⟩ := h
    have hnt : ¬ SOGAWorldCall.Touches i (SOGAWorldCall.call i (.set c) : SOGAWorldCall κ A Ω V α) := by
      rintro ((h | ⟨j, h⟩) | ⟨u, b, h⟩ | ⟨e, d, h⟩) <;> cases h
    refine ⟨{ x with obj := y }, hx', (Out.ok.inj h).symm, .inr rfl, fun _ => ⟨rfl, rfl, ?_⟩, fun h => absurd h hnt,
      fun ho => ⟨hy, ho⟩⟩
    have := Out.ok.inj hy
    subst this; rfl
  | sel c =>
    simp only [Out.bind_eq_ok] at h
    obtain ⟨y, hy, h⟩ := h
    have hnt : ¬ SOGAWorldCall.Touches i (SOGAWorldCall.call i (.sel c) : SOGAWorldCall κ A Ω V α) := by
      rintro ((h | ⟨j, h⟩) | ⟨u, b, h⟩ | ⟨e, d, h⟩) <;> cases h
    refine ⟨{ x with obj := y }, hx', (Out.ok.inj h).symm, .inr rfl, fun _ => ⟨rfl, rfl, ?_⟩, fun h => absurd h hnt,
      fun ho => ⟨hy, ho⟩⟩
    simp only [sogaFullCall, Out.bind_eq_ok] at hy
    obtain ⟨z, -, hz⟩ := hy
    have := Out.ok.inj hz
    subst this; rfl
  | initializePop u b =>
    simp only [Out.bind_eq_ok] at h
    obtain ⟨y, hy, h⟩ := h
    exact ⟨_, hx', (Out.ok.inj h).symm, .inl rfl, fun hn => absurd (.inr (.inl ⟨u, b, rfl⟩)) hn, fun _ => rfl,
      fun ho => ⟨hy, rfl⟩⟩
  | run e d =>
    simp only at h
    split at h
    · rename_i hr
      simp only [Out.bind_eq_ok] at h
      obtain ⟨r, hr2, h⟩ := h
      refine ⟨_, hx', (Out.ok.inj h).symm, .inl rfl, fun hn => absurd (.inr (.inr ⟨e, d, rfl⟩)) hn, fun _ => rfl,
        fun ho => ⟨?_, rfl⟩⟩
      rw [show w.reader x = fun pop => deref pop x.obj.st.best from by
        funext pop; simp only [World.reader, ho, if_true]] at hr2
      simp only [sogaFullCall, hr, if_true]
      have h3 := opsFrom_loop opt cap junk rec (fun pop => deref pop x.obj.st.best) x.obj e d x.obj.core.maxGen
        x.obj.core.maxFail (x.obj.core.maxGen + 1) 0 { x.obj.st with fail := 0 } []
      have h4 : gaOpsLoop rec (x.obj.opsFrom opt cap junk (fun pop => deref pop x.obj.st.best) e d) x.obj.core.maxGen
          x.obj.core.maxFail (x.obj.core.maxGen + 1) 0 ({ x.obj.st with fail := 0 }, true) [] =
        gaOpsLoop rec (x.obj.opsFrom opt cap junk (fun pop => deref pop x.obj.st.best) e d) x.obj.core.maxGen
          x.obj.core.maxFail (x.obj.core.maxGen + 1) 0 ({ x.obj.st with fail := 0 }, false) [] := by
        unfold gaOpsLoop
        simp only [SOGAFull.opsFrom, bind_assoc, Out.ok_bind, Bool.false_eq_true, if_false, if_true]
      rw [h4, h3, Out.bind_eq_ok] at hr2
      obtain ⟨r', hr', h5⟩ := hr2
      have := Out.ok.inj h5
      subst this
      rw [hr']; rfl
    · cases h

/-- Every event keeps the numbering sane. -/
theorem sogaWorld_wf {w w' : World (SOGAFull κ A Ω V α)} (hw : w.WF) {c : SOGAWorldCall κ A Ω V α}
    (h : sogaWorldCall rec opt cap junk w c = .ok w') : w'.WF := by
  cases c with
  | make p q j =>
    have := Out.ok.inj h; subst this
    exact wf_make hw _ _ fun j v h => by cases h
  | copy i => exact wf_copy hw h
  | assign i j => exact wf_assign hw h
  | destroy i => exact wf_destroy hw h
  | call i c =>
    obtain ⟨x, y, hx, rfl, hy, -⟩ := sogaWorldObj_spec rec opt cap junk h
    refine wf_put hw hx fun j v hj => ?_
    rcases hy with hy | hy
    · rw [hy] at hj; cases hj
    · rw [hy] at hj; exact hw.homes i x j v hx hj

theorem sogaWorld_session_wf {w w' : World (SOGAFull κ A Ω V α)} (hw : w.WF) (cs : List (SOGAWorldCall κ A Ω V α))
    (h : sogaWorldSession rec opt cap junk w cs = .ok w') : w'.WF := by
  induction cs generalizing w with
  | nil => have := Out.ok.inj h; subst this; exact hw
  | cons c cs ih =>
    simp only [sogaWorldSession, List.foldlM_cons, Out.bind_eq_ok] at h
    obtain ⟨w1, h1, h2⟩ := h
    exact ih (sogaWorld_wf rec opt cap junk hw h1) h2

/-- An event that does not replace or destroy an object: what happens to it. -/
theorem sogaWorld_step {w w' : World (SOGAFull κ A Ω V α)} (hw : w.WF) {c : SOGAWorldCall κ A Ω V α}
    (h : sogaWorldCall rec opt cap junk w c = .ok w') {i : Nat} {x : Held (SOGAFull κ A Ω V α)} (hx : w.objs i = some x)
    (hc : ¬ SOGAWorldCall.Replaces i c) :
    (∀ d, SOGAWorldCall.callOn? i c = some d → sogaWorldObjCall rec opt cap junk w i d = .ok w') ∧
    (SOGAWorldCall.callOn? i c = none → w'.objs i = some x) := by
  cases c with
  | make p q j =>
    have := Out.ok.inj h; subst this
    refine ⟨(fun d hd => by cases hd), fun _ => ?_⟩
    rw [make_other _ _ _ (Nat.ne_of_lt (wf_lt hw hx)), hx]
  | copy k =>
    refine ⟨(fun d hd => by cases hd), fun _ => ?_⟩
    simp only [sogaWorldCall, World.copy, Out.bind_eq_ok] at h
    obtain ⟨y, -, h⟩ := h
    have := Out.ok.inj h; subst this
    rw [make_other _ _ _ (Nat.ne_of_lt (wf_lt hw hx)), hx]
  | assign k j =>
    refine ⟨(fun d hd => by cases hd), fun _ => ?_⟩
    have hk : i ≠ k := fun h => hc (.inr ⟨j, by rw [h]⟩)
    simp only [sogaWorldCall, World.assign, Out.bind_eq_ok] at h
    obtain ⟨y, -, z, -, h⟩ := h
    split at h
    · have := Out.ok.inj h; subst this; exact hx
    · have := Out.ok.inj h; subst this; rw [put_other _ _ hk, hx]
  | destroy k =>
    refine ⟨(fun d hd => by cases hd), fun _ => ?_⟩
    have hk : i ≠ k := fun h => hc (.inl (by rw [h]))
    simp only [sogaWorldCall, World.destroy, Out.bind_eq_ok] at h
    obtain ⟨y, -, h⟩ := h
    have := Out.ok.inj h; subst this
    simp [hk, hx]
  | call k d =>
    by_cases hk : k = i
    · subst hk
      refine ⟨fun d' hd => ?_, fun hn => ?_⟩
      · simp only [SOGAWorldCall.callOn?, if_true] at hd
        have := Option.some.inj hd; subst this; exact h
      · simp [SOGAWorldCall.callOn?] at hn
    · refine ⟨fun d' hd => ?_, fun _ => ?_⟩
      · simp [SOGAWorldCall.callOn?, hk] at hd
      · obtain ⟨y, z, hy, rfl, -⟩ := sogaWorldObj_spec rec opt cap junk h
        rw [put_other _ _ (fun h => hk h.symm), hx]

/-- An object that is not replaced, destroyed or copied from elsewhere behaves as if it were alone: what becomes of it depends only on
the calls made on it, and its accessors are those of the object alone. -/
theorem soga_objects_independent {w w' : World (SOGAFull κ A Ω V α)} (before cs : List (SOGAWorldCall κ A Ω V α))
    (hw : sogaWorldSession rec opt cap junk .empty before = .ok w)
    (h : sogaWorldSession rec opt cap junk w cs = .ok w') {i : Nat} {x : Held (SOGAFull κ A Ω V α)}
    (hx : w.objs i = some x) (hown : x.home = .own) (hc : ∀ c ∈ cs, ¬ SOGAWorldCall.Replaces i c) :
    ∃ y, w'.objs i = some y ∧ y.home = .own ∧
      sogaFullSession rec opt cap junk x.obj (cs.filterMap (SOGAWorldCall.callOn? i)) = .ok y.obj ∧
      w'.result i = y.obj.result ∧ w'.bestFitness i = y.obj.bestFitness := by
  have hwf := sogaWorld_session_wf rec opt cap junk wf_empty before hw
  clear hw
  induction cs generalizing w x with
  | nil =>
    have := Out.ok.inj h; subst this
    refine ⟨x, hx, hown, rfl, ?_, ?_⟩ <;>
      simp [World.result, World.bestFitness, World.bestGene, world_get' hx, World.homePop, hown, SOGAFull.result, SOGAFull.bestFitness]
  | cons c cs ih =>
    simp only [sogaWorldSession, List.foldlM_cons, Out.bind_eq_ok] at h
    obtain ⟨w1, h1, h2⟩ := h
    obtain ⟨hs1, hs2⟩ := sogaWorld_step rec opt cap junk hwf h1 hx (hc c (by simp))
    have hwf1 := sogaWorld_wf rec opt cap junk hwf h1
    have hc1 : ∀ c ∈ cs, ¬ SOGAWorldCall.Replaces i c := fun c h => hc c (by simp [h])
    cases hd : SOGAWorldCall.callOn? i c with
    | none =>
      obtain ⟨y, h3⟩ := ih h2 (hs2 hd) hown hc1 hwf1
      refine ⟨y, ?_⟩
      rw [List.filterMap_cons_none hd]; exact h3
    | some d =>
      obtain ⟨x', y, hx', rfl, -, -, -, hy⟩ := sogaWorldObj_spec rec opt cap junk (hs1 d hd)
      rw [hx] at hx'
      have := Option.some.inj hx'; subst this
      obtain ⟨hy1, hy2⟩ := hy hown
      obtain ⟨z, hz1, hz2, hz3, hz4⟩ := ih h2 (put_same w i y) hy2 hc1 hwf1
      refine ⟨z, hz1, hz2, ?_, hz4⟩
      rw [List.filterMap_cons_some hd]
      simp only [sogaFullSession, List.foldlM_cons, hy1, Out.ok_bind]
      exact hz3

/-- After `initializePop` or `run` an object that was a copy is independent. -/
theorem soga_touched_owns {w w' : World (SOGAFull κ A Ω V α)} {i : Nat} {c : SOGAWorldCall κ A Ω V α}
    (hc : (∃ u b, c = .call i (.initializePop u b)) ∨ ∃ e d, c = .call i (.run e d))
    (h : sogaWorldCall rec opt cap junk w c = .ok w') : ∃ y, w'.objs i = some y ∧ y.home = .own := by
  rcases hc with ⟨u, b, rfl⟩ | ⟨e, d, rfl⟩
  · have h' : sogaWorldObjCall rec opt cap junk w i (.initializePop u b) = .ok w' := h
    obtain ⟨x, y, hx, rfl, -, -, hy, -⟩ := sogaWorldObj_spec rec opt cap junk h'
    exact ⟨y, put_same _ _ _, hy (.inr (.inl ⟨u, b, rfl⟩))⟩
  · have h' : sogaWorldObjCall rec opt cap junk w i (.run e d) = .ok w' := h
    obtain ⟨x, y, hx, rfl, -, -, hy, -⟩ := sogaWorldObj_spec rec opt cap junk h'
    exact ⟨y, put_same _ _ _, hy (.inr (.inr ⟨e, d, rfl⟩))⟩

/-- A copy has the same content and reports the same as the original; nothing else changes. -/
theorem soga_copy_same {w w' : World (SOGAFull κ A Ω V α)} (before : List (SOGAWorldCall κ A Ω V α))
    (hw : sogaWorldSession rec opt cap junk .empty before = .ok w) {i : Nat} (h : w.copy i = .ok w') :
    (∃ x y, w.objs i = some x ∧ w'.objs w.next = some y ∧ y.obj = x.obj) ∧ w.objs w.next = none ∧
      (∀ j, j ≠ w.next → w'.objs j = w.objs j) ∧
      w'.result w.next = w.result i ∧ w'.bestFitness w.next = w.bestFitness i := by
  have hwf := sogaWorld_session_wf rec opt cap junk wf_empty before hw
  simp only [World.copy, Out.bind_eq_ok] at h
  obtain ⟨x, hx, h⟩ := h
  have := Out.ok.inj h; subst this
  have hbest : (w.make x.obj (x.home.copied i x.version)).bestGene w.next = w.bestGene i := by
    simp only [World.bestGene, world_get' (make_same w x.obj (x.home.copied i x.version)), hx, Out.ok_bind]
    rw [homePop_copied (fun o => o.st.pop) hwf (world_get hx)]
    intro j hj
    exact make_other _ _ _ (Nat.ne_of_lt hj)
  refine ⟨⟨x, _, world_get hx, make_same _ _ _, rfl⟩, hwf.fresh _ (Nat.le_refl _), fun j hj => make_other _ _ _ hj, ?_, ?_⟩
  · simp only [World.result, hbest]
  · simp only [World.bestFitness, hbest]

/-- An assignment `a = b` gives `a` the content of `b`, and `a` then reports the same as `b`. -/
theorem soga_assign_same {w w' : World (SOGAFull κ A Ω V α)} (before : List (SOGAWorldCall κ A Ω V α))
    (hw : sogaWorldSession rec opt cap junk .empty before = .ok w) {i j : Nat} (hij : i ≠ j) (h : w.assign i j = .ok w')
    (hnoti : ∀ y v, w.objs j = some y → y.home ≠ .at i v) :
    (∃ x y, w.objs j = some x ∧ w'.objs i = some y ∧ y.obj = x.obj) ∧ (∀ k, k ≠ i → w'.objs k = w.objs k) ∧
      w'.result i = w.result j ∧ w'.bestFitness i = w.bestFitness j := by
  have hwf := sogaWorld_session_wf rec opt cap junk wf_empty before hw
  simp only [World.assign, Out.bind_eq_ok] at h
  obtain ⟨x, hx, y, hy, h⟩ := h
  rw [if_neg hij] at h
  have := Out.ok.inj h; subst this
  have hbest : (w.put i ⟨y.obj, x.version + 1, y.home.copied j y.version⟩).bestGene i = w.bestGene j := by
    simp only [World.bestGene, world_get' (put_same w i _), hy, Out.ok_bind]
    have hy' := world_get hy
    congr 1
    unfold World.homePop
    cases hh : y.home with
    | unset => rfl
    | own =>
      have : (w.put i ⟨y.obj, x.version + 1, .at j y.version⟩).get j = .ok y :=
        world_get' (by rw [put_other _ _ (fun h => hij h.symm), hy'])
      simp [Home.copied, this]
    | «at» k v =>
      have hk : k ≠ i := fun h => hnoti y v hy' (by rw [hh, h])
      have : (w.put i ⟨y.obj, x.version + 1, .at k v⟩).get k = w.get k := by
        unfold World.get; rw [put_other _ _ hk]
      simp [Home.copied, this]
  refine ⟨⟨y, _, world_get hy, put_same _ _ _, rfl⟩, fun k hk => put_other _ _ hk, ?_, ?_⟩
  · simp only [World.result, hbest]
  · simp only [World.bestFitness, hbest]

theorem not_replaces {i : Nat} {c : SOGAWorldCall κ A Ω V α} (h : ¬ SOGAWorldCall.Touches i c) :
    ¬ SOGAWorldCall.Replaces i c := fun h' => h (.inl h')

/-- An object that is not touched keeps its population, its version and where its pointers lead. -/
theorem sogaWorld_untouched {w w' : World (SOGAFull κ A Ω V α)} (hwf : w.WF) (cs : List (SOGAWorldCall κ A Ω V α))
    (h : sogaWorldSession rec opt cap junk w cs = .ok w') {i : Nat} {x : Held (SOGAFull κ A Ω V α)}
    (hx : w.objs i = some x) (hc : ∀ c ∈ cs, ¬ SOGAWorldCall.Touches i c) :
    ∃ y, w'.objs i = some y ∧ y.home = x.home ∧ y.version = x.version ∧ y.obj.st = x.obj.st ∧
      sogaFullSession rec opt cap junk x.obj (cs.filterMap (SOGAWorldCall.callOn? i)) = .ok y.obj := by
  induction cs generalizing w x with
  | nil => have := Out.ok.inj h; subst this; exact ⟨x, hx, rfl, rfl, rfl, rfl⟩
  | cons c cs ih =>
    simp only [sogaWorldSession, List.foldlM_cons, Out.bind_eq_ok] at h
    obtain ⟨w1, h1, h2⟩ := h
    have hct := hc c (by simp)
    obtain ⟨hs1, hs2⟩ := sogaWorld_step rec opt cap junk hwf h1 hx (not_replaces hct)
    have hwf1 := sogaWorld_wf rec opt cap junk hwf h1
    have hc1 : ∀ c ∈ cs, ¬ SOGAWorldCall.Touches i c := fun c h => hc c (by simp [h])
    cases hd : SOGAWorldCall.callOn? i c with
    | none =>
      obtain ⟨y, h3⟩ := ih hwf1 h2 (hs2 hd) hc1
      refine ⟨y, ?_⟩
      rw [List.filterMap_cons_none hd]; exact h3
    | some d =>
      have hcall : c = .call i d := by
        cases c with
        | call k e =>
          simp only [SOGAWorldCall.callOn?] at hd
          split at hd
          · next hk => rw [hk, Option.some.inj hd]
          · cases hd
        | _ => cases hd
      rw [hcall] at hct
      have hobj := hs1 d hd
      obtain ⟨x', y, hx', rfl, -, hy, -, -⟩ := sogaWorldObj_spec rec opt cap junk hobj
      rw [hx] at hx'
      have := Option.some.inj hx'; subst this
      obtain ⟨hy1, hy2, hy3⟩ := hy hct
      obtain ⟨z, hz1, hz2, hz3, hz4, hz5⟩ := ih hwf1 h2 (put_same w i y) hc1
      refine ⟨z, hz1, hz2.trans hy1, hz3.trans hy2, hz4.trans hy3, ?_⟩
      rw [List.filterMap_cons_some hd]
      have hstep : sogaFullCall rec opt cap junk x.obj d = .ok y.obj := by
        simp only [sogaWorldObjCall, world_get' hx, Out.ok_bind] at hobj
        have hinj : ∀ a b : Held (SOGAFull κ A Ω V α), w.put i a = w.put i b → a = b := fun a b hab => by
          have := congrArg (fun v : World (SOGAFull κ A Ω V α) => v.objs i) hab
          simp only [put_same] at this
          exact Option.some.inj this
        cases d with
        | set s =>
          simp only [Out.bind_eq_ok] at hobj
          obtain ⟨z, hz, hw⟩ := hobj
          rw [hz, ← hinj _ _ (Out.ok.inj hw)]
        | sel s =>
          simp only [Out.bind_eq_ok] at hobj
          obtain ⟨z, hz, hw⟩ := hobj
          rw [hz, ← hinj _ _ (Out.ok.inj hw)]
        | initializePop u b => exact absurd (.inr (.inl ⟨u, b, rfl⟩)) hct
        | run e d => exact absurd (.inr (.inr ⟨e, d, rfl⟩)) hct
      simp only [sogaFullSession, List.foldlM_cons, hstep, Out.ok_bind]
      exact hz5

/-- A copy of an object that owns its best individual refers to that individual of the original. -/
theorem copy_lands {w w1 : World (SOGAFull κ A Ω V α)} {i : Nat} {x : Held (SOGAFull κ A Ω V α)}
    (hx : w.objs i = some x) (hown : x.home = .own) (h : w.copy i = .ok w1) :
    w1 = w.make x.obj (.at i x.version) := by
  simp only [World.copy, world_get' hx, Out.ok_bind, hown] at h
  exact (Out.ok.inj h).symm

/-- A copy keeps reporting what it reported when it was made, as long as neither the copy nor the original is initialised,
run, assigned or destroyed; changing settings of either does not matter. -/
theorem soga_copy_keeps_result {w w1 w2 : World (SOGAFull κ A Ω V α)} (before cs : List (SOGAWorldCall κ A Ω V α))
    (hw : sogaWorldSession rec opt cap junk .empty before = .ok w) {i : Nat} {x : Held (SOGAFull κ A Ω V α)}
    (hx : w.objs i = some x) (hown : x.home = .own) (h1 : w.copy i = .ok w1)
    (h2 : sogaWorldSession rec opt cap junk w1 cs = .ok w2)
    (hc : ∀ c ∈ cs, ¬ SOGAWorldCall.Touches w.next c ∧ ¬ SOGAWorldCall.Touches i c) :
    w2.result w.next = w.result i ∧ w2.bestFitness w.next = w.bestFitness i := by
  have hwf := sogaWorld_session_wf rec opt cap junk wf_empty before hw
  have hwf1 := wf_copy hwf h1
  have hl := copy_lands hx hown h1
  have hi : w1.objs i = some x := by rw [hl, make_other _ _ _ (Nat.ne_of_lt (wf_lt hwf hx)), hx]
  obtain ⟨o, ho1, ho2, ho3, ho4, -⟩ := sogaWorld_untouched rec opt cap junk hwf1 cs h2 hi fun c h => (hc c h).2
  have hn : w1.objs w.next = some ⟨x.obj, 0, .at i x.version⟩ := by rw [hl, make_same]
  obtain ⟨c, hc1, hc2, hc3, hc4, -⟩ := sogaWorld_untouched rec opt cap junk hwf1 cs h2 hn fun c h => (hc c h).1
  have hb : w2.bestGene w.next = w.bestGene i := by
    simp only [World.bestGene, world_get' hc1, world_get' hx, Out.ok_bind, World.homePop, hc2, hown, world_get' ho1, ho3,
      if_true, ho4, hc4]
  simp only [World.result, World.bestFitness, hb, and_self]

/-- If the original has been destroyed, initialised to a smaller size, run or replaced, a copy that has not been initialised since
refers to an individual that is gone: reading its result is undefined, and so is running it. -/
theorem soga_stale_copy {w : World (SOGAFull κ A Ω V α)} {n i v : Nat} {c : Held (SOGAFull κ A Ω V α)}
    (hc : w.objs n = some c) (hh : c.home = .at i v) (hgone : ∀ y, w.objs i = some y → y.version ≠ v) :
    w.result n = .ub ∧ w.bestFitness n = .ub ∧
      ∀ e d w', sogaWorldCall rec opt cap junk w (.call n (.run e d)) ≠ .ok w' := by
  have hp : w.homePop (fun o => o.st.pop) c = .ub := by
    simp only [World.homePop, hh, World.get]
    cases hy : w.objs i with
    | none => rfl
    | some y => show (if y.version = v then _ else _) = _; rw [if_neg (hgone y hy)]
  have hb : w.bestGene n = .ub := by
    simp only [World.bestGene, world_get' hc, Out.ok_bind, hp]; rfl
  refine ⟨by simp only [World.result, hb]; rfl, by simp only [World.bestFitness, hb]; rfl, fun e d w' h => ?_⟩
  simp only [sogaWorldCall, sogaWorldObjCall, world_get' hc, Out.ok_bind] at h
  split at h
  · rw [Out.bind_eq_ok] at h
    obtain ⟨r, hr, -⟩ := h
    refine opsFrom_never opt cap junk rec c.obj e d _ _ _ _ _ _ _ ?_ r hr
    funext pop
    simp only [World.reader, hh, hp]; rfl
  · cases h

/-- The object is gone, or its list has at least this version. -/
def GoneOr (w : World (SOGAFull κ A Ω V α)) (i v : Nat) : Prop := i < w.next ∧ ∀ y, w.objs i = some y → v ≤ y.version

theorem goneOr_step {w w' : World (SOGAFull κ A Ω V α)} {i v : Nat} (h : GoneOr w i v) {c : SOGAWorldCall κ A Ω V α}
    (hc : sogaWorldCall rec opt cap junk w c = .ok w') :
    GoneOr w' i v ∧ (SOGAWorldCall.Erases w i c → GoneOr w' i (v + 1)) := by
  have aux : ∀ u, v ≤ u → GoneOr w' i u → GoneOr w' i v := fun u hu hg => ⟨hg.1, fun y hy => le_trans hu (hg.2 y hy)⟩
  cases c with
  | make p q j =>
    have := Out.ok.inj hc; subst this
    refine ⟨⟨Nat.lt_succ_of_lt h.1, fun y hy => ?_⟩, ?_⟩
    · rw [make_other _ _ _ (Nat.ne_of_lt h.1)] at hy; exact h.2 y hy
    · rintro (h | ⟨k, -, h⟩ | ⟨e, d, h⟩ | ⟨u, b, x, h, -⟩) <;> cases h
  | copy k =>
    simp only [sogaWorldCall, World.copy, Out.bind_eq_ok] at hc
    obtain ⟨y, -, hc⟩ := hc
    have := Out.ok.inj hc; subst this
    refine ⟨⟨Nat.lt_succ_of_lt h.1, fun y hy => ?_⟩, ?_⟩
    · rw [make_other _ _ _ (Nat.ne_of_lt h.1)] at hy; exact h.2 y hy
    · rintro (h | ⟨k, -, h⟩ | ⟨e, d, h⟩ | ⟨u, b, x, h, -⟩) <;> cases h
  | assign k j =>
    simp only [sogaWorldCall, World.assign, Out.bind_eq_ok] at hc
    obtain ⟨x, hx, y, hy, hc⟩ := hc
    split at hc
    · rename_i hkj
      have := Out.ok.inj hc; subst this
      refine ⟨h, ?_⟩
      rintro (h | ⟨l, hl, h⟩ | ⟨e, d, h⟩ | ⟨u, b, x, h, -⟩)
      · cases h
      · cases h; exact absurd hkj.symm hl
      · cases h
      · cases h
    · have := Out.ok.inj hc; subst this
      by_cases hk : i = k
      · have hg : GoneOr (w.put k ⟨y.obj, x.version + 1, y.home.copied j y.version⟩) i (v + 1) := by
          refine ⟨h.1, fun z hz => ?_⟩
          rw [hk, put_same] at hz
          have := Option.some.inj hz; subst this
          have := h.2 x (by rw [hk]; exact world_get hx)
          show v + 1 ≤ x.version + 1
          omega
        exact ⟨aux _ (Nat.le_succ v) hg, fun _ => hg⟩
      · refine ⟨⟨h.1, fun z hz => ?_⟩, ?_⟩
        · rw [put_other _ _ hk] at hz; exact h.2 z hz
        · rintro (h | ⟨l, hl, h⟩ | ⟨e, d, h⟩ | ⟨u, b, x, h, -⟩)
          · cases h
          · cases h; exact absurd rfl hk
          · cases h
          · cases h
  | destroy k =>
    simp only [sogaWorldCall, World.destroy, Out.bind_eq_ok] at hc
    obtain ⟨y, -, hc⟩ := hc
    have := Out.ok.inj hc; subst this
    by_cases hk : i = k
    · have hg : ∀ u, GoneOr ({ w with objs := fun j => if j = k then none else w.objs j }) i u := by
        intro u
        refine ⟨h.1, fun z hz => ?_⟩
        have hz' : (if i = k then none else w.objs i) = some z := hz
        rw [if_pos hk] at hz'; cases hz'
      exact ⟨hg _, fun _ => hg _⟩
    · refine ⟨⟨h.1, fun z hz => ?_⟩, ?_⟩
      · have hz' : (if i = k then none else w.objs i) = some z := hz
        rw [if_neg hk] at hz'; exact h.2 z hz'
      · rintro (h | ⟨l, hl, h⟩ | ⟨e, d, h⟩ | ⟨u, b, x, h, -⟩)
        · cases h; exact absurd rfl hk
        · cases h
        · cases h
        · cases h
  | call k d =>
    have hc' : sogaWorldObjCall rec opt cap junk w k d = .ok w' := hc
    by_cases hk : i = k
    · subst hk
      simp only [sogaWorldObjCall, Out.bind_eq_ok] at hc'
      obtain ⟨x, hx, hc'⟩ := hc'
      have hv := h.2 x (world_get hx)
      have fin : ∀ z : Held (SOGAFull κ A Ω V α), ∀ u, u ≤ z.version → GoneOr (w.put i z) i u := fun z u hu =>
        ⟨h.1, fun y hy => by rw [put_same] at hy; have := Option.some.inj hy; subst this; exact hu⟩
      cases d with
      | set s =>
        simp only [Out.bind_eq_ok] at hc'
        obtain ⟨y, -, hc'⟩ := hc'
        have := Out.ok.inj hc'; subst this
        refine ⟨fin _ _ hv, ?_⟩
        rintro (h | ⟨l, hl, h⟩ | ⟨e, d, h⟩ | ⟨u, b, x, h, -⟩) <;> cases h
      | sel s =>
        simp only [Out.bind_eq_ok] at hc'
        obtain ⟨y, -, hc'⟩ := hc'
        have := Out.ok.inj hc'; subst this
        refine ⟨fin _ _ hv, ?_⟩
        rintro (h | ⟨l, hl, h⟩ | ⟨e, d, h⟩ | ⟨u, b, x, h, -⟩) <;> cases h
      | initializePop u b =>
        simp only [Out.bind_eq_ok] at hc'
        obtain ⟨y, -, hc'⟩ := hc'
        have := Out.ok.inj hc'; subst this
        constructor
        · refine fin _ _ ?_
          show v ≤ if x.obj.core.K < x.obj.st.pop.length then x.version + 1 else x.version
          split <;> omega
        · rintro (h | ⟨l, hl, h⟩ | ⟨e, d, h⟩ | ⟨u, b, x', h, hx', hlt⟩)
          · cases h
          · cases h
          · cases h
          · rw [world_get hx] at hx'
            have := Option.some.inj hx'; subst this
            refine fin _ _ ?_
            show v + 1 ≤ if x.obj.core.K < x.obj.st.pop.length then x.version + 1 else x.version
            rw [if_pos hlt]; omega
      | run e d =>
        simp only at hc'
        split at hc'
        · rw [Out.bind_eq_ok] at hc'
          obtain ⟨r, -, hc'⟩ := hc'
          have := Out.ok.inj hc'; subst this
          exact ⟨fin _ _ (Nat.le_succ_of_le hv), fun _ => fin _ _ (Nat.succ_le_succ hv)⟩
        · cases hc'
    · obtain ⟨y, z, hy, rfl, -⟩ := sogaWorldObj_spec rec opt cap junk hc'
      refine ⟨⟨h.1, fun u hu => ?_⟩, ?_⟩
      · rw [put_other _ _ hk] at hu; exact h.2 u hu
      · rintro (h | ⟨l, hl, h⟩ | ⟨e, d, h⟩ | ⟨u, b, x, h, -⟩)
        · cases h
        · cases h
        · cases h; exact absurd rfl hk
        · cases h; exact absurd rfl hk

theorem goneOr_session {w w' : World (SOGAFull κ A Ω V α)} {i v : Nat} (h : GoneOr w i v)
    (cs : List (SOGAWorldCall κ A Ω V α)) (hc : sogaWorldSession rec opt cap junk w cs = .ok w') : GoneOr w' i v := by
  induction cs generalizing w with
  | nil => have := Out.ok.inj hc; subst this; exact h
  | cons c cs ih =>
    simp only [sogaWorldSession, List.foldlM_cons, Out.bind_eq_ok] at hc
    obtain ⟨w1, h1, h2⟩ := hc
    exact ih (goneOr_step rec opt cap junk h h1).1 h2

/-- A copy whose original was destroyed (for example because a `std::vector` of solvers grew, or the copy was returned from a
function), replaced, run, or initialised to a smaller size: until the copy is initialised again its result is undefined and it
cannot run, whatever happens to other objects. -/
theorem soga_orphan {w w1 w2 w3 w4 : World (SOGAFull κ A Ω V α)} (before cs ds : List (SOGAWorldCall κ A Ω V α))
    (hw : sogaWorldSession rec opt cap junk .empty before = .ok w) {i : Nat} {x : Held (SOGAFull κ A Ω V α)}
    (hx : w.objs i = some x) (hown : x.home = .own) (h1 : w.copy i = .ok w1)
    (h2 : sogaWorldSession rec opt cap junk w1 cs = .ok w2) (c : SOGAWorldCall κ A Ω V α)
    (h3 : sogaWorldCall rec opt cap junk w2 c = .ok w3) (hera : SOGAWorldCall.Erases w2 i c)
    (h4 : sogaWorldSession rec opt cap junk w3 ds = .ok w4)
    (hc : ∀ a ∈ cs ++ [c] ++ ds, ¬ SOGAWorldCall.Touches w.next a) :
    w4.result w.next = .ub ∧ w4.bestFitness w.next = .ub ∧
      ∀ e d w', sogaWorldCall rec opt cap junk w4 (.call w.next (.run e d)) ≠ .ok w' := by
  have hwf := sogaWorld_session_wf rec opt cap junk wf_empty before hw
  have hwf1 := wf_copy hwf h1
  have hl := copy_lands hx hown h1
  have hin := wf_lt hwf hx
  have hn1 : w1.objs w.next = some ⟨x.obj, 0, .at i x.version⟩ := by rw [hl, make_same]
  have hall : sogaWorldSession rec opt cap junk w1 (cs ++ [c] ++ ds) = .ok w4 := by
    unfold sogaWorldSession at h2 h4 ⊢
    rw [List.foldlM_append, List.foldlM_append, h2, Out.ok_bind]
    simp only [List.foldlM_cons, List.foldlM_nil]
    rw [h3, Out.ok_bind]
    exact h4
  obtain ⟨o, ho1, ho2, -⟩ := sogaWorld_untouched rec opt cap junk hwf1 _ hall hn1 hc
  have hg1 : GoneOr w1 i x.version := by
    rw [hl]
    refine ⟨Nat.lt_succ_of_lt hin, fun y hy => ?_⟩
    rw [make_other _ _ _ (Nat.ne_of_lt hin), hx] at hy
    have := Option.some.inj hy; subst this; exact le_refl _
  have hg2 := goneOr_session rec opt cap junk hg1 cs h2
  have hg3 := (goneOr_step rec opt cap junk hg2 h3).2 hera
  have hg4 := goneOr_session rec opt cap junk hg3 ds h4
  refine soga_stale_copy rec opt cap junk ho1 ho2 fun y hy => ?_
  have := hg4.2 y hy
  omega

theorem deref_evaluate {x : GACore κ A Ω V α} {pop p : Pop (Gene V α)} (h : x.evaluate pop = .ok p) {a : Addr}
    {g : Gene V α} (hg : deref pop a = .ok g) (hc : g.computed = true) : deref p a = .ok g := by
  have key : ∀ f : V → α, deref (computeAllFitness f pop) a = .ok g := by
    intro f
    clear h
    induction pop with
    | nil => cases hg
    | cons c cs ih =>
      simp only [computeAllFitness, List.map_cons]
      unfold deref at hg ⊢
      rw [List.find?_cons] at hg ⊢
      by_cases hca : c.1 = a
      · simp only [hca, beq_self_eq_true] at hg ⊢
        have := Out.ok.inj hg
        subst this
        simp [evalGene, hc]
      · have hca' : (c.1 == a) = false := by simpa using hca
        simp only [hca'] at hg ⊢
        exact ih hg
  unfold GACore.evaluate at h
  split at h
  · have := Out.ok.inj h; subst this; exact hg
  · rw [Out.bind_eq_ok] at h
    obtain ⟨f, -, h⟩ := h
    have := Out.ok.inj h; subst this
    exact key _

/-- A copy that is run while its original is left alone gives what the original would give with the same calls and the same draws,
provided the best individual of the original has been evaluated (which is the case after a run); the original and all other
objects stay as they are, and the copy is independent from then on. -/
theorem soga_run_on_copy {w w1 w2 : World (SOGAFull κ A Ω V α)} (before cs : List (SOGAWorldCall κ A Ω V α))
    (hw : sogaWorldSession rec opt cap junk .empty before = .ok w) {i : Nat} {x : Held (SOGAFull κ A Ω V α)}
    (hx : w.objs i = some x) (hown : x.home = .own) (h1 : w.copy i = .ok w1)
    (h2 : sogaWorldSession rec opt cap junk w1 cs = .ok w2)
    (hc : ∀ c ∈ cs, ¬ SOGAWorldCall.Touches w.next c ∧ ¬ SOGAWorldCall.Touches i c)
    (hbest : ∀ g, deref x.obj.st.pop x.obj.st.best = .ok g → g.computed = true)
    (e : Nat → SelDraw (Gene V α) α) (d : Nat → VaryDraw κ Ω V α) (y : SOGAFull κ A Ω V α)
    (hy : sogaFullSession rec opt cap junk x.obj (cs.filterMap (SOGAWorldCall.callOn? w.next) ++ [.run e d]) = .ok y) :
    ∃ w3 z, sogaWorldCall rec opt cap junk w2 (.call w.next (.run e d)) = .ok w3 ∧ w3.objs w.next = some z ∧
      z.obj = y ∧ z.home = .own ∧ ∀ j, j ≠ w.next → w3.objs j = w2.objs j := by
  have hwf := sogaWorld_session_wf rec opt cap junk wf_empty before hw
  have hwf1 := wf_copy hwf h1
  have hl := copy_lands hx hown h1
  have hi : w1.objs i = some x := by rw [hl, make_other _ _ _ (Nat.ne_of_lt (wf_lt hwf hx)), hx]
  obtain ⟨o, ho1, ho2, ho3, ho4, -⟩ := sogaWorld_untouched rec opt cap junk hwf1 cs h2 hi fun c h => (hc c h).2
  have hn : w1.objs w.next = some ⟨x.obj, 0, .at i x.version⟩ := by rw [hl, make_same]
  obtain ⟨c, hc1, hc2, hc3, hc4, hc5⟩ := sogaWorld_untouched rec opt cap junk hwf1 cs h2 hn fun c h => (hc c h).1
  have hsnoc : sogaFullSession rec opt cap junk x.obj (cs.filterMap (SOGAWorldCall.callOn? w.next) ++ [.run e d]) =
      sogaFullCall rec opt cap junk c.obj (.run e d) := by
    unfold sogaFullSession at hc5 ⊢
    rw [List.foldlM_append, hc5, Out.ok_bind]
    simp only [List.foldlM_cons, List.foldlM_nil]
    exact bind_pure _
  rw [hsnoc] at hy
  simp only [sogaFullCall] at hy
  simp only [sogaWorldCall, sogaWorldObjCall, world_get' hc1, Out.ok_bind]
  split at hy
  · rename_i hclear
    rw [if_pos hclear]
    rw [Out.bind_eq_ok] at hy
    obtain ⟨r, hr, hy⟩ := hy
    have hrd : w2.reader c = fun _ => deref x.obj.st.pop x.obj.st.best := by
      funext pop
      simp only [World.reader, hc2, reduceCtorEq, if_false, World.homePop, world_get' ho1, Out.ok_bind, ho3, if_true, ho4, hc4]
    rw [hrd]
    have hfirst := opsFrom_first opt cap junk rec (fun _ => deref x.obj.st.pop x.obj.st.best) c.obj e d c.obj.core.maxGen
      c.obj.core.maxFail c.obj.core.maxGen 0 { c.obj.st with fail := 0 } [] ?_ r hr
    · rw [hfirst, Out.ok_bind]
      refine ⟨_, _, rfl, put_same _ _ _, ?_, rfl, fun j hj => put_other _ _ hj⟩
      exact Out.ok.inj hy
    · intro p t hp ht
      obtain ⟨g, hg, hsel⟩ := runSelectFrom_const _ _ _ _ _ _ _ ht
      have hp' : c.obj.core.evaluate x.obj.st.pop = .ok p := by rw [← hc4]; exact hp
      have hg' : deref p x.obj.st.best = .ok g := by rw [← hc4]; exact hg
      have hdx : deref x.obj.st.pop x.obj.st.best = .ok g := by
        cases hdx : deref x.obj.st.pop x.obj.st.best with
        | ok g' =>
          have := deref_evaluate hp' hdx (hbest g' hdx)
          rw [hg'] at this
          exact this.symm
        | ub =>
          exfalso
          have := deref_ok hg'
          have hm : x.obj.st.best ∈ p.map (·.1) := List.mem_map.2 ⟨_, this, rfl⟩
          have haddr : p.map (·.1) = x.obj.st.pop.map (·.1) := by
            unfold GACore.evaluate at hp'
            split at hp'
            · have := Out.ok.inj hp'; subst this; rfl
            · rw [Out.bind_eq_ok] at hp'
              obtain ⟨f, -, h⟩ := hp'
              have := Out.ok.inj h; subst this
              exact computeAllFitness_addr _ _
          rw [haddr] at hm
          obtain ⟨q, hq, hqb⟩ := List.mem_map.1 hm
          unfold deref at hdx
          cases hf : x.obj.st.pop.find? (fun c => c.1 == x.obj.st.best) with
          | none =>
            have := List.find?_eq_none.1 hf q hq
            simp [hqb] at this
          | some q => rw [hf] at hdx; cases hdx
        | timeout =>
          unfold deref at hdx
          split at hdx <;> cases hdx
      rw [hdx]; exact hsel
  · cases hy

end soga

section evaluated
variable {κ A Ω V α : Type} [Field α] [LinearOrder α] [IsStrictOrderedRing α] [CommRing κ] [LinearOrder κ]
variable (opt : FitnessOption) (cap : Nat) (junk : α)

/-- After a history that ends with a `run`, every individual has been evaluated (so `soga_run_on_copy` applies). -/
theorem soga_run_evaluates (p q : κ) (j : GAJunk A α) (cs : List (SOGAFullCall κ A Ω V α))
    (e : Nat → SelDraw (Gene V α) α) (d : Nat → VaryDraw κ Ω V α) (hl : SOGAFullLegal (cs ++ [.run e d]))
    (x : SOGAFull κ A Ω V α) (h : sogaFullSession true opt cap junk (.new p q j) (cs ++ [.run e d]) = .ok x) :
    ∀ c ∈ x.st.pop, c.2.computed = true := by
  rw [sogaFull_snoc, Out.bind_eq_ok] at h
  obtain ⟨x0, hx0, hc⟩ := h
  have hl' : SOGAFullLegal cs := ⟨fun e d hm => hl.draws e d (List.mem_append_left _ hm),
    fun n hm => hl.tournament n (List.mem_append_left _ hm)⟩
  have hts := soga_tournament_pos opt cap junk true p q j cs hl' x0 hx0
  obtain ⟨cs', y0, hy0, hm0, hF⟩ := sogaFull_simulates opt cap junk (fun _ => 0) p q j cs hl' x0 hx0
  have he' : ∀ g, ValidEnv ((e g).with x0.sel junk) := fun g =>
    selDraw_valid junk (hl.draws e d (by simp) g) _ hts
  have hreach := soga_reachable opt _ _ cs' (mirror_valid hF) y0 hy0
  have hd0 : DistinctNodes x0.st.pop := by rw [← hm0.st]; exact hreach.distinct
  simp only [sogaFullCall] at hc
  split at hc
  · rw [Out.bind_eq_ok] at hc
    obtain ⟨r, hr, hc⟩ := hc
    have := Out.ok.inj hc; subst this
    have loop : ∀ (fuel gen : Nat) (s : SOState (Gene V α)) (record : List α), DistinctNodes s.pop →
        gaOpsLoop true (x0.ops opt cap junk e d) x0.core.maxGen x0.core.maxFail fuel gen s record = .ok r →
        ∀ c ∈ r.state.pop, c.2.computed = true := by
      intro fuel
      induction fuel with
      | zero => intro gen s record _ h; cases h
      | succ fuel ih =>
        intro gen s record hd h
        simp only [gaOpsLoop, Out.bind_eq_ok] at h
        obtain ⟨s1, h1, s2, h2, rec', -, h⟩ := h
        simp only [SOGAFull.ops, Out.bind_eq_ok] at h1
        obtain ⟨p1, hp1, h1⟩ := h1
        have := Out.ok.inj h1; subst this
        have hp1d : DistinctNodes p1 ∧ ∀ c ∈ p1, c.2.computed = true := by
          unfold GACore.evaluate at hp1
          split at hp1
          · rename_i hall
            have := Out.ok.inj hp1; subst this
            exact ⟨hd, fun c hc => List.all_eq_true.1 hall c hc⟩
          · rw [Out.bind_eq_ok] at hp1
            obtain ⟨f, -, hp1⟩ := hp1
            have := Out.ok.inj hp1; subst this
            refine ⟨by unfold DistinctNodes; rw [computeAllFitness_addr]; exact hd, fun c hc => ?_⟩
            obtain ⟨c0, -, rfl⟩ := List.mem_map.1 hc
            simp only [evalGene]
            split
            · assumption
            · rfl
        have hsp := runSelect_spec opt Gene.fitness _ _ (he' (gen + 1)) _ { s with pop := p1 } s2 hp1d.1 h2
        have hall2 : ∀ c ∈ s2.pop, c.2.computed = true := by
          intro c hc
          obtain ⟨c0, hc0, hce⟩ := hsp.noInvention c hc
          rw [← hce]; exact hp1d.2 c0 hc0
        split at h
        · have := Out.ok.inj h; subst this; exact hall2
        · split at h
          · have := Out.ok.inj h; subst this; exact hall2
          · rw [Out.bind_eq_ok] at h
            obtain ⟨s3, h3, h⟩ := h
            rw [Out.bind_eq_ok] at h
            obtain ⟨s4, h4, h⟩ := h
            refine ih _ _ _ ?_ h
            simp only [SOGAFull.ops, Out.bind_eq_ok] at h3 h4
            obtain ⟨p3, hp3, h3⟩ := h3
            have := Out.ok.inj h3; subst this
            obtain ⟨p4, hp4, h4⟩ := h4
            have := Out.ok.inj h4; subst this
            have e3 := core_crossover hp3
            have e4 := core_mutate hp4
            show DistinctNodes p4
            rw [e4, e3]
            exact ((crossoverLoop_appends _ _ _ _ _).trans (mutate_fold_appends _ _ _ _)).distinct hsp.distinct
    exact loop _ _ { x0.st with fail := 0 } _ hd0 hr
  · cases hc

end evaluated

section mo
variable {κ A Ω V α : Type} {m : Nat} [Zero α] [LinearOrder α] [CommRing κ] [LinearOrder κ]
variable (rec : Bool) (opt : FitnessOption) (cap : Nat)

/-- What a call on an object does: what it would do if the object were alone, and nothing to the others. -/
theorem moWorldObj_spec {w w' : World (MOFull κ A Ω V m α)} {i : Nat} {c : MOFullCall κ A Ω V m α}
    (h : moWorldObjCall rec opt cap w i c = .ok w') :
    ∃ x y, w.objs i = some x ∧ w' = w.put i y ∧ (y.home = .own ∨ y.home = x.home) ∧
      moFullCall rec opt cap x.obj c = .ok y.obj ∧
      (¬ (MOWorldCall.Touches i (.call i c)) → y.home = x.home ∧ y.version = x.version ∧ y.obj.st = x.obj.st) ∧
      (MOWorldCall.Touches i (.call i c) → y.home = .own) := by
  unfold moWorldObjCall at h
  simp only [Out.bind_eq_ok] at h
  obtain ⟨x, hx, y, hy, h⟩ := h
  refine ⟨x, ?_⟩
  have hx' := world_get hx
  cases c with
  | set c =>
    have hnt : ¬ MOWorldCall.Touches i (MOWorldCall.call i (.set c) : MOWorldCall κ A Ω V m α) := by
      rintro ((h | ⟨j, h⟩) | ⟨u, b, h⟩ | ⟨e, d, h⟩) <;> cases h
    refine ⟨{ x with obj := y }, hx', (Out.ok.inj h).symm, .inr rfl, hy, fun _ => ⟨rfl, rfl, ?_⟩, fun h => absurd h hnt⟩
    have := Out.ok.inj hy
    subst this; rfl
  | initializePop u b =>
    exact ⟨_, hx', (Out.ok.inj h).symm, .inl rfl, hy, fun hn => absurd (.inr (.inl ⟨u, b, rfl⟩)) hn, fun _ => rfl⟩
  | run e d =>
    exact ⟨_, hx', (Out.ok.inj h).symm, .inl rfl, hy, fun hn => absurd (.inr (.inr ⟨e, d, rfl⟩)) hn, fun _ => rfl⟩

theorem moWorld_wf {w w' : World (MOFull κ A Ω V m α)} (hw : w.WF) {c : MOWorldCall κ A Ω V m α}
    (h : moWorldCall rec opt cap w c = .ok w') : w'.WF := by
  cases c with
  | make p q a f g =>
    have := Out.ok.inj h; subst this
    exact wf_make hw _ _ fun j v h => by cases h
  | copy i => exact wf_copy hw h
  | assign i j => exact wf_assign hw h
  | destroy i => exact wf_destroy hw h
  | call i c =>
    obtain ⟨x, y, hx, rfl, hy, -⟩ := moWorldObj_spec rec opt cap h
    refine wf_put hw hx fun j v hj => ?_
    rcases hy with hy | hy
    · rw [hy] at hj; cases hj
    · rw [hy] at hj; exact hw.homes i x j v hx hj

theorem moWorld_session_wf {w w' : World (MOFull κ A Ω V m α)} (hw : w.WF) (cs : List (MOWorldCall κ A Ω V m α))
    (h : moWorldSession rec opt cap w cs = .ok w') : w'.WF := by
  induction cs generalizing w with
  | nil => have := Out.ok.inj h; subst this; exact hw
  | cons c cs ih =>
    simp only [moWorldSession, List.foldlM_cons, Out.bind_eq_ok] at h
    obtain ⟨w1, h1, h2⟩ := h
    exact ih (moWorld_wf rec opt cap hw h1) h2

theorem moWorld_step {w w' : World (MOFull κ A Ω V m α)} (hw : w.WF) {c : MOWorldCall κ A Ω V m α}
    (h : moWorldCall rec opt cap w c = .ok w') {i : Nat} {x : Held (MOFull κ A Ω V m α)} (hx : w.objs i = some x)
    (hc : ¬ MOWorldCall.Replaces i c) :
    (∀ d, MOWorldCall.callOn? i c = some d → c = .call i d ∧ moWorldObjCall rec opt cap w i d = .ok w') ∧
    (MOWorldCall.callOn? i c = none → w'.objs i = some x) := by
  cases c with
  | make p q a f g =>
    have := Out.ok.inj h; subst this
    refine ⟨(fun d hd => by cases hd), fun _ => ?_⟩
    rw [make_other _ _ _ (Nat.ne_of_lt (wf_lt hw hx)), hx]
  | copy k =>
    refine ⟨(fun d hd => by cases hd), fun _ => ?_⟩
    simp only [moWorldCall, World.copy, Out.bind_eq_ok] at h
    obtain ⟨y, -, h⟩ := h
    have := Out.ok.inj h; subst this
    rw [make_other _ _ _ (Nat.ne_of_lt (wf_lt hw hx)), hx]
  | assign k j =>
    refine ⟨(fun d hd => by cases hd), fun _ => ?_⟩
    have hk : i ≠ k := fun h => hc (.inr ⟨j, by rw [h]⟩)
    simp only [moWorldCall, World.assign, Out.bind_eq_ok] at h
    obtain ⟨y, -, z, -, h⟩ := h
    split at h
    · have := Out.ok.inj h; subst this; exact hx
    · have := Out.ok.inj h; subst this; rw [put_other _ _ hk, hx]
  | destroy k =>
    refine ⟨(fun d hd => by cases hd), fun _ => ?_⟩
    have hk : i ≠ k := fun h => hc (.inl (by rw [h]))
    simp only [moWorldCall, World.destroy, Out.bind_eq_ok] at h
    obtain ⟨y, -, h⟩ := h
    have := Out.ok.inj h; subst this
    simp [hk, hx]
  | call k d =>
    by_cases hk : k = i
    · subst hk
      refine ⟨fun d' hd => ?_, fun hn => ?_⟩
      · simp only [MOWorldCall.callOn?, if_true] at hd
        have := Option.some.inj hd; subst this; exact ⟨rfl, h⟩
      · simp [MOWorldCall.callOn?] at hn
    · refine ⟨fun d' hd => ?_, fun _ => ?_⟩
      · simp [MOWorldCall.callOn?, hk] at hd
      · obtain ⟨y, z, hy, rfl, -⟩ := moWorldObj_spec rec opt cap h
        rw [put_other _ _ (fun h => hk h.symm), hx]

/-- A multi-objective solver object that is not replaced or destroyed behaves as if it were alone, even if it is a copy whose
original has been changed or destroyed: what becomes of it depends only on the calls made on it.  As soon as it has been
initialised or run (or if it was no copy), `paretoFront` is that of the object alone. -/
theorem mo_objects_independent {w w' : World (MOFull κ A Ω V m α)} (before cs : List (MOWorldCall κ A Ω V m α))
    (hw : moWorldSession rec opt cap .empty before = .ok w)
    (h : moWorldSession rec opt cap w cs = .ok w') {i : Nat} {x : Held (MOFull κ A Ω V m α)}
    (hx : w.objs i = some x) (hc : ∀ c ∈ cs, ¬ MOWorldCall.Replaces i c) :
    ∃ y, w'.objs i = some y ∧
      moFullSession rec opt cap x.obj (cs.filterMap (MOWorldCall.callOn? i)) = .ok y.obj ∧
      ((x.home = .own ∨ ∃ c ∈ cs, MOWorldCall.Touches i c) →
        ∀ order, w'.front order i = paretoFront order y.obj.st) := by
  have hwf := moWorld_session_wf rec opt cap wf_empty before hw
  clear hw
  have hfront : ∀ (w : World (MOFull κ A Ω V m α)) y, w.objs i = some y → y.home = .own →
      ∀ order, w.front order i = paretoFront order y.obj.st := by
    intro w y hy ho order
    simp only [World.front, world_get' hy, Out.ok_bind, World.homePop, ho, paretoFront]
  suffices hs : ∃ y, w'.objs i = some y ∧
      moFullSession rec opt cap x.obj (cs.filterMap (MOWorldCall.callOn? i)) = .ok y.obj ∧
      ((x.home = .own ∨ ∃ c ∈ cs, MOWorldCall.Touches i c) → y.home = .own) by
    obtain ⟨y, h1, h2, h3⟩ := hs
    exact ⟨y, h1, h2, fun h => hfront w' y h1 (h3 h)⟩
  induction cs generalizing w x with
  | nil =>
    have := Out.ok.inj h; subst this
    refine ⟨x, hx, rfl, fun h => ?_⟩
    rcases h with h | ⟨c, hc, -⟩
    · exact h
    · cases hc
  | cons c cs ih =>
    simp only [moWorldSession, List.foldlM_cons, Out.bind_eq_ok] at h
    obtain ⟨w1, h1, h2⟩ := h
    obtain ⟨hs1, hs2⟩ := moWorld_step rec opt cap hwf h1 hx (hc c (by simp))
    have hwf1 := moWorld_wf rec opt cap hwf h1
    have hc1 : ∀ c ∈ cs, ¬ MOWorldCall.Replaces i c := fun c h => hc c (by simp [h])
    cases hd : MOWorldCall.callOn? i c with
    | none =>
      obtain ⟨y, hy1, hy2, hy3⟩ := ih h2 (hs2 hd) hc1 hwf1
      refine ⟨y, hy1, ?_, fun h => hy3 ?_⟩
      · rw [List.filterMap_cons_none hd]; exact hy2
      · rcases h with h | ⟨c', hc', ht⟩
        · exact .inl h
        · rcases List.mem_cons.1 hc' with rfl | hc'
          · exfalso
            rcases ht with ht | ⟨u, b, rfl⟩ | ⟨e, d, rfl⟩
            · exact hc _ (by simp) ht
            · simp [MOWorldCall.callOn?] at hd
            · simp [MOWorldCall.callOn?] at hd
          · exact .inr ⟨c', hc', ht⟩
    | some d =>
      obtain ⟨hcd, hobj⟩ := hs1 d hd
      obtain ⟨x', y, hx', rfl, hyh, hy, -, hyt⟩ := moWorldObj_spec rec opt cap hobj
      rw [hx] at hx'
      have := Option.some.inj hx'; subst this
      obtain ⟨z, hz1, hz2, hz3⟩ := ih h2 (put_same w i y) hc1 hwf1
      refine ⟨z, hz1, ?_, fun h => hz3 ?_⟩
      · rw [List.filterMap_cons_some hd]
        simp only [moFullSession, List.foldlM_cons, hy, Out.ok_bind]
        exact hz2
      · rcases h with h | ⟨c', hc', ht⟩
        · left
          rcases hyh with hyh | hyh
          · exact hyh
          · exact hyh.trans h
        · rcases List.mem_cons.1 hc' with rfl | hc'
          · left; rw [hcd] at ht; exact hyt ht
          · exact .inr ⟨c', hc', ht⟩

/-- A call on an existing object returns if and only if it would return on the object alone. -/
theorem mo_call_returns {w : World (MOFull κ A Ω V m α)} {i : Nat} {x : Held (MOFull κ A Ω V m α)}
    (hx : w.objs i = some x) (c : MOFullCall κ A Ω V m α) :
    (∃ w', moWorldCall rec opt cap w (.call i c) = .ok w') ↔ ∃ y, moFullCall rec opt cap x.obj c = .ok y := by
  constructor
  · rintro ⟨w', h⟩
    have h' : moWorldObjCall rec opt cap w i c = .ok w' := h
    obtain ⟨x', y, hx', -, -, hy, -⟩ := moWorldObj_spec rec opt cap h'
    rw [hx] at hx'
    have := Option.some.inj hx'; subst this
    exact ⟨_, hy⟩
  · rintro ⟨y, hy⟩
    simp only [moWorldCall, moWorldObjCall, world_get' hx, Out.ok_bind, hy]
    cases c with
    | set c => exact ⟨_, rfl⟩
    | initializePop u b => exact ⟨_, rfl⟩
    | run e d => exact ⟨_, rfl⟩

/-- A copy has the same content and reports the same front as the original; nothing else changes. -/
theorem mo_copy_same {w w' : World (MOFull κ A Ω V m α)} (before : List (MOWorldCall κ A Ω V m α))
    (hw : moWorldSession rec opt cap .empty before = .ok w) {i : Nat} (h : w.copy i = .ok w') :
    (∃ x y, w.objs i = some x ∧ w'.objs w.next = some y ∧ y.obj = x.obj) ∧ w.objs w.next = none ∧
      (∀ j, j ≠ w.next → w'.objs j = w.objs j) ∧ ∀ order, w'.front order w.next = w.front order i := by
  have hwf := moWorld_session_wf rec opt cap wf_empty before hw
  simp only [World.copy, Out.bind_eq_ok] at h
  obtain ⟨x, hx, h⟩ := h
  have := Out.ok.inj h; subst this
  refine ⟨⟨x, _, world_get hx, make_same _ _ _, rfl⟩, hwf.fresh _ (Nat.le_refl _), fun j hj => make_other _ _ _ hj,
    fun order => ?_⟩
  simp only [World.front, world_get' (make_same w x.obj (x.home.copied i x.version)), hx, Out.ok_bind]
  rw [homePop_copied (fun o => o.st.pop) hwf (world_get hx)]
  intro j hj
  exact make_other _ _ _ (Nat.ne_of_lt hj)

/-- The front of a copy whose original is gone (destroyed, run, replaced or initialised to a smaller size) cannot be read unless
it is empty, until the copy is initialised or run itself. -/
theorem mo_stale_copy {w : World (MOFull κ A Ω V m α)} {n i v : Nat} {c : Held (MOFull κ A Ω V m α)}
    (hc : w.objs n = some c) (hh : c.home = .at i v) (hgone : ∀ y, w.objs i = some y → y.version ≠ v)
    (order : Finset Addr → List Addr) (hne : order c.obj.st.pf ≠ []) : w.front order n = .ub := by
  have hp : w.homePop (fun o => o.st.pop) c = .ub := by
    simp only [World.homePop, hh, World.get]
    cases hy : w.objs i with
    | none => rfl
    | some y => show (if y.version = v then _ else _) = _; rw [if_neg (hgone y hy)]
  obtain ⟨a, l, hal⟩ := List.exists_cons_of_ne_nil hne
  simp only [World.front, world_get' hc, Out.ok_bind, hp, hal, List.mapM_cons]
  rfl

/-- The object is gone, or its list has at least this version. -/
def GoneOrMO (w : World (MOFull κ A Ω V m α)) (i v : Nat) : Prop := i < w.next ∧ ∀ y, w.objs i = some y → v ≤ y.version

theorem goneOrMO_step {w w' : World (MOFull κ A Ω V m α)} {i v : Nat} (h : GoneOrMO w i v) {c : MOWorldCall κ A Ω V m α}
    (hc : moWorldCall rec opt cap w c = .ok w') :
    GoneOrMO w' i v ∧ (MOWorldCall.Erases w i c → GoneOrMO w' i (v + 1)) := by
  have aux : ∀ u, v ≤ u → GoneOrMO w' i u → GoneOrMO w' i v := fun u hu hg => ⟨hg.1, fun y hy => le_trans hu (hg.2 y hy)⟩
  cases c with
  | make p q a f g =>
    have := Out.ok.inj hc; subst this
    refine ⟨⟨Nat.lt_succ_of_lt h.1, fun y hy => ?_⟩, ?_⟩
    · rw [make_other _ _ _ (Nat.ne_of_lt h.1)] at hy; exact h.2 y hy
    · rintro (h | ⟨k, -, h⟩ | ⟨e, d, h⟩ | ⟨u, b, x, h, -⟩) <;> cases h
  | copy k =>
    simp only [moWorldCall, World.copy, Out.bind_eq_ok] at hc
    obtain ⟨y, -, hc⟩ := hc
    have := Out.ok.inj hc; subst this
    refine ⟨⟨Nat.lt_succ_of_lt h.1, fun y hy => ?_⟩, ?_⟩
    · rw [make_other _ _ _ (Nat.ne_of_lt h.1)] at hy; exact h.2 y hy
    · rintro (h | ⟨k, -, h⟩ | ⟨e, d, h⟩ | ⟨u, b, x, h, -⟩) <;> cases h
  | assign k j =>
    simp only [moWorldCall, World.assign, Out.bind_eq_ok] at hc
    obtain ⟨x, hx, y, hy, hc⟩ := hc
    split at hc
    · rename_i hkj
      have := Out.ok.inj hc; subst this
      refine ⟨h, ?_⟩
      rintro (h | ⟨l, hl, h⟩ | ⟨e, d, h⟩ | ⟨u, b, x, h, -⟩)
      · cases h
      · cases h; exact absurd hkj.symm hl
      · cases h
      · cases h
    · have := Out.ok.inj hc; subst this
      by_cases hk : i = k
      · have hg : GoneOrMO (w.put k ⟨y.obj, x.version + 1, y.home.copied j y.version⟩) i (v + 1) := by
          refine ⟨h.1, fun z hz => ?_⟩
          rw [hk, put_same] at hz
          have := Option.some.inj hz; subst this
          have := h.2 x (by rw [hk]; exact world_get hx)
          show v + 1 ≤ x.version + 1
          omega
        exact ⟨aux _ (Nat.le_succ v) hg, fun _ => hg⟩
      · refine ⟨⟨h.1, fun z hz => ?_⟩, ?_⟩
        · rw [put_other _ _ hk] at hz; exact h.2 z hz
        · rintro (h | ⟨l, hl, h⟩ | ⟨e, d, h⟩ | ⟨u, b, x, h, -⟩)
          · cases h
          · cases h; exact absurd rfl hk
          · cases h
          · cases h
  | destroy k =>
    simp only [moWorldCall, World.destroy, Out.bind_eq_ok] at hc
    obtain ⟨y, -, hc⟩ := hc
    have := Out.ok.inj hc; subst this
    by_cases hk : i = k
    · have hg : ∀ u, GoneOrMO ({ w with objs := fun j => if j = k then none else w.objs j }) i u := by
        intro u
        refine ⟨h.1, fun z hz => ?_⟩
        have hz' : (if i = k then none else w.objs i) = some z := hz
        rw [if_pos hk] at hz'; cases hz'
      exact ⟨hg _, fun _ => hg _⟩
    · refine ⟨⟨h.1, fun z hz => ?_⟩, ?_⟩
      · have hz' : (if i = k then none else w.objs i) = some z := hz
        rw [if_neg hk] at hz'; exact h.2 z hz'
      · rintro (h | ⟨l, hl, h⟩ | ⟨e, d, h⟩ | ⟨u, b, x, h, -⟩)
        · cases h; exact absurd rfl hk
        · cases h
        · cases h
        · cases h
  | call k d =>
    have hc' : moWorldObjCall rec opt cap w k d = .ok w' := hc
    by_cases hk : i = k
    · subst hk
      simp only [moWorldObjCall, Out.bind_eq_ok] at hc'
      obtain ⟨x, hx, y, -, hc'⟩ := hc'
      have hv := h.2 x (world_get hx)
      have fin : ∀ z : Held (MOFull κ A Ω V m α), ∀ u, u ≤ z.version → GoneOrMO (w.put i z) i u := fun z u hu =>
        ⟨h.1, fun y hy => by rw [put_same] at hy; have := Option.some.inj hy; subst this; exact hu⟩
      cases d with
      | set s =>
        have := Out.ok.inj hc'; subst this
        refine ⟨fin _ _ hv, ?_⟩
        rintro (h | ⟨l, hl, h⟩ | ⟨e, d, h⟩ | ⟨u, b, x, h, -⟩) <;> cases h
      | initializePop u b =>
        have := Out.ok.inj hc'; subst this
        constructor
        · refine fin _ _ ?_
          show v ≤ if x.obj.core.K < x.obj.st.pop.length then x.version + 1 else x.version
          split <;> omega
        · rintro (h | ⟨l, hl, h⟩ | ⟨e, d, h⟩ | ⟨u, b, x', h, hx', hlt⟩)
          · cases h
          · cases h
          · cases h
          · rw [world_get hx] at hx'
            have := Option.some.inj hx'; subst this
            refine fin _ _ ?_
            show v + 1 ≤ if x.obj.core.K < x.obj.st.pop.length then x.version + 1 else x.version
            rw [if_pos hlt]; omega
      | run e d =>
        have := Out.ok.inj hc'; subst this
        exact ⟨fin _ _ (Nat.le_succ_of_le hv), fun _ => fin _ _ (Nat.succ_le_succ hv)⟩
    · obtain ⟨y, z, hy, rfl, -⟩ := moWorldObj_spec rec opt cap hc'
      refine ⟨⟨h.1, fun u hu => ?_⟩, ?_⟩
      · rw [put_other _ _ hk] at hu; exact h.2 u hu
      · rintro (h | ⟨l, hl, h⟩ | ⟨e, d, h⟩ | ⟨u, b, x, h, -⟩)
        · cases h
        · cases h
        · cases h; exact absurd rfl hk
        · cases h; exact absurd rfl hk

theorem goneOrMO_session {w w' : World (MOFull κ A Ω V m α)} {i v : Nat} (h : GoneOrMO w i v)
    (cs : List (MOWorldCall κ A Ω V m α)) (hc : moWorldSession rec opt cap w cs = .ok w') : GoneOrMO w' i v := by
  induction cs generalizing w with
  | nil => have := Out.ok.inj hc; subst this; exact h
  | cons c cs ih =>
    simp only [moWorldSession, List.foldlM_cons, Out.bind_eq_ok] at hc
    obtain ⟨w1, h1, h2⟩ := hc
    exact ih (goneOrMO_step rec opt cap h h1).1 h2

/-- A copy whose original was destroyed, replaced, run, or initialised to a smaller size: until the copy is initialised or run
itself, its front cannot be read unless it is empty (but it can be run, `mo_call_returns`). -/
theorem mo_orphan {w w1 w2 w3 w4 : World (MOFull κ A Ω V m α)} (before cs ds : List (MOWorldCall κ A Ω V m α))
    (hw : moWorldSession rec opt cap .empty before = .ok w) {i : Nat} {x : Held (MOFull κ A Ω V m α)}
    (hx : w.objs i = some x) (hown : x.home = .own) (h1 : w.copy i = .ok w1)
    (h2 : moWorldSession rec opt cap w1 cs = .ok w2) (c : MOWorldCall κ A Ω V m α)
    (h3 : moWorldCall rec opt cap w2 c = .ok w3) (hera : MOWorldCall.Erases w2 i c)
    (h4 : moWorldSession rec opt cap w3 ds = .ok w4)
    (hc : ∀ a ∈ cs ++ [c] ++ ds, ¬ MOWorldCall.Touches w.next a)
    (order : Finset Addr → List Addr) (hne : order x.obj.st.pf ≠ []) : w4.front order w.next = .ub := by
  have hwf := moWorld_session_wf rec opt cap wf_empty before hw
  have hwf1 := wf_copy hwf h1
  have hl : w1 = w.make x.obj (.at i x.version) := by
    simp only [World.copy, world_get' hx, Out.ok_bind, hown] at h1
    exact (Out.ok.inj h1).symm
  have hin := wf_lt hwf hx
  have hn1 : w1.objs w.next = some ⟨x.obj, 0, .at i x.version⟩ := by rw [hl, make_same]
  have hall : moWorldSession rec opt cap w1 (cs ++ [c] ++ ds) = .ok w4 := by
    unfold moWorldSession at h2 h4 ⊢
    rw [List.foldlM_append, List.foldlM_append, h2, Out.ok_bind]
    simp only [List.foldlM_cons, List.foldlM_nil]
    rw [h3, Out.ok_bind]
    exact h4
  have unt : ∀ (as : List (MOWorldCall κ A Ω V m α)) (u : World (MOFull κ A Ω V m α)) (y : Held (MOFull κ A Ω V m α)),
      u.WF → u.objs w.next = some y → (∀ a ∈ as, ¬ MOWorldCall.Touches w.next a) → moWorldSession rec opt cap u as = .ok w4 →
      ∃ z, w4.objs w.next = some z ∧ z.home = y.home ∧ z.obj.st = y.obj.st := by
    intro as
    induction as with
    | nil => intro u y _ hy _ h; have := Out.ok.inj h; subst this; exact ⟨y, hy, rfl, rfl⟩
    | cons a as ih =>
      intro u y hu hy ht h
      simp only [moWorldSession, List.foldlM_cons, Out.bind_eq_ok] at h
      obtain ⟨u1, hu1, h⟩ := h
      have hta := ht a (by simp)
      obtain ⟨hs1, hs2⟩ := moWorld_step rec opt cap hu hu1 hy fun h => hta (.inl h)
      have hu1' := moWorld_wf rec opt cap hu hu1
      have ht' : ∀ a ∈ as, ¬ MOWorldCall.Touches w.next a := fun a h => ht a (by simp [h])
      cases hd : MOWorldCall.callOn? w.next a with
      | none => exact ih u1 y hu1' (hs2 hd) ht' h
      | some d =>
        obtain ⟨had, hobj⟩ := hs1 d hd
        obtain ⟨x', z, hx', hput, -, -, hz, -⟩ := moWorldObj_spec rec opt cap hobj
        rw [hy] at hx'
        have := Option.some.inj hx'; subst this
        rw [had] at hta
        obtain ⟨hz1, -, hz2⟩ := hz hta
        obtain ⟨q, hq1, hq2, hq3⟩ := ih u1 z hu1' (by rw [hput, put_same]) ht' h
        exact ⟨q, hq1, hq2.trans hz1, hq3.trans hz2⟩
  obtain ⟨o, ho1, ho2, ho3⟩ := unt _ w1 _ hwf1 hn1 hc hall
  have hg1 : GoneOrMO w1 i x.version := by
    rw [hl]
    refine ⟨Nat.lt_succ_of_lt hin, fun y hy => ?_⟩
    rw [make_other _ _ _ (Nat.ne_of_lt hin), hx] at hy
    have := Option.some.inj hy; subst this; exact le_refl _
  have hg2 := goneOrMO_session rec opt cap hg1 cs h2
  have hg3 := (goneOrMO_step rec opt cap hg2 h3).2 hera
  have hg4 := goneOrMO_session rec opt cap hg3 ds h4
  refine mo_stale_copy ho1 ho2 (fun y hy => ?_) order (by rw [ho3]; exact hne)
  have := hg4.2 y hy
  omega

end mo

/-! ## Concrete histories -/

/-- Object 0: constructed, everything set, initialised. -/
def demoCopyStart : List (SOGAWorldCall ℚ ℚ ℚ ℚ ℚ) :=
  .make (4 / 5) (1 / 20) demoGAJunk :: ((demoGASet.map SOGAFullCall.set ++ [.sel (.setSelectMethod .Truncation),
    demoSOGAInit 0]).map (.call 0))

/-- Non-vacuity of `soga_copy_same`, `soga_copy_keeps_result`, `soga_run_on_copy`, `soga_objects_independent`: object 0 is run
and copied, the arguments of the copy are changed (the result stays), the copy is run (the original stays), both go on. -/
example : (sogaWorldSession true .lessBetter 1000 (0 : ℚ) .empty (demoCopyStart ++ [.call 0 (demoSOGARun (1 / 4) 1), .copy 0,
      .call 1 (.set (.setArgs 1))])).satisfies
      (fun w => w.next == 2 && w.result 0 == .ok 3 && w.result 1 == .ok 3 && w.bestFitness 1 == .ok 18) = true ∧
    (sogaWorldSession true .lessBetter 1000 (0 : ℚ) .empty (demoCopyStart ++ [.call 0 (demoSOGARun (1 / 4) 1), .copy 0,
      .call 1 (.set (.setArgs 1)), .call 1 (demoSOGARun (1 / 4) 1)])).satisfies
      (fun w => w.result 0 == .ok 3 && w.result 1 == .ok 1 && w.bestFitness 0 == .ok 18 && w.bestFitness 1 == .ok 1) = true ∧
    (sogaWorldSession true .lessBetter 1000 (0 : ℚ) .empty (demoCopyStart ++ [.call 0 (demoSOGARun (1 / 4) 1), .copy 0,
      .call 1 (demoSOGARun (1 / 4) 1), .destroy 0, .copy 1, .assign 2 1])).satisfies
      (fun w => w.next == 3 && w.result 0 == .ub && w.result 1 == .ok 1 && w.result 2 == .ok 1) = true := by
  refine ⟨?_, ?_, ?_⟩ <;>
  · simp only [demoCopyStart, demoGASet, demoSOGAInit, demoSOGARun, List.map_cons, List.map_nil, List.cons_append,
      List.nil_append, sogaWorldSession, sogaWorldCall, sogaWorldObjCall, sogaFullCall, SOGAFull.opsFrom, dispatched_table]
    decide +kernel

/-- **C132** fails for copies that share: initialising the original again (to the same size) changes what the copy reports. -/
theorem copy_result_follows_original :
    (sogaWorldSession true .lessBetter 1000 (0 : ℚ) .empty (demoCopyStart ++ [.copy 0])).satisfies
      (fun w => w.result 1 == .ok 4) = true ∧
    (sogaWorldSession true .lessBetter 1000 (0 : ℚ) .empty (demoCopyStart ++ [.copy 0, .call 0 (demoSOGAInit 0)])).satisfies
      (fun w => w.result 1 == .ok 8) = true := by
  refine ⟨?_, ?_⟩ <;>
  · simp only [demoCopyStart, demoGASet, demoSOGAInit, demoSOGARun, List.map_cons, List.map_nil, List.cons_append,
      List.nil_append, sogaWorldSession, sogaWorldCall, sogaWorldObjCall, sogaFullCall, SOGAFull.opsFrom, dispatched_table]
    decide +kernel

/-- A copy of an object that was initialised but not run reads the fitness of an individual of the original that nobody has
evaluated: with the same draws it does not do the same as the original (here it counts one failure less). -/
theorem copy_before_run_differs :
    (sogaWorldSession true .lessBetter 1000 (0 : ℚ) .empty (demoCopyStart ++ [.copy 0, .call 0 (demoSOGARun 1 1)])).satisfies
      (fun w => (w.get 0).satisfies fun x => x.obj.st.fail == 3 && x.obj.core.generation == 2) = true ∧
    (sogaWorldSession true .lessBetter 1000 (0 : ℚ) .empty (demoCopyStart ++ [.copy 0, .call 1 (demoSOGARun 1 1)])).satisfies
      (fun w => (w.get 1).satisfies fun x => x.obj.st.fail == 2 && x.obj.core.generation == 2) = true := by
  refine ⟨?_, ?_⟩ <;>
  · simp only [demoCopyStart, demoGASet, demoSOGAInit, demoSOGARun, List.map_cons, List.map_nil, List.cons_append,
      List.nil_append, sogaWorldSession, sogaWorldCall, sogaWorldObjCall, sogaFullCall, SOGAFull.opsFrom, dispatched_table]
    decide +kernel

/-- Non-vacuity of `soga_orphan` and `soga_stale_copy`: what a growing `std::vector` of solvers does.  Initialising the copy again
repairs it. -/
theorem orphan_demo :
    (sogaWorldSession true .lessBetter 1000 (0 : ℚ) .empty (demoCopyStart ++ [.copy 0, .destroy 0])).satisfies
      (fun w => w.result 1 == .ub && w.bestFitness 1 == .ub) = true ∧
    sogaWorldSession true .lessBetter 1000 (0 : ℚ) .empty (demoCopyStart ++ [.copy 0, .destroy 0,
      .call 1 (demoSOGARun 1 1)]) = .ub ∧
    (sogaWorldSession true .lessBetter 1000 (0 : ℚ) .empty (demoCopyStart ++ [.copy 0, .destroy 0, .call 1 (demoSOGAInit 0),
      .call 1 (demoSOGARun 1 1)])).satisfies (fun w => w.result 1 == .ok 8) = true := by
  refine ⟨?_, out_ub_of _ ?_, ?_⟩ <;>
  · simp only [demoCopyStart, demoGASet, demoSOGAInit, demoSOGARun, List.map_cons, List.map_nil, List.cons_append,
      List.nil_append, sogaWorldSession, sogaWorldCall, sogaWorldObjCall, sogaFullCall, SOGAFull.opsFrom, dispatched_table]
    decide +kernel

/-- `soga_run_evaluates` has an instance: the history of C131. -/
example : SOGAFullLegal (demoSOGAHistory ++ [demoSOGARun (1 / 4) 1]) := demoSOGA_legal

/-- Two multi-objective objects: object 0 is run and copied and destroyed; the copy cannot report its front, but it can be run. -/
def demoMOCopyStart : List (MOWorldCall ℚ Unit (Fin 2 → ℚ) (Fin 2 → ℚ) 2 ℚ) :=
  .make (4 / 5) (1 / 20) () 5 6 :: (demoMOFullHistory.map (.call 0)) ++ [.copy 0]

/-- Non-vacuity of the multi-objective theorems. -/
theorem mo_copy_demo (order : Finset Addr → List Addr) (h : order = fun S => (List.range 20).filter (· ∈ S)) :
    (moWorldSession true .lessBetter 1000 .empty demoMOCopyStart).satisfies
      (fun w => (w.front order 1).satisfies (fun f => decide (f.length = 2)) && decide (w.front order 1 = w.front order 0)) = true ∧
    (moWorldSession true .lessBetter 1000 .empty (demoMOCopyStart ++ [.destroy 0])).satisfies
      (fun w => decide (w.front order 1 = .ub)) = true ∧
    (moWorldSession true .lessBetter 1000 .empty (demoMOCopyStart ++ [.destroy 0, .call 1 (demoMOFullRun 1 1)])).satisfies
      (fun w => (w.front order 1).satisfies (fun f => decide (f.length = 2))) = true := by
  subst h
  refine ⟨?_, ?_, ?_⟩ <;> decide +kernel

end Heu
