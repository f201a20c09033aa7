import Verif.Spec.AOSCalls
import Verif.Props.Calls
import Verif.Props.AOS
import Verif.Props.PSOCalls

/-!
# C146: the calls of the user's functions by the atomic orbital search

Every electron is evaluated exactly once; the reported best is the best of all values the fitness function returned.
-/

set_option linter.unusedVariables false
set_option linter.unusedSectionVars false
set_option linter.unusedSimpArgs false

namespace Heu
open Spec

section log
variable {α ω : Type}

/-- C146: writing the log changes nothing. -/
theorem aos_log_transparent [Field α] [LinearOrder α] [FloorSemiring α] (impl : AOSImpl) (opt : FitnessOption)
    (o : AOSOption) (b : Box α) (u : UserFns (List α) α ω) (order : List Addr → List Addr) (env : ω → AOSEnv α)
    (after : ω → ω) : ∀ (fuel gen : Nat) (s : AOSState α) (w : ω) (l : List (UserCall (List α) α)) (record : List α),
    (aosCallsLoop impl opt o b (logged u) order (fun s => env s.1) (fun s => (after s.1, s.2)) fuel gen s (w, l)
      record).bind (fun r => .ok (aosForget r)) = aosCallsLoop impl opt o b u order env after fuel gen s w record
  | 0, _, _, _, _, _ => rfl
  | fuel + 1, gen, s, w, l, record => by
    rw [aosCallsLoop, aosCallsLoop]
    have h1 := evalCalls_forget u (order (evalTasks s.electrons)) s.electrons w l
    unfold aosEvaluateCalls
    rw [← h1]
    cases evalCalls (logged u) (order (evalTasks s.electrons)) s.electrons (w, l) with
    | ub => rfl
    | timeout => rfl
    | ok e =>
      obtain ⟨pop1, w1, l1⟩ := e
      show Out.bind (computeAtomBSBELE opt { s with electrons := pop1 } >>= _) _ =
        computeAtomBSBELE opt { s with electrons := pop1 } >>= _
      cases computeAtomBSBELE opt { s with electrons := pop1 } with
      | ub => rfl
      | timeout => rfl
      | ok t =>
        simp only [Out.ok_bind]
        cases deref t.electrons t.best with
        | ub => rfl
        | timeout => rfl
        | ok bst =>
          simp only [Out.ok_bind]
          cases selectAndMakeLayers opt o (env w1).sort (env w1).layerNum (env w1).gauss t with
          | ub => rfl
          | timeout => rfl
          | ok v =>
            simp only [Out.ok_bind]
            split
            · rfl
            · cases aosChildren impl opt b (env w1) v with
              | ub => rfl
              | timeout => rfl
              | ok x => exact aos_log_transparent impl opt o b u order env after fuel (gen + 1) x _ _ _

/-- C146: `initializePop` calls the initialiser exactly once for each of the `electronNum` electrons and nothing else;
it is undefined when there are none or `maxLayerNum` exceeds `electronNum`. -/
theorem aos_init_calls (u : UserFns (List α) α ω) (o : AOSOption) (blank : Gene (List α) α) (w : ω)
    (l : List (UserCall (List α) α)) :
    ((o.electronNum < o.maxLayerNum ∨ o.electronNum = 0) → aosInitializeCalls (logged u) o blank (w, l) = .ub) ∧
    (o.maxLayerNum ≤ o.electronNum → 0 < o.electronNum →
      ∃ s w' is, aosInitializeCalls (logged u) o blank (w, l) = .ok (s, (w', l ++ is)) ∧ (∀ e ∈ is, e.isIni) ∧
        is.length = o.electronNum ∧ s.electrons.length = o.electronNum ∧ DistinctNodes s.electrons ∧
        unvaluedPop s.electrons = made is ∧ valuedPop s.electrons = [] ∧ s.best ∈ s.electrons.map (·.1) ∧
        s.early = 0) := by
  obtain ⟨pop', w', is, h1, h2, h3, h4, h5, h6⟩ := ga_init_calls u o.electronNum blank [] (by simp [DistinctNodes]) w l
  have hun : ∀ c ∈ pop', c.2.computed = false := by
    intro c hc
    by_contra hcc
    have : (c.2.var, c.2.fitness) ∈ valuedPop pop' := mem_valuedPop.2 ⟨c, hc, by simpa using hcc, rfl⟩
    rw [h6] at this
    cases this
  have hmade : ∀ (es : List (UserCall (List α) α)), (∀ e ∈ es, e.isIni) → (made es).length = es.length := by
    intro es
    induction es with
    | nil => intro _; rfl
    | cons e es ih =>
      intro he
      have h0 := he e (by simp)
      have := ih fun x hx => he x (List.mem_cons_of_mem _ hx)
      cases e with
      | ini a b => simp only [made, List.flatMap_cons, UserCall.created, List.length_append, List.length_cons,
          List.length_nil] at this ⊢; omega
      | fit => simp [UserCall.isIni] at h0
      | cross => simp [UserCall.isIni] at h0
      | muta => simp [UserCall.isIni] at h0
  have hlen : pop'.length = o.electronNum := by
    have h7 : (unvaluedPop pop').length = pop'.length := by
      unfold unvaluedPop
      rw [List.length_map, List.filter_eq_self.2 (fun c hc => by simp [hun c hc])]
    rw [h5, hmade is h2] at h7
    omega
  constructor
  · intro hc
    unfold aosInitializeCalls
    split
    · rename_i hle
      have h0 : o.electronNum = 0 := by omega
      have : pop' = [] := List.length_eq_zero_iff.1 (hlen.trans h0)
      subst this
      simp only [h1]
    · rfl
  · intro hle hpos
    cases pop' with
    | nil => simp at hlen; omega
    | cons c cs =>
      refine ⟨{ electrons := c :: cs, layers := [], bindingState := [], bindingEnergy := blank.fitness, best := c.1,
                early := 0 }, w', is, ?_, h2, h3, hlen, h4, h5, h6, by simp, rfl⟩
      unfold aosInitializeCalls
      rw [if_pos hle]
      simp only [h1]

end log

/-! ## The number of children -/

theorem fillLayers_total (limits : List Nat) : ∀ (els : List Addr) (counted cur : Nat) (layers L : List (List Addr)),
    fillLayers limits els counted cur layers = .ok L →
    (L.map List.length).sum = (layers.map List.length).sum + els.length
  | [], counted, cur, layers, L, h => by
    rw [fillLayers] at h
    rw [← Out.ok.inj h]; rfl
  | e :: els, counted, cur, layers, L, h => by
    rw [fillLayers] at h
    split at h
    · cases h
    · rename_i lim hlim
      simp only at h
      generalize (if lim ≤ counted then cur + 1 else cur) = cur' at h
      split at h
      · rename_i hcur
        rw [fillLayers_total limits els _ _ _ L h]
        have key : ∀ (ls : List (List Addr)) (k : Nat), k < ls.length →
            ((ls.modify k (· ++ [e])).map List.length).sum = (ls.map List.length).sum + 1 := by
          intro ls
          induction ls with
          | nil => intro k hk; simp at hk
          | cons x xs ih =>
            intro k hk
            cases k with
            | zero => simp; omega
            | succ k =>
              simp only [List.modify_succ_cons, List.map_cons, List.sum_cons]
              rw [ih k (by simpa using hk)]
              omega
        rw [key _ _ hcur, List.length_cons]
        omega
      · cases h

theorem makeLayers_total (limits : List Nat) (els : List Addr) (L : List (List Addr))
    (h : makeLayers limits els = .ok L) : (L.map List.length).sum = els.length := by
  unfold makeLayers at h
  obtain ⟨M, hM, hL⟩ := Out.bind_eq_ok.1 h
  have h1 := fillLayers_total limits els _ _ _ M hM
  have h0 : ((limits.map fun _ => ([] : List Addr)).map List.length).sum = 0 := by
    simp
  have h2 : ∀ (l : List (List Addr)), ((l.dropWhile (·.isEmpty)).map List.length).sum = (l.map List.length).sum := by
    intro l
    induction l with
    | nil => rfl
    | cons x xs ih =>
      cases x with
      | nil => simpa using ih
      | cons a as => simp
  unfold popEmptyLayers at hL
  split at hL
  · cases hL
  · rename_i l hne
    have := Out.ok.inj hL
    subst this
    rw [List.map_reverse, List.sum_reverse, h2, List.map_reverse, List.sum_reverse]
    omega

section run
variable {α ω : Type} [Field α] [LinearOrder α] [FloorSemiring α]

/-- One iteration of the loop, inverted. -/
theorem aosCallsLoop_inv {impl : AOSImpl} {opt : FitnessOption} {o : AOSOption} {b : Box α} {u : UserFns (List α) α ω}
    {order : List Addr → List Addr} (ho : ∀ l, (order l).Perm l) {env : ω → AOSEnv α} {after : ω → ω} {fuel gen : Nat}
    {s : AOSState α} {w : ω} {l : List (UserCall (List α) α)} {record : List α}
    {r : AOSCallsResult α (ω × List (UserCall (List α) α))} (hd : DistinctNodes s.electrons)
    (hr : aosCallsLoop impl opt o b (logged u) order (fun s => env s.1) (fun s => (after s.1, s.2)) (fuel + 1) gen s
      (w, l) record = .ok r) :
    ∃ pop1 w1 fs t v y, PopEvaluated s.electrons pop1 fs ∧ ((values fs).map (·.1)).Perm (unvaluedPop s.electrons) ∧
      t.electrons = pop1 ∧ (∃ c, c.2.fitness = y ∧ Unbeaten opt (fun g => g.fitness) pop1 c) ∧
      v.electrons = keptElectrons opt o (env w1).sort t ∧
      (v.layers.map (·.members.length)).sum = min o.electronNum pop1.length ∧
      ((r = ⟨v, gen, record ++ [y], (after w1, l ++ fs)⟩) ∨
        ∃ x new, x.electrons = v.electrons ++ new ∧ new.length = min o.electronNum pop1.length ∧
          (∀ c ∈ new, c.2.computed = false) ∧ DistinctNodes x.electrons ∧ gen < o.maxGeneration ∧
          aosCallsLoop impl opt o b (logged u) order (fun s => env s.1) (fun s => (after s.1, s.2)) fuel (gen + 1) x
            (after w1, l ++ fs) (record ++ [y]) = .ok r) := by
  rw [aosCallsLoop] at hr
  obtain ⟨e, he, hr⟩ := Out.bind_eq_ok.1 hr
  obtain ⟨t, ht, hr⟩ := Out.bind_eq_ok.1 hr
  obtain ⟨bst, hb, hr⟩ := Out.bind_eq_ok.1 hr
  obtain ⟨v, hv, hr⟩ := Out.bind_eq_ok.1 hr
  unfold aosEvaluateCalls at he
  obtain ⟨e', he', he⟩ := Out.bind_eq_ok.1 he
  have hp := ho (evalTasks s.electrons)
  obtain ⟨pop1, w1, fs, e1, e2⟩ := evalCalls_spec u (order (evalTasks s.electrons)) s.electrons w l hd
    (hp.nodup_iff.2 (evalTasks_nodup hd)) (fun a ha => by
      have := hp.mem_iff.1 ha
      unfold evalTasks at this
      obtain ⟨c, hc, rfl⟩ := List.mem_map.1 this
      exact List.mem_map_of_mem (List.mem_filter.1 hc).1)
  have e3 := Out.ok.inj (e1.symm.trans he')
  subst e3
  have e4 := Out.ok.inj he
  subst e4
  simp only at ht hv hr
  have hev : PopEvaluated s.electrons pop1 fs := by
    refine ⟨e2.fits, ?_, ?_, ?_, ?_, ?_, ?_⟩
    · unfold DistinctNodes; rw [e2.addrs]; exact hd
    · have := congrArg List.length e2.addrs
      simpa using this
    · intro c hc
      rcases e2.origin c hc with ⟨h1, h2⟩ | ⟨-, h2, -⟩
      · by_contra h3
        exact h1 (hp.mem_iff.2 ((mem_evalTasks hd h2).2 (by simpa using h3)))
      · exact h2
    · intro c hc hcc
      exact e2.keep c hc (fun h => by
        have := (mem_evalTasks hd hc).1 (hp.mem_iff.1 h)
        rw [hcc] at this; cases this)
    · intro c hc
      rcases e2.origin c hc with ⟨h1, h2⟩ | ⟨-, h2, h3⟩
      · refine List.mem_append_left _ (mem_valuedPop.2 ⟨c, h2, ?_, rfl⟩)
        by_contra h3
        exact h1 (hp.mem_iff.2 ((mem_evalTasks hd h2).2 (by simpa using h3)))
      · exact List.mem_append_right _ h3
    · intro p hpv
      obtain ⟨c, hc, -, h2, h3⟩ := e2.stored p hpv
      exact ⟨c, hc, h2, h3⟩
  -- the best
  have hbest : t.electrons = pop1 ∧ ∃ c, c.2.fitness = bst.fitness ∧ Unbeaten opt (fun g => g.fitness) pop1 c := by
    unfold computeAtomBSBELE at ht
    simp only at ht
    cases hpop : pop1 with
    | nil => rw [hpop] at ht; cases ht
    | cons front rest =>
      rw [hpop] at ht
      dsimp only at ht
      obtain ⟨prev, hprev, ht⟩ := Out.bind_eq_ok.1 ht
      have ht := Out.ok.inj ht
      subst ht
      have hscan := atomScan_spec opt (front :: rest) front
      have hmem : atomScan opt front (front :: rest) ∈ front :: rest := by
        rcases hscan.1 with h | h
        · rw [h]; exact List.mem_cons_self
        · exact h
      have hdd : DistinctNodes (front :: rest) := by rw [← hpop]; exact hev.distinct
      have hb' := deref_of_mem hdd hmem
      have hbb := Out.ok.inj (hb'.symm.trans hb)
      exact ⟨rfl, _, by rw [hbb], hmem, fun c hc => hscan.2 c (List.mem_cons_of_mem _ hc)⟩
  obtain ⟨s1, s2, s3, s4, s5, s6⟩ := select_ok hv
  have hsum : (v.layers.map (·.members.length)).sum = min o.electronNum pop1.length := by
    have := makeLayers_total _ _ _ s6
    rw [List.map_map, List.length_map] at this
    have hdt : DistinctNodes t.electrons := by rw [hbest.1]; exact hev.distinct
    rw [← (kept_perm hdt).length_eq, kept_length hdt, hbest.1] at this
    exact this
  refine ⟨pop1, w1, fs, t, v, bst.fitness, hev, evaluated_args_perm hd hp e2.args, hbest.1, hbest.2, s1, hsum, ?_⟩
  split at hr
  · exact .inl (Out.ok.inj hr).symm
  · rename_i hstop
    obtain ⟨x, hx, hr⟩ := Out.bind_eq_ok.1 hr
    obtain ⟨q, q1, q2, q3, q4, q5, q6, q7⟩ := children_ok hx
    have hg := updateElectrons_ok (P := fun _ => True) (fun _ _ _ _ _ _ _ _ _ _ _ _ _ => trivial) q7
    have hmem := layers_members q6
    have hsum' : (q.layers.map (·.members.length)).sum = (v.layers.map (·.members.length)).sum := by
      have := congrArg (fun l => (l.map List.length).sum) hmem
      simpa [List.map_map, Function.comp_def] using this
    obtain ⟨new, n1, n2, n3⟩ := hg.new
    refine .inr ⟨x, new, by rw [n1, q1], n2.trans (hsum'.trans hsum), fun c hc => (n3 c hc).1, hg.distinct ?_, ?_, hr⟩
    · rw [q1, s1]
      have hdt : DistinctNodes t.electrons := by rw [hbest.1]; exact hev.distinct
      exact distinct_filter hdt _
    · by_contra h
      exact hstop (.inl (by omega))

/-- What holds between iterations: all stored values are from the log, and no value of the log is better than all that
are stored. -/
structure AOSCover (opt : FitnessOption) (pop : Pop (Gene (List α) α)) (vals : List (List α × α)) : Prop where
  stored : ∀ p ∈ valuedPop pop, p ∈ vals
  cover : ∀ v ∈ vals, ∃ c ∈ pop, c.2.computed = true ∧ ¬ Better opt v.2 c.2.fitness

theorem unvalued_append {V F : Type} (p q : Pop (Gene V F)) (hp : ∀ c ∈ p, c.2.computed = true)
    (hq : ∀ c ∈ q, c.2.computed = false) :
    unvaluedPop (p ++ q) = q.map (fun c => c.2.var) ∧ valuedPop (p ++ q) = p.map fun c => (c.2.var, c.2.fitness) := by
  unfold unvaluedPop valuedPop
  rw [List.filter_append, List.filter_append, List.filter_eq_nil_iff.2 (fun c hc => by simp [hp c hc]),
    List.filter_eq_self.2 (fun c hc => by simp [hq c hc]), List.filter_eq_self.2 (fun c hc => hp c hc),
    List.filter_eq_nil_iff.2 (fun c hc => by simp [hq c hc])]
  simp

theorem fits_length {V F : Type} : ∀ (fs : List (UserCall V F)), (∀ e ∈ fs, e.isFit) → (values fs).length = fs.length
  | [], _ => rfl
  | e :: fs, h => by
    have h0 := h e (by simp)
    have := fits_length fs fun x hx => h x (List.mem_cons_of_mem _ hx)
    cases e with
    | fit x y =>
      simp only [values, List.flatMap_cons, UserCall.valued, List.length_append, List.length_cons,
        List.length_nil] at this ⊢
      omega
    | ini => simp [UserCall.isFit] at h0
    | cross => simp [UserCall.isFit] at h0
    | muta => simp [UserCall.isFit] at h0

theorem aosCallsLoop_log {impl : AOSImpl} {opt : FitnessOption} {o : AOSOption} {b : Box α} {u : UserFns (List α) α ω}
    {order : List Addr → List Addr} (ho : ∀ l, (order l).Perm l) {env : ω → AOSEnv α} {after : ω → ω} :
    ∀ (fuel gen : Nat) (s : AOSState α) (w : ω) (l : List (UserCall (List α) α)) (record : List α)
      (r : AOSCallsResult α (ω × List (UserCall (List α) α))), DistinctNodes s.electrons →
    aosCallsLoop impl opt o b (logged u) order (fun s => env s.1) (fun s => (after s.1, s.2)) fuel gen s
      (w, l) record = .ok r →
    ∃ (blocks : List (List (UserCall (List α) α))) (recs : List α),
      r.world.2 = l ++ blocks.flatten ∧ blocks.length = recs.length ∧ r.record = record ++ recs ∧
      gen + recs.length = r.generation + 1 ∧ (gen ≤ o.maxGeneration → r.generation ≤ o.maxGeneration) ∧
      (∀ b ∈ blocks, ∀ e ∈ b, e.isFit) ∧
      (∃ b, blocks.head? = some b ∧ ((values b).map (·.1)).Perm (unvaluedPop s.electrons)) ∧
      (o.electronNum ≤ s.electrons.length →
        (∀ b ∈ blocks.tail, b.length = o.electronNum) ∧ r.state.electrons.length = o.electronNum) ∧
      (∀ c ∈ r.state.electrons, c.2.computed = true ∧
        (c.2.var, c.2.fitness) ∈ valuedPop s.electrons ++ values blocks.flatten) ∧
      DistinctNodes r.state.electrons ∧
      (0 < o.electronNum → AOSCover opt s.electrons (values l) →
        (∀ (j : Nat) (y : α), recs[j]? = some y → IsBestOf opt (values (l ++ (blocks.take (j + 1)).flatten)) y) ∧
        (∃ c ∈ r.state.electrons, r.record.getLast? = some c.2.fitness) ∧
        AOSCover opt r.state.electrons (values r.world.2))
  | 0, gen, s, w, l, record, r, hd, hr => by cases hr
  | fuel + 1, gen, s, w, l, record, r, hd, hr => by
    obtain ⟨pop1, w1, fs, t, v, y, e1, e2, e3, ⟨cb, e4, e5⟩, e6, e7, hcase⟩ := aosCallsLoop_inv ho hd hr
    have hdt : DistinctNodes t.electrons := by rw [e3]; exact e1.distinct
    have hvl : v.electrons.length = min o.electronNum s.electrons.length := by
      rw [e6, kept_length hdt, e3, e1.length]
    have hvd : DistinctNodes v.electrons := by rw [e6]; exact distinct_filter hdt _
    have hvm : ∀ c ∈ v.electrons, c ∈ pop1 := fun c hc => by
      rw [e6] at hc
      rw [← e3]
      exact kept_sub c hc
    have hvc : ∀ c ∈ v.electrons, c.2.computed = true ∧
        (c.2.var, c.2.fitness) ∈ valuedPop s.electrons ++ values fs := fun c hc =>
      ⟨e1.done c (hvm c hc), e1.origin c (hvm c hc)⟩
    have hval : values (l ++ fs) = values l ++ values fs := values_append _ _
    have hcov : 0 < o.electronNum → AOSCover opt s.electrons (values l) →
        IsBestOf opt (values (l ++ fs)) y ∧ AOSCover opt v.electrons (values (l ++ fs)) ∧
        ∃ c ∈ v.electrons, c.2.fitness = y := by
      intro hN hc
      have hlogged : ∀ c ∈ pop1, (c.2.var, c.2.fitness) ∈ values (l ++ fs) := by
        intro c hcm
        rw [hval]
        rcases List.mem_append.1 (e1.origin c hcm) with h | h
        · exact List.mem_append_left _ (hc.stored _ h)
        · exact List.mem_append_right _ h
      have hall : ∀ x ∈ values (l ++ fs), ¬ Better opt x.2 y := by
        intro x hx
        rw [hval] at hx
        rw [← e4]
        rcases List.mem_append.1 hx with h | h
        · obtain ⟨c, hcm, hcc, hcb⟩ := hc.cover x h
          exact nb_trans opt hcb (e5.2 c (e1.keep c hcm hcc))
        · obtain ⟨c, hcm, -, hcf⟩ := e1.stored x h
          rw [← hcf]
          exact e5.2 c hcm
      obtain ⟨d, hdm, hdf⟩ := bestEnergy_survives (o := o) (sort := (env w1).sort) hdt hN (by rw [e3]; exact e5)
      rw [← e6] at hdm
      refine ⟨⟨⟨cb.2.var, by rw [← e4]; exact hlogged cb e5.1⟩, hall⟩, ⟨?_, ?_⟩, d, hdm, by rw [hdf, e4]⟩
      · intro p hp
        obtain ⟨c, hcm, -, rfl⟩ := mem_valuedPop.1 hp
        exact hlogged c (hvm c hcm)
      · intro x hx
        exact ⟨d, hdm, (hvc d hdm).1, by rw [hdf, e4]; exact hall x hx⟩
    rcases hcase with rfl | ⟨x, new, x1, x2, x3, x4, x5, hr'⟩
    · refine ⟨[fs], [y], by simp, rfl, rfl, rfl, id, ?_, ⟨fs, rfl, e2⟩, ?_, ?_, hvd, ?_⟩
      · intro b hb
        simp only [List.mem_singleton] at hb
        subst hb
        exact e1.fits
      · intro hN
        exact ⟨by simp, by rw [hvl]; omega⟩
      · intro c hc
        simpa using hvc c hc
      · intro hN hc
        obtain ⟨c1, c2, d, hdm, hdf⟩ := hcov hN hc
        refine ⟨?_, ⟨d, hdm, by simp [hdf]⟩, c2⟩
        intro j z hz
        cases j with
        | zero =>
          have := Option.some.inj hz
          subst this
          simpa using c1
        | succ j => simp at hz
    · obtain ⟨blocks, recs, r1, r2, r3, r4, r5, r6, ⟨b0, r7, r7'⟩, r8, r9, r10, r11⟩ := aosCallsLoop_log ho fuel (gen + 1) x
        (after w1) (l ++ fs) (record ++ [y]) r x4 hr'
      obtain ⟨u1, u2⟩ := unvalued_append v.electrons new (fun c hc => (hvc c hc).1) x3
      rw [← x1] at u1 u2
      refine ⟨fs :: blocks, y :: recs, ?_, by simp [r2], ?_, ?_, fun _ => r5 (by omega), ?_, ⟨fs, rfl, e2⟩, ?_, ?_, r10, ?_⟩
      · rw [r1]; simp
      · rw [r3]; simp
      · rw [List.length_cons]; omega
      · intro b hb
        rcases List.mem_cons.1 hb with rfl | hb
        · exact e1.fits
        · exact r6 b hb
      · intro hN
        have hlx : x.electrons.length = 2 * o.electronNum := by
          rw [x1, List.length_append, x2, hvl, e1.length]; omega
        obtain ⟨k1, k2⟩ := r8 (by omega)
        refine ⟨?_, k2⟩
        intro b hb
        simp only [List.tail_cons] at hb
        cases blocks with
        | nil => cases hb
        | cons b1 bs =>
          have hb01 : b1 = b0 := Option.some.inj r7
          rcases List.mem_cons.1 hb with rfl | hb
          · have h1 := r7'.length_eq
            rw [← hb01, u1, List.length_map, List.length_map, x2, e1.length,
              fits_length _ (fun e he => r6 b List.mem_cons_self e he)] at h1
            omega
          · exact k1 b hb
      · intro c hc
        obtain ⟨d1, d2⟩ := r9 c hc
        refine ⟨d1, ?_⟩
        rw [List.flatten_cons, values_append, ← List.append_assoc]
        rw [u2] at d2
        rcases List.mem_append.1 d2 with h | h
        · obtain ⟨c', hc', he⟩ := List.mem_map.1 h
          rw [← he]
          exact List.mem_append_left _ (hvc c' hc').2
        · exact List.mem_append_right _ h
      · intro hN hc
        obtain ⟨c1, c2, -⟩ := hcov hN hc
        have hx : AOSCover opt x.electrons (values (l ++ fs)) := by
          refine ⟨?_, ?_⟩
          · intro p hp
            rw [u2] at hp
            obtain ⟨c, hcm, rfl⟩ := List.mem_map.1 hp
            exact c2.stored _ (mem_valuedPop.2 ⟨c, hcm, (hvc c hcm).1, rfl⟩)
          · intro p hp
            obtain ⟨c, hcm, h1, h2⟩ := c2.cover p hp
            exact ⟨c, by rw [x1]; exact List.mem_append_left _ hcm, h1, h2⟩
        obtain ⟨j1, j2, j3⟩ := r11 hN hx
        refine ⟨?_, j2, j3⟩
        intro j z hz
        cases j with
        | zero =>
          have := Option.some.inj hz
          subst this
          simpa using c1
        | succ j =>
          have := j1 j z hz
          simpa [List.append_assoc] using this

/-- C146: the calls of a run of the atomic orbital search that does not run into undefined behaviour: only the fitness
function is called, in `generation() + 1` rounds; the first evaluates the electrons that have no energy yet, each once;
every later round evaluates exactly `electronNum` electrons; at the end every electron has the energy that a call for
its state returned. -/
theorem aos_run_calls (impl : AOSImpl) (opt : FitnessOption) (o : AOSOption) (b : Box α) (u : UserFns (List α) α ω)
    (order : List Addr → List Addr) (ho : ∀ l, (order l).Perm l) (env : ω → AOSEnv α) (after : ω → ω)
    (fuel : Nat) (s : AOSState α) (hd : DistinctNodes s.electrons) (hN : o.electronNum ≤ s.electrons.length)
    (w : ω) (l : List (UserCall (List α) α)) (r : AOSCallsResult α (ω × List (UserCall (List α) α)))
    (hr : aosCallsLoop impl opt o b (logged u) order (fun s => env s.1) (fun s => (after s.1, s.2)) fuel 0 s
      (w, l) [] = .ok r) :
    r.generation ≤ o.maxGeneration ∧ r.record.length = r.generation + 1 ∧
    r.state.electrons.length = o.electronNum ∧
    ∃ (b0 : List (UserCall (List α) α)) (blocks : List (List (UserCall (List α) α))), r.world.2 = l ++ b0 ++ blocks.flatten ∧
      blocks.length = r.generation ∧ (∀ e ∈ b0, e.isFit) ∧ ((values b0).map (·.1)).Perm (unvaluedPop s.electrons) ∧
      (∀ b ∈ blocks, (∀ e ∈ b, e.isFit) ∧ b.length = o.electronNum) ∧
      ∀ c ∈ r.state.electrons, c.2.computed = true ∧
        (c.2.var, c.2.fitness) ∈ valuedPop s.electrons ++ values (b0 ++ blocks.flatten) := by
  obtain ⟨blocks, recs, r1, r2, r3, r4, r5, r6, ⟨b0, r7, r7'⟩, r8, r9, r10, -⟩ := aosCallsLoop_log ho fuel 0 s w l [] r hd hr
  have r3' : r.record = recs := by simpa using r3
  cases blocks with
  | nil => cases r7
  | cons b1 bs =>
    have hb01 : b1 = b0 := Option.some.inj r7
    subst hb01
    simp only [List.length_cons] at r2
    refine ⟨r5 (Nat.zero_le _), by rw [r3']; omega, (r8 hN).2, b1, bs, by rw [r1]; simp, by omega,
      r6 b1 List.mem_cons_self, r7', ?_, ?_⟩
    · intro b hb
      exact ⟨r6 b (List.mem_cons_of_mem _ hb), (r8 hN).1 b hb⟩
    · intro c hc
      simpa using r9 c hc

/-- C146: after `initializePop`, a run that returns has called the fitness function `electronNum * (generation() + 1)`
times, and the initialiser only in `initializePop`, `electronNum` times. -/
theorem aos_run_counts (impl : AOSImpl) (opt : FitnessOption) (o : AOSOption) (b : Box α) (u : UserFns (List α) α ω)
    (order : List Addr → List Addr) (ho : ∀ l, (order l).Perm l) (env : ω → AOSEnv α) (after : ω → ω)
    (fuel : Nat) (blank : Gene (List α) α) (w : ω) (s : AOSState α) (w' : ω × List (UserCall (List α) α))
    (hi : aosInitializeCalls (logged u) o blank (w, []) = .ok (s, w'))
    (r : AOSCallsResult α (ω × List (UserCall (List α) α)))
    (hr : aosCallsLoop impl opt o b (logged u) order (fun s => env s.1) (fun s => (after s.1, s.2)) fuel 0 s
      w' [] = .ok r) :
    r.world.2.countP UserCall.isIni = o.electronNum ∧
    r.world.2.countP UserCall.isFit = o.electronNum * (r.generation + 1) ∧
    r.world.2.length = o.electronNum * (r.generation + 2) := by
  have hpre : o.maxLayerNum ≤ o.electronNum ∧ 0 < o.electronNum := by
    by_contra hc
    rw [(aos_init_calls u o blank w []).1 (by omega)] at hi
    cases hi
  obtain ⟨s1, w1, is, h1, h2, h3, h4, h5, h6, h7, -⟩ := (aos_init_calls u o blank w []).2 hpre.1 hpre.2
  have he := Out.ok.inj (h1.symm.trans hi)
  simp only [Prod.mk.injEq, List.nil_append] at he
  obtain ⟨rfl, rfl⟩ := he
  obtain ⟨-, -, -, b0, blocks, b1, b2, b3, b4, b5, -⟩ := aos_run_calls impl opt o b u order ho env after fuel s1 h5
    (by omega) w1 is r hr
  have key : ∀ (bs : List (List (UserCall (List α) α))),
      (∀ b ∈ bs, (∀ e ∈ b, e.isFit) ∧ b.length = o.electronNum) →
      bs.flatten.countP UserCall.isIni = 0 ∧ bs.flatten.countP UserCall.isFit = o.electronNum * bs.length ∧
      bs.flatten.length = o.electronNum * bs.length := by
    intro bs
    induction bs with
    | nil => intro _; exact ⟨rfl, rfl, rfl⟩
    | cons b bs ih =>
      intro hb
      obtain ⟨i1, i2, i3⟩ := ih (fun c hc => hb c (List.mem_cons_of_mem _ hc))
      obtain ⟨j1, j2⟩ := hb b (by simp)
      rw [List.flatten_cons, List.countP_append, List.countP_append, List.length_append, i1, i2, i3]
      refine ⟨?_, ?_, ?_⟩
      · rw [Nat.add_zero, List.countP_eq_zero]
        intro e he
        have := j1 e he
        cases e <;> simp_all [UserCall.isFit, UserCall.isIni]
      · rw [List.countP_eq_length.2 j1, j2, List.length_cons]
        ring
      · rw [j2, List.length_cons]
        ring
  have hb0 : b0.length = o.electronNum := by
    have h8 := b4.length_eq
    have hun : (unvaluedPop s1.electrons).length = s1.electrons.length := by
      unfold unvaluedPop
      rw [List.length_map, List.filter_eq_self.2 (fun c hc => by
        by_contra hcc
        have : (c.2.var, c.2.fitness) ∈ valuedPop s1.electrons := mem_valuedPop.2 ⟨c, hc, by simpa using hcc, rfl⟩
        rw [h7] at this
        cases this)]
    rw [List.length_map, fits_length _ b3, hun] at h8
    omega
  obtain ⟨k1, k2, k3⟩ := key (b0 :: blocks) (fun b hb => by
    rcases List.mem_cons.1 hb with rfl | hb
    · exact ⟨b3, hb0⟩
    · exact b5 b hb)
  simp only [List.flatten_cons, List.length_cons, b2] at k1 k2 k3
  have hw : r.world.2 = is ++ (b0 ++ blocks.flatten) := by rw [b1]; simp
  rw [hw, List.countP_append (p := UserCall.isIni) (l₁ := is), List.countP_append (p := UserCall.isFit) (l₁ := is),
    List.length_append (as := is)]
  rw [k1, k2, k3, List.countP_eq_length.2 h2, h3]
  refine ⟨by omega, ?_, by ring⟩
  have : is.countP UserCall.isFit = 0 := by
    rw [List.countP_eq_zero]
    intro e he
    have := h2 e he
    cases e <;> simp_all [UserCall.isFit, UserCall.isIni]
  omega

/-- C146: after `initializePop`, each entry of the record of a run is a best one of all values the fitness function had
returned by then; the last entry is the energy of an electron that is still there. -/
theorem aos_best_of_all_calls (impl : AOSImpl) (opt : FitnessOption) (o : AOSOption) (b : Box α)
    (u : UserFns (List α) α ω)
    (order : List Addr → List Addr) (ho : ∀ l, (order l).Perm l) (env : ω → AOSEnv α) (after : ω → ω)
    (fuel : Nat) (blank : Gene (List α) α) (w : ω) (s : AOSState α) (w' : ω × List (UserCall (List α) α))
    (hi : aosInitializeCalls (logged u) o blank (w, []) = .ok (s, w'))
    (r : AOSCallsResult α (ω × List (UserCall (List α) α)))
    (hr : aosCallsLoop impl opt o b (logged u) order (fun s => env s.1) (fun s => (after s.1, s.2)) fuel 0 s
      w' [] = .ok r) :
    (∃ blocks : List (List (UserCall (List α) α)), r.world.2 = w'.2 ++ blocks.flatten ∧
      blocks.length = r.record.length ∧ ∀ (j : Nat) (y : α), r.record[j]? = some y →
        IsBestOf opt (values (blocks.take (j + 1)).flatten) y) ∧
    ∃ c ∈ r.state.electrons, r.record.getLast? = some c.2.fitness ∧ IsBestOf opt (values r.world.2) c.2.fitness := by
  have hpre : o.maxLayerNum ≤ o.electronNum ∧ 0 < o.electronNum := by
    by_contra hc
    rw [(aos_init_calls u o blank w []).1 (by omega)] at hi
    cases hi
  obtain ⟨s1, w1, is, h1, h2, h3, h4, h5, h6, h7, -⟩ := (aos_init_calls u o blank w []).2 hpre.1 hpre.2
  have he := Out.ok.inj (h1.symm.trans hi)
  simp only [Prod.mk.injEq, List.nil_append] at he
  obtain ⟨rfl, rfl⟩ := he
  have hv0 : values is = [] := by
    unfold values
    rw [List.flatMap_eq_nil_iff]
    intro e he
    have := h2 e he
    cases e <;> simp_all [UserCall.isIni, UserCall.valued]
  obtain ⟨blocks, recs, r1, r2, r3, r4, r5, r6, r7, r8, r9, r10, r11⟩ :=
    aosCallsLoop_log ho fuel 0 s1 w1 is [] r h5 hr
  have r3' : r.record = recs := by simpa using r3
  obtain ⟨j1, ⟨c, j2, j3⟩, j4⟩ := r11 hpre.2 ⟨by rw [h7]; simp, by rw [hv0]; simp⟩
  have j1' : ∀ (j : Nat) (y : α), recs[j]? = some y → IsBestOf opt (values (blocks.take (j + 1)).flatten) y := by
    intro j y hy
    have := j1 j y hy
    rw [values_append, hv0, List.nil_append] at this
    exact this
  refine ⟨⟨blocks, r1, by rw [r3']; exact r2, fun j y hy => j1' j y (r3' ▸ hy)⟩, c, j2, j3, ?_⟩
  rw [r3'] at j3
  have hne : recs ≠ [] := fun hn => by rw [hn] at j3; cases j3
  rw [List.getLast?_eq_getElem?] at j3
  have := j1' _ _ j3
  have hl : recs.length - 1 + 1 = recs.length := Nat.sub_add_cancel (List.length_pos_iff.2 hne)
  rw [hl, ← r2, List.take_length] at this
  have r1' : r.world.2 = is ++ blocks.flatten := r1
  rw [r1', values_append, hv0, List.nil_append]
  exact this

/-- C146: with a fitness function without side effects, in whatever order the electrons are evaluated, the evaluation is
that of the model used elsewhere (`Heu.aosComputeFitness`). -/
theorem aos_evaluate_agrees (u : UserFns (List α) α ω) (order : List Addr → List Addr) (ho : ∀ l, (order l).Perm l)
    (f : List α → α) (hf : ∀ v y w, u.fit v y w = (f v, w)) (s : AOSState α) (hd : DistinctNodes s.electrons) (w : ω) :
    aosEvaluateCalls u order s w = .ok (aosComputeFitness f s, w) := by
  have hp := ho (evalTasks s.electrons)
  unfold aosEvaluateCalls
  rw [evalCalls_pure u f hf _ s.electrons w hd (hp.nodup_iff.2 (evalTasks_nodup hd)) (fun a ha => by
    have := hp.mem_iff.1 ha
    unfold evalTasks at this
    obtain ⟨c, hc, rfl⟩ := List.mem_map.1 this
    exact List.mem_map_of_mem (List.mem_filter.1 hc).1)]
  simp only [Out.ok_bind]
  unfold aosComputeFitness computeAllFitness
  congr 3
  apply List.map_congr_left
  intro c hc
  have hmem : c.1 ∈ order (evalTasks s.electrons) ↔ c.2.computed = false := hp.mem_iff.trans (mem_evalTasks hd hc)
  unfold evalGene
  cases hcc : c.2.computed with
  | true => rw [if_neg (by rw [hmem, hcc]; simp)]; simp
  | false => rw [if_pos (hmem.2 hcc)]; simp

end run

/-! ## Examples -/

/-- The `n`-th call of the fitness function adds `n % 3`; the initialiser gives -3, -2, …. -/
def noisyElectrons : UserFns (List ℚ) ℚ Nat where
  ini _ w := ([(w : ℚ) - 3], w + 1)
  fit v _ w := (v.getD 0 0 * v.getD 0 0 + (w % 3 : Nat), w + 1)
  cross p q w := ((p, q), w)
  muta v w := (v, w)

/-- A whole run: four electrons, four generations, sixteen evaluations. -/
example : ∀ impl ∈ [AOSImpl.eigen, AOSImpl.std],
    ((aosInitializeCalls (logged noisyElectrons) demoAOSOption ⟨[], 55, true⟩ (0, [])).bind fun s =>
      aosCallsLoop impl .lessBetter demoAOSOption demoAOSBox (logged noisyElectrons) List.reverse
        (fun _ => demoAOSEnv insertionSorter) (fun s => (s.1 + 5, s.2)) 4 0 s.1 s.2 []).satisfies
      (fun r => r.generation == 3 && r.record.length == 4 && r.state.electrons.length == 4 &&
        r.world.2.countP UserCall.isFit == 16 && r.world.2.countP UserCall.isIni == 4) = true := by
  decide +kernel

example : (noisyElectrons.fit [2] 0 0).1 ≠ (noisyElectrons.fit [2] 0 1).1 := by decide +kernel

end Heu
