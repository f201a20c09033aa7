import Verif.Lemmas.AOSCopy
import Verif.Props.GAFull3

/-!
# C133: copies and moves of AOS objects
-/

set_option linter.unusedSectionVars false
set_option linter.unusedVariables false
set_option linter.unusedSimpArgs false

namespace Heu
open Spec

section
variable {A α : Type} [Field α] [LinearOrder α] [IsStrictOrderedRing α] [FloorSemiring α]
variable (opt : FitnessOption) (gauss : Nat → Nat → α)

theorem best_own {w : AOSWorld A α} (hw : w.WF) {i : Nat} {x : AOSHeld A α} (hi : w.objs i = some x)
    (ho : AOSHeld.Owns x) : w.bestElectron i = x.obj.bestElectron ∧ w.layers i = ownLayers x.obj := by
  simp only [AOSWorld.bestElectron, AOSWorld.layers, aosWorld_get' hi, Out.ok_bind, home_own hw hi ho,
    AOSFull.bestElectron, ownLayers, and_self]

theorem best_home {w w' : AOSWorld A α} {i j : Nat} {x y : AOSHeld A α} (hi : w.objs i = some x)
    (hj : w'.objs j = some y) (hst : y.obj.st = x.obj.st) (hh : w'.home y = w.home x) :
    w'.bestElectron j = w.bestElectron i ∧ w'.layers j = w.layers i := by
  simp only [AOSWorld.bestElectron, AOSWorld.layers, aosWorld_get' hi, aosWorld_get' hj, Out.ok_bind, hh, hst, and_self]

/-- What the pointers lead to, if every list is still owned by an object with the same electrons, or still not owned. -/
theorem home_eq {w w' : AOSWorld A α} (hw : w.WF) (hw' : w'.WF) {x y : AOSHeld A α} (hp : y.ptr = x.ptr)
    (h1 : ∀ p k z, x.ptr = some p → w.objs k = some z → z.nodes = p →
      ∃ l u, w'.objs l = some u ∧ u.nodes = p ∧ u.obj.st.electrons = z.obj.st.electrons)
    (h2 : ∀ p, x.ptr = some p → (∀ k z, w.objs k = some z → z.nodes ≠ p) → ∀ k z, w'.objs k = some z → z.nodes ≠ p) :
    w'.home y = w.home x := by
  unfold AOSWorld.home
  rw [hp]
  cases hx : x.ptr with
  | none => rfl
  | some p =>
    simp only [Option.bind_some]
    cases ho : w.owner p with
    | some z =>
      obtain ⟨k, hk, hz⟩ := owner_some ho
      obtain ⟨l, u, hl, hu, he⟩ := h1 p k z hx hk hz
      simp only [owner_of hw' hl hu, he]
    | none =>
      have hd : ∀ k z, w.objs k = some z → z.nodes ≠ p := by
        intro k z hk hz
        rw [owner_of hw hk hz] at ho; cases ho
      cases ho' : w'.owner p with
      | none => rfl
      | some z =>
        obtain ⟨k, hk, hz⟩ := owner_some ho'
        exact absurd hz (h2 p hx hd k z hk)

/-- **C133** (independence).  An object whose pointers lead into its own list, and that is not destroyed, assigned to or
moved from, behaves as if it were alone: what becomes of it depends only on the calls made on it, whatever happens to other
objects (also to its copies), and `bestElectron()` and `layers()` are those of the object alone. -/
theorem aos_objects_independent {w w' : AOSWorld A α} (before cs : List (AOSWorldCall A α))
    (hw : aosWorldSession opt gauss .empty before = .ok w) (h : aosWorldSession opt gauss w cs = .ok w') {i : Nat}
    {x : AOSHeld A α} (hx : w.objs i = some x) (hown : AOSHeld.Owns x) (hc : ∀ c ∈ cs, ¬ AOSWorldCall.Replaces i c) :
    ∃ y, w'.objs i = some y ∧ AOSHeld.Owns y ∧
      aosFullSession opt gauss x.obj (cs.filterMap (AOSWorldCall.callOn? i)) = .ok y.obj ∧
      w'.bestElectron i = y.obj.bestElectron ∧ w'.layers i = ownLayers y.obj := by
  have hwf := aosWorld_reach_wf opt gauss hw
  clear hw
  induction cs generalizing w x with
  | nil =>
    rw [← Out.ok.inj h]
    exact ⟨x, hx, hown, rfl, best_own hwf hx hown⟩
  | cons c cs ih =>
    obtain ⟨w1, hw1, h⟩ := aosWorldSession_cons opt gauss h
    obtain ⟨s1, s2⟩ := aosWorld_step opt gauss hwf hw1 hx (hc c (by simp))
    have hwf1 := aosWorld_wf opt gauss hwf hw1
    have hcs : ∀ d ∈ cs, ¬ AOSWorldCall.Replaces i d := fun d hd => hc d (by simp [hd])
    cases ho : AOSWorldCall.callOn? i c with
    | none =>
      rw [List.filterMap_cons_none ho]
      exact ih h (s2 ho) hown hcs hwf1
    | some d =>
      rw [List.filterMap_cons_some ho]
      obtain ⟨-, hd⟩ := s1 d ho
      have fin : ∀ o, aosFullCall opt gauss x.obj d = .ok o → ∀ y : AOSFull A α,
          aosFullSession opt gauss o (cs.filterMap (AOSWorldCall.callOn? i)) = .ok y →
          aosFullSession opt gauss x.obj (d :: cs.filterMap (AOSWorldCall.callOn? i)) = .ok y := by
        intro o h1 y h2
        show (aosFullCall opt gauss x.obj d >>= fun z => aosFullSession opt gauss z _) = _
        rw [h1]; exact h2
      obtain ⟨x', o, hx', ⟨-, -, ho', rfl, -⟩ | ⟨⟨u, b, rfl, ho'⟩, rfl⟩ | ⟨⟨env, rfl, ho'⟩, rfl⟩⟩ :=
        aosWorldObj_spec opt gauss hd
      · rw [hx] at hx'
        have := Option.some.inj hx'; subst this
        obtain ⟨y, y1, y2, y3, y4⟩ := ih h (aosPut_same w i { x with obj := o }) hown hcs hwf1
        exact ⟨y, y1, y2, fin o ho' _ y3, y4⟩
      · rw [hx] at hx'
        have := Option.some.inj hx'; subst this
        obtain ⟨y, y1, y2, y3, y4⟩ := ih h (x := ⟨o, w.stamp, some w.stamp⟩) (aosPut_same w i _) rfl hcs hwf1
        exact ⟨y, y1, y2, fin o ho' _ y3, y4⟩
      · rw [hx] at hx'
        have := Option.some.inj hx'; subst this
        obtain ⟨y, y1, y2, y3, y4⟩ := ih h (x := ⟨o, w.stamp, some w.stamp⟩) (aosPut_same w i _) rfl hcs hwf1
        refine ⟨y, y1, y2, fin o ?_ _ y3, y4⟩
        rw [runFrom_congr opt gauss x.obj env (w.reader x)] at ho'
        · exact ho'
        · intro f
          have hown' : x.ptr = some x.nodes := hown
          simp only [AOSWorld.reader, hown', if_true]

/-- **C133** (new objects and copies become independent).  After `initializePop` or `run` the pointers of an object lead into
its own list. -/
theorem aos_touched_owns {w w' : AOSWorld A α} {i : Nat} {c : AOSWorldCall A α}
    (hc : (∃ u b, c = .call i (.initializePop u b)) ∨ ∃ env, c = .call i (.run env))
    (h : aosWorldCall opt gauss w c = .ok w') : ∃ y, w'.objs i = some y ∧ AOSHeld.Owns y := by
  have key : ∀ d, (AOSFullCall.IsInit d ∨ AOSFullCall.IsRun d) → aosWorldObjCall opt gauss w i d = .ok w' →
      ∃ y, w'.objs i = some y ∧ AOSHeld.Owns y := by
    intro d hd h
    obtain ⟨x, o, hx, ⟨n1, n2, -⟩ | ⟨-, rfl⟩ | ⟨-, rfl⟩⟩ := aosWorldObj_spec opt gauss h
    · exact absurd hd (by rintro (h | h) <;> contradiction)
    · exact ⟨_, aosPut_same w i _, rfl⟩
    · exact ⟨_, aosPut_same w i _, rfl⟩
  rcases hc with ⟨u, b, rfl⟩ | ⟨env, rfl⟩
  · exact key _ (.inl ⟨u, b, rfl⟩) h
  · exact key _ (.inr ⟨env, rfl⟩) h

/-- **C133** (initialising always works).  `initializePop` on any live object (a copy, an object that was moved from) returns
exactly if it would return on an object alone with the same settings, and gives the same. -/
theorem aos_world_init {w : AOSWorld A α} {i : Nat} {x : AOSHeld A α} (hx : w.objs i = some x) (u : Nat → Nat → α)
    (junk : α) (y : AOSFull A α) :
    (∃ w' z, aosWorldCall opt gauss w (.call i (.initializePop u junk)) = .ok w' ∧ w'.objs i = some z ∧ z.obj = y) ↔
      aosFullCall opt gauss x.obj (.initializePop u junk) = .ok y := by
  constructor
  · rintro ⟨w', z, h, hz, rfl⟩
    have h' : aosWorldObjCall opt gauss w i (.initializePop u junk) = .ok w' := h
    simp only [aosWorldObjCall, aosWorld_get' hx, Out.ok_bind, Out.bind_eq_ok] at h'
    obtain ⟨y, hy, h'⟩ := h'
    have := Out.ok.inj h'; subst this
    have hz' : (w.put i ⟨y, w.stamp, some w.stamp⟩).objs i = some z := hz
    rw [aosPut_same] at hz'
    have := Option.some.inj hz'; subst this
    exact hy
  · intro h
    refine ⟨w.renew i y, ⟨y, w.stamp, some w.stamp⟩, ?_, aosPut_same w i _, rfl⟩
    show aosWorldObjCall opt gauss w i (.initializePop u junk) = _
    have h' : x.obj.initializePop u junk = .ok y := h
    simp only [aosWorldObjCall, aosWorld_get' hx, Out.ok_bind, h']

/-- **C133** (copy construction).  The copy has the same content (electrons, settings, counters, record) and reports the same
best electron and layers; nothing else changes.  If the original has been initialised, the pointers of the copy do not lead
into its own list. -/
theorem aos_copy_same {w w' : AOSWorld A α} (before : List (AOSWorldCall A α))
    (hw : aosWorldSession opt gauss .empty before = .ok w) {i : Nat} (h : w.copy i = .ok w') :
    (∃ x y, w.objs i = some x ∧ w'.objs w.next = some y ∧ y.obj = x.obj ∧ y.ptr = x.ptr ∧ ¬ AOSHeld.Owns y) ∧
      w.objs w.next = none ∧ (∀ j, j ≠ w.next → w'.objs j = w.objs j) ∧
      w'.bestElectron w.next = w.bestElectron i ∧ w'.layers w.next = w.layers i := by
  have hwf := aosWorld_reach_wf opt gauss hw
  have hwf' : w'.WF := aosWorld_wf opt gauss hwf (c := .copy i) h
  simp only [AOSWorld.copy, Out.bind_eq_ok] at h
  obtain ⟨x, hx, h⟩ := h
  have hx := aosWorld_get hx
  have := Out.ok.inj h; subst this
  have hnew : (w.make x.obj x.ptr).objs w.next = some ⟨x.obj, w.stamp, x.ptr⟩ := if_pos rfl
  have hold : ∀ j, j ≠ w.next → (w.make x.obj x.ptr).objs j = w.objs j := fun j hj => if_neg hj
  refine ⟨⟨x, _, hx, hnew, rfl, rfl, fun ho => ?_⟩, hwf.fresh _ (Nat.le_refl _), hold, ?_⟩
  · have ho' : x.ptr = some w.stamp := ho
    exact absurd (hwf.ptr i x _ hx ho') (Nat.lt_irrefl _)
  · refine best_home hx hnew rfl (home_eq hwf hwf' rfl ?_ ?_)
    · intro p k z hp hk hz
      exact ⟨k, z, by rw [hold k (Nat.ne_of_lt (aosWF_lt hwf hk))]; exact hk, hz, rfl⟩
    · intro p hp hno k z hk hz
      by_cases hkn : k = w.next
      · subst hkn
        rw [hnew] at hk
        have := Option.some.inj hk; subst this
        have : w.stamp = p := hz
        exact absurd (hwf.ptr i x p hx hp) (by omega)
      · rw [hold k hkn] at hk
        exact hno k z hk hz

/-- **C133** (move construction).  The new object has everything the original had, reports the same, and is independent if the
original was.  The original keeps its settings and counters (except the argument of the fitness function, which is
unspecified) but has no electrons, layers and record; running it is undefined.  It still reports the best electron of the new
object: its pointer was not changed. -/
theorem aos_move_same {w w' : AOSWorld A α} (before : List (AOSWorldCall A α))
    (hw : aosWorldSession opt gauss .empty before = .ok w) {i : Nat} {bs : List α} {a : A} (h : w.move i bs a = .ok w') :
    ∃ x y, w.objs i = some x ∧ w'.objs w.next = some x ∧ w'.objs i = some y ∧
      y.obj = { x.obj with arg := a, record := [],
                           st := { x.obj.st with electrons := [], layers := [], bindingState := bs } } ∧
      (∀ j, j ≠ w.next → j ≠ i → w'.objs j = w.objs j) ∧
      w'.bestElectron w.next = w.bestElectron i ∧ w'.layers w.next = w.layers i ∧
      w'.bestElectron i = w'.bestElectron w.next ∧
      ∀ env, aosWorldCall opt gauss w' (.call i (.run env)) = .ub := by
  have hwf := aosWorld_reach_wf opt gauss hw
  have hwf' : w'.WF := aosWorld_wf opt gauss hwf (c := .move i bs a) h
  simp only [AOSWorld.move, Out.bind_eq_ok] at h
  obtain ⟨x, hx, h⟩ := h
  have hx := aosWorld_get hx
  have hne : i ≠ w.next := Nat.ne_of_lt (aosWF_lt hwf hx)
  have := Out.ok.inj h; subst this
  set w' : AOSWorld A α :=
      { next := w.next + 1, stamp := w.stamp + 1,
        objs := fun j => if j = w.next then some x
          else if j = i then some ⟨x.obj.movedFrom bs a, w.stamp, x.ptr⟩ else w.objs j } with hw'
  have hnew : w'.objs w.next = some x := if_pos rfl
  have hi : w'.objs i = some ⟨x.obj.movedFrom bs a, w.stamp, x.ptr⟩ := (if_neg hne).trans (if_pos rfl)
  have hold : ∀ j, j ≠ w.next → j ≠ i → w'.objs j = w.objs j := fun j h1 h2 => (if_neg h1).trans (if_neg h2)
  have hhome : w'.home x = w.home x := by
    refine home_eq hwf hwf' rfl ?_ ?_
    · intro p k z hp hk hz
      by_cases hki : k = i
      · subst hki
        rw [hx] at hk
        have := Option.some.inj hk; subst this
        exact ⟨w.next, x, hnew, hz, rfl⟩
      · exact ⟨k, z, by rw [hold k (Nat.ne_of_lt (aosWF_lt hwf hk)) hki]; exact hk, hz, rfl⟩
    · intro p hp hno k z hk hz
      by_cases hkn : k = w.next
      · subst hkn
        rw [hnew] at hk
        have := Option.some.inj hk; subst this
        exact hno i x hx hz
      · by_cases hki : k = i
        · subst hki
          rw [hi] at hk
          have := Option.some.inj hk; subst this
          have : w.stamp = p := hz
          exact absurd (hwf.ptr k x p hx hp) (by omega)
        · rw [hold k hkn hki] at hk
          exact hno k z hk hz
  obtain ⟨b1, b2⟩ := best_home hx hnew rfl hhome
  refine ⟨x, _, hx, hnew, hi, rfl, hold, b1, b2, ?_, fun env => ?_⟩
  · simp only [AOSWorld.bestElectron, aosWorld_get' hi, aosWorld_get' hnew, Out.ok_bind]
    rfl
  · show aosWorldObjCall opt gauss w' i (.run env) = _
    simp only [aosWorldObjCall, aosWorld_get' hi, Out.ok_bind]
    rw [runFrom_empty opt gauss (x.obj.movedFrom bs a) env _ rfl]
    rfl

/-- **C133** (copy assignment).  `a = b` gives `a` the content of `b`, and `a` then reports the same as `b` (unless the
pointers of `b` led into the list of `a`); nothing else changes, and `b` is still as it was. -/
theorem aos_assign_same {w w' : AOSWorld A α} (before : List (AOSWorldCall A α))
    (hw : aosWorldSession opt gauss .empty before = .ok w) {i j : Nat} (hij : i ≠ j) (h : w.assign i j = .ok w')
    (hnot : ∀ x y, w.objs i = some x → w.objs j = some y → y.ptr ≠ some x.nodes) :
    (∃ x y, w.objs j = some x ∧ w'.objs i = some y ∧ y.obj = x.obj) ∧ (∀ k, k ≠ i → w'.objs k = w.objs k) ∧
      w'.bestElectron i = w.bestElectron j ∧ w'.layers i = w.layers j := by
  have hwf := aosWorld_reach_wf opt gauss hw
  have hwf' : w'.WF := aosWorld_wf opt gauss hwf (c := .assign i j) h
  simp only [AOSWorld.assign, Out.bind_eq_ok] at h
  obtain ⟨x, hx, y, hy, h⟩ := h
  have hx := aosWorld_get hx
  have hy := aosWorld_get hy
  rw [if_neg hij] at h
  have := Out.ok.inj h; subst this
  have hnew : (w.put i ⟨y.obj, w.stamp, y.ptr⟩).objs i = some ⟨y.obj, w.stamp, y.ptr⟩ := aosPut_same _ _ _
  have hold : ∀ k, k ≠ i → (w.put i ⟨y.obj, w.stamp, y.ptr⟩).objs k = w.objs k := fun k hk => aosPut_other _ _ hk
  refine ⟨⟨y, _, hy, hnew, rfl⟩, hold, best_home hy hnew rfl (home_eq hwf hwf' rfl ?_ ?_)⟩
  · intro p k z hp hk hz
    by_cases hki : k = i
    · subst hki
      rw [hx] at hk
      have := Option.some.inj hk; subst this
      exact absurd (hp.trans (congrArg some hz.symm)) (hnot x y hx hy)
    · exact ⟨k, z, (hold k hki).trans hk, hz, rfl⟩
  · intro p hp hno k z hk hz
    by_cases hki : k = i
    · subst hki
      rw [show _ = _ from hnew] at hk
      have := Option.some.inj hk; subst this
      have : w.stamp = p := hz
      exact absurd (hwf.ptr j y p hy hp) (by omega)
    · exact hno k z ((hold k hki).symm.trans hk) hz

/-- **C133** (move assignment).  As for move construction; `a` takes over everything `b` had. -/
theorem aos_moveAssign_same {w w' : AOSWorld A α} (before : List (AOSWorldCall A α))
    (hw : aosWorldSession opt gauss .empty before = .ok w) {i j : Nat} (hij : i ≠ j) {bs : List α} {a : A}
    (h : w.moveAssign i j bs a = .ok w')
    (hnot : ∀ x y, w.objs i = some x → w.objs j = some y → y.ptr ≠ some x.nodes) :
    ∃ x y, w.objs j = some x ∧ w'.objs i = some x ∧ w'.objs j = some y ∧
      y.obj = { x.obj with arg := a, record := [],
                           st := { x.obj.st with electrons := [], layers := [], bindingState := bs } } ∧
      (∀ k, k ≠ i → k ≠ j → w'.objs k = w.objs k) ∧
      w'.bestElectron i = w.bestElectron j ∧ w'.layers i = w.layers j ∧ w'.bestElectron j = w'.bestElectron i ∧
      ∀ env, aosWorldCall opt gauss w' (.call j (.run env)) = .ub := by
  have hwf := aosWorld_reach_wf opt gauss hw
  have hwf' : w'.WF := aosWorld_wf opt gauss hwf (c := .moveAssign i j bs a) h
  simp only [AOSWorld.moveAssign, Out.bind_eq_ok] at h
  obtain ⟨x0, hx0, x, hx, h⟩ := h
  have hx0 := aosWorld_get hx0
  have hx := aosWorld_get hx
  rw [if_neg hij] at h
  have := Out.ok.inj h; subst this
  set w' : AOSWorld A α :=
      { next := w.next, stamp := w.stamp + 1,
        objs := fun k => if k = i then some x
               else if k = j then some ⟨x.obj.movedFrom bs a, w.stamp, x.ptr⟩ else w.objs k } with hw'
  have hnew : w'.objs i = some x := if_pos rfl
  have hj : w'.objs j = some ⟨x.obj.movedFrom bs a, w.stamp, x.ptr⟩ := (if_neg (Ne.symm hij)).trans (if_pos rfl)
  have hold : ∀ k, k ≠ i → k ≠ j → w'.objs k = w.objs k := fun k h1 h2 => (if_neg h1).trans (if_neg h2)
  have hhome : w'.home x = w.home x := by
    refine home_eq hwf hwf' rfl ?_ ?_
    · intro p k z hp hk hz
      by_cases hkj : k = j
      · subst hkj
        rw [hx] at hk
        have := Option.some.inj hk; subst this
        exact ⟨i, x, hnew, hz, rfl⟩
      · by_cases hki : k = i
        · subst hki
          rw [hx0] at hk
          have := Option.some.inj hk; subst this
          exact absurd (hp.trans (congrArg some hz.symm)) (hnot x0 x hx0 hx)
        · exact ⟨k, z, (hold k hki hkj).trans hk, hz, rfl⟩
    · intro p hp hno k z hk hz
      by_cases hki : k = i
      · subst hki
        rw [hnew] at hk
        have := Option.some.inj hk; subst this
        exact hno j x hx hz
      · by_cases hkj : k = j
        · subst hkj
          rw [hj] at hk
          have := Option.some.inj hk; subst this
          have : w.stamp = p := hz
          exact absurd (hwf.ptr k x p hx hp) (by omega)
        · rw [hold k hki hkj] at hk
          exact hno k z hk hz
  obtain ⟨b1, b2⟩ := best_home hx hnew rfl hhome
  refine ⟨x, _, hx, hnew, hj, rfl, hold, b1, b2, ?_, fun env => ?_⟩
  · simp only [AOSWorld.bestElectron, aosWorld_get' hj, aosWorld_get' hnew, Out.ok_bind]
    rfl
  · show aosWorldObjCall opt gauss w' j (.run env) = _
    simp only [aosWorldObjCall, aosWorld_get' hj, Out.ok_bind]
    rw [runFrom_empty opt gauss (x.obj.movedFrom bs a) env _ rfl]
    rfl

/-- A copy of an object that owns its best electron, after events that touch neither. -/
theorem aos_copy_later {w w1 w2 : AOSWorld A α} (before cs : List (AOSWorldCall A α))
    (hw : aosWorldSession opt gauss .empty before = .ok w) {i : Nat} {x : AOSHeld A α} (hx : w.objs i = some x)
    (hown : AOSHeld.Owns x) (h1 : w.copy i = .ok w1) (h2 : aosWorldSession opt gauss w1 cs = .ok w2)
    (hc : ∀ c ∈ cs, ¬ AOSWorldCall.Touches w.next c) :
    w1.WF ∧ w2.WF ∧ w1.objs i = some x ∧ ∃ y, w2.objs w.next = some y ∧ y.ptr = some x.nodes ∧ y.obj.st = x.obj.st ∧
      ¬ AOSHeld.Owns y ∧ y.nodes = w.stamp ∧
      aosFullSession opt gauss x.obj (cs.filterMap (AOSWorldCall.callOn? w.next)) = .ok y.obj := by
  have hwf := aosWorld_reach_wf opt gauss hw
  have hwf1 : w1.WF := aosWorld_wf opt gauss hwf (c := .copy i) h1
  have hlt := aosWF_lt hwf hx
  simp only [AOSWorld.copy, aosWorld_get' hx, Out.ok_bind] at h1
  have := Out.ok.inj h1; subst this
  have hnew : (w.make x.obj x.ptr).objs w.next = some ⟨x.obj, w.stamp, x.ptr⟩ := if_pos rfl
  obtain ⟨y, y1, y2, y3, y4, y5⟩ := aosWorld_untouched opt gauss hwf1 cs h2 hnew hc
  refine ⟨hwf1, aosWorld_session_wf opt gauss hwf1 cs h2, (if_neg (Nat.ne_of_lt hlt)).trans hx, y, y1, y2.trans hown, y4,
    fun ho => ?_, y3, y5⟩
  have ho' : y.ptr = some y.nodes := ho
  rw [y2, y3, hown] at ho'
  have he : x.nodes = w.stamp := Option.some.inj ho'
  exact absurd (hwf.nodes i x hx) (by omega)

/-- **C133** (what a copy reports).  A copy keeps reporting the best electron and the layers of when it was made, as long as
neither the copy nor the original is initialised, run, assigned to, moved from or destroyed; changing settings of either does
not matter. -/
theorem aos_copy_keeps_result {w w1 w2 : AOSWorld A α} (before cs : List (AOSWorldCall A α))
    (hw : aosWorldSession opt gauss .empty before = .ok w) {i : Nat} {x : AOSHeld A α} (hx : w.objs i = some x)
    (hown : AOSHeld.Owns x) (h1 : w.copy i = .ok w1) (h2 : aosWorldSession opt gauss w1 cs = .ok w2)
    (hc : ∀ c ∈ cs, ¬ AOSWorldCall.Touches w.next c ∧ ¬ AOSWorldCall.Touches i c) :
    w2.bestElectron w.next = w.bestElectron i ∧ w2.layers w.next = w.layers i := by
  obtain ⟨hwf1, hwf2, hx1, y, y1, y2, y3, -, -, -⟩ := aos_copy_later opt gauss before cs hw hx hown h1 h2 fun c h => (hc c h).1
  obtain ⟨z, z1, z2, z3, z4, -⟩ := aosWorld_untouched opt gauss hwf1 cs h2 hx1 fun c h => (hc c h).2
  refine best_home hx y1 y3 ?_
  rw [home_of hwf2 z1 (y2.trans (congrArg some z3.symm)), home_own (aosWorld_reach_wf opt gauss hw) hx hown, z4]

theorem mapM_members_ub {f : Addr → Out (Gene (List α) α)} (hf : ∀ a, f a = .ub) :
    ∀ ls : List (Layer α), (∃ l ∈ ls, l.members ≠ []) → (ls.mapM fun l => l.members.mapM f) = .ub := by
  intro ls
  induction ls with
  | nil => rintro ⟨l, hl, -⟩; cases hl
  | cons l ls ih =>
    intro h
    rw [List.mapM_cons]
    cases hm : l.members with
    | cons a as =>
      rw [List.mapM_cons, hf a]; rfl
    | nil =>
      obtain ⟨k, hk, hn⟩ := h
      rcases List.mem_cons.1 hk with rfl | hk
      · exact absurd hm hn
      · rw [ih ⟨k, hk, hn⟩]; rfl

/-- **C133** (orphans).  If the original is destroyed (for example because it was a local variable, or a `std::vector` that
cannot move its elements grew), assigned to or initialised again, then, until the copy itself is initialised, `bestElectron()`
of the copy is undefined, so is following its layers, and so is running it, whatever happens to other objects. -/
theorem aos_orphan {w w1 w2 w3 w4 : AOSWorld A α} (before cs ds : List (AOSWorldCall A α))
    (hw : aosWorldSession opt gauss .empty before = .ok w) {i : Nat} {x : AOSHeld A α} (hx : w.objs i = some x)
    (hown : AOSHeld.Owns x) (h1 : w.copy i = .ok w1) (h2 : aosWorldSession opt gauss w1 cs = .ok w2)
    (c : AOSWorldCall A α) (h3 : aosWorldCall opt gauss w2 c = .ok w3) (hera : AOSWorldCall.Erases i c)
    (h4 : aosWorldSession opt gauss w3 ds = .ok w4) (hi : ∀ a ∈ cs, ¬ AOSWorldCall.Touches i a)
    (hc : ∀ a ∈ cs ++ [c] ++ ds, ¬ AOSWorldCall.Touches w.next a) :
    w4.bestElectron w.next = .ub ∧ ((∃ l ∈ x.obj.st.layers, l.members ≠ []) → w4.layers w.next = .ub) ∧
      ∀ env, aosWorldCall opt gauss w4 (.call w.next (.run env)) = .ub := by
  obtain ⟨hwf1, hwf2, hx1, -⟩ := aos_copy_later opt gauss before cs hw hx hown h1 h2
    fun a ha => hc a (by simp [ha])
  have hwf3 := aosWorld_wf opt gauss hwf2 h3
  have hall : aosWorldSession opt gauss w1 (cs ++ [c] ++ ds) = .ok w4 := by
    unfold aosWorldSession at h2 h4 ⊢
    rw [List.foldlM_append, List.foldlM_append, h2, Out.ok_bind, List.foldlM_cons, h3, Out.ok_bind, List.foldlM_nil]
    exact h4
  obtain ⟨-, hwf4, -, y, y1, y2, y3, y4, -, -⟩ := aos_copy_later opt gauss before _ hw hx hown h1 hall hc
  obtain ⟨z, z1, z2, z3, -, -⟩ := aosWorld_untouched opt gauss hwf1 cs h2 hx1 hi
  have hdead : w4.Dead x.nodes := by
    rw [← z3]
    exact dead_session opt gauss hwf3 ds h4 (dead_of_erases opt gauss hwf2 h3 z1 hera)
  have hub : w4.home y = .ub := home_dead fun p hp => by
    rw [y2] at hp
    rw [← Option.some.inj hp]; exact hdead
  refine ⟨?_, fun hl => ?_, fun env => ?_⟩
  · simp only [AOSWorld.bestElectron, aosWorld_get' y1, Out.ok_bind, hub]; rfl
  · simp only [AOSWorld.layers, aosWorld_get' y1, Out.ok_bind, hub, y3]
    exact mapM_members_ub (fun a => rfl) _ hl
  · show aosWorldObjCall opt gauss w4 w.next (.run env) = _
    simp only [aosWorldObjCall, aosWorld_get' y1, Out.ok_bind]
    rw [runFrom_ub opt gauss y.obj env]
    · rfl
    · intro p
      have y4' : ¬ y.ptr = some y.nodes := y4
      simp only [AOSWorld.reader, if_neg y4', hub]; rfl

/-- **C133** (running a copy).  A copy that is run while its original is left alone gives what the original would give with the
same calls and the same draws, provided the best electron of the original has been evaluated (which is the case after a run:
`aos_object_run`); the original and all other objects stay as they are, and the copy is independent from then on. -/
theorem aos_run_on_copy {w w1 w2 : AOSWorld A α} (before cs : List (AOSWorldCall A α))
    (hw : aosWorldSession opt gauss .empty before = .ok w) {i : Nat} {x : AOSHeld A α} (hx : w.objs i = some x)
    (hown : AOSHeld.Owns x) (h1 : w.copy i = .ok w1) (h2 : aosWorldSession opt gauss w1 cs = .ok w2)
    (hc : ∀ c ∈ cs, ¬ AOSWorldCall.Touches w.next c ∧ ¬ AOSWorldCall.Touches i c)
    (hbest : ∀ g, x.obj.bestElectron = .ok g → g.computed = true)
    (env : Nat → AOSRawEnv α) (y : AOSFull A α)
    (hy : aosFullSession opt gauss x.obj (cs.filterMap (AOSWorldCall.callOn? w.next) ++ [.run env]) = .ok y) :
    ∃ w3 z, aosWorldCall opt gauss w2 (.call w.next (.run env)) = .ok w3 ∧ w3.objs w.next = some z ∧
      z.obj = y ∧ AOSHeld.Owns z ∧ ∀ j, j ≠ w.next → w3.objs j = w2.objs j := by
  obtain ⟨hwf1, hwf2, hx1, c, c1, c2, c3, c4, -, c5⟩ :=
    aos_copy_later opt gauss before cs hw hx hown h1 h2 fun c h => (hc c h).1
  obtain ⟨z, z1, z2, z3, z4, -⟩ := aosWorld_untouched opt gauss hwf1 cs h2 hx1 fun c h => (hc c h).2
  rw [aosFullSession_append, c5, Out.ok_bind, aosFullSession_one] at hy
  have hrun : c.obj.run opt gauss env = .ok y := hy
  have hhome := home_of hwf2 z1 (c2.trans (congrArg some z3.symm))
  -- the run reads the best electron of the original
  have hg : ∃ g, x.obj.bestElectron = .ok g := by
    obtain ⟨r, hr, -⟩ := fullRun_eq opt gauss hrun
    unfold AOSFull.loop at hr
    rw [Out.bind_eq_ok] at hr
    obtain ⟨s, hs, -⟩ := hr
    obtain ⟨f, -, hf⟩ : ∃ f : List α → α, True ∧ aosEvaluate opt f c.obj.st = .ok s := by
      unfold AOSFull.evaluate at hs
      split at hs
      · exact ⟨_, trivial, hs⟩
      · rw [Out.bind_eq_ok] at hs
        obtain ⟨f, -, hs⟩ := hs
        exact ⟨f, trivial, hs⟩
    by_cases hb : c.obj.st.best ∈ c.obj.st.electrons.map (·.1)
    · rw [c3] at hb
      obtain ⟨g, hg⟩ := deref_total hb
      exact ⟨g, hg⟩
    · rw [aosEvaluate_ub hb] at hf; cases hf
  obtain ⟨g, hg⟩ := hg
  have hgc := hbest g hg
  have hg' : deref x.obj.st.electrons x.obj.st.best = .ok g := hg
  have hfrom : c.obj.runFrom (w2.reader c) opt gauss env = .ok y := by
    rw [runFrom_congr opt gauss c.obj env, hrun]
    intro f
    have c4' : ¬ c.ptr = some c.nodes := c4
    simp only [AOSWorld.reader, if_neg c4', hhome, Out.ok_bind, z4, c3]
    rw [hg', deref_computeAll hg' hgc]
  refine ⟨w2.renew w.next y, ⟨y, w2.stamp, some w2.stamp⟩, ?_, aosPut_same _ _ _, rfl, rfl,
    fun j hj => aosPut_other _ _ hj⟩
  show aosWorldObjCall opt gauss w2 w.next (.run env) = _
  simp only [aosWorldObjCall, aosWorld_get' c1, Out.ok_bind, hfrom]

end

/-! ## Examples and counterexamples -/

/-- Object 0: constructed, everything set, initialised. -/
def demoAOSWorldStart : List (AOSWorldCall ℚ ℚ) := .make (1 / 10) none demoAOSJunk :: demoAOSSetup.map (.call 0 ·)

/-- Observations of an object: number of electrons, length of the record, generation. -/
def demoAOSSees (w : AOSWorld ℚ ℚ) (i : Nat) : List Nat :=
  match w.objs i with
  | some x => [x.obj.st.electrons.length, x.obj.record.length, x.obj.generation, x.obj.st.early]
  | none => []

/-- Whether the best electron can be read. -/
def demoReads (o : Out (Gene (List ℚ) ℚ)) : Option (List ℚ × ℚ) :=
  match o with
  | .ok g => some (g.var, g.fitness)
  | _ => none

/-- Which of several solvers the session leaves, and what they report. -/
def demoAOSWorld (cs : List (AOSWorldCall ℚ ℚ)) : Out (AOSWorld ℚ ℚ) :=
  aosWorldSession .lessBetter demoAOSGauss .empty (demoAOSWorldStart ++ cs)

/-- Non-vacuity of `aos_copy_same`, `aos_copy_keeps_result`, `aos_run_on_copy` and `aos_objects_independent`: object 0 is run
and copied, settings of the copy are changed (it reports the same), the copy is run (the original stays); the same calls on the
original give the same. -/
theorem aos_copy_demo :
    (demoAOSWorld [.call 0 (.run demoAOSRawEnv), .copy 0, .call 1 (.setArg 3), .call 1 (.setOption ⟨4, 4, 10, 2⟩ (1 / 10))]).satisfies
      (fun w => decide (demoAOSSees w 0 = [4, 3, 2, 2] ∧ demoAOSSees w 1 = [4, 3, 2, 2] ∧
        demoReads (w.bestElectron 1) = some ([4 / 5], 1 / 25) ∧ demoReads (w.bestElectron 0) = some ([4 / 5], 1 / 25)) &&
        (match w.objs 0, w.objs 1 with
          | some x, some y => decide (x.ptr = some x.nodes ∧ y.ptr = some x.nodes ∧ y.nodes ≠ x.nodes ∧
              ∃ l ∈ y.obj.st.layers, l.members ≠ []) && x.obj.bestElectron.satisfies (·.computed)
          | _, _ => false)) = true ∧
    (demoAOSWorld [.call 0 (.run demoAOSRawEnv), .copy 0, .call 1 (.setArg 3), .call 1 (.setOption ⟨4, 4, 10, 2⟩ (1 / 10)),
      .call 1 (.run demoAOSRawEnv)]).satisfies
      (fun w => decide (demoAOSSees w 0 = [4, 3, 2, 2] ∧ demoAOSSees w 1 = [4, 6, 4, 5] ∧
        demoReads (w.bestElectron 1) = some ([4 / 5], 1 / 25))) = true ∧
    (demoAOSWorld [.call 0 (.run demoAOSRawEnv), .call 0 (.setArg 3), .call 0 (.setOption ⟨4, 4, 10, 2⟩ (1 / 10)),
      .call 0 (.run demoAOSRawEnv)]).satisfies
      (fun w => decide (demoAOSSees w 0 = [4, 6, 4, 5])) = true := by
  refine ⟨?_, ?_, ?_⟩ <;> decide +kernel

/-- Non-vacuity of `aos_orphan`: the original is destroyed, or initialised again: the best electron of the copy cannot be read,
and the copy cannot run; after `initializePop` it can. -/
theorem aos_orphan_demo :
    (demoAOSWorld [.call 0 (.run demoAOSRawEnv), .copy 0, .destroy 0]).satisfies
      (fun w => decide (demoAOSSees w 1 = [4, 3, 2, 2] ∧ demoReads (w.bestElectron 1) = none)) = true ∧
    (demoAOSWorld [.copy 0, .call 0 (.initializePop (fun _ _ => 1 / 2) 65)]).satisfies
      (fun w => decide (demoReads (w.bestElectron 0) = some ([0], 65) ∧ demoReads (w.bestElectron 1) = none)) = true ∧
    demoAOSWorld [.call 0 (.run demoAOSRawEnv), .copy 0, .destroy 0, .call 1 (.run demoAOSRawEnv)] = .ub ∧
    (demoAOSWorld [.call 0 (.run demoAOSRawEnv), .copy 0, .destroy 0, .call 1 (.initializePop (fun k _ => if k < 5 then (k : ℚ) / 5 else 0) 65),
      .call 1 (.run demoAOSRawEnv)]).satisfies
      (fun w => decide (demoAOSSees w 1 = [4, 3, 2, 2])) = true := by
  refine ⟨?_, ?_, ?_, ?_⟩
  · decide +kernel
  · decide +kernel
  · exact out_ub_of _ (by decide +kernel)
  · decide +kernel

/-- Non-vacuity of `aos_move_same` and `aos_moveAssign_same`: the new object is complete and survives the old one; the old one is
empty, but still reports the best electron of the new one. -/
theorem aos_move_demo :
    (demoAOSWorld [.call 0 (.run demoAOSRawEnv), .move 0 [] 9]).satisfies
      (fun w => decide (demoAOSSees w 0 = [0, 0, 2, 2] ∧ demoAOSSees w 1 = [4, 3, 2, 2] ∧
        demoReads (w.bestElectron 0) = some ([4 / 5], 1 / 25) ∧ demoReads (w.bestElectron 1) = some ([4 / 5], 1 / 25))) = true ∧
    (demoAOSWorld [.call 0 (.run demoAOSRawEnv), .move 0 [] 9, .destroy 0, .call 1 (.run demoAOSRawEnv)]).satisfies
      (fun w => decide (demoAOSSees w 1 = [4, 4, 2, 3] ∧ demoReads (w.bestElectron 1) = some ([4 / 5], 1 / 25))) = true ∧
    (demoAOSWorld [.make (1 / 10) none demoAOSJunk, .call 0 (.run demoAOSRawEnv), .moveAssign 1 0 [] 9, .copy 1, .assign 0 2]).satisfies
      (fun w => decide (demoAOSSees w 0 = [4, 3, 2, 2] ∧ demoAOSSees w 1 = [4, 3, 2, 2] ∧
        demoReads (w.bestElectron 0) = some ([4 / 5], 1 / 25) ∧ demoReads (w.bestElectron 1) = some ([4 / 5], 1 / 25))) = true := by
  refine ⟨?_, ?_, ?_⟩ <;> decide +kernel

/-- **C133** fails for copies made between `initializePop` and `run`: the copy compares its best energy with the indeterminate
energy of an electron of the original that nobody has evaluated, so with the same draws its early-stop counter is not that of the
original. -/
theorem aos_copy_before_run_differs :
    (demoAOSWorld [.call 0 (.initializePop (fun k _ => if k = 0 then 5 / 8 else 0) 66), .copy 0,
      .call 0 (.run demoAOSRawEnv)]).satisfies (fun w => decide (demoAOSSees w 0 = [4, 3, 2, 3])) = true ∧
    (demoAOSWorld [.call 0 (.initializePop (fun k _ => if k = 0 then 5 / 8 else 0) 66), .copy 0,
      .call 1 (.run demoAOSRawEnv)]).satisfies (fun w => decide (demoAOSSees w 1 = [4, 3, 2, 2])) = true := by
  constructor <;> decide +kernel

end Heu
