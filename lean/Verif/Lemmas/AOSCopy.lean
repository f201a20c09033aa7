import Verif.Spec.AOSCopy
import Verif.Props.AOSFull

/-! # Lemmas on copies of AOS objects -/

set_option linter.unusedSectionVars false
set_option linter.unusedVariables false
set_option linter.unusedSimpArgs false

namespace Heu
open Spec

section
variable {A α : Type}

/-- Numbers of objects and lists are used once. -/
structure AOSWorld.WF (w : AOSWorld A α) : Prop where
  fresh : ∀ j, w.next ≤ j → w.objs j = none
  nodes : ∀ j y, w.objs j = some y → y.nodes < w.stamp
  ptr : ∀ j y p, w.objs j = some y → y.ptr = some p → p < w.stamp
  uniq : ∀ i j x y, w.objs i = some x → w.objs j = some y → x.nodes = y.nodes → i = j

/-- No object has this list, and none will get it. -/
def AOSWorld.Dead (w : AOSWorld A α) (s : Nat) : Prop := s < w.stamp ∧ ∀ j y, w.objs j = some y → y.nodes ≠ s

theorem aosWorld_empty_wf : (AOSWorld.empty : AOSWorld A α).WF :=
  ⟨fun _ _ => rfl, (fun _ _ h => nomatch h), (fun _ _ _ h => nomatch h), (fun _ _ _ _ h => nomatch h)⟩

theorem aosWorld_get {w : AOSWorld A α} {i : Nat} {x : AOSHeld A α} (h : w.get i = .ok x) : w.objs i = some x := by
  unfold AOSWorld.get at h
  cases hi : w.objs i with
  | none => rw [hi] at h; cases h
  | some y => rw [hi] at h; exact congrArg some (Out.ok.inj h)

theorem aosWorld_get' {w : AOSWorld A α} {i : Nat} {x : AOSHeld A α} (h : w.objs i = some x) : w.get i = .ok x := by
  simp only [AOSWorld.get, h]

theorem aosWF_lt {w : AOSWorld A α} (hw : w.WF) {i : Nat} {x : AOSHeld A α} (h : w.objs i = some x) : i < w.next := by
  by_contra hn
  rw [hw.fresh i (by omega)] at h; cases h

theorem owner_some {w : AOSWorld A α} {s : Nat} {y : AOSHeld A α} (h : w.owner s = some y) :
    ∃ j, w.objs j = some y ∧ y.nodes = s := by
  unfold AOSWorld.owner at h
  obtain ⟨j, -, hj⟩ := List.exists_of_findSome?_eq_some h
  rw [Option.filter_eq_some_iff] at hj
  exact ⟨j, hj.1, by simpa using hj.2⟩

theorem owner_of {w : AOSWorld A α} (hw : w.WF) {j s : Nat} {y : AOSHeld A α} (hj : w.objs j = some y)
    (hs : y.nodes = s) : w.owner s = some y := by
  cases ho : w.owner s with
  | none =>
    unfold AOSWorld.owner at ho
    rw [List.findSome?_eq_none_iff] at ho
    have := ho j (List.mem_range.2 (aosWF_lt hw hj))
    rw [hj] at this
    simp [Option.filter, hs] at this
  | some z =>
    obtain ⟨k, hk, hz⟩ := owner_some ho
    have := hw.uniq k j z y hk hj (hz.trans hs.symm)
    subst this
    rw [hj] at hk; exact hk.symm

theorem owner_dead {w : AOSWorld A α} {s : Nat} (h : w.Dead s) : w.owner s = none := by
  cases ho : w.owner s with
  | none => rfl
  | some z =>
    obtain ⟨k, hk, hz⟩ := owner_some ho
    exact absurd hz (h.2 k z hk)

theorem home_own {w : AOSWorld A α} (hw : w.WF) {i : Nat} {x : AOSHeld A α} (hi : w.objs i = some x)
    (ho : AOSHeld.Owns x) : w.home x = .ok x.obj.st.electrons := by
  have h : x.ptr = some x.nodes := ho
  simp only [AOSWorld.home, h, Option.bind_some, owner_of hw hi rfl]

theorem home_of {w : AOSWorld A α} (hw : w.WF) {i : Nat} {x y : AOSHeld A α} (hi : w.objs i = some y)
    (ho : x.ptr = some y.nodes) : w.home x = .ok y.obj.st.electrons := by
  simp only [AOSWorld.home, ho, Option.bind_some, owner_of hw hi rfl]

theorem home_dead {w : AOSWorld A α} {x : AOSHeld A α} (h : ∀ p, x.ptr = some p → w.Dead p) : w.home x = .ub := by
  unfold AOSWorld.home
  cases hp : x.ptr with
  | none => rfl
  | some p => simp only [Option.bind_some, owner_dead (h p hp)]

theorem aosPut_same (w : AOSWorld A α) (i : Nat) (x : AOSHeld A α) : (w.put i x).objs i = some x := by
  simp [AOSWorld.put]

theorem aosPut_other (w : AOSWorld A α) {i j : Nat} (x : AOSHeld A α) (h : j ≠ i) :
    (w.put i x).objs j = w.objs j := by
  simp [AOSWorld.put, h]

/-! ## Runs -/

section run
variable [Field α] [LinearOrder α] [FloorSemiring α]

theorem computeAtomFrom_own (opt : FitnessOption) (s : AOSState α)
    (rd : Pop (Gene (List α) α) → Out (Gene (List α) α)) (h : rd s.electrons = deref s.electrons s.best) :
    computeAtomFrom rd opt s = computeAtomBSBELE opt s := by
  unfold computeAtomFrom computeAtomBSBELE
  cases he : s.electrons with
  | nil => rfl
  | cons f r =>
    rw [he] at h
    simp only [h]

theorem runFrom_congr (opt : FitnessOption) (gauss : Nat → Nat → α) (x : AOSFull A α) (env : Nat → AOSRawEnv α)
    (rd : Pop (Gene (List α) α) → Out (Gene (List α) α))
    (h : ∀ f, rd (computeAllFitness f x.st.electrons) = deref (computeAllFitness f x.st.electrons) x.st.best) :
    x.runFrom rd opt gauss env = x.run opt gauss env := by
  have he : x.evaluateFrom rd opt x.st = x.evaluate opt x.st := by
    unfold AOSFull.evaluateFrom AOSFull.evaluate aosEvaluate
    have h1 : ∀ f, computeAtomFrom rd opt (aosComputeFitness f x.st) =
        computeAtomBSBELE opt (aosComputeFitness f x.st) := fun f => computeAtomFrom_own opt _ rd (h f)
    split
    · exact h1 _
    · simp only [h1]
  unfold AOSFull.run
  rw [AOSFull.loop]
  unfold AOSFull.runFrom
  rw [he]
  cases x.evaluate opt x.st with
  | ub => rfl
  | timeout => rfl
  | ok s =>
    simp only [Out.ok_bind]
    cases deref s.electrons s.best with
    | ub => rfl
    | timeout => rfl
    | ok b =>
      simp only [Out.ok_bind]
      cases x.select opt gauss (env x.generation) s with
      | ub => rfl
      | timeout => rfl
      | ok t =>
        simp only [Out.ok_bind]
        split
        · rfl
        · cases x.children opt (env x.generation) t with
          | ub => rfl
          | timeout => rfl
          | ok t => rfl

theorem runFrom_ub (opt : FitnessOption) (gauss : Nat → Nat → α) (x : AOSFull A α) (env : Nat → AOSRawEnv α)
    (rd : Pop (Gene (List α) α) → Out (Gene (List α) α)) (h : ∀ p, rd p = .ub) :
    x.runFrom rd opt gauss env = .ub := by
  have h1 : ∀ s, computeAtomFrom rd opt s = .ub := by
    intro s
    unfold computeAtomFrom
    cases s.electrons with
    | nil => rfl
    | cons f r => simp only [h]; rfl
  have he : x.evaluateFrom rd opt x.st = .ub := by
    unfold AOSFull.evaluateFrom
    split
    · exact h1 _
    · unfold AOSFull.fitness
      cases x.fFun with
      | none => rfl
      | some f => exact h1 _
  unfold AOSFull.runFrom
  rw [he]; rfl

theorem runFrom_empty (opt : FitnessOption) (gauss : Nat → Nat → α) (x : AOSFull A α) (env : Nat → AOSRawEnv α)
    (rd : Pop (Gene (List α) α) → Out (Gene (List α) α)) (h : x.st.electrons = []) :
    x.runFrom rd opt gauss env = .ub := by
  have he : x.evaluateFrom rd opt x.st = .ub := by
    unfold AOSFull.evaluateFrom
    rw [if_pos (by rw [h]; rfl)]
    unfold computeAtomFrom aosComputeFitness
    simp only [h, computeAllFitness, List.map_nil]
  unfold AOSFull.runFrom
  rw [he]; rfl

theorem deref_computeAll {f : List α → α} {p : Pop (Gene (List α) α)} {a : Addr} {g : Gene (List α) α}
    (h : deref p a = .ok g) (hc : g.computed = true) : deref (computeAllFitness f p) a = .ok g := by
  unfold deref at h ⊢
  induction p with
  | nil => exact h
  | cons c cs ih =>
    simp only [computeAllFitness, List.map_cons, List.find?_cons] at ih ⊢
    simp only [List.find?_cons] at h
    cases hca : c.1 == a with
    | true =>
      rw [hca] at h
      have hg := Out.ok.inj h
      have : evalGene f c.2 = g := by rw [hg]; simp [evalGene, hc]
      simp only [this]
    | false =>
      rw [hca] at h
      simp only
      exact ih h

end run

/-! ## Events -/

section events
variable [Field α] [LinearOrder α] [IsStrictOrderedRing α] [FloorSemiring α]
variable (opt : FitnessOption) (gauss : Nat → Nat → α)

theorem renew_wf {w : AOSWorld A α} (hw : w.WF) {i : Nat} {x : AOSHeld A α} (hi : w.objs i = some x)
    (o : AOSFull A α) (p : Option Nat) (hp : ∀ q, p = some q → q ≤ w.stamp) :
    AOSWorld.WF { w.put i ⟨o, w.stamp, p⟩ with stamp := w.stamp + 1 } := by
  have hlt := aosWF_lt hw hi
  have key : ∀ j y, (w.put i ⟨o, w.stamp, p⟩).objs j = some y →
      (j = i ∧ y = ⟨o, w.stamp, p⟩) ∨ (j ≠ i ∧ w.objs j = some y) := by
    intro j y hy
    by_cases hj : j = i
    · subst hj; rw [aosPut_same] at hy; exact .inl ⟨rfl, (Option.some.inj hy).symm⟩
    · rw [aosPut_other _ _ hj] at hy; exact .inr ⟨hj, hy⟩
  refine ⟨fun j hj => ?_, fun j y hy => ?_, fun j y q hy hq => ?_, fun a b y z hy hz he => ?_⟩
  · show (w.put i _).objs j = none
    rw [aosPut_other _ _ (by have : w.next ≤ j := hj; omega)]; exact hw.fresh j hj
  · show y.nodes < w.stamp + 1
    rcases key j y hy with ⟨-, rfl⟩ | ⟨-, hy⟩
    · exact Nat.lt_succ_self _
    · exact Nat.lt_succ_of_lt (hw.nodes j y hy)
  · show q < w.stamp + 1
    rcases key j y hy with ⟨-, rfl⟩ | ⟨-, hy⟩
    · exact Nat.lt_succ_of_le (hp q hq)
    · exact Nat.lt_succ_of_lt (hw.ptr j y q hy hq)
  · rcases key a y hy with ⟨rfl, rfl⟩ | ⟨-, hy2⟩ <;> rcases key b z hz with ⟨rfl, rfl⟩ | ⟨-, hz2⟩
    · rfl
    · exact absurd he (Nat.ne_of_gt (hw.nodes b z hz2))
    · exact absurd he (Nat.ne_of_lt (hw.nodes a y hy2))
    · exact hw.uniq a b y z hy2 hz2 he

theorem make_wf {w : AOSWorld A α} (hw : w.WF) (o : AOSFull A α) (p : Option Nat) (hp : ∀ q, p = some q → q < w.stamp) :
    (w.make o p).WF := by
  have key : ∀ j y, (w.make o p).objs j = some y →
      (j = w.next ∧ y = ⟨o, w.stamp, p⟩) ∨ (j ≠ w.next ∧ w.objs j = some y) := by
    intro j y hy
    have hy' : (if j = w.next then some ⟨o, w.stamp, p⟩ else w.objs j) = some y := hy
    split at hy'
    · exact .inl ⟨‹_›, (Option.some.inj hy').symm⟩
    · exact .inr ⟨‹_›, hy'⟩
  refine ⟨fun j hj => ?_, fun j y hy => ?_, fun j y q hy hq => ?_, fun a b y z hy hz he => ?_⟩
  · have hj' : w.next + 1 ≤ j := hj
    show (if j = w.next then some _ else w.objs j) = none
    rw [if_neg (by omega)]; exact hw.fresh j (by omega)
  · show y.nodes < w.stamp + 1
    rcases key j y hy with ⟨-, rfl⟩ | ⟨-, hy⟩
    · exact Nat.lt_succ_self _
    · exact Nat.lt_succ_of_lt (hw.nodes j y hy)
  · show q < w.stamp + 1
    rcases key j y hy with ⟨-, rfl⟩ | ⟨-, hy⟩
    · exact Nat.lt_succ_of_lt (hp q hq)
    · exact Nat.lt_succ_of_lt (hw.ptr j y q hy hq)
  · rcases key a y hy with ⟨rfl, rfl⟩ | ⟨-, hy2⟩ <;> rcases key b z hz with ⟨rfl, rfl⟩ | ⟨-, hz2⟩
    · rfl
    · exact absurd he (Nat.ne_of_gt (hw.nodes b z hz2))
    · exact absurd he (Nat.ne_of_lt (hw.nodes a y hy2))
    · exact hw.uniq a b y z hy2 hz2 he

/-- Taking over a list: object `n` (new, or assigned to) gets that of `i`, which gets a new one. -/
theorem steal_wf {w : AOSWorld A α} (hw : w.WF) {n i nx: Nat} (hne : n ≠ i) {x : AOSHeld A α} (hi : w.objs i = some x)
    (hn1 : w.next ≤ nx) (hn2 : n < nx) (o : AOSFull A α) :
    AOSWorld.WF
      { next := nx, stamp := w.stamp + 1,
        objs := fun j => if j = n then some x else if j = i then some ⟨o, w.stamp, x.ptr⟩ else w.objs j } := by
  have key : ∀ j y, (if j = n then some x else if j = i then some ⟨o, w.stamp, x.ptr⟩ else w.objs j) = some y →
      (j = n ∧ y = x) ∨ (j ≠ n ∧ j = i ∧ y = ⟨o, w.stamp, x.ptr⟩) ∨ (j ≠ n ∧ j ≠ i ∧ w.objs j = some y) := by
    intro j y hy
    split at hy
    · exact .inl ⟨‹_›, (Option.some.inj hy).symm⟩
    · split at hy
      · exact .inr (.inl ⟨‹_›, ‹_›, (Option.some.inj hy).symm⟩)
      · exact .inr (.inr ⟨‹_›, ‹_›, hy⟩)
  have hlt := aosWF_lt hw hi
  refine ⟨fun j hj => ?_, fun j y hy => ?_, fun j y q hy hq => ?_, fun a b y z hy hz he => ?_⟩
  · have hj' : nx ≤ j := hj
    show (if j = n then some x else if j = i then some _ else w.objs j) = none
    rw [if_neg (by omega), if_neg (by omega)]; exact hw.fresh j (by omega)
  · show y.nodes < w.stamp + 1
    rcases key j y hy with ⟨-, rfl⟩ | ⟨-, -, rfl⟩ | ⟨-, -, hy⟩
    · exact Nat.lt_succ_of_lt (hw.nodes i _ hi)
    · exact Nat.lt_succ_self _
    · exact Nat.lt_succ_of_lt (hw.nodes j y hy)
  · show q < w.stamp + 1
    rcases key j y hy with ⟨-, rfl⟩ | ⟨-, -, rfl⟩ | ⟨-, -, hy⟩
    · exact Nat.lt_succ_of_lt (hw.ptr i _ q hi hq)
    · exact Nat.lt_succ_of_lt (hw.ptr i _ q hi hq)
    · exact Nat.lt_succ_of_lt (hw.ptr j y q hy hq)
  · rcases key a y hy with ⟨ha, rfl⟩ | ⟨-, ha, rfl⟩ | ⟨-, ha, hy2⟩ <;>
      rcases key b z hz with ⟨hb, rfl⟩ | ⟨-, hb, rfl⟩ | ⟨-, hb, hz2⟩
    · rw [ha, hb]
    · exact absurd he (Nat.ne_of_lt (hw.nodes i _ hi))
    · exact absurd (hw.uniq i b _ z hi hz2 he).symm hb
    · exact absurd he (Nat.ne_of_gt (hw.nodes i _ hi))
    · rw [ha, hb]
    · exact absurd he (Nat.ne_of_gt (hw.nodes b z hz2))
    · exact absurd (hw.uniq a i y _ hy2 hi he) ha
    · exact absurd he (Nat.ne_of_lt (hw.nodes a y hy2))
    · exact hw.uniq a b y z hy2 hz2 he

/-- What a call on an object does: it changes this object only. -/
theorem aosWorldObj_spec {w w' : AOSWorld A α} {i : Nat} {c : AOSFullCall A α}
    (h : aosWorldObjCall opt gauss w i c = .ok w') :
    ∃ x y, w.objs i = some x ∧
      ((¬ AOSFullCall.IsInit c ∧ ¬ AOSFullCall.IsRun c ∧ aosFullCall opt gauss x.obj c = .ok y ∧
          w' = w.put i { x with obj := y } ∧ y.st = x.obj.st) ∨
        ((∃ u b, c = .initializePop u b ∧ x.obj.initializePop u b = .ok y) ∧ w' = w.renew i y) ∨
        ((∃ env, c = .run env ∧ x.obj.runFrom (w.reader x) opt gauss env = .ok y) ∧ w' = w.renew i y)) := by
  simp only [aosWorldObjCall, Out.bind_eq_ok] at h
  obtain ⟨x, hx, h⟩ := h
  have hx' := aosWorld_get hx
  cases c with
  | initializePop u b =>
    simp only [Out.bind_eq_ok] at h
    obtain ⟨y, hy, h⟩ := h
    exact ⟨x, y, hx', .inr (.inl ⟨⟨u, b, rfl, hy⟩, (Out.ok.inj h).symm⟩)⟩
  | run env =>
    simp only [Out.bind_eq_ok] at h
    obtain ⟨y, hy, h⟩ := h
    exact ⟨x, y, hx', .inr (.inr ⟨⟨env, rfl, hy⟩, (Out.ok.inj h).symm⟩)⟩
  | setOption o r =>
    simp only [Out.bind_eq_ok] at h
    obtain ⟨y, hy, h⟩ := h
    have n1 : ¬ AOSFullCall.IsInit (.setOption o r : AOSFullCall A α) := by rintro ⟨_, _, h⟩; cases h
    have n2 : ¬ AOSFullCall.IsRun (.setOption o r : AOSFullCall A α) := by rintro ⟨_, h⟩; cases h
    exact ⟨x, y, hx', .inl ⟨n1, n2, hy, (Out.ok.inj h).symm, (aosFullCall_setter opt gauss _ _ _ hy n1 n2).1⟩⟩
  | setfFun o =>
    simp only [Out.bind_eq_ok] at h
    obtain ⟨y, hy, h⟩ := h
    have n1 : ¬ AOSFullCall.IsInit (.setfFun o : AOSFullCall A α) := by rintro ⟨_, _, h⟩; cases h
    have n2 : ¬ AOSFullCall.IsRun (.setfFun o : AOSFullCall A α) := by rintro ⟨_, h⟩; cases h
    exact ⟨x, y, hx', .inl ⟨n1, n2, hy, (Out.ok.inj h).symm, (aosFullCall_setter opt gauss _ _ _ hy n1 n2).1⟩⟩
  | setArg o =>
    simp only [Out.bind_eq_ok] at h
    obtain ⟨y, hy, h⟩ := h
    have n1 : ¬ AOSFullCall.IsInit (.setArg o : AOSFullCall A α) := by rintro ⟨_, _, h⟩; cases h
    have n2 : ¬ AOSFullCall.IsRun (.setArg o : AOSFullCall A α) := by rintro ⟨_, h⟩; cases h
    exact ⟨x, y, hx', .inl ⟨n1, n2, hy, (Out.ok.inj h).symm, (aosFullCall_setter opt gauss _ _ _ hy n1 n2).1⟩⟩
  | box o =>
    simp only [Out.bind_eq_ok] at h
    obtain ⟨y, hy, h⟩ := h
    have n1 : ¬ AOSFullCall.IsInit (.box o : AOSFullCall A α) := by rintro ⟨_, _, h⟩; cases h
    have n2 : ¬ AOSFullCall.IsRun (.box o : AOSFullCall A α) := by rintro ⟨_, h⟩; cases h
    exact ⟨x, y, hx', .inl ⟨n1, n2, hy, (Out.ok.inj h).symm, (aosFullCall_setter opt gauss _ _ _ hy n1 n2).1⟩⟩

theorem put_wf {w : AOSWorld A α} (hw : w.WF) {i : Nat} {x : AOSHeld A α} (hi : w.objs i = some x) (o : AOSFull A α) :
    (w.put i { x with obj := o }).WF := by
  have key : ∀ j y, (w.put i { x with obj := o }).objs j = some y →
      ∃ z, w.objs j = some z ∧ z.nodes = y.nodes ∧ z.ptr = y.ptr := by
    intro j y hy
    by_cases hj : j = i
    · subst hj; rw [aosPut_same] at hy
      have := Option.some.inj hy; subst this
      exact ⟨x, hi, rfl, rfl⟩
    · rw [aosPut_other _ _ hj] at hy; exact ⟨y, hy, rfl, rfl⟩
  refine ⟨fun j hj => ?_, fun j y hy => ?_, fun j y q hy hq => ?_, fun a b y z hy hz he => ?_⟩
  · have := aosWF_lt hw hi
    rw [aosPut_other _ _ (by have : w.next ≤ j := hj; omega)]; exact hw.fresh j hj
  · obtain ⟨z, hz, h1, -⟩ := key j y hy
    rw [← h1]; exact hw.nodes j z hz
  · obtain ⟨z, hz, -, h1⟩ := key j y hy
    exact hw.ptr j z q hz (h1.trans hq)
  · obtain ⟨y', hy', h1, -⟩ := key a y hy
    obtain ⟨z', hz', h2, -⟩ := key b z hz
    exact hw.uniq a b y' z' hy' hz' (by rw [h1, h2, he])

/-- Every event keeps the numbering sane. -/
theorem aosWorld_wf {w w' : AOSWorld A α} (hw : w.WF) {c : AOSWorldCall A α}
    (h : aosWorldCall opt gauss w c = .ok w') : w'.WF := by
  cases c with
  | make r s j =>
    have := Out.ok.inj h; subst this
    exact make_wf hw _ _ fun q hq => by cases hq
  | copy i =>
    simp only [aosWorldCall, AOSWorld.copy, Out.bind_eq_ok] at h
    obtain ⟨x, hx, h⟩ := h
    have := Out.ok.inj h; subst this
    exact make_wf hw _ _ fun q hq => hw.ptr i x q (aosWorld_get hx) hq
  | move i bs a =>
    simp only [aosWorldCall, AOSWorld.move, Out.bind_eq_ok] at h
    obtain ⟨x, hx, h⟩ := h
    have := Out.ok.inj h; subst this
    have hi := aosWorld_get hx
    exact steal_wf hw (Nat.ne_of_gt (aosWF_lt hw hi)) hi (Nat.le_succ _) (Nat.lt_succ_self _) _
  | assign i j =>
    simp only [aosWorldCall, AOSWorld.assign, Out.bind_eq_ok] at h
    obtain ⟨x, hx, y, hy, h⟩ := h
    split at h
    · have := Out.ok.inj h; subst this; exact hw
    · have := Out.ok.inj h; subst this
      exact renew_wf hw (aosWorld_get hx) _ _ fun q hq => Nat.le_of_lt (hw.ptr j y q (aosWorld_get hy) hq)
  | moveAssign i j bs a =>
    simp only [aosWorldCall, AOSWorld.moveAssign, Out.bind_eq_ok] at h
    obtain ⟨x, hx, y, hy, h⟩ := h
    split at h
    · cases h
    · rename_i hij
      have := Out.ok.inj h; subst this
      exact steal_wf hw hij (aosWorld_get hy) (Nat.le_refl _) (aosWF_lt hw (aosWorld_get hx)) _
  | destroy i =>
    simp only [aosWorldCall, AOSWorld.destroy, Out.bind_eq_ok] at h
    obtain ⟨x, hx, h⟩ := h
    have := Out.ok.inj h; subst this
    have key : ∀ j y, (if j = i then none else w.objs j) = some y → w.objs j = some y := by
      intro j y hy
      split at hy
      · cases hy
      · exact hy
    refine ⟨fun j hj => ?_, fun j y hy => hw.nodes j y (key j y hy), fun j y q hy hq => hw.ptr j y q (key j y hy) hq,
      fun a b y z hy hz he => hw.uniq a b y z (key a y hy) (key b z hz) he⟩
    show (if j = i then none else w.objs j) = none
    split
    · rfl
    · exact hw.fresh j hj
  | call i c =>
    obtain ⟨x, y, hx, ⟨-, -, -, rfl, -⟩ | ⟨-, rfl⟩ | ⟨-, rfl⟩⟩ := aosWorldObj_spec opt gauss h
    · exact put_wf hw hx y
    · exact renew_wf hw hx y _ fun q hq => Nat.le_of_eq (Option.some.inj hq).symm
    · exact renew_wf hw hx y _ fun q hq => Nat.le_of_eq (Option.some.inj hq).symm

theorem aosWorldSession_cons {w z : AOSWorld A α} {c : AOSWorldCall A α} {cs : List (AOSWorldCall A α)}
    (h : aosWorldSession opt gauss w (c :: cs) = .ok z) :
    ∃ y, aosWorldCall opt gauss w c = .ok y ∧ aosWorldSession opt gauss y cs = .ok z := by
  unfold aosWorldSession at h
  rw [List.foldlM_cons, Out.bind_eq_ok] at h
  exact h

theorem aosWorld_session_wf {w w' : AOSWorld A α} (hw : w.WF) (cs : List (AOSWorldCall A α))
    (h : aosWorldSession opt gauss w cs = .ok w') : w'.WF := by
  induction cs generalizing w with
  | nil => rw [← Out.ok.inj h]; exact hw
  | cons c cs ih =>
    obtain ⟨y, hy, h⟩ := aosWorldSession_cons opt gauss h
    exact ih (aosWorld_wf opt gauss hw hy) h

theorem aosWorld_reach_wf {w : AOSWorld A α} {cs : List (AOSWorldCall A α)}
    (h : aosWorldSession opt gauss .empty cs = .ok w) : w.WF := aosWorld_session_wf opt gauss aosWorld_empty_wf cs h

/-- An event that does not replace an object: what happens to it. -/
theorem aosWorld_step {w w' : AOSWorld A α} (hw : w.WF) {c : AOSWorldCall A α}
    (h : aosWorldCall opt gauss w c = .ok w') {i : Nat} {x : AOSHeld A α} (hx : w.objs i = some x)
    (hc : ¬ AOSWorldCall.Replaces i c) :
    (∀ d, AOSWorldCall.callOn? i c = some d → c = .call i d ∧ aosWorldObjCall opt gauss w i d = .ok w') ∧
    (AOSWorldCall.callOn? i c = none → w'.objs i = some x) := by
  have hlt := aosWF_lt hw hx
  cases c with
  | make r s j =>
    refine ⟨(fun d hd => by cases hd), fun _ => ?_⟩
    have := Out.ok.inj h; subst this
    show (if i = w.next then _ else w.objs i) = _
    rw [if_neg (Nat.ne_of_lt hlt)]; exact hx
  | copy j =>
    refine ⟨(fun d hd => by cases hd), fun _ => ?_⟩
    simp only [aosWorldCall, AOSWorld.copy, Out.bind_eq_ok] at h
    obtain ⟨y, hy, h⟩ := h
    have := Out.ok.inj h; subst this
    show (if i = w.next then _ else w.objs i) = _
    rw [if_neg (Nat.ne_of_lt hlt)]; exact hx
  | move j bs a =>
    refine ⟨(fun d hd => by cases hd), fun _ => ?_⟩
    simp only [aosWorldCall, AOSWorld.move, Out.bind_eq_ok] at h
    obtain ⟨y, hy, h⟩ := h
    have := Out.ok.inj h; subst this
    have hij : i ≠ j := fun e => hc (.inr (.inr (.inr (.inl ⟨bs, a, by rw [e]⟩))))
    show (if i = w.next then _ else if i = j then _ else w.objs i) = _
    rw [if_neg (Nat.ne_of_lt hlt), if_neg hij]; exact hx
  | assign k j =>
    refine ⟨(fun d hd => by cases hd), fun _ => ?_⟩
    simp only [aosWorldCall, AOSWorld.assign, Out.bind_eq_ok] at h
    obtain ⟨y, hy, z, hz, h⟩ := h
    have hij : i ≠ k := fun e => hc (.inr (.inl ⟨j, by rw [e]⟩))
    split at h
    · have := Out.ok.inj h; subst this; exact hx
    · have := Out.ok.inj h; subst this
      show (w.put k _).objs i = _
      rw [aosPut_other _ _ hij]; exact hx
  | moveAssign k j bs a =>
    refine ⟨(fun d hd => by cases hd), fun _ => ?_⟩
    simp only [aosWorldCall, AOSWorld.moveAssign, Out.bind_eq_ok] at h
    obtain ⟨y, hy, z, hz, h⟩ := h
    have hik : i ≠ k := fun e => hc (.inr (.inr (.inl ⟨j, bs, a, by rw [e]⟩)))
    have hij : i ≠ j := fun e => hc (.inr (.inr (.inr (.inr ⟨k, bs, a, by rw [e]⟩))))
    split at h
    · cases h
    · have := Out.ok.inj h; subst this
      show (if i = k then _ else if i = j then _ else w.objs i) = _
      rw [if_neg hik, if_neg hij]; exact hx
  | destroy k =>
    refine ⟨(fun d hd => by cases hd), fun _ => ?_⟩
    simp only [aosWorldCall, AOSWorld.destroy, Out.bind_eq_ok] at h
    obtain ⟨y, hy, h⟩ := h
    have := Out.ok.inj h; subst this
    have hik : i ≠ k := fun e => hc (.inl (by rw [e]))
    show (if i = k then _ else w.objs i) = _
    rw [if_neg hik]; exact hx
  | call k c =>
    by_cases hk : k = i
    · subst hk
      refine ⟨fun d hd => ?_, fun hn => ?_⟩
      · simp only [AOSWorldCall.callOn?, if_true] at hd
        have := Option.some.inj hd; subst this
        exact ⟨rfl, h⟩
      · simp [AOSWorldCall.callOn?] at hn
    · refine ⟨fun d hd => by simp [AOSWorldCall.callOn?, hk] at hd, fun _ => ?_⟩
      obtain ⟨z, y, hz, ⟨-, -, -, rfl, -⟩ | ⟨-, rfl⟩ | ⟨-, rfl⟩⟩ := aosWorldObj_spec opt gauss h
      · rw [aosPut_other _ _ (Ne.symm hk)]; exact hx
      · show (w.put k _).objs i = _
        rw [aosPut_other _ _ (Ne.symm hk)]; exact hx
      · show (w.put k _).objs i = _
        rw [aosPut_other _ _ (Ne.symm hk)]; exact hx

/-- The lists of the objects after an event are lists of objects before, or new. -/
theorem aosWorld_nodes {w w' : AOSWorld A α} (hw : w.WF) {c : AOSWorldCall A α}
    (h : aosWorldCall opt gauss w c = .ok w') :
    w.stamp ≤ w'.stamp ∧ ∀ j y, w'.objs j = some y →
      (∃ k z, w.objs k = some z ∧ z.nodes = y.nodes ∧ ¬ AOSWorldCall.Erases k c) ∨ w.stamp ≤ y.nodes := by
  cases c with
  | make r s i =>
    have := Out.ok.inj h; subst this
    refine ⟨Nat.le_succ _, fun j y hy => ?_⟩
    have hy' : (if j = w.next then some _ else w.objs j) = some y := hy
    split at hy'
    · have := Option.some.inj hy'; subst this; exact .inr (Nat.le_refl _)
    · refine .inl ⟨j, y, hy', rfl, ?_⟩
      rintro (h | ⟨_, -, h⟩ | ⟨_, _, _, h⟩ | ⟨_, _, h⟩) <;> cases h
  | copy i =>
    simp only [aosWorldCall, AOSWorld.copy, Out.bind_eq_ok] at h
    obtain ⟨x, hx, h⟩ := h
    have := Out.ok.inj h; subst this
    refine ⟨Nat.le_succ _, fun j y hy => ?_⟩
    have hy' : (if j = w.next then some _ else w.objs j) = some y := hy
    split at hy'
    · have := Option.some.inj hy'; subst this; exact .inr (Nat.le_refl _)
    · refine .inl ⟨j, y, hy', rfl, ?_⟩
      rintro (h | ⟨_, -, h⟩ | ⟨_, _, _, h⟩ | ⟨_, _, h⟩) <;> cases h
  | move i bs a =>
    simp only [aosWorldCall, AOSWorld.move, Out.bind_eq_ok] at h
    obtain ⟨x, hx, h⟩ := h
    have := Out.ok.inj h; subst this
    refine ⟨Nat.le_succ _, fun j y hy => ?_⟩
    have hy' : (if j = w.next then some x else if j = i then some _ else w.objs j) = some y := hy
    have nE : ∀ k, ¬ AOSWorldCall.Erases k (.move i bs a) := by
      rintro k (h | ⟨_, -, h⟩ | ⟨_, _, _, h⟩ | ⟨_, _, h⟩) <;> cases h
    split at hy'
    · have := Option.some.inj hy'; subst this
      exact .inl ⟨i, x, aosWorld_get hx, rfl, nE _⟩
    · split at hy'
      · have := Option.some.inj hy'; subst this; exact .inr (Nat.le_refl _)
      · exact .inl ⟨j, y, hy', rfl, nE _⟩
  | assign k l =>
    simp only [aosWorldCall, AOSWorld.assign, Out.bind_eq_ok] at h
    obtain ⟨x, hx, z, hz, h⟩ := h
    split at h
    · rename_i hkl
      have := Out.ok.inj h; subst this
      refine ⟨Nat.le_refl _, fun j y hy => .inl ⟨j, y, hy, rfl, ?_⟩⟩
      rintro (h | ⟨_, hn, h⟩ | ⟨_, _, _, h⟩ | ⟨_, _, h⟩)
      · cases h
      · cases h; exact hn hkl.symm
      · cases h
      · cases h
    · have := Out.ok.inj h; subst this
      refine ⟨Nat.le_succ _, fun j y hy => ?_⟩
      have hy' : (w.put k ⟨z.obj, w.stamp, z.ptr⟩).objs j = some y := hy
      by_cases hj : j = k
      · subst hj; rw [aosPut_same] at hy'
        have := Option.some.inj hy'; subst this; exact .inr (Nat.le_refl _)
      · rw [aosPut_other _ _ hj] at hy'
        refine .inl ⟨j, y, hy', rfl, ?_⟩
        rintro (h | ⟨_, hn, h⟩ | ⟨_, _, _, h⟩ | ⟨_, _, h⟩)
        · cases h
        · cases h; exact hj rfl
        · cases h
        · cases h
  | moveAssign k l bs a =>
    simp only [aosWorldCall, AOSWorld.moveAssign, Out.bind_eq_ok] at h
    obtain ⟨x, hx, z, hz, h⟩ := h
    split at h
    · cases h
    · rename_i hkl
      have := Out.ok.inj h; subst this
      refine ⟨Nat.le_succ _, fun j y hy => ?_⟩
      have hy' : (if j = k then some z else if j = l then some _ else w.objs j) = some y := hy
      have nE : ∀ m, m ≠ k → ¬ AOSWorldCall.Erases m (.moveAssign k l bs a) := by
        rintro m hm (h | ⟨_, hn, h⟩ | ⟨_, _, _, h⟩ | ⟨_, _, h⟩)
        · cases h
        · cases h
        · cases h; exact hm rfl
        · cases h
      split at hy'
      · have := Option.some.inj hy'; subst this
        exact .inl ⟨l, z, aosWorld_get hz, rfl, nE _ (Ne.symm hkl)⟩
      · split at hy'
        · have := Option.some.inj hy'; subst this; exact .inr (Nat.le_refl _)
        · exact .inl ⟨j, y, hy', rfl, nE _ ‹_›⟩
  | destroy k =>
    simp only [aosWorldCall, AOSWorld.destroy, Out.bind_eq_ok] at h
    obtain ⟨x, hx, h⟩ := h
    have := Out.ok.inj h; subst this
    refine ⟨Nat.le_refl _, fun j y hy => ?_⟩
    have hy' : (if j = k then none else w.objs j) = some y := hy
    split at hy'
    · cases hy'
    · refine .inl ⟨j, y, hy', rfl, ?_⟩
      rintro (h | ⟨_, hn, h⟩ | ⟨_, _, _, h⟩ | ⟨_, _, h⟩)
      · cases h; exact absurd rfl ‹_›
      · cases h
      · cases h
      · cases h
  | call k c =>
    obtain ⟨x, o, hx, ⟨n1, -, -, rfl, -⟩ | ⟨-, rfl⟩ | ⟨⟨env, rfl, -⟩, rfl⟩⟩ := aosWorldObj_spec opt gauss h
    · refine ⟨Nat.le_refl _, fun j y hy => ?_⟩
      have nE : ∀ m, ¬ AOSWorldCall.Erases m (.call k c) := by
        rintro m (h | ⟨_, -, h⟩ | ⟨_, _, _, h⟩ | ⟨u, b, h⟩)
        · cases h
        · cases h
        · cases h
        · cases h; exact n1 ⟨u, b, rfl⟩
      by_cases hj : j = k
      · subst hj; rw [aosPut_same] at hy
        have := Option.some.inj hy; subst this; exact .inl ⟨j, x, hx, rfl, nE _⟩
      · rw [aosPut_other _ _ hj] at hy
        exact .inl ⟨j, y, hy, rfl, nE _⟩
    · refine ⟨Nat.le_succ _, fun j y hy => ?_⟩
      have hy' : (w.put k ⟨o, w.stamp, some w.stamp⟩).objs j = some y := hy
      by_cases hj : j = k
      · subst hj; rw [aosPut_same] at hy'
        have := Option.some.inj hy'; subst this; exact .inr (Nat.le_refl _)
      · rw [aosPut_other _ _ hj] at hy'
        refine .inl ⟨j, y, hy', rfl, ?_⟩
        rintro (h | ⟨_, -, h⟩ | ⟨_, _, _, h⟩ | ⟨u, b, h⟩)
        · cases h
        · cases h
        · cases h
        · cases h; exact hj rfl
    · refine ⟨Nat.le_succ _, fun j y hy => ?_⟩
      have hy' : (w.put k ⟨o, w.stamp, some w.stamp⟩).objs j = some y := hy
      by_cases hj : j = k
      · subst hj; rw [aosPut_same] at hy'
        have := Option.some.inj hy'; subst this; exact .inr (Nat.le_refl _)
      · rw [aosPut_other _ _ hj] at hy'
        refine .inl ⟨j, y, hy', rfl, ?_⟩
        rintro (h | ⟨_, -, h⟩ | ⟨_, _, _, h⟩ | ⟨u, b, h⟩) <;> cases h

theorem dead_step {w w' : AOSWorld A α} (hw : w.WF) {c : AOSWorldCall A α}
    (h : aosWorldCall opt gauss w c = .ok w') {s : Nat} (hs : w.Dead s) : w'.Dead s := by
  obtain ⟨h1, h2⟩ := aosWorld_nodes opt gauss hw h
  refine ⟨Nat.lt_of_lt_of_le hs.1 h1, fun j y hy e => ?_⟩
  rcases h2 j y hy with ⟨k, z, hz, hn, -⟩ | hn
  · exact hs.2 k z hz (hn.trans e)
  · have := hs.1; omega

theorem dead_session {w w' : AOSWorld A α} (hw : w.WF) (cs : List (AOSWorldCall A α))
    (h : aosWorldSession opt gauss w cs = .ok w') {s : Nat} (hs : w.Dead s) : w'.Dead s := by
  induction cs generalizing w with
  | nil => rw [← Out.ok.inj h]; exact hs
  | cons c cs ih =>
    obtain ⟨y, hy, h⟩ := aosWorldSession_cons opt gauss h
    exact ih (aosWorld_wf opt gauss hw hy) h (dead_step opt gauss hw hy hs)

theorem dead_of_erases {w w' : AOSWorld A α} (hw : w.WF) {c : AOSWorldCall A α}
    (h : aosWorldCall opt gauss w c = .ok w') {i : Nat} {x : AOSHeld A α} (hi : w.objs i = some x)
    (hc : AOSWorldCall.Erases i c) : w'.Dead x.nodes := by
  obtain ⟨h1, h2⟩ := aosWorld_nodes opt gauss hw h
  refine ⟨Nat.lt_of_lt_of_le (hw.nodes i x hi) h1, fun j y hy e => ?_⟩
  rcases h2 j y hy with ⟨k, z, hz, hn, hE⟩ | hn
  · have := hw.uniq i k x z hi hz (e.symm.trans hn.symm)
    subst this
    exact hE hc
  · have := hw.nodes i x hi; omega

/-- An object that is not touched keeps its search, its list and where its pointers lead. -/
theorem aosWorld_untouched {w w' : AOSWorld A α} (hw : w.WF) (cs : List (AOSWorldCall A α))
    (h : aosWorldSession opt gauss w cs = .ok w') {i : Nat} {x : AOSHeld A α} (hx : w.objs i = some x)
    (hc : ∀ c ∈ cs, ¬ AOSWorldCall.Touches i c) :
    ∃ y, w'.objs i = some y ∧ y.ptr = x.ptr ∧ y.nodes = x.nodes ∧ y.obj.st = x.obj.st ∧
      aosFullSession opt gauss x.obj (cs.filterMap (AOSWorldCall.callOn? i)) = .ok y.obj := by
  induction cs generalizing w x with
  | nil => rw [← Out.ok.inj h]; exact ⟨x, hx, rfl, rfl, rfl, rfl⟩
  | cons c cs ih =>
    obtain ⟨w1, hw1, h⟩ := aosWorldSession_cons opt gauss h
    have hc1 := hc c (by simp)
    obtain ⟨s1, s2⟩ := aosWorld_step opt gauss hw hw1 hx fun h => hc1 (.inl h)
    have hwf := aosWorld_wf opt gauss hw hw1
    have hcs : ∀ d ∈ cs, ¬ AOSWorldCall.Touches i d := fun d hd => hc d (by simp [hd])
    cases ho : AOSWorldCall.callOn? i c with
    | none =>
      rw [List.filterMap_cons_none ho]
      exact ih hwf h (s2 ho) hcs
    | some d =>
      rw [List.filterMap_cons_some ho]
      obtain ⟨hcd, hd⟩ := s1 d ho
      obtain ⟨x', o, hx', ⟨n1, n2, ho', rfl, hst⟩ | ⟨⟨u, b, rfl, -⟩, -⟩ | ⟨⟨env, rfl, -⟩, -⟩⟩ := aosWorldObj_spec opt gauss hd
      · rw [hx] at hx'
        have := Option.some.inj hx'; subst this
        obtain ⟨y, y1, y2, y3, y4, y5⟩ := ih hwf h (aosPut_same w i { x with obj := o }) hcs
        refine ⟨y, y1, y2, y3, y4.trans hst, ?_⟩
        show (aosFullCall opt gauss x.obj d >>= fun z => aosFullSession opt gauss z _) = _
        rw [ho']; exact y5
      · exact absurd (.inr (.inl ⟨u, b, hcd⟩)) hc1
      · exact absurd (.inr (.inr ⟨env, hcd⟩)) hc1

end events
end

end Heu
