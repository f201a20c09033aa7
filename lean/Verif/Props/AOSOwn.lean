import Verif.Spec.AOSOwn
import Verif.Props.AOSFull
import Verif.Props.GAFull3

/-!
# C143: an AOS object with an initialiser of the user's own
-/

set_option linter.unusedVariables false
set_option linter.unusedSectionVars false
set_option linter.unusedSimpArgs false

namespace Heu
open Spec

section
variable {A Ω α : Type} [Field α] [LinearOrder α] [IsStrictOrderedRing α] [FloorSemiring α]
variable (opt : FitnessOption) (gauss : Nat → Nat → α)

/-- The object with the bounds it could have if they are not read. -/
def padBox (x : AOSFull A α) (d : Nat) : AOSFull A α :=
  if d = 0 then { x with box := { x.box with mn := some (x.box.mn.getD 0), mx := some (x.box.mx.getD 0) } } else x

theorem padBox_evaluate (x : AOSFull A α) (d : Nat) (s : AOSState α) :
    (padBox x d).evaluate opt s = x.evaluate opt s := by
  unfold padBox; split <;> rfl

theorem padBox_select (x : AOSFull A α) (d : Nat) (e : AOSRawEnv α) (s : AOSState α) :
    (padBox x d).select opt gauss e s = x.select opt gauss e s := by
  unfold padBox; split <;> rfl

theorem padBox_fields (x : AOSFull A α) (d : Nat) :
    (padBox x d).option = x.option ∧ (padBox x d).st = x.st ∧ (padBox x d).generation = x.generation ∧
    (padBox x d).record = x.record ∧ (padBox x d).fFun = x.fFun ∧ (padBox x d).arg = x.arg ∧
    (padBox x d).photonRate = x.photonRate := by
  unfold padBox; split <;> simp

theorem padBox_bounds (x : AOSFull A α) (d : Nat) (hd : d ≠ 0) : padBox x d = x := by
  unfold padBox; simp [hd]

theorem sizesAgree_iff (s : AOSState α) : AOSOwn.sizesAgree s = true ↔
    ∀ c ∈ s.electrons, ∀ d ∈ s.electrons, c.2.var.length = d.2.var.length := by
  unfold AOSOwn.sizesAgree
  cases he : s.electrons with
  | nil => simp
  | cons f rest =>
    simp only [List.all_eq_true, decide_eq_true_eq]
    constructor
    · intro h
      have : ∀ c ∈ f :: rest, c.2.var.length = f.2.var.length := by
        intro c hc
        rcases List.mem_cons.mp hc with rfl | hc
        · rfl
        · exact h c hc
      intro c hc d hd
      rw [this c hc, this d hd]
    · intro h c hc
      exact h c (by simp [hc]) f (by simp)

theorem uniform_of_agree {s : AOSState α} (hd : DistinctNodes s.electrons) (h : AOSOwn.sizesAgree s = true) :
    ∃ d, AOSUniform d s := by
  rw [sizesAgree_iff] at h
  cases he : s.electrons with
  | nil => exact ⟨0, hd, by simp [he]⟩
  | cons f rest => exact ⟨f.2.var.length, hd, fun c hc => h c hc f (by simp [he])⟩

theorem agree_of_uniform {s : AOSState α} {d : Nat} (h : AOSUniform d s) : AOSOwn.sizesAgree s = true := by
  rw [sizesAgree_iff]
  intro c hc e he
  rw [h.size c hc, h.size e he]

theorem own_children_eq (x : AOSFull A α) (e : AOSRawEnv α) {d : Nat} {u : AOSState α} (hu : AOSUniform d u)
    (hne : u.electrons ≠ []) : AOSOwn.children opt x e u = (padBox x d).children opt e u := by
  unfold AOSOwn.children padBox
  by_cases hd : d = 0
  · rw [if_pos, if_pos hd]
    rw [List.all_eq_true]
    intro c hc
    have := hu.size c hc
    rw [hd] at this
    simpa using this
  · rw [if_neg, if_neg hd]
    intro h
    rw [List.all_eq_true] at h
    obtain ⟨c, cs, hc⟩ := List.exists_cons_of_ne_nil hne
    have h1 := h c (by rw [hc]; simp)
    have h2 := hu.size c (by rw [hc]; simp)
    simp only [List.isEmpty_iff] at h1
    rw [h1] at h2
    exact hd h2.symm

/-- With states of one size, the loop is that of `Model/AOSFull`. -/
theorem aosOwn_loop_eq (x : AOSFull A α) (env : Nat → AOSRawEnv α) (d : Nat) :
    ∀ (fuel gen : Nat) (s : AOSState α) (record : List α), AOSUniform d s →
      AOSOwn.loop opt gauss x env fuel gen s record = (padBox x d).loop opt gauss env fuel gen s record := by
  intro fuel
  induction fuel with
  | zero => intros; rfl
  | succ fuel ih =>
    intro gen s record hs
    unfold AOSOwn.loop AOSFull.loop
    rw [padBox_evaluate, AOSOwn.evaluate, if_pos (agree_of_uniform hs)]
    cases ht : x.evaluate opt s with
    | ub => rfl
    | timeout => rfl
    | ok t =>
      simp only [Out.ok_bind]
      cases hg : deref t.electrons t.best with
      | ub => rfl
      | timeout => rfl
      | ok g =>
        simp only [Out.ok_bind]
        rw [padBox_select]
        cases hu : x.select opt gauss (env gen) t with
        | ub => rfl
        | timeout => rfl
        | ok u =>
          simp only [Out.ok_bind]
          obtain ⟨o1, -⟩ := padBox_fields x d
          rw [o1]
          split
          · rfl
          · obtain ⟨-, -, -, -, h0, hne, -, hl, -, hu', -⟩ := fullStep opt gauss hs ht hu
            have hne' : u.electrons ≠ [] := by
              intro h
              rw [h] at hl
              have : 0 < s.electrons.length := List.length_pos_of_ne_nil hne
              simp only [List.length_nil] at hl
              omega
            rw [own_children_eq opt x (env gen) hu' hne']
            cases hv : (padBox x d).children opt (env gen) u with
            | ub => rfl
            | timeout => rfl
            | ok v =>
              simp only [Out.ok_bind]
              have hpu : (padBox x d).select opt gauss (env gen) t = .ok u := by rw [padBox_select]; exact hu
              have hpt : (padBox x d).evaluate opt s = .ok t := by rw [padBox_evaluate]; exact ht
              obtain ⟨-, -, -, -, -, -, -, -, -, -, -, -, -, hch⟩ := fullStep opt gauss hs hpt hpu
              exact ih _ _ _ (hch v hv).1

/-- What `run` does. -/
theorem aosOwn_run_eq (x : AOSOwn A Ω α) (env : Nat → AOSRawEnv α) {d : Nat} (h : AOSUniform d x.obj.st) :
    x.run opt gauss env = (padBox x.obj d).run opt gauss env >>= fun y =>
      .ok { x with obj := { x.obj with st := y.st, generation := y.generation, record := y.record } } := by
  unfold AOSOwn.run AOSFull.run
  obtain ⟨o1, o2, o3, o4, -⟩ := padBox_fields x.obj d
  rw [aosOwn_loop_eq opt gauss x.obj env d _ _ _ _ h, o1, o2, o3, o4]
  cases (padBox x.obj d).loop opt gauss env (x.obj.option.maxGeneration + 1) x.obj.generation x.obj.st x.obj.record
    <;> rfl

theorem aosOwn_run_ub (x : AOSOwn A Ω α) (env : Nat → AOSRawEnv α) (h : ¬ OneStateSize x) :
    x.run opt gauss env = .ub := by
  unfold AOSOwn.run AOSOwn.loop AOSOwn.evaluate
  rw [if_neg]
  · rfl
  · intro h'
    exact h ((sizesAgree_iff _).mp h')

/-- A run that returns is one of `Model/AOSFull`. -/
theorem aosOwn_run_ok {x y : AOSOwn A Ω α} {env : Nat → AOSRawEnv α} (hd : DistinctNodes x.obj.st.electrons)
    (h : x.run opt gauss env = .ok y) :
    ∃ d z, AOSUniform d x.obj.st ∧ (padBox x.obj d).run opt gauss env = .ok z ∧
      y = { x with obj := { x.obj with st := z.st, generation := z.generation, record := z.record } } := by
  by_cases hs : OneStateSize x
  · obtain ⟨d, hu⟩ := uniform_of_agree hd ((sizesAgree_iff _).mpr hs)
    rw [aosOwn_run_eq opt gauss x env hu, Out.bind_eq_ok] at h
    obtain ⟨z, hz, h⟩ := h
    exact ⟨d, z, hu, hz, (Out.ok.inj h).symm⟩
  · rw [aosOwn_run_ub opt gauss x env hs] at h
    cases h

theorem aosOwn_init_ok {x y : AOSOwn A Ω α} {w : Nat → Ω} {blank : List α} {junk : α}
    (h : x.initializePop w blank junk = .ok y) :
    ∃ i s, x.iFun = some i ∧ aosInitializePop x.obj.option (fun k => i x.obj.arg (w k) blank) junk = .ok s ∧
      y = { x with obj := { x.obj with st := s, generation := 0, record := [] } } := by
  unfold AOSOwn.initializePop at h
  cases hi : x.iFun with
  | none => rw [hi] at h; simp [readMember] at h
  | some i =>
    rw [hi] at h
    simp only [readMember, Out.ok_bind, Out.bind_eq_ok] at h
    obtain ⟨s, hs, h⟩ := h
    exact ⟨i, s, rfl, hs, (Out.ok.inj h).symm⟩

theorem aosOwn_set_st {x : AOSFull A α} {y : AOSFull A α} {c : AOSSetter A α}
    (h : aosFullCall opt gauss x c.toCall = .ok y) :
    y.st = x.st ∧ y.generation = x.generation ∧ y.record = x.record := by
  refine aosFullCall_setter opt gauss x y c.toCall h ?_ ?_
  · rintro ⟨u, j, h⟩; cases c <;> cases h
  · rintro ⟨e, h⟩; cases c <;> cases h

theorem aosOwn_session_append (x : AOSOwn A Ω α) (cs ds : List (AOSOwnCall A Ω α)) :
    aosOwnSession opt gauss x (cs ++ ds) =
      aosOwnSession opt gauss x cs >>= fun y => aosOwnSession opt gauss y ds := by
  simp [aosOwnSession, List.foldlM_append]

theorem aosOwn_session_one (x : AOSOwn A Ω α) (c : AOSOwnCall A Ω α) :
    aosOwnSession opt gauss x [c] = aosOwnCall opt gauss x c := by
  simp only [aosOwnSession, List.foldlM_cons, List.foldlM_nil]
  exact bind_pure _

theorem aosOwn_call_distinct {x y : AOSOwn A Ω α} {c : AOSOwnCall A Ω α} (hd : DistinctNodes x.obj.st.electrons)
    (h : aosOwnCall opt gauss x c = .ok y) : DistinctNodes y.obj.st.electrons := by
  cases c with
  | set c =>
    simp only [aosOwnCall, Out.bind_eq_ok] at h
    obtain ⟨z, hz, h⟩ := h
    cases h
    show DistinctNodes z.st.electrons
    rw [(aosOwn_set_st opt gauss hz).1]; exact hd
  | setiFun f => cases h; exact hd
  | initializePop w blank junk =>
    obtain ⟨i, s, -, hs, rfl⟩ := aosOwn_init_ok h
    exact (aosInit_spec hs).2.2.2.1
  | run env =>
    obtain ⟨d, z, hu, hz, rfl⟩ := aosOwn_run_ok opt gauss hd h
    have hp : AOSUniform d (padBox x.obj d).st := by rw [(padBox_fields x.obj d).2.1]; exact hu
    exact (fullRun_frame opt gauss hp hz).2.1.distinct

theorem aosOwn_distinct (rate0 : α) (shape0 : Option (Int × Int)) (j : AOSJunk A α) (i0 : Option (AOSInitFun A Ω α))
    (cs : List (AOSOwnCall A Ω α)) (x : AOSOwn A Ω α)
    (h : aosOwnSession opt gauss (.new rate0 shape0 j i0) cs = .ok x) : DistinctNodes x.obj.st.electrons := by
  induction cs using List.reverseRecOn generalizing x with
  | nil => cases h; simp [AOSOwn.new, AOSFull.new, DistinctNodes]
  | append_singleton cs c ih =>
    rw [aosOwn_session_append, Out.bind_eq_ok] at h
    obtain ⟨w, hw, h⟩ := h
    rw [aosOwn_session_one] at h
    exact aosOwn_call_distinct opt gauss (ih w hw) h

/-- What a call changes. -/
theorem aosOwn_call_changes {x y : AOSOwn A Ω α} {c : AOSOwnCall A Ω α} (hd : DistinctNodes x.obj.st.electrons)
    (h : aosOwnCall opt gauss x c = .ok y) :
    y.obj.option = (aosOwnGiveOption c).getD x.obj.option ∧
    y.obj.photonRate = (aosOwnGiveRate c).getD x.obj.photonRate ∧
    y.obj.fFun = (aosOwnGiveFun c).getD x.obj.fFun ∧ y.iFun = (aosOwnGiveInit c).getD x.iFun ∧
    y.obj.arg = (aosOwnGiveArg c).getD x.obj.arg ∧ y.obj.box.shape = (aosOwnGiveShape c).getD x.obj.box.shape ∧
    y.obj.box.mn = (aosOwnGiveMin c).getD x.obj.box.mn ∧ y.obj.box.mx = (aosOwnGiveMax c).getD x.obj.box.mx ∧
    y.obj.box.delta = (aosOwnGiveDelta c).getD x.obj.box.delta := by
  cases c with
  | set c =>
    simp only [aosOwnCall, Out.bind_eq_ok] at h
    obtain ⟨z, hz, h⟩ := h
    cases h
    obtain ⟨e1, e2, e3, e4, e5, e6, e7, e8⟩ := aosFullCall_changes opt gauss _ _ _ hz
    refine ⟨e1.trans ?_, e2.trans ?_, e3.trans ?_, ?_, e4.trans ?_, e5.trans ?_, e6.trans ?_, e7.trans ?_, e8.trans ?_⟩
      <;> cases c <;> first | rfl | (rename_i b; cases b <;> rfl)
  | setiFun f => cases h; exact ⟨rfl, rfl, rfl, rfl, rfl, rfl, rfl, rfl, rfl⟩
  | initializePop w blank junk =>
    obtain ⟨i, s, -, hs, rfl⟩ := aosOwn_init_ok h
    exact ⟨rfl, rfl, rfl, rfl, rfl, rfl, rfl, rfl, rfl⟩
  | run env =>
    obtain ⟨d, z, hu, hz, rfl⟩ := aosOwn_run_ok opt gauss hd h
    exact ⟨rfl, rfl, rfl, rfl, rfl, rfl, rfl, rfl, rfl⟩

/-- **C143** (settings).  After any history that returned, each setting is the one given last, or its initial value:
the default options, the null pointer as fitness function, the initialiser given at compile time, indeterminate
bounds.  Neither `initializePop()` nor `run()` changes any of them. -/
theorem aos_own_settings (rate0 : α) (shape0 : Option (Int × Int)) (j : AOSJunk A α) (i0 : Option (AOSInitFun A Ω α))
    (cs : List (AOSOwnCall A Ω α)) (x : AOSOwn A Ω α)
    (h : aosOwnSession opt gauss (.new rate0 shape0 j i0) cs = .ok x) :
    x.obj.option = lastSet aosOwnGiveOption cs aosDefaultOption ∧
    x.obj.photonRate = lastSet aosOwnGiveRate cs rate0 ∧
    x.obj.fFun = lastSet aosOwnGiveFun cs none ∧ x.iFun = lastSet aosOwnGiveInit cs i0 ∧
    x.obj.arg = lastSet aosOwnGiveArg cs j.arg ∧ x.obj.box.shape = lastSet aosOwnGiveShape cs shape0 ∧
    x.obj.box.mn = lastSet aosOwnGiveMin cs none ∧ x.obj.box.mx = lastSet aosOwnGiveMax cs none ∧
    x.obj.box.delta = lastSet aosOwnGiveDelta cs none := by
  induction cs using List.reverseRecOn generalizing x with
  | nil => cases h; exact ⟨rfl, rfl, rfl, rfl, rfl, rfl, rfl, rfl, rfl⟩
  | append_singleton cs c ih =>
    rw [aosOwn_session_append, Out.bind_eq_ok] at h
    obtain ⟨w, hw, h⟩ := h
    rw [aosOwn_session_one] at h
    obtain ⟨i1, i2, i3, i4, i5, i6, i7, i8, i9⟩ := ih w hw
    obtain ⟨c1, c2, c3, c4, c5, c6, c7, c8, c9⟩ :=
      aosOwn_call_changes opt gauss (aosOwn_distinct opt gauss rate0 shape0 j i0 cs w hw) h
    simp only [lastSet_snoc]
    exact ⟨by rw [c1, i1], by rw [c2, i2], by rw [c3, i3], by rw [c4, i4], by rw [c5, i5], by rw [c6, i6],
      by rw [c7, i7], by rw [c8, i8], by rw [c9, i9]⟩

/-- **C143** (`initializePop()`).  It returns exactly if there are an initialiser, at least one electron and not more
layers than electrons – neither box nor fitness function are needed – and is undefined otherwise.  It makes
`electronNum` electrons; the state of each is exactly what the initialiser wrote when given the argument in force and
a blank state; none is evaluated; counters and record are reset; no setting changes. -/
theorem aos_own_initialised (x : AOSOwn A Ω α) (w : Nat → Ω) (blank : List α) (junk : α) :
    ((∃ y, aosOwnCall opt gauss x (.initializePop w blank junk) = .ok y) ↔ AOSOwnInitAllowed x) ∧
    (aosOwnCall opt gauss x (.initializePop w blank junk) = .ub ↔ ¬ AOSOwnInitAllowed x) ∧
    ∀ y, aosOwnCall opt gauss x (.initializePop w blank junk) = .ok y →
      ∃ i, x.iFun = some i ∧
        y.obj.st.electrons.map (·.2.var) =
          (List.range x.obj.option.electronNum).map (fun k => i x.obj.arg (w k) blank) ∧
        (∀ c ∈ y.obj.st.electrons, c.2.computed = false) ∧ y.obj.generation = 0 ∧ y.obj.record = [] ∧
        y.obj.st.early = 0 ∧ y.iFun = x.iFun ∧ y.obj.option = x.obj.option ∧ y.obj.fFun = x.obj.fFun ∧
        y.obj.arg = x.obj.arg ∧ y.obj.box = x.obj.box ∧ y.obj.photonRate = x.obj.photonRate := by
  have key : (AOSOwnInitAllowed x → ∃ y, aosOwnCall opt gauss x (.initializePop w blank junk) = .ok y) ∧
      (¬ AOSOwnInitAllowed x → aosOwnCall opt gauss x (.initializePop w blank junk) = .ub) := by
    simp only [aosOwnCall, AOSOwn.initializePop, AOSOwnInitAllowed, aosInitializePop]
    cases hi : x.iFun with
    | none => simp [readMember]
    | some i =>
      simp only [readMember, Out.ok_bind, ne_eq, reduceCtorEq, not_false_eq_true, true_and]
      by_cases hc : x.obj.option.maxLayerNum ≤ x.obj.option.electronNum ∧ 0 < x.obj.option.electronNum
      · rw [if_pos hc]
        exact ⟨fun _ => ⟨_, rfl⟩, fun h => absurd hc h⟩
      · rw [if_neg hc]
        exact ⟨fun h => absurd h hc, fun _ => rfl⟩
  refine ⟨⟨fun ⟨y, hy⟩ => ?_, key.1⟩, ⟨fun hub ha => ?_, key.2⟩, ?_⟩
  · by_contra hn
    rw [key.2 hn] at hy; cases hy
  · obtain ⟨y, hy⟩ := key.1 ha
    rw [hub] at hy; cases hy
  · intro y hy
    obtain ⟨i, s, hi, hs, rfl⟩ := aosOwn_init_ok hy
    have hsp := aosInit_spec hs
    refine ⟨i, hi, ?_, fun c hc => (hsp.2.2.2.2.1 c hc).1, rfl, rfl, hsp.2.2.2.2.2.2.2, rfl, rfl, rfl, rfl, rfl, rfl⟩
    unfold aosInitializePop at hs
    split at hs
    · cases hs
      simp [initializePop]
    · cases hs

/-- **C143** (sizes).  After any history, `run()` is undefined if the initialiser wrote states of different sizes,
even if it would not make any generation.  If they have one size, whatever shape was set, `run()` is that of C130, on
the same electrons; for empty states, as if some bounds were set. -/
theorem aos_own_sizes (rate0 : α) (shape0 : Option (Int × Int)) (j : AOSJunk A α) (i0 : Option (AOSInitFun A Ω α))
    (cs : List (AOSOwnCall A Ω α)) (x : AOSOwn A Ω α)
    (hx : aosOwnSession opt gauss (.new rate0 shape0 j i0) cs = .ok x) (env : Nat → AOSRawEnv α) :
    (¬ OneStateSize x → aosOwnCall opt gauss x (.run env) = .ub) ∧
    (OneStateSize x → (∃ c ∈ x.obj.st.electrons, c.2.var ≠ []) →
      aosOwnCall opt gauss x (.run env) =
        aosFullCall opt gauss x.obj (.run env) >>= fun y => .ok { x with obj := y }) ∧
    (OneStateSize x → (∀ c ∈ x.obj.st.electrons, c.2.var = []) → ∃ a b,
      aosOwnCall opt gauss x (.run env) =
        aosFullCall opt gauss { x.obj with box := { x.obj.box with mn := some a, mx := some b } } (.run env) >>=
          fun y => .ok { x with obj := { y with box := x.obj.box } }) := by
  have hd := aosOwn_distinct opt gauss rate0 shape0 j i0 cs x hx
  refine ⟨aosOwn_run_ub opt gauss x env, ?_, ?_⟩
  · rintro hs ⟨c, hc, hcne⟩
    obtain ⟨d, hu⟩ := uniform_of_agree hd ((sizesAgree_iff _).mpr hs)
    have hd0 : d ≠ 0 := by
      intro h0
      have := hu.size c hc
      rw [h0] at this
      exact hcne (List.length_eq_zero_iff.mp this)
    show x.run opt gauss env = x.obj.run opt gauss env >>= _
    rw [aosOwn_run_eq opt gauss x env hu, padBox_bounds _ _ hd0]
    cases hr : x.obj.run opt gauss env with
    | ub => rfl
    | timeout => rfl
    | ok y =>
      obtain ⟨r, -, rfl⟩ := fullRun_eq opt gauss hr
      rfl
  · intro hs he
    have hu : AOSUniform 0 x.obj.st := ⟨hd, fun c hc => by rw [he c hc]; rfl⟩
    refine ⟨x.obj.box.mn.getD 0, x.obj.box.mx.getD 0, ?_⟩
    show x.run opt gauss env = AOSFull.run opt gauss _ env >>= _
    rw [aosOwn_run_eq opt gauss x env hu]
    unfold padBox
    rw [if_pos rfl]
    cases hr : AOSFull.run opt gauss { x.obj with box :=
      { x.obj.box with mn := some (x.obj.box.mn.getD 0), mx := some (x.obj.box.mx.getD 0) } } env with
    | ub => rfl
    | timeout => rfl
    | ok y =>
      obtain ⟨r, -, rfl⟩ := fullRun_eq opt gauss hr
      rfl

/-- Every seed is beaten by the record, or still waits to be evaluated. -/
def SeedsMet (F : List α → α) (seeds : List (List α)) (s : AOSState α) (rec : List α) : Prop :=
  (∀ l, rec.getLast? = some l → ∀ v ∈ seeds, ¬ Better opt (F v) l) ∧
  (rec = [] → ∀ v ∈ seeds, ∃ c ∈ s.electrons, c.2.var = v ∧ (c.2.computed = true → c.2.fitness = F v))

theorem better_trans_not {a b c : α} (h1 : ¬ Better opt a b) (h2 : ¬ Better opt b c) : ¬ Better opt a c := by
  cases opt <;> simp only [Better, not_lt] at * <;> exact le_trans ‹_› ‹_›

/-- A run keeps the record ahead of the seeds. -/
theorem fullRun_seeds {x y : AOSFull A α} {env : Nat → AOSRawEnv α} {dim : Nat} (hx : AOSUniform dim x.st)
    (h : x.run opt gauss env = .ok y) (F : List α → α) (hF : ∀ g, x.fFun = some g → g x.arg = F)
    (seeds : List (List α)) (h1 : SeedsMet opt F seeds x.st x.record) (h2 : LastKept x.record x.st)
    (h3 : CacheCorrect F x.st.electrons) :
    SeedsMet opt F seeds y.st y.record ∧ y.record ≠ [] := by
  obtain ⟨r, hr, rfl⟩ := fullRun_eq opt gauss h
  refine fullLoop_rule opt gauss x env
    (fun gen s rec => AOSUniform dim s ∧ SeedsMet opt F seeds s rec ∧ LastKept rec s ∧ CacheCorrect F s.electrons)
    (fun r => SeedsMet opt F seeds r.state r.record ∧ r.record ≠ [])
    ?_ _ _ _ _ r ⟨hx, h1, h2, h3⟩ hr
  rintro gen s rec t g u ⟨hs, hm, hk, hcc⟩ ht hg hu
  obtain ⟨⟨f, hf, hfx⟩, hfn, ⟨c, hc1, hc2, hc3, d, hd, hde⟩, ht', h0, hne, -, hl, hsub, hu', -, -, -, hch⟩ :=
    fullStep opt gauss hs ht hu
  rw [hg] at hc3; cases hc3
  have htc : ∀ c ∈ t.electrons, c.2.fitness = F c.2.var := by
    intro c hcm
    rw [hf] at hcm
    obtain ⟨-, d, hdm, -, hv, h1, h2⟩ := computeAllFitness_each f _ c hcm
    cases hdc : d.2.computed with
    | true => rw [h1 hdc]; exact hcc d hdm hdc
    | false =>
      obtain ⟨g', hg'⟩ := Option.ne_none_iff_exists'.mp (hfn ⟨d, hdm, hdc⟩)
      rw [h2 hdc, hfx g' hg', hF g' hg']
  have hvars : ∀ c ∈ s.electrons, ∃ e ∈ t.electrons, e.2.var = c.2.var := by
    intro c hc
    have : c.2.var ∈ (computeAllFitness f s.electrons).map (·.2.var) := by
      have he : (computeAllFitness f s.electrons).map (·.2.var) = s.electrons.map (·.2.var) := by
        simp only [computeAllFitness, List.map_map]
        apply List.map_congr_left
        intro c _
        simp only [Function.comp_apply, evalGene]
        split <;> rfl
      rw [he]
      exact List.mem_map_of_mem (f := fun c : Cell (Gene (List α) α) => c.2.var) hc
    rw [← hf] at this
    obtain ⟨e, he, hev⟩ := List.mem_map.mp this
    exact ⟨e, he, hev⟩
  have hm' : SeedsMet opt F seeds u (rec ++ [c.2.fitness]) := by
    refine ⟨fun l hl' v hv => ?_, fun h => by simp at h⟩
    simp at hl'; subst hl'
    by_cases hrec : rec = []
    · obtain ⟨b, hb, hbv, -⟩ := hm.2 hrec v hv
      obtain ⟨e, he, hev⟩ := hvars b hb
      have h := hc2.2 e he
      have h' : ¬ Better opt e.2.fitness c.2.fitness := h
      rw [htc e he, hev, hbv] at h'
      exact h'
    · obtain ⟨l, hl'⟩ : ∃ l, rec.getLast? = some l := by
        exact ⟨rec.getLast hrec, List.getLast?_eq_some_getLast hrec⟩
      obtain ⟨b, hb, hbc, rfl⟩ := hk l hl'
      have hbt := hc2.2 b (by rw [hf]; exact computeAllFitness_keeps f _ b hb hbc)
      exact better_trans_not opt (hm.1 _ hl' v hv) hbt
  have hcomp : ∀ c ∈ u.electrons, c.2.computed = true := by
    intro c hc
    have := hsub c hc
    rw [hf] at this
    exact (computeAllFitness_each f _ c this).1
  refine ⟨fun _ => ⟨hm', by simp⟩, fun _ _ v hv => ?_⟩
  obtain ⟨hv', -, -, mn, mx, new, -, -, hve, -, hnew⟩ := hch v hv
  refine ⟨hv', ⟨hm'.1, fun h => by simp at h⟩, ?_, ?_⟩
  · intro e he
    simp at he; subst he
    exact ⟨d, by rw [hve]; exact List.mem_append_left _ hd, hcomp d hd, hde⟩
  · intro c hc hcc'
    rw [hve] at hc
    rcases List.mem_append.mp hc with hc | hc
    · exact htc c (hsub c hc)
    · rw [(hnew c hc).1] at hcc'; cases hcc'

/-- What holds after `initializePop()` and plain calls. -/
structure OwnInv (F : List α → α) (seeds : List (List α)) (a b : Option α) (x : AOSOwn A Ω α) : Prop where
  distinct : DistinctNodes x.obj.st.electrons
  seedsMet : SeedsMet opt F seeds x.obj.st x.obj.record
  kept : LastKept x.obj.record x.obj.st
  true' : CacheCorrect F x.obj.st.electrons
  never : NeverWorse opt x.obj.record
  inside : ∀ mn mx, a = some mn → b = some mx → mn ≤ mx →
    ∀ c ∈ x.obj.st.electrons, c.2.var ∈ seeds ∨ ∀ y ∈ c.2.var, mn ≤ y ∧ y ≤ mx
  mn : x.obj.box.mn = a
  mx : x.obj.box.mx = b

theorem plain_set {x y : AOSFull A α} {c : AOSSetter A α} (hc : AOSOwnCall.Plain (Ω := Ω) (.set c))
    (h : aosFullCall opt gauss x c.toCall = .ok y) :
    y.fFun = x.fFun ∧ y.arg = x.arg ∧ y.box.mn = x.box.mn ∧ y.box.mx = x.box.mx := by
  obtain ⟨-, -, e3, e4, -, e6, e7, -⟩ := aosFullCall_changes opt gauss x y c.toCall h
  rw [e3, e4, e6, e7]
  cases c with
  | setOption o r => exact ⟨rfl, rfl, rfl, rfl⟩
  | setfFun f => exact hc.elim
  | setArg a => exact hc.elim
  | box c => cases c <;> first | exact ⟨rfl, rfl, rfl, rfl⟩ | exact hc.elim

theorem own_plain_inv (F : List α → α) (seeds : List (List α)) (a b : Option α) {x y : AOSOwn A Ω α}
    {c : AOSOwnCall A Ω α} (hc : AOSOwnCall.Plain c) (hi : OwnInv opt F seeds a b x)
    (hF : ∀ g, x.obj.fFun = some g → g x.obj.arg = F) (h : aosOwnCall opt gauss x c = .ok y) :
    OwnInv opt F seeds a b y ∧ y.obj.fFun = x.obj.fFun ∧ y.obj.arg = x.obj.arg ∧
      (AOSOwnCall.IsRun c → y.obj.record ≠ [] ∧ (∀ c ∈ y.obj.st.electrons, c.2.computed = true) ∧
        ∃ e, y.obj.record.getLast? = some e ∧ BestEnergy opt y.obj.st.electrons e) ∧
      (¬ AOSOwnCall.IsRun c → y.obj.st = x.obj.st ∧ y.obj.record = x.obj.record) := by
  cases c with
  | set c =>
    simp only [aosOwnCall, Out.bind_eq_ok] at h
    obtain ⟨z, hz, h⟩ := h
    cases h
    obtain ⟨q1, q2, q3⟩ := aosOwn_set_st opt gauss hz
    obtain ⟨p1, p2, p3, p4⟩ := plain_set (Ω := Ω) opt gauss hc hz
    refine ⟨⟨?_, ?_, ?_, ?_, ?_, ?_, ?_, ?_⟩, p1, p2, ?_, fun _ => ⟨q1, q3⟩⟩
    · show DistinctNodes z.st.electrons; rw [q1]; exact hi.distinct
    · show SeedsMet opt F seeds z.st z.record; rw [q1, q3]; exact hi.seedsMet
    · show LastKept z.record z.st; rw [q1, q3]; exact hi.kept
    · show CacheCorrect F z.st.electrons; rw [q1]; exact hi.true'
    · show NeverWorse opt z.record; rw [q3]; exact hi.never
    · show ∀ mn mx, a = some mn → b = some mx → mn ≤ mx → ∀ c ∈ z.st.electrons, _
      rw [q1]; exact hi.inside
    · exact p3.trans hi.mn
    · exact p4.trans hi.mx
    · rintro ⟨e, he⟩; cases he
  | setiFun f =>
    cases h
    refine ⟨⟨hi.1, hi.2, hi.3, hi.4, hi.5, hi.6, hi.7, hi.8⟩, rfl, rfl, ?_, fun _ => ⟨rfl, rfl⟩⟩
    rintro ⟨e, he⟩; cases he
  | initializePop w blank junk => exact hc.elim
  | run env =>
    obtain ⟨d, z, hu, hz, rfl⟩ := aosOwn_run_ok opt gauss hi.distinct h
    obtain ⟨f1, f2, f3, f4, f5, f6, f7⟩ := padBox_fields x.obj d
    have hp : AOSUniform d (padBox x.obj d).st := by rw [f2]; exact hu
    have hF' : ∀ g, (padBox x.obj d).fFun = some g → g (padBox x.obj d).arg = F := by rw [f5, f6]; exact hF
    obtain ⟨-, hun, hcomp, -⟩ := fullRun_frame opt gauss hp hz
    obtain ⟨n1, n2, n3⟩ := fullRun_record opt gauss hp hz (by rw [f4]; exact hi.never) (by rw [f2, f4]; exact hi.kept)
    obtain ⟨s1, s2⟩ := fullRun_seeds opt gauss hp hz F hF' seeds (by rw [f2, f4]; exact hi.seedsMet)
      (by rw [f2, f4]; exact hi.kept) (by rw [f2]; exact hi.true')
    refine ⟨⟨hun.distinct, s1, n2, fullRun_true opt gauss hp hz F hF' (by rw [f2]; exact hi.true'), n1, ?_, hi.mn,
      hi.mx⟩, rfl, rfl, fun _ => ⟨s2, hcomp, n3⟩, fun hn => absurd ⟨env, rfl⟩ hn⟩
    intro mn mx ha hb hle c hc
    rcases fullRun_origin opt gauss hp hz c hc with ⟨e, he, -, hv, -⟩ | ⟨-, mn', mx', st, hmn, hmx, hlen, hvar⟩
    · rw [f2] at he
      rw [← hv]
      exact hi.inside mn mx ha hb hle e he
    · right
      by_cases hd0 : d = 0
      · have : c.2.var = [] := by
          have := hun.size c hc
          rw [hd0] at this
          exact List.length_eq_zero_iff.mp this
        rw [this]; simp
      · rw [padBox_bounds _ _ hd0] at hmn hmx
        have e1 : mn' = mn := by rw [hi.mn, ha] at hmn; exact (Option.some.inj hmn).symm
        have e2 : mx' = mx := by rw [hi.mx, hb] at hmx; exact (Option.some.inj hmx).symm
        subst e1 e2
        rw [hvar]
        intro y hy
        unfold confine at hy
        obtain ⟨k, hk, rfl⟩ := List.mem_mapIdx.mp hy
        exact clampTo_mem _ _ _ hle

/-- **C143** (the result).  Let any history end with `initializePop()`, which called the user's initialiser; the
states it wrote are the seeds.  Then let any calls follow that change neither the bounds nor the fitness function
(options, step width, shape, any number of runs).  Every evaluated electron has its true energy; every electron is
within the bounds or is one of the seeds, unchanged; after at least one run the last entry of the record is the best
energy among the electrons, all of them evaluated, and is not worse than the value of any seed. -/
theorem aos_own_result (rate0 : α) (shape0 : Option (Int × Int)) (j : AOSJunk A α) (i0 : Option (AOSInitFun A Ω α))
    (before : List (AOSOwnCall A Ω α)) (w : Nat → Ω) (blank : List α) (junk : α) (x : AOSOwn A Ω α)
    (hx : aosOwnSession opt gauss (.new rate0 shape0 j i0) (before ++ [.initializePop w blank junk]) = .ok x)
    (f : A → List α → α) (hf : x.obj.fFun = some f)
    (after : List (AOSOwnCall A Ω α)) (ha : ∀ c ∈ after, AOSOwnCall.Plain c) (z : AOSOwn A Ω α)
    (hz : aosOwnSession opt gauss x after = .ok z) :
    (∀ c ∈ z.obj.st.electrons, c.2.computed = true → c.2.fitness = f x.obj.arg c.2.var) ∧
    (∀ mn mx, x.obj.box.mn = some mn → x.obj.box.mx = some mx → mn ≤ mx → ∀ c ∈ z.obj.st.electrons,
      (∃ d ∈ x.obj.st.electrons, c.2.var = d.2.var) ∨ ∀ y ∈ c.2.var, mn ≤ y ∧ y ≤ mx) ∧
    ((∃ c ∈ after, AOSOwnCall.IsRun c) → ∃ e, z.obj.record.getLast? = some e ∧
      BestEnergy opt z.obj.st.electrons e ∧ (∀ c ∈ z.obj.st.electrons, c.2.computed = true) ∧
      ∀ d ∈ x.obj.st.electrons, ¬ Better opt (f x.obj.arg d.2.var) e) := by
  rw [aosOwn_session_append, Out.bind_eq_ok] at hx
  obtain ⟨v, hv, hx⟩ := hx
  rw [aosOwn_session_one] at hx
  obtain ⟨i, s, hi, hs, rfl⟩ := aosOwn_init_ok hx
  have hsp := aosInit_spec hs
  set x : AOSOwn A Ω α := { v with obj := { v.obj with st := s, generation := 0, record := [] } } with hxd
  have hst : x.obj.st = s := rfl
  have key : ∀ (after : List (AOSOwnCall A Ω α)), (∀ c ∈ after, AOSOwnCall.Plain c) → ∀ z : AOSOwn A Ω α,
      aosOwnSession opt gauss x after = .ok z →
      OwnInv opt (f x.obj.arg) (s.electrons.map (·.2.var)) x.obj.box.mn x.obj.box.mx z ∧
      z.obj.fFun = x.obj.fFun ∧ z.obj.arg = x.obj.arg ∧
      ((∃ c ∈ after, AOSOwnCall.IsRun c) → (∀ c ∈ z.obj.st.electrons, c.2.computed = true) ∧
        ∃ e, z.obj.record.getLast? = some e ∧ BestEnergy opt z.obj.st.electrons e) := by
    intro after
    induction after using List.reverseRecOn with
    | nil =>
      intro _ z hz
      cases hz
      refine ⟨⟨hsp.2.2.2.1, ⟨(fun l hl => by cases hl), fun _ v hv => ?_⟩, ?_, ?_, List.Pairwise.nil, ?_, rfl, rfl⟩, rfl,
        rfl, ?_⟩
      · obtain ⟨c, hc, rfl⟩ := List.mem_map.mp hv
        refine ⟨c, hc, rfl, fun h => ?_⟩
        rw [(hsp.2.2.2.2.1 c hc).1] at h; cases h
      · intro e he; cases he
      · intro c hc h
        rw [(hsp.2.2.2.2.1 c hc).1] at h; cases h
      · intro mn mx _ _ _ c hc
        exact Or.inl (List.mem_map_of_mem (f := fun c : Cell (Gene (List α) α) => c.2.var) hc)
      · rintro ⟨c, hc, -⟩; cases hc
    | append_singleton as c ih =>
      intro hp z hz
      rw [aosOwn_session_append, Out.bind_eq_ok] at hz
      obtain ⟨y, hy, hz⟩ := hz
      rw [aosOwn_session_one] at hz
      obtain ⟨k1, k2, k3, k4⟩ := ih (fun c hc => hp c (by simp [hc])) y hy
      obtain ⟨l1, l2, l3, l4, l5⟩ := own_plain_inv opt gauss (f x.obj.arg) _ _ _ (hp c (by simp)) k1 (by
        intro g hg
        rw [k2, hf] at hg
        rw [← Option.some.inj hg, k3]) hz
      refine ⟨l1, l2.trans k2, l3.trans k3, ?_⟩
      by_cases hr : AOSOwnCall.IsRun c
      · intro _
        exact (l4 hr).2
      · rintro ⟨c', hc', hr'⟩
        rcases List.mem_append.mp hc' with hm | hm
        · have := k4 ⟨c', hm, hr'⟩
          obtain ⟨m1, m2⟩ := l5 hr
          rw [m1, m2]
          exact this
        · rw [List.mem_singleton] at hm
          rw [hm] at hr'
          exact absurd hr' hr
  obtain ⟨k1, -, -, k4⟩ := key after ha z hz
  refine ⟨k1.true', ?_, ?_⟩
  · intro mn mx h1 h2 hle c hc
    rcases k1.inside mn mx h1 h2 hle c hc with h | h
    · obtain ⟨d, hd, hdv⟩ := List.mem_map.mp h
      exact Or.inl ⟨d, hd, hdv.symm⟩
    · exact Or.inr h
  · intro hr
    obtain ⟨hc, e, he, hb⟩ := k4 hr
    refine ⟨e, he, hb, hc, fun d hd => ?_⟩
    exact k1.seedsMet.1 e he _ (List.mem_map_of_mem (f := fun c : Cell (Gene (List α) α) => c.2.var) hd)

end

/-- A history for one dimension, minimising `(x - 1)^2`, bounds `[2, 4]`: the initialiser puts electron `k` at
`seed k`. -/
def aosOwnDemo (seed : Nat → List ℚ) (maxGen : Nat) : List (AOSOwnCall ℚ Nat ℚ) :=
  [.set (.setOption ⟨3, maxGen, 10, 2⟩ (1 / 10)),
   .set (.setfFun (some fun a v => (v.getD 0 0 - a) * (v.getD 0 0 - a))), .set (.setArg 1),
   .set (.box (.setRange 2 4)), .set (.box (.setDelta 1)), .setiFun (some fun _ k _ => seed k),
   .initializePop id [] 66, .run demoAOSRawEnv]

/-- The start object. -/
def aosOwnDemoNew : AOSOwn ℚ Nat ℚ := .new (1 / 10) none demoAOSJunk none

/-- The best electron stays outside the bounds: seeds 1/2, 7 and 3, bounds `[2, 4]`.  No feasible state has less energy
than 1 (the one of 2); the seed 1/2 has energy 1/4, is reported after every generation and stays in the population. -/
theorem aos_own_outside :
    (aosOwnSession .lessBetter demoAOSGauss aosOwnDemoNew
      (aosOwnDemo (fun k => if k = 0 then [1 / 2] else if k = 1 then [7] else [3]) 3)).satisfies (fun z =>
      z.obj.record == [1 / 4, 1 / 4, 1 / 4, 1 / 4] && z.obj.generation == 3 &&
      z.obj.st.electrons.any (fun c => c.2.var == [1 / 2])) = true := by
  decide +kernel

/-- Seeds within the bounds (the hypotheses of `aos_own_result` are met: a session that returns, a fitness function,
bounds in order, one run). -/
example : (aosOwnSession .lessBetter demoAOSGauss aosOwnDemoNew
      (aosOwnDemo (fun k => if k = 0 then [3] else [4]) 3)).satisfies (fun z =>
      z.obj.st.electrons.all (fun c => c.2.var.all fun y => decide (2 ≤ y ∧ y ≤ 4)) &&
      decide (z.obj.record.length = 4) && z.obj.fFun.isSome && z.obj.box.mn == some 2 && z.obj.box.mx == some 4) = true := by
  decide +kernel

/-- States of different sizes: undefined, even without a generation. -/
example : aosOwnSession .lessBetter demoAOSGauss aosOwnDemoNew
      (aosOwnDemo (fun k => if k = 0 then [3] else [4, 4]) 0) = .ub := by
  exact out_ub_of _ (by decide +kernel)

/-- Empty states need no bounds. -/
example : (aosOwnSession .lessBetter demoAOSGauss aosOwnDemoNew
      [.set (.setOption ⟨3, 2, 10, 2⟩ 0), .set (.setfFun (some fun _ _ => 5)), .setiFun (some fun _ _ _ => []),
       .initializePop id [] 66, .run demoAOSRawEnv]).satisfies (fun z => z.obj.record == [5, 5, 5]) = true := by
  decide +kernel

end Heu
