import Verif.Lemmas.AOSFull
import Verif.Props.AOSGauss
import Verif.Props.PSOFull
import Verif.Lemmas.AOSFl

/-!
# C130: histories of calls on an AOS object
-/

set_option linter.unusedVariables false
set_option linter.unusedSectionVars false
set_option linter.unusedSimpArgs false

namespace Heu
open Spec

section
variable {A α : Type} [Field α] [LinearOrder α] [IsStrictOrderedRing α] [FloorSemiring α]
variable (opt : FitnessOption) (gauss : Nat → Nat → α)

/-- The settings of an object are those given last in the history. -/
structure AOSSettings (rate0 : α) (shape0 : Option (Int × Int)) (j : AOSJunk A α) (cs : List (AOSFullCall A α))
    (x : AOSFull A α) : Prop where
  option : x.option = lastSet aosGiveOption cs aosDefaultOption
  rate : x.photonRate = lastSet aosGiveRate cs rate0
  fFun : x.fFun = lastSet aosGiveFun cs none
  arg : x.arg = lastSet aosGiveArg cs j.arg
  shape : x.box.shape = lastSet aosGiveShape cs shape0
  mn : x.box.mn = lastSet aosGiveMin cs none
  mx : x.box.mx = lastSet aosGiveMax cs none
  delta : x.box.delta = lastSet aosGiveDelta cs none

/-- What `initializePop` does. -/
theorem aosFull_init_ok {x y : AOSFull A α} {u : Nat → Nat → α} {junk : α}
    (h : x.initializePop u junk = .ok y) :
    ∃ r c mn mx, x.box.shape = some (r, c) ∧ 0 < r ∧ 0 < c ∧ r * c ≤ 2 ^ 31 - 1 ∧ x.box.mn = some mn ∧
      x.box.mx = some mx ∧
      x.option.maxLayerNum ≤ x.option.electronNum ∧ 1 ≤ x.option.electronNum ∧
      (∃ s, y = { x with st := s, generation := 0, record := [] }) ∧
      y.st.electrons.length = x.option.electronNum ∧ DistinctNodes y.st.electrons ∧
      (∀ c' ∈ y.st.electrons, c'.2.computed = false ∧ c'.1 < x.option.electronNum ∧
        c'.2.var = initializeReal (squareBox (r * c).toNat mn mx) (u c'.1)) ∧
      y.st.best ∈ y.st.electrons.map (·.1) ∧ y.st.best = 0 ∧ y.st.early = 0 := by
  unfold AOSFull.initializePop at h
  rw [Out.bind_eq_ok] at h
  obtain ⟨states, hst, h⟩ := h
  rw [Out.bind_eq_ok] at h
  obtain ⟨s, hs, h⟩ := h
  have hy := (Out.ok.inj h).symm
  subst hy
  obtain ⟨h1, h2, h3, h4, h5, h6, h7, h8⟩ := aosInit_spec hs
  obtain ⟨hl, hpt⟩ := Out.mapM_length hst
  rw [List.length_range] at hl
  have h0 : ∀ k, k < x.option.electronNum → ∃ v, states[k]? = some v ∧ x.box.initialize (u k) = .ok v := by
    intro k hk
    have hk' : k < states.length := by omega
    refine ⟨states[k], List.getElem?_eq_getElem hk', ?_⟩
    exact hpt k k _ (by rw [List.getElem?_eq_getElem (by simpa using hk)]; simp) (List.getElem?_eq_getElem hk')
  -- the box
  have hbox : ∀ k v, x.box.initialize (u k) = .ok v → ∃ r c mn mx, x.box.shape = some (r, c) ∧ 0 < r ∧ 0 < c ∧
      r * c ≤ 2 ^ 31 - 1 ∧ x.box.mn = some mn ∧ x.box.mx = some mx ∧
      v = initializeReal (squareBox (r * c).toNat mn mx) (u k) := by
    intro k v hv
    unfold SqBoxObj.initialize at hv
    rw [Out.bind_eq_ok] at hv
    obtain ⟨⟨r, c⟩, hp, hv⟩ := hv
    rw [readMember_ok] at hp
    split at hv
    · rename_i hpos
      simp only [Out.bind_eq_ok, readMember_ok] at hv
      obtain ⟨n, hn, mn, hmn, mx, hmx, hv⟩ := hv
      obtain ⟨n1, n2, n3⟩ := (intProduct_ok_iff _ _ _).1 hn
      subst n1
      exact ⟨r, c, mn, mx, hp, hpos.1, hpos.2, n3, hmn, hmx, (Out.ok.inj hv).symm⟩
    · cases hv
  obtain ⟨v0, -, hv0⟩ := h0 0 h2
  obtain ⟨r, c, mn, mx, b1, b2, b3, b4, b5, b6, -⟩ := hbox 0 v0 hv0
  refine ⟨r, c, mn, mx, b1, b2, b3, b4, b5, b6, h1, h2, ⟨s, rfl⟩, h3, h4, ?_, h6, h7, h8⟩
  intro d hd
  have hdl : d.1 < x.option.electronNum := by
    have : s.electrons = initializePop x.option.electronNum (fun k => states.getD k []) junk := by
      unfold aosInitializePop at hs
      rw [if_pos ⟨h1, h2⟩] at hs
      rw [← Out.ok.inj hs]
    have hd' : d ∈ s.electrons := hd
    rw [this] at hd'
    simp only [initializePop, List.mem_map, List.mem_range] at hd'
    obtain ⟨k, hk, rfl⟩ := hd'
    exact hk
  obtain ⟨v, hv, hvi⟩ := h0 d.1 hdl
  obtain ⟨r', c', mn', mx', a1, -, -, -, a5, a6, a7⟩ := hbox d.1 v hvi
  rw [b1] at a1; cases a1
  rw [b5] at a5; cases a5
  rw [b6] at a6; cases a6
  refine ⟨(h5 d hd).1, hdl, ?_⟩
  rw [(h5 d hd).2, List.getD_eq_getElem?_getD, hv, ← a7]
  rfl

/-- What a call changes. -/
theorem aosFullCall_changes (x y : AOSFull A α) (c : AOSFullCall A α) (h : aosFullCall opt gauss x c = .ok y) :
    y.option = (aosGiveOption c).getD x.option ∧ y.photonRate = (aosGiveRate c).getD x.photonRate ∧
    y.fFun = (aosGiveFun c).getD x.fFun ∧ y.arg = (aosGiveArg c).getD x.arg ∧
    y.box.shape = (aosGiveShape c).getD x.box.shape ∧ y.box.mn = (aosGiveMin c).getD x.box.mn ∧
    y.box.mx = (aosGiveMax c).getD x.box.mx ∧ y.box.delta = (aosGiveDelta c).getD x.box.delta := by
  cases c with
  | initializePop u junk =>
    obtain ⟨r, c, mn, mx, -, -, -, -, -, -, -, -, ⟨s, rfl⟩, -⟩ := aosFull_init_ok h
    exact ⟨rfl, rfl, rfl, rfl, rfl, rfl, rfl, rfl⟩
  | run env =>
    obtain ⟨r, -, rfl⟩ := fullRun_eq opt gauss h
    exact ⟨rfl, rfl, rfl, rfl, rfl, rfl, rfl, rfl⟩
  | box c =>
    simp only [aosFullCall, Out.bind_eq_ok] at h
    obtain ⟨b, hb, h⟩ := h
    cases h
    obtain ⟨h1, h2, h3, h4⟩ := sqBoxCall_changes x.box b c hb
    exact ⟨rfl, rfl, rfl, rfl, h1, h2, h3, h4⟩
  | _ =>
    simp only [aosFullCall] at h; cases h
    exact ⟨rfl, rfl, rfl, rfl, rfl, rfl, rfl, rfl⟩

/-- Calls other than `initializePop` and `run` do not touch the search. -/
theorem aosFullCall_setter (x y : AOSFull A α) (c : AOSFullCall A α) (h : aosFullCall opt gauss x c = .ok y)
    (h1 : ¬ AOSFullCall.IsInit c) (h2 : ¬ AOSFullCall.IsRun c) :
    y.st = x.st ∧ y.generation = x.generation ∧ y.record = x.record := by
  cases c with
  | initializePop u junk => exact absurd ⟨u, junk, rfl⟩ h1
  | run env => exact absurd ⟨env, rfl⟩ h2
  | box c =>
    simp only [aosFullCall, Out.bind_eq_ok] at h
    obtain ⟨b, hb, h⟩ := h
    cases h
    exact ⟨rfl, rfl, rfl⟩
  | _ =>
    simp only [aosFullCall] at h; cases h
    exact ⟨rfl, rfl, rfl⟩

theorem aosFullSession_append (x : AOSFull A α) (cs ds : List (AOSFullCall A α)) :
    aosFullSession opt gauss x (cs ++ ds) =
      aosFullSession opt gauss x cs >>= fun y => aosFullSession opt gauss y ds := by
  unfold aosFullSession
  rw [List.foldlM_append]

theorem aosFullSession_one (x : AOSFull A α) (c : AOSFullCall A α) :
    aosFullSession opt gauss x [c] = aosFullCall opt gauss x c := by
  show (aosFullCall opt gauss x c >>= fun z => Out.ok z) = _
  cases aosFullCall opt gauss x c <;> rfl

theorem aosFullSession_cons {x z : AOSFull A α} {c : AOSFullCall A α} {cs : List (AOSFullCall A α)}
    (h : aosFullSession opt gauss x (c :: cs) = .ok z) :
    ∃ y, aosFullCall opt gauss x c = .ok y ∧ aosFullSession opt gauss y cs = .ok z := by
  unfold aosFullSession at h
  rw [List.foldlM_cons, Out.bind_eq_ok] at h
  exact h

theorem aosProper_snoc {shape0 : Option (Int × Int)} {cs : List (AOSFullCall A α)} {c : AOSFullCall A α} :
    AOSProper shape0 (cs ++ [c]) ↔ AOSProper shape0 cs ∧ AOSAllowed shape0 cs c := by
  constructor
  · intro h
    exact ⟨fun b d a hcs => h b d (a ++ [c]) (by rw [hcs]; simp), h cs c [] rfl⟩
  · rintro ⟨h1, h2⟩ b d a hcs
    rcases snoc_split hcs with ⟨-, rfl, rfl⟩ | ⟨a', rfl, hcs'⟩
    · exact h2
    · exact h1 b d a' hcs'

/-- Everything known about an object after a history. -/
theorem aosFull_reach (rate0 : α) (shape0 : Option (Int × Int)) (j : AOSJunk A α) (cs : List (AOSFullCall A α))
    (x : AOSFull A α) (h : aosFullSession opt gauss (.new rate0 shape0 j) cs = .ok x) :
    AOSProper shape0 cs ∧ AOSSettings rate0 shape0 j cs x ∧ (∃ dim, AOSUniform dim x.st) ∧
    (x.st.electrons ≠ [] → ∃ c ∈ cs, AOSFullCall.IsInit c) ∧
    (∀ b1 u jk b2, cs = b1 ++ .initializePop u jk :: b2 → (∀ c ∈ b2, ¬ AOSFullCall.IsRun c) →
      ∀ c ∈ x.st.electrons, c.2.computed = false) ∧
    NeverWorse opt x.record ∧ LastKept x.record x.st := by
  induction cs using List.reverseRecOn generalizing x with
  | nil =>
    cases h
    refine ⟨?_, ⟨rfl, rfl, rfl, rfl, rfl, rfl, rfl, rfl⟩, ⟨0, ⟨by simp [AOSFull.new, DistinctNodes], by simp [AOSFull.new]⟩⟩,
      fun h => absurd rfl h, ?_, by simp [AOSFull.new, NeverWorse], by simp [AOSFull.new, LastKept]⟩
    · intro b c a hcs; simp at hcs
    · intro b1 u jk b2 hcs; simp at hcs
  | append_singleton cs c ih =>
    rw [aosFullSession_append, Out.bind_eq_ok] at h
    obtain ⟨w, hw, h⟩ := h
    rw [aosFullSession_one] at h
    obtain ⟨hp, hset, ⟨dim, hun⟩, hne, hunc, hnw, hlk⟩ := ih w hw
    have hch := aosFullCall_changes opt gauss w x c h
    have hset' : AOSSettings rate0 shape0 j (cs ++ [c]) x := by
      obtain ⟨e1, e2, e3, e4, e5, e6, e7, e8⟩ := hch
      constructor <;> rw [lastSet_snoc]
      · rw [e1, hset.option]
      · rw [e2, hset.rate]
      · rw [e3, hset.fFun]
      · rw [e4, hset.arg]
      · rw [e5, hset.shape]
      · rw [e6, hset.mn]
      · rw [e7, hset.mx]
      · rw [e8, hset.delta]
    rw [aosProper_snoc]
    by_cases hi : AOSFullCall.IsInit c
    · obtain ⟨u, jk, rfl⟩ := hi
      obtain ⟨r, k, mn, mx, b1, b2, b3, b4, b5, b6, o1, o2, ⟨s, rfl⟩, l1, l2, l3, l4, l5, l6⟩ := aosFull_init_ok h
      refine ⟨⟨hp, ?_⟩, hset', ⟨(r * k).toNat, l2, ?_⟩, ?_, ?_, List.Pairwise.nil, ?_⟩
      · refine ⟨?_, ?_, ⟨r, k, ?_, b4⟩, ?_, ?_⟩
        · rw [← hset.option]; exact o1
        · rw [← hset.option]; exact o2
        · rw [← hset.shape]; exact b1
        · rw [← hset.mn, b5]; simp
        · rw [← hset.mx, b6]; simp
      · intro c' hc'
        rw [(l3 c' hc').2.2]
        simp [initializeReal, squareBox]
      · intro _; exact ⟨.initializePop u jk, by simp, u, jk, rfl⟩
      · intro _ _ _ _ _ _ c' hc'
        exact (l3 c' hc').1
      · intro e he; cases he
    · by_cases hr : AOSFullCall.IsRun c
      · obtain ⟨env, rfl⟩ := hr
        obtain ⟨t, u, ht, hu⟩ := fullRun_first opt gauss h
        obtain ⟨-, hfn, -, -, h0, hne', -⟩ := fullStep opt gauss hun ht hu
        obtain ⟨-, hun', hcomp, hne'', -⟩ := fullRun_frame opt gauss hun h
        obtain ⟨r1, r2, -⟩ := fullRun_record opt gauss hun h hnw hlk
        refine ⟨⟨hp, hne hne', ?_, ?_⟩, hset', ⟨dim, hun'⟩, ?_, ?_, r1, r2⟩
        · rw [← hset.option]; exact h0
        · intro b1 u' jk b2 hcs hb2
          rw [← hset.fFun]
          obtain ⟨d, ds, hd⟩ := List.exists_cons_of_ne_nil hne'
          exact hfn ⟨d, by rw [hd]; simp, hunc b1 u' jk b2 hcs hb2 d (by rw [hd]; simp)⟩
        · intro _
          obtain ⟨c', hc', hi'⟩ := hne hne'
          exact ⟨c', by simp [hc'], hi'⟩
        · intro b1 u' jk b2 hcs hb2
          rcases snoc_split hcs with ⟨-, e, -⟩ | ⟨a', rfl, -⟩
          · cases e
          · exact absurd ⟨env, rfl⟩ (hb2 (.run env) (by simp))
      · obtain ⟨q1, q2, q3⟩ := aosFullCall_setter opt gauss w x c h hi hr
        rw [q1, q3]
        refine ⟨⟨hp, ?_⟩, hset', ⟨dim, hun⟩, ?_, ?_, hnw, hlk⟩
        · cases c with
          | initializePop u jk => exact absurd ⟨u, jk, rfl⟩ hi
          | run env => exact absurd ⟨env, rfl⟩ hr
          | box c =>
            simp only [aosFullCall, Out.bind_eq_ok] at h
            obtain ⟨b, hb, -⟩ := h
            exact (sqBoxCall_ok_iff w.box c).1 ⟨b, hb⟩
          | setOption o rate => trivial
          | setfFun f => trivial
          | setArg a => trivial
        · intro hne'
          obtain ⟨c', hc', hi'⟩ := hne hne'
          exact ⟨c', by simp [hc'], hi'⟩
        · intro b1 u' jk b2 hcs hb2
          rcases snoc_split hcs with ⟨-, e, -⟩ | ⟨a', rfl, hcs'⟩
          · exact absurd ⟨u', jk, e.symm⟩ hi
          · exact hunc b1 u' jk a' hcs' fun d hd => hb2 d (by simp [hd])

/-! ### The theorems -/

/-- **C130** (settings).  After any sequence of calls that returns, the options, the photon rate, the fitness
function, its argument, shape, range and step width are those given last (or the defaults: 50 electrons, 30
generations, early stop after 20, 5 layers, no fitness function, no box); neither `initializePop` nor `run` changes
any of them. -/
theorem aos_object_settings (rate0 : α) (shape0 : Option (Int × Int)) (j : AOSJunk A α)
    (cs : List (AOSFullCall A α)) (x : AOSFull A α)
    (h : aosFullSession opt gauss (.new rate0 shape0 j) cs = .ok x) :
    x.option = lastSet aosGiveOption cs aosDefaultOption ∧ x.photonRate = lastSet aosGiveRate cs rate0 ∧
    x.fFun = lastSet aosGiveFun cs none ∧ x.arg = lastSet aosGiveArg cs j.arg ∧
    x.box.shape = lastSet aosGiveShape cs shape0 ∧ x.box.mn = lastSet aosGiveMin cs none ∧
    x.box.mx = lastSet aosGiveMax cs none ∧ x.box.delta = lastSet aosGiveDelta cs none := by
  obtain ⟨-, ⟨h1, h2, h3, h4, h5, h6, h7, h8⟩, -⟩ := aosFull_reach opt gauss rate0 shape0 j cs x h
  exact ⟨h1, h2, h3, h4, h5, h6, h7, h8⟩

theorem aosFullCall_no_timeout (x : AOSFull A α) (c : AOSFullCall A α) : aosFullCall opt gauss x c ≠ .timeout := by
  cases c with
  | run env => exact fullRun_no_timeout opt gauss x env
  | box c =>
    simp only [aosFullCall]
    have : sqBoxCall x.box c ≠ .timeout := by
      cases c <;> simp only [sqBoxCall] <;> (try split_ifs) <;> simp
    cases hb : sqBoxCall x.box c with
    | ok b => simp
    | ub => simp
    | timeout => exact absurd hb this
  | initializePop u junk =>
    simp only [aosFullCall, AOSFull.initializePop]
    have h1 : ∀ k, x.box.initialize (u k) ≠ .timeout := by
      intro k
      unfold SqBoxObj.initialize
      cases x.box.shape with
      | none => simp [readMember]
      | some p =>
        simp only [readMember, Out.ok_bind]
        split
        · have : intProduct p.1 p.2 ≠ .timeout := by
            unfold intProduct IntT.arith; split_ifs <;> simp
          cases hp : intProduct p.1 p.2 with
          | ub => simp
          | timeout => exact absurd hp this
          | ok n =>
            simp only [Out.ok_bind]
            cases x.box.mn <;> cases x.box.mx <;> simp
        · simp
    have h2 := Out.mapM_no_timeout (f := fun k => x.box.initialize (u k)) (l := List.range x.option.electronNum)
      fun k _ => h1 k
    cases hm : (List.range x.option.electronNum).mapM (fun k => x.box.initialize (u k)) with
    | ub => simp
    | timeout => exact absurd hm h2
    | ok states =>
      simp only [Out.ok_bind, aosInitializePop]
      split <;> simp
  | _ => simp [aosFullCall]

/-- **C130** (undefined behaviour).  No sequence of calls runs forever, and a sequence in which some call is not
allowed has undefined behaviour: `initializePop` with no electrons, with more layers than electrons, or before shape
and range are set; `run` before `initializePop`, with no electrons, or for the first time after `initializePop`
without a fitness function; calls on the box with arguments that violate their conditions. -/
theorem aos_object_undefined (rate0 : α) (shape0 : Option (Int × Int)) (j : AOSJunk A α)
    (cs : List (AOSFullCall A α)) :
    aosFullSession opt gauss (.new rate0 shape0 j) cs ≠ .timeout ∧
    (¬ AOSProper shape0 cs → aosFullSession opt gauss (.new rate0 shape0 j) cs = .ub) := by
  have h1 : ∀ (cs : List (AOSFullCall A α)) (x : AOSFull A α), aosFullSession opt gauss x cs ≠ .timeout := by
    intro cs
    induction cs with
    | nil => intro x h; cases h
    | cons c cs ih =>
      intro x
      unfold aosFullSession
      rw [List.foldlM_cons]
      have := aosFullCall_no_timeout opt gauss x c
      cases hc : aosFullCall opt gauss x c with
      | ub => simp
      | timeout => exact absurd hc this
      | ok y => rw [Out.ok_bind]; exact ih y
  refine ⟨h1 cs _, fun hp => ?_⟩
  cases h : aosFullSession opt gauss (.new rate0 shape0 j) cs with
  | ub => rfl
  | timeout => exact absurd h (h1 cs _)
  | ok x => exact absurd (aosFull_reach opt gauss rate0 shape0 j cs x h).1 hp

/-- **C130** (a run on top of any history).  A `run` never forgets: generation counter and record go on from where
they are, one entry per evaluation; it stops exactly when the generation counter has reached `maxGeneration` or the
early-stop counter `maxEarlyStop`, whichever values are in force; afterwards there are between one and `electronNum`
electrons, all evaluated; the last entry of the record is the best energy among them, and the whole record since
`initializePop` never got worse, even if the fitness function was changed in between. -/
theorem aos_object_run (rate0 : α) (shape0 : Option (Int × Int)) (j : AOSJunk A α) (cs : List (AOSFullCall A α))
    (env : Nat → AOSRawEnv α) (x y : AOSFull A α)
    (hx : aosFullSession opt gauss (.new rate0 shape0 j) cs = .ok x)
    (h : aosFullCall opt gauss x (.run env) = .ok y) :
    (∃ bs, y.record = x.record ++ bs ∧ bs.length = y.generation - x.generation + 1) ∧
    x.generation ≤ y.generation ∧ (y.generation = x.generation ∨ y.generation ≤ x.option.maxGeneration) ∧
    (x.option.maxGeneration ≤ y.generation ∨ x.option.maxEarlyStop ≤ y.st.early) ∧
    1 ≤ y.st.electrons.length ∧ y.st.electrons.length ≤ x.option.electronNum ∧
    (∀ c ∈ y.st.electrons, c.2.computed = true) ∧
    (∃ e, y.record.getLast? = some e ∧ BestEnergy opt y.st.electrons e) ∧
    y.record.Pairwise (fun a b => ¬ Better opt a b) := by
  obtain ⟨-, -, ⟨dim, hun⟩, -, -, hnw, hlk⟩ := aosFull_reach opt gauss rate0 shape0 j cs x hx
  obtain ⟨-, h1, h2, h3, h4, h5, h6, h7, h8⟩ := fullRun_frame opt gauss hun h
  obtain ⟨r1, -, r2⟩ := fullRun_record opt gauss hun h hnw hlk
  exact ⟨h8, h5, h6, h7, List.length_pos_iff.2 h3, h4, h2, r2, r1⟩

/-- **C130** (counters).  After `initializePop` and any further calls except `initializePop`, the record has one
entry per generation and one per `run`: its length is `generation()` plus the number of runs. -/
theorem aos_object_counters (x z : AOSFull A α) (u : Nat → Nat → α) (jk : α) (cs : List (AOSFullCall A α))
    (hc : ∀ c ∈ cs, ¬ AOSFullCall.IsInit c)
    (h : aosFullSession opt gauss x (.initializePop u jk :: cs) = .ok z) :
    z.record.length = z.generation + runCount cs := by
  obtain ⟨y, hy, h⟩ := aosFullSession_cons opt gauss h
  obtain ⟨r, k, mn, mx, -, -, -, -, -, -, -, -, ⟨s, rfl⟩, -, l2, l3, -⟩ := aosFull_init_ok hy
  have hun : AOSUniform (r * k).toNat s := ⟨l2, fun c' hc' => by
    rw [(l3 c' hc').2.2]; simp [initializeReal, squareBox]⟩
  have key : ∀ (cs : List (AOSFullCall A α)) (y z : AOSFull A α) (n : Nat), (∀ c ∈ cs, ¬ AOSFullCall.IsInit c) →
      AOSUniform (r * k).toNat y.st → y.record.length = y.generation + n →
      aosFullSession opt gauss y cs = .ok z → z.record.length = z.generation + (n + runCount cs) := by
    intro cs
    induction cs with
    | nil => intro y z n _ _ hn h; cases h; exact hn
    | cons c cs ih =>
      intro y z n hc hun hn h
      obtain ⟨w, hw, h'⟩ := aosFullSession_cons opt gauss h
      by_cases hr : AOSFullCall.IsRun c
      · obtain ⟨env, rfl⟩ := hr
        obtain ⟨-, h1, -, -, -, h5, -, -, bs, h8, h9⟩ := fullRun_frame opt gauss hun hw
        have := ih w z (n + 1) (fun d hd => hc d (by simp [hd])) h1 (by rw [h8, List.length_append]; omega) h'
        rw [this, runCount]; omega
      · obtain ⟨q1, q2, q3⟩ := aosFullCall_setter opt gauss y w c hw (hc c (by simp)) hr
        have := ih w z n (fun d hd => hc d (by simp [hd])) (by rw [q1]; exact hun) (by rw [q2, q3]; exact hn) h'
        rw [this]
        cases c with
        | run env => exact absurd ⟨env, rfl⟩ hr
        | _ => rfl
  have := key cs _ z 0 hc hun rfl h
  simpa using this

/-- A run that continues a history: sufficient conditions. -/
theorem fullRun_total (x : AOSFull A α) (env : Nat → AOSRawEnv α) (dim : Nat) (hun : AOSUniform dim x.st)
    (hf : x.fFun ≠ none) (hmn : x.box.mn ≠ none) (hmx : x.box.mx ≠ none)
    (hdelta : x.box.delta ≠ none ∨ ∀ g i, x.photonRate ≤ ((env g).draw i).u)
    (hbest : x.st.best ∈ x.st.electrons.map (·.1))
    (hl1 : 1 ≤ x.option.maxLayerNum) (hl2 : x.option.maxLayerNum ≤ x.option.electronNum)
    (hl3 : x.option.maxLayerNum ≤ x.st.electrons.length)
    (hv : ∀ g, 0 ≤ (env g).v ∧ (env g).v < 1)
    (hw : ∀ k, 1 ≤ k → k ≤ x.option.maxLayerNum → ∀ i, i < k → 0 < gauss k i ∧ gauss k i ≤ gauss k 0)
    (hplan : ∀ k n, 1 ≤ k → k ≤ x.option.maxLayerNum → x.option.maxLayerNum ≤ n → n ≤ x.option.electronNum →
      ¬ PlanTooSmall n (layerCounts (gauss k) k n))
    (hties : ∀ i t, i ≤ x.option.maxGeneration - x.generation → aosFullEval opt gauss x env i = .ok t →
      tiedForBest opt t.electrons ≤ x.option.electronNum) :
    ∃ y, x.run opt gauss env = .ok y := by
  obtain ⟨f, hf⟩ := Option.ne_none_iff_exists'.1 hf
  obtain ⟨mn, hmn⟩ := Option.ne_none_iff_exists'.1 hmn
  obtain ⟨mx, hmx⟩ := Option.ne_none_iff_exists'.1 hmx
  have hk : ∀ g, 1 ≤ x.layerNum (env g).v ∧ x.layerNum (env g).v ≤ x.option.maxLayerNum := by
    intro g
    obtain ⟨h1, h2⟩ := hv g
    unfold AOSFull.layerNum
    refine ⟨by omega, ?_⟩
    have hm : (0 : α) < (x.option.maxLayerNum : α) := by exact_mod_cast hl1
    have hlt : ⌊(x.option.maxLayerNum : α) * (env g).v⌋₊ < x.option.maxLayerNum := by
      rw [Nat.floor_lt (mul_nonneg hm.le h1)]
      nlinarith
    omega
  have key : ∀ (fuel i : Nat) (s : AOSState α) (rec : List α), 0 < fuel →
      x.option.maxGeneration < x.generation + i + fuel → AOSUniform dim s →
      x.option.maxLayerNum ≤ s.electrons.length → s.best ∈ s.electrons.map (·.1) →
      x.evaluate opt s = aosFullEval opt gauss x env i → i ≤ x.option.maxGeneration - x.generation →
      ∃ r, x.loop opt gauss env fuel (x.generation + i) s rec = .ok r := by
    intro fuel
    induction fuel with
    | zero => intro i s rec h; omega
    | succ fuel ih =>
      intro i s rec _ hfu hs hlen hb he hi
      obtain ⟨t, ht⟩ := aosEvaluate_total (opt := opt) (f := f x.arg) hb
      have ht2 : x.evaluate opt s = .ok t := by rw [evaluate_some opt hf]; exact ht
      have ht3 := he.symm.trans ht2
      obtain ⟨e1, e2, ⟨c, hc1, hc2, hc3⟩, -, -, -⟩ := aosEvaluate_any ht hs.distinct
      have htl : t.electrons.length = s.electrons.length := by rw [e1]; simp [computeAllFitness]
      obtain ⟨k, hkk⟩ : ∃ k, k = x.layerNum (env (x.generation + i)).v := ⟨_, rfl⟩
      obtain ⟨hk1, hk2⟩ := hk (x.generation + i)
      rw [← hkk] at hk1 hk2
      have hleg : LegalLayers x.option k (gauss k) :=
        ⟨hk1, hk2, fun i hi => (hw k hk1 hk2 i hi).1, fun i hi => (hw k hk1 hk2 i hi).2⟩
      obtain ⟨n, hn⟩ : ∃ n, n = min x.option.electronNum t.electrons.length := ⟨_, rfl⟩
      have hkn : k ≤ n := by rw [hn, htl]; omega
      obtain ⟨hiff, hokk⟩ := aos_layers_out_of_range_iff opt x.option (env (x.generation + i)).sort k (gauss k) t e2
        hleg (by rw [← hn]; exact hkn)
      rw [← hn] at hiff
      have hpl : ¬ PlanTooSmall n (layerCounts (gauss k) k n) :=
        hplan k n hk1 hk2 (by rw [hn, htl]; omega) (by rw [hn]; omega)
      obtain ⟨u, hu⟩ := hokk fun h => hpl (hiff.1 h)
      have hsel : x.select opt gauss (env (x.generation + i)) t = .ok u := by
        unfold AOSFull.select; rw [← hkk]; exact hu
      have hpart := aos_layers_partition opt x.option _ _ _ t u e2 hleg (by rw [← hn]; exact hkn) hu
      simp only [AOSFull.loop, ht2, Out.ok_bind, hc3, hsel]
      by_cases hstop : x.generation + i ≥ x.option.maxGeneration ∨ u.early ≥ x.option.maxEarlyStop
      · rw [if_pos hstop]; exact ⟨_, rfl⟩
      · rw [if_neg hstop]
        have hflat : (u.layers.map (·.members)).flatten =
            (keptNodes opt x.option (env (x.generation + i)).sort t).map (·.1) := by
          obtain ⟨-, -, -, -, -, hm⟩ := select_ok hu
          have hlen := kept_length (opt := opt) (o := x.option) (sort := (env (x.generation + i)).sort) e2
          have hlen2 : ((keptNodes opt x.option (env (x.generation + i)).sort t).map (·.1)).length = n := by
            rw [List.length_map, ← (kept_perm e2).length_eq, hlen, hn]
          obtain ⟨-, h3⟩ := plan_spec n (layerCounts (gauss k) k n) _ hlen2 (by omega)
            (layerCounts_first _ _ _ hk1 hkn hleg.pos hleg.first)
          obtain ⟨L, hL, ⟨hfl, -⟩, -⟩ := h3 hpl
          rw [hlen, ← hn, hL] at hm
          cases hm
          exact hfl
        obtain ⟨delta, hch⟩ := fullChildren_total opt (x := x) (e := env (x.generation + i)) (u := u) hmn hmx
          (hdelta.imp id fun h => h _)
        obtain ⟨v, hv1, hv2⟩ := children_total' (impl := .eigen) (b := ⟨0, fun _ => mn, fun _ => mx⟩)
          (o := x.option) (opt := opt)
          (e := ⟨(env (x.generation + i)).sort, k, gauss k,
            fun j => ((env (x.generation + i)).draw j).draw x.photonRate delta, (env (x.generation + i)).junk⟩)
          e2 ⟨c, hc1, hc2⟩ (hties i t hi ht3) hu hpart.2.1 hflat
        have hcv : x.children opt (env (x.generation + i)) u = .ok v := hch.trans hv1
        obtain ⟨-, -, -, -, -, -, -, hul, -, -, -, -, -, hchl⟩ := fullStep opt gauss hs ht2 hsel
        obtain ⟨hvu, -, -, _, _, new, -, -, hve, -⟩ := hchl v hcv
        rw [hcv, Out.ok_bind]
        refine ih (i + 1) v _ (by omega) (by omega) hvu ?_ hv2 ?_ (by omega)
        · rw [hve, List.length_append, hul]; omega
        · simp only [aosFullEval, ht3, Out.ok_bind, hsel, hcv]
  obtain ⟨r, hr⟩ := key (x.option.maxGeneration + 1) 0 x.st x.record (by omega) (by omega) hun hl3 hbest rfl (by omega)
  refine ⟨{ x with st := r.state, generation := r.generation, record := r.record }, ?_⟩
  have hr' : x.loop opt gauss env (x.option.maxGeneration + 1) x.generation x.st x.record = .ok r := hr
  unfold AOSFull.run
  rw [hr']; rfl

/-- **C130** (a run that continues any history returns).  After any history, `run` returns if there are a fitness
function, both bounds, a step width (or no draw below the photon rate), at least one layer, at least as many
electrons, both allowed and present, as layers; `bestElectron()` refers to an electron; the weights of the layers are
positive, the first one largest, and the plan has room for all electrons; and never more than `electronNum` electrons
are tied for best.  The other settings may have been changed in any way since `initializePop`. -/
theorem aos_object_run_ok (rate0 : α) (shape0 : Option (Int × Int)) (j : AOSJunk A α) (cs : List (AOSFullCall A α))
    (env : Nat → AOSRawEnv α) (x : AOSFull A α) (g : Gene (List α) α)
    (hx : aosFullSession opt gauss (.new rate0 shape0 j) cs = .ok x)
    (hf : x.fFun ≠ none) (hmn : x.box.mn ≠ none) (hmx : x.box.mx ≠ none)
    (hdelta : x.box.delta ≠ none ∨ ∀ g i, x.photonRate ≤ ((env g).draw i).u)
    (hbest : x.bestElectron = .ok g)
    (hl1 : 1 ≤ x.option.maxLayerNum) (hl2 : x.option.maxLayerNum ≤ x.option.electronNum)
    (hl3 : x.option.maxLayerNum ≤ x.st.electrons.length)
    (hv : ∀ g, 0 ≤ (env g).v ∧ (env g).v < 1)
    (hw : ∀ k, 1 ≤ k → k ≤ x.option.maxLayerNum → ∀ i, i < k → 0 < gauss k i ∧ gauss k i ≤ gauss k 0)
    (hplan : ∀ k n, 1 ≤ k → k ≤ x.option.maxLayerNum → x.option.maxLayerNum ≤ n → n ≤ x.option.electronNum →
      ¬ PlanTooSmall n (layerCounts (gauss k) k n))
    (hties : ∀ i t, i ≤ x.option.maxGeneration - x.generation → aosFullEval opt gauss x env i = .ok t →
      tiedForBest opt t.electrons ≤ x.option.electronNum) :
    ∃ y, aosFullSession opt gauss (.new rate0 shape0 j) (cs ++ [.run env]) = .ok y := by
  obtain ⟨-, -, ⟨dim, hun⟩, -⟩ := aosFull_reach opt gauss rate0 shape0 j cs x hx
  rw [aosFullSession_append, hx, Out.ok_bind, aosFullSession_one]
  exact fullRun_total opt gauss x env dim hun hf hmn hmx hdelta
    (List.mem_map_of_mem (f := (·.1)) (deref_ok hbest)) hl1 hl2 hl3 hv hw hplan hties

/-- **C130** (what a run does).  With a fitness function, a range and a step width, a run of the object is the run of
the algorithm of C48–C53, C68, C69 and C100, started from the current electrons, generation and record, with the
current options and argument: in generation `g` the number of layers is the integer part of `maxLayerNum` times the
draw, plus one; the `i`-th child is made by the photon effect exactly if its draw is not below the photon rate, else
by a random step times the step width. -/
theorem aos_object_refines (x : AOSFull A α) (env : Nat → AOSRawEnv α) (f : A → List α → α) (mn mx d : α)
    (hf : x.fFun = some f) (hmn : x.box.mn = some mn) (hmx : x.box.mx = some mx) (hd : x.box.delta = some d) (n : Nat) :
    aosFullCall opt gauss x (.run env) =
      aosLoop .eigen opt x.option ⟨n, fun _ => mn, fun _ => mx⟩ (f x.arg)
        (fun g => { sort := (env g).sort, layerNum := ⌊(x.option.maxLayerNum : α) * (env g).v⌋₊ + 1,
                    gauss := gauss (⌊(x.option.maxLayerNum : α) * (env g).v⌋₊ + 1),
                    draw := fun i => { photon := decide (¬ ((env g).draw i).u < x.photonRate),
                                       a := ((env g).draw i).a, b := ((env g).draw i).b, c := ((env g).draw i).c,
                                       step := fun k => d * ((env g).draw i).r k },
                    junk := (env g).junk })
        (x.option.maxGeneration + 1) x.generation x.st x.record >>= fun r =>
      .ok { x with st := r.state, generation := r.generation, record := r.record } := by
  show x.run opt gauss env = _
  unfold AOSFull.run
  congr 1
  generalize x.option.maxGeneration + 1 = fuel
  generalize x.generation = gen
  generalize x.st = s
  generalize x.record = rec
  induction fuel generalizing gen s rec with
  | zero => rfl
  | succ fuel ih =>
    have hch : ∀ u, x.children opt (env gen) u =
        aosChildren .eigen opt ⟨n, fun _ => mn, fun _ => mx⟩
          { sort := (env gen).sort, layerNum := ⌊(x.option.maxLayerNum : α) * (env gen).v⌋₊ + 1,
            gauss := gauss (⌊(x.option.maxLayerNum : α) * (env gen).v⌋₊ + 1),
            draw := fun i => { photon := decide (¬ ((env gen).draw i).u < x.photonRate),
                               a := ((env gen).draw i).a, b := ((env gen).draw i).b, c := ((env gen).draw i).c,
                               step := fun k => d * ((env gen).draw i).r k },
            junk := (env gen).junk } u := by
      intro u
      rw [aosChildren_dim .eigen opt n 0]
      simp only [not_lt]
      unfold AOSFull.children
      simp only [hmn, hmx, hd, readMember, Out.ok_bind, Option.getD_some]
      split <;> rfl
    simp only [AOSFull.loop, aosLoop, evaluate_some opt hf, hch, ih]
    rfl

/-- **C130** (unset step width).  Without a step width, a run all of whose draws are below the photon rate makes no
new generation: if it goes beyond the first evaluation, its behaviour is undefined. -/
theorem aos_object_no_delta (x y : AOSFull A α) (env : Nat → AOSRawEnv α) (hd : x.box.delta = none)
    (hu : ∀ g i, ((env g).draw i).u < x.photonRate)
    (h : aosFullCall opt gauss x (.run env) = .ok y) :
    y.generation = x.generation ∧ y.record.length = x.record.length + 1 := by
  obtain ⟨r, hr, rfl⟩ := fullRun_eq opt gauss h
  refine fullLoop_rule opt gauss x env
    (fun gen s rec => gen = x.generation ∧ rec = x.record)
    (fun r => r.generation = x.generation ∧ r.record.length = x.record.length + 1)
    ?_ _ _ _ _ r ⟨rfl, rfl⟩ hr
  rintro gen s rec t g u ⟨rfl, rfl⟩ ht hg hsel
  refine ⟨fun _ => ⟨rfl, by simp⟩, fun _ _ v hv => ?_⟩
  exfalso
  obtain ⟨-, -, -, -, -, hmk⟩ := select_ok (show selectAndMakeLayers opt x.option _ _ _ t = .ok u from hsel)
  unfold makeLayers at hmk
  rw [Out.bind_eq_ok] at hmk
  obtain ⟨L, -, hL⟩ := hmk
  obtain ⟨-, -, hne, hlast⟩ := popEmptyLayers_ok hL
  obtain ⟨p, hp⟩ : ∃ p, (u.layers.map (·.members)).getLast? = some p := by
    cases he : (u.layers.map (·.members)).getLast? with
    | none => exact absurd (List.getLast?_eq_none_iff.1 he) hne
    | some p => exact ⟨p, rfl⟩
  have hsum : 0 < (u.layers.map (·.members.length)).sum := by
    have hpm := List.mem_of_getLast? hp
    obtain ⟨l, hl, rfl⟩ := List.mem_map.1 hpm
    have h1 : l.members.length ∈ u.layers.map (·.members.length) := List.mem_map_of_mem (f := (·.members.length)) hl
    have h2 := List.le_sum_of_mem h1
    have h3 := List.length_pos_iff.2 (hlast _ hp)
    omega
  unfold AOSFull.children at hv
  simp only [Out.bind_eq_ok] at hv
  obtain ⟨mn, -, mx, -, hv⟩ := hv
  rw [if_neg, hd] at hv
  · cases hv
  · rw [List.all_eq_true]
    intro hall
    have := hall 0 (List.mem_range.2 hsum)
    simp only [decide_eq_true_eq] at this
    exact absurd (hu _ 0) (not_lt.2 this)

/-- **C130** (after `initializePop`).  It returns exactly when it is allowed; it discards counters, record and
electrons; every new electron has its own draws, from the range; `bestElectron()` then refers to an electron that has
not been evaluated: its energy is indeterminate. -/
theorem aos_object_init (x : AOSFull A α) (u : Nat → Nat → α) (junk : α) :
    ((∃ y, x.initializePop u junk = .ok y) ↔
      x.option.maxLayerNum ≤ x.option.electronNum ∧ 1 ≤ x.option.electronNum ∧
      (∃ r c, x.box.shape = some (r, c) ∧ 0 < r ∧ 0 < c ∧ r * c ≤ 2 ^ 31 - 1) ∧ x.box.mn ≠ none ∧ x.box.mx ≠ none) ∧
    ∀ y, x.initializePop u junk = .ok y →
      y.generation = 0 ∧ y.record = [] ∧ y.st.electrons.length = x.option.electronNum ∧
      (∃ g, y.bestElectron = .ok g ∧ g.computed = false ∧ g.fitness = junk) ∧
      ∃ r c mn mx, x.box.shape = some (r, c) ∧ x.box.mn = some mn ∧ x.box.mx = some mx ∧
        ∀ k, k < x.option.electronNum → ∃ g, (k, g) ∈ y.st.electrons ∧
          g.var = (List.range (r * c).toNat).map fun i => (mx - mn) * u k i + mn := by
  constructor
  · constructor
    · rintro ⟨y, hy⟩
      obtain ⟨r, c, mn, mx, h1, h2, h3, h4, h5, h6, h7, h8, -⟩ := aosFull_init_ok hy
      exact ⟨h7, h8, ⟨r, c, h1, h2, h3, h4⟩, by rw [h5]; simp, by rw [h6]; simp⟩
    · rintro ⟨h7, h8, ⟨r, c, h1, h2, h3, h4⟩, h5, h6⟩
      obtain ⟨mn, h5⟩ := Option.ne_none_iff_exists'.1 h5
      obtain ⟨mx, h6⟩ := Option.ne_none_iff_exists'.1 h6
      have hrc : (0 : Int) < r * c := mul_pos h2 h3
      have hbox : ∀ k, x.box.initialize (u k) =
          .ok (initializeReal (squareBox (r * c).toNat mn mx) (u k)) := by
        intro k
        unfold SqBoxObj.initialize
        have hp : intProduct r c = .ok (r * c) :=
          (intProduct_ok_iff _ _ _).2 ⟨rfl, by omega, h4⟩
        simp only [h1, readMember, Out.ok_bind, if_pos (And.intro h2 h3), hp, h5, h6]
      unfold AOSFull.initializePop
      obtain ⟨l, hl⟩ : ∃ l, (List.range x.option.electronNum).mapM (fun k => x.box.initialize (u k)) = .ok l :=
        Out.mapM_total fun k _ => ⟨_, hbox k⟩
      rw [hl, Out.ok_bind]
      unfold aosInitializePop
      rw [if_pos ⟨h7, h8⟩, Out.ok_bind]
      exact ⟨_, rfl⟩
  · intro y hy
    obtain ⟨r, c, mn, mx, b1, -, -, -, b5, b6, -, h8, ⟨s, hs⟩, l1, l2, l3, l4, l5, l6⟩ := aosFull_init_ok hy
    have hfit : ∀ d ∈ y.st.electrons, d.2.fitness = junk := by
      unfold AOSFull.initializePop at hy
      simp only [Out.bind_eq_ok] at hy
      obtain ⟨states, -, s', hs', hy⟩ := hy
      have hy' := Out.ok.inj hy
      subst hy'
      unfold aosInitializePop at hs'
      split at hs'
      · rw [← Out.ok.inj hs']
        intro d hd
        simp only [initializePop, List.mem_map, List.mem_range] at hd
        obtain ⟨k, -, rfl⟩ := hd
        rfl
      · cases hs'
    refine ⟨by rw [hs], by rw [hs], l1, ?_, r, c, mn, mx, b1, b5, b6, ?_⟩
    swap
    · intro k hk
      have hadr : k ∈ y.st.electrons.map (·.1) := by
        have hsub : y.st.electrons.map (·.1) ⊆ List.range x.option.electronNum := by
          intro a ha
          obtain ⟨d, hd, rfl⟩ := List.mem_map.1 ha
          exact List.mem_range.2 (l3 d hd).2.1
        have hp := (List.subperm_of_subset l2 hsub).perm_of_length_le (by simp [l1])
        exact hp.mem_iff.2 (List.mem_range.2 hk)
      obtain ⟨d, hd, rfl⟩ := List.mem_map.1 hadr
      exact ⟨d.2, hd, (l3 d hd).2.2⟩
    obtain ⟨d, hd, hdb⟩ := List.mem_map.1 l4
    refine ⟨d.2, ?_, (l3 d hd).1, hfit d hd⟩
    unfold AOSFull.bestElectron
    rw [← hdb]
    exact deref_of_mem l2 hd

/-- **C130** (feasibility).  As long as shape and range are not changed after `initializePop`, whatever else is
called (runs, new fitness functions, new options, a new step width), every electron has as many entries as the shape
says, each between the bounds. -/
theorem aos_object_feasible (rate0 : α) (shape0 : Option (Int × Int)) (j : AOSJunk A α)
    (before after : List (AOSFullCall A α)) (u : Nat → Nat → α) (jk : α) (x : AOSFull A α)
    (hu : ∀ k i, 0 ≤ u k i ∧ u k i < 1) (hafter : ∀ c ∈ after, AOSFullCall.KeepsBox c)
    (mn mx : α) (hmn : lastSet aosGiveMin before none = some mn) (hmx : lastSet aosGiveMax before none = some mx)
    (hle : mn ≤ mx)
    (h : aosFullSession opt gauss (.new rate0 shape0 j) (before ++ .initializePop u jk :: after) = .ok x) :
    ∃ r c, lastSet aosGiveShape before shape0 = some (r, c) ∧
      ∀ e ∈ x.st.electrons, e.2.var.length = (r * c).toNat ∧ ∀ a ∈ e.2.var, mn ≤ a ∧ a ≤ mx := by
  rw [aosFullSession_append, Out.bind_eq_ok] at h
  obtain ⟨w, hw, h⟩ := h
  obtain ⟨y, hy, h⟩ := aosFullSession_cons opt gauss h
  have hset := (aosFull_reach opt gauss rate0 shape0 j before w hw).2.1
  obtain ⟨r, c, mn', mx', b1, b2, b3, b4, b5, b6, -, -, ⟨s, rfl⟩, l1, l2, l3, l4, l5, l6⟩ := aosFull_init_ok hy
  rw [hset.mn, hmn] at b5; cases b5
  rw [hset.mx, hmx] at b6; cases b6
  have hne : NonEmptyBox (squareBox (r * c).toNat mn mx) := fun i _ => hle
  have hin : ∀ v : List α, InBox (squareBox (r * c).toNat mn mx) v →
      v.length = (r * c).toNat ∧ ∀ a ∈ v, mn ≤ a ∧ a ≤ mx := by
    rintro v ⟨h1, h2⟩
    refine ⟨h1, fun a ha => ?_⟩
    obtain ⟨i, hi, rfl⟩ := List.getElem_of_mem ha
    exact h2 i hi
  refine ⟨r, c, by rw [← hset.shape]; exact b1, ?_⟩
  have key : ∀ (after : List (AOSFullCall A α)) (y : AOSFull A α), (∀ c ∈ after, AOSFullCall.KeepsBox c) →
      aosFullSession opt gauss y after = .ok x → y.box.mn = some mn → y.box.mx = some mx →
      DistinctNodes y.st.electrons →
      (∀ e ∈ y.st.electrons, e.2.var.length = (r * c).toNat ∧ ∀ a ∈ e.2.var, mn ≤ a ∧ a ≤ mx) →
      ∀ e ∈ x.st.electrons, e.2.var.length = (r * c).toNat ∧ ∀ a ∈ e.2.var, mn ≤ a ∧ a ≤ mx := by
    intro after
    induction after with
    | nil => intro y _ h _ _ _ hy; cases h; exact hy
    | cons d after ih =>
      intro y hk h hm1 hm2 hd hy
      obtain ⟨z, hz, h'⟩ := aosFullSession_cons opt gauss h
      obtain ⟨-, -, -, -, -, c1, c2, -⟩ := aosFullCall_changes opt gauss y z d hz
      have hkd := hk d (by simp)
      have hk' : ∀ c ∈ after, AOSFullCall.KeepsBox c := fun c hc => hk c (by simp [hc])
      have hz1 : z.box.mn = some mn := by
        rw [c1, hm1]
        cases d with
        | box b => cases b <;> first | rfl | exact absurd hkd (by simp [AOSFullCall.KeepsBox])
        | _ => rfl
      have hz2 : z.box.mx = some mx := by
        rw [c2, hm2]
        cases d with
        | box b => cases b <;> first | rfl | exact absurd hkd (by simp [AOSFullCall.KeepsBox])
        | _ => rfl
      by_cases hr : AOSFullCall.IsRun d
      · obtain ⟨env, rfl⟩ := hr
        have hun : AOSUniform (r * c).toNat y.st := ⟨hd, fun e he => (hy e he).1⟩
        have hz3 := (fullRun_frame opt gauss hun hz).2.1
        refine ih z hk' h' hz1 hz2 hz3.distinct fun e he => ?_
        rcases fullRun_origin opt gauss hun hz e he with ⟨b, hb, -, hv, -⟩ | ⟨-, m1, m2, st, q1, q2, q3, q4⟩
        · rw [← hv]; exact hy b hb
        · rw [hm1] at q1; cases q1
          rw [hm2] at q2; cases q2
          rw [q4]
          exact hin _ (confine_inBox ⟨(r * c).toNat, fun _ => mn, fun _ => mx⟩ (fun _ _ => hle) st q3)
      · have hni : ¬ AOSFullCall.IsInit d := by
          rintro ⟨u, jk, rfl⟩; exact hkd
        obtain ⟨q1, -, -⟩ := aosFullCall_setter opt gauss y z d hz hni hr
        exact ih z hk' h' hz1 hz2 (by rw [q1]; exact hd) (by rw [q1]; exact hy)
  refine key after _ hafter h (by rw [← hmn, ← hset.mn]) (by rw [← hmx, ← hset.mx]) l2 fun e he => ?_
  rw [(l3 e he).2.2]
  exact hin _ (initialize_real_in_box _ _ (hu e.1) hne)

/-- **C130** (changing the range).  A run clamps only the electrons it makes, to the range in force then; the
electrons of before are neither clamped nor evaluated again. -/
theorem aos_object_moved (rate0 : α) (shape0 : Option (Int × Int)) (j : AOSJunk A α) (cs : List (AOSFullCall A α))
    (env : Nat → AOSRawEnv α) (x y : AOSFull A α)
    (hx : aosFullSession opt gauss (.new rate0 shape0 j) cs = .ok x)
    (h : aosFullCall opt gauss x (.run env) = .ok y) :
    ∀ e ∈ y.st.electrons,
      (∃ d ∈ x.st.electrons, d.1 = e.1 ∧ d.2.var = e.2.var ∧ (d.2.computed = true → e = d)) ∨
      (x.generation < x.option.maxGeneration ∧ ∃ mn mx, x.box.mn = some mn ∧ x.box.mx = some mx ∧
        (mn ≤ mx → ∀ a ∈ e.2.var, mn ≤ a ∧ a ≤ mx)) := by
  obtain ⟨-, -, ⟨dim, hun⟩, -⟩ := aosFull_reach opt gauss rate0 shape0 j cs x hx
  intro e he
  rcases fullRun_origin opt gauss hun h e he with h1 | ⟨h1, mn, mx, st, q1, q2, q3, q4⟩
  · exact .inl h1
  · refine .inr ⟨h1, mn, mx, q1, q2, fun hle a ha => ?_⟩
    rw [q4] at ha
    obtain ⟨i, hi, rfl⟩ := List.getElem_of_mem ha
    exact (confine_inBox ⟨dim, fun _ => mn, fun _ => mx⟩ (fun _ _ => hle) st q3).2 i hi

/-- **C130** (energies and early stop).  As long as fitness function and argument are not changed after
`initializePop`: every evaluated electron has the energy the function gives for its state; and the early-stop counter
is the number of evaluations at the end of the whole record, over all runs, that brought no improvement, where the
first is compared with the first electron of the initial population. -/
theorem aos_object_true (rate0 : α) (shape0 : Option (Int × Int)) (j : AOSJunk A α)
    (before after : List (AOSFullCall A α)) (u : Nat → Nat → α) (jk : α) (x : AOSFull A α)
    (hafter : ∀ c ∈ after, AOSFullCall.KeepsFitness c) (f : A → List α → α)
    (hf : lastSet aosGiveFun before none = some f)
    (h : aosFullSession opt gauss (.new rate0 shape0 j) (before ++ .initializePop u jk :: after) = .ok x) :
    (∀ e ∈ x.st.electrons, e.2.computed = true → e.2.fitness = f (lastSet aosGiveArg before j.arg) e.2.var) ∧
    ∃ r c mn mx, lastSet aosGiveShape before shape0 = some (r, c) ∧ lastSet aosGiveMin before none = some mn ∧
      lastSet aosGiveMax before none = some mx ∧
      x.st.early = trailingFails opt (f (lastSet aosGiveArg before j.arg)
        (initializeReal (squareBox (r * c).toNat mn mx) (u 0))) x.record := by
  rw [aosFullSession_append, Out.bind_eq_ok] at h
  obtain ⟨w, hw, h⟩ := h
  obtain ⟨y, hy, h⟩ := aosFullSession_cons opt gauss h
  have hset := (aosFull_reach opt gauss rate0 shape0 j before w hw).2.1
  obtain ⟨r, c, mn, mx, b1, b2, b3, b4, b5, b6, -, -, ⟨s, rfl⟩, l1, l2, l3, l4, l5, l6⟩ := aosFull_init_ok hy
  rw [← hset.arg]
  rw [← hset.fFun] at hf
  obtain ⟨e0, he0⟩ : ∃ e0, e0 = f w.arg (initializeReal (squareBox (r * c).toNat mn mx) (u 0)) := ⟨_, rfl⟩
  have key : ∀ (after : List (AOSFullCall A α)) (y : AOSFull A α), (∀ c ∈ after, AOSFullCall.KeepsFitness c) →
      aosFullSession opt gauss y after = .ok x → y.fFun = some f → y.arg = w.arg →
      AOSUniform (r * c).toNat y.st → CacheCorrect (f w.arg) y.st.electrons → RefOK (f w.arg) e0 y.record y.st →
      y.st.early = trailingFails opt e0 y.record →
      CacheCorrect (f w.arg) x.st.electrons ∧ x.st.early = trailingFails opt e0 x.record := by
    intro after
    induction after with
    | nil => intro y _ h _ _ _ h1 _ h2; cases h; exact ⟨h1, h2⟩
    | cons d after ih =>
      intro y hk h hff harg hun hcc href hearly
      obtain ⟨z, hz, h'⟩ := aosFullSession_cons opt gauss h
      obtain ⟨-, -, c1, c2, -⟩ := aosFullCall_changes opt gauss y z d hz
      have hkd := hk d (by simp)
      have hk' : ∀ c ∈ after, AOSFullCall.KeepsFitness c := fun c hc => hk c (by simp [hc])
      have hz1 : z.fFun = some f := by
        rw [c1, hff]
        cases d <;> first | rfl | exact absurd hkd (by simp [AOSFullCall.KeepsFitness])
      have hz2 : z.arg = w.arg := by
        rw [c2, harg]
        cases d <;> first | rfl | exact absurd hkd (by simp [AOSFullCall.KeepsFitness])
      by_cases hr : AOSFullCall.IsRun d
      · obtain ⟨env, rfl⟩ := hr
        have hF : ∀ g, y.fFun = some g → g y.arg = f w.arg := by
          intro g hg; rw [hff] at hg; cases hg; rw [harg]
        obtain ⟨r1, r2⟩ := fullRun_early opt gauss hun hz (f w.arg) hF e0 href hearly
        exact ih z hk' h' hz1 hz2 (fullRun_frame opt gauss hun hz).2.1 (fullRun_true opt gauss hun hz _ hF hcc) r1 r2
      · have hni : ¬ AOSFullCall.IsInit d := by
          rintro ⟨u, jk, rfl⟩; exact hkd
        obtain ⟨q1, -, q3⟩ := aosFullCall_setter opt gauss y z d hz hni hr
        exact ih z hk' h' hz1 hz2 (by rw [q1]; exact hun) (by rw [q1]; exact hcc) (by rw [q1, q3]; exact href)
          (by rw [q1, q3]; exact hearly)
  obtain ⟨k1, k2⟩ := key after _ hafter h hf rfl
    ⟨l2, fun e he => by rw [(l3 e he).2.2]; simp [initializeReal, squareBox]⟩
    (fun e he hc => by rw [(l3 e he).1] at hc; cases hc)
    (fun e he hb => ⟨(fun a ha => by simp at ha), fun _ => ⟨(l3 e he).1, by
      rw [(l3 e he).2.2, hb, l5, he0]⟩⟩)
    l6
  refine ⟨k1, r, c, mn, mx, by rw [← hset.shape]; exact b1, by rw [← hset.mn]; exact b5, by rw [← hset.mx]; exact b6,
    ?_⟩
  rw [k2, he0]

end

/-- **C130** (the weights of the code).  With the Gaussian weights of the library (over the reals) the conditions on
the weights and on the plan hold if there are at most 5 layers (the default) and at most 10000 electrons, or at most
45 electrons. -/
theorem aos_object_run_ok_gauss {A : Type} (opt : FitnessOption) (rate0 : ℝ) (shape0 : Option (Int × Int))
    (j : AOSJunk A ℝ) (cs : List (AOSFullCall A ℝ)) (env : Nat → AOSRawEnv ℝ) (x : AOSFull A ℝ)
    (g : Gene (List ℝ) ℝ)
    (hx : aosFullSession opt layerWeight (.new rate0 shape0 j) cs = .ok x)
    (hf : x.fFun ≠ none) (hmn : x.box.mn ≠ none) (hmx : x.box.mx ≠ none)
    (hdelta : x.box.delta ≠ none ∨ ∀ g i, x.photonRate ≤ ((env g).draw i).u)
    (hbest : x.bestElectron = .ok g)
    (hl1 : 1 ≤ x.option.maxLayerNum) (hl2 : x.option.maxLayerNum ≤ x.option.electronNum)
    (hl3 : x.option.maxLayerNum ≤ x.st.electrons.length)
    (hsmall : (x.option.maxLayerNum ≤ 5 ∧ x.option.electronNum ≤ 10000) ∨ x.option.electronNum ≤ 45)
    (hv : ∀ g, 0 ≤ (env g).v ∧ (env g).v < 1)
    (hties : ∀ i t, i ≤ x.option.maxGeneration - x.generation → aosFullEval opt layerWeight x env i = .ok t →
      tiedForBest opt t.electrons ≤ x.option.electronNum) :
    ∃ y, aosFullSession opt layerWeight (.new rate0 shape0 j) (cs ++ [.run env]) = .ok y := by
  refine aos_object_run_ok opt layerWeight rate0 shape0 j cs env x g hx hf hmn hmx hdelta hbest hl1 hl2 hl3 hv ?_ ?_
    hties
  · intro k hk1 hk2 i hi
    have := gaussianCurve_legal x.option k hk1 hk2
    exact ⟨this.pos i hi, this.first i hi⟩
  · intro k n hk1 hk2 hn1 hn2
    rcases hsmall with ⟨h1, h2⟩ | h2
    · exact aos_gaussian_safe_five_partial k n hk1 (by omega) (by omega)
    · exact aos_gaussian_safe_any_partial k n hk1 (by omega)

/-! ### Concrete histories -/

section demo

/-- A session with a solver on ℚ (shape 1 × 1, range [-4, 4], 4 electrons, at most 2 layers, 2 generations). -/
def demoAOSRaw (n : Nat) : AOSRaw ℚ :=
  ⟨if n % 3 = 0 then 0 else 1 / 2, fun _ => 1 / 3, fun _ => 1 / 2, fun _ => 1 / 4, fun _ => -1 / 2⟩
def demoAOSRawEnv (g : Nat) : AOSRawEnv ℚ := ⟨insertionSorter, if g % 2 = 0 then 1 / 2 else 0, demoAOSRaw, 77⟩
def demoAOSGauss (k i : Nat) : ℚ := if i = 0 then 3 else 1
def demoAOSJunk : AOSJunk ℚ ℚ := ⟨100, 55, 9, 7, 3⟩
/-- The first steps: settings, then `initializePop`. -/
def demoAOSSetup : List (AOSFullCall ℚ ℚ) :=
  [.setOption ⟨4, 2, 10, 2⟩ (1 / 10), .setfFun (some fun a v => (v.getD 0 0 - a) * (v.getD 0 0 - a)), .setArg 1,
   .box (.setDimensions 1 1), .box (.setRange (-4) 4), .box (.setDelta 1),
   .initializePop (fun k _ => if k < 5 then (k : ℚ) / 5 else 0) 66]

/-- The draws of `initializePop` are in [0, 1), as `aos_object_feasible` asks for. -/
example : ∀ (k i : Nat), 0 ≤ (fun k (_ : Nat) => if k < 5 then (k : ℚ) / 5 else 0) k i ∧
    (fun k (_ : Nat) => if k < 5 then (k : ℚ) / 5 else 0) k i < 1 := by
  intro k i
  dsimp only
  split
  · rename_i h
    have : (k : ℚ) < 5 := by exact_mod_cast h
    exact ⟨by positivity, by linarith⟩
  · norm_num

/-- The session returns; two runs, the second with more generations: the record has one entry per evaluation, the
generation counter goes on. -/
example : (aosFullSession .lessBetter demoAOSGauss (.new (1 / 10) none demoAOSJunk)
      (demoAOSSetup ++ [.run demoAOSRawEnv, .setOption ⟨4, 4, 10, 2⟩ (1 / 10), .run demoAOSRawEnv])).satisfies
    (fun x => decide (x.generation = 4 ∧ x.record.length = 6 ∧ x.st.electrons.length = 4 ∧ 0 < x.st.early)) = true := by
  decide +kernel

/-- A second run with the same options: one evaluation, one more entry in the record. -/
example : (aosFullSession .lessBetter demoAOSGauss (.new (1 / 10) none demoAOSJunk)
      (demoAOSSetup ++ [.run demoAOSRawEnv, .run demoAOSRawEnv])).satisfies
    (fun x => decide (x.generation = 2 ∧ x.record.length = 4 ∧ x.record.getLast? = x.record[2]?)) = true := by
  decide +kernel

/-- The conditions of `aos_object_run_ok` are met after a first run, for a second one with more generations. -/
example : ∃ x g, aosFullSession .lessBetter demoAOSGauss (.new (1 / 10) none demoAOSJunk)
      (demoAOSSetup ++ [.run demoAOSRawEnv, .setOption ⟨4, 4, 10, 2⟩ (1 / 10)]) = .ok x ∧ x.fFun ≠ none ∧
    x.box.mn ≠ none ∧ x.box.mx ≠ none ∧ x.box.delta ≠ none ∧ x.bestElectron = .ok g ∧
    x.option = ⟨4, 4, 10, 2⟩ ∧ x.option.maxLayerNum ≤ x.st.electrons.length ∧
    (∀ g, 0 ≤ (demoAOSRawEnv g).v ∧ (demoAOSRawEnv g).v < 1) ∧
    (∀ k, 1 ≤ k → k ≤ 2 → ∀ i, i < k → 0 < demoAOSGauss k i ∧ demoAOSGauss k i ≤ demoAOSGauss k 0) ∧
    (∀ k n, 1 ≤ k → k ≤ 2 → 2 ≤ n → n ≤ 4 → ¬ PlanTooSmall n (layerCounts (demoAOSGauss k) k n)) ∧
    ∀ i t, i ≤ x.option.maxGeneration - x.generation →
      aosFullEval .lessBetter demoAOSGauss x demoAOSRawEnv i = .ok t →
      tiedForBest .lessBetter t.electrons ≤ x.option.electronNum := by
  have h : (aosFullSession .lessBetter demoAOSGauss (.new (1 / 10) none demoAOSJunk)
      (demoAOSSetup ++ [.run demoAOSRawEnv, .setOption ⟨4, 4, 10, 2⟩ (1 / 10)])).satisfies
      (fun x => x.fFun.isSome && decide (x.box.mn.isSome ∧ x.box.mx.isSome ∧ x.box.delta.isSome ∧
        x.generation = 2 ∧ x.option.electronNum = 4 ∧ x.option.maxGeneration = 4 ∧ x.option.maxEarlyStop = 10 ∧
        x.option.maxLayerNum = 2 ∧ 2 ≤ x.st.electrons.length) &&
        x.bestElectron.satisfies (fun _ => true) &&
        (List.range 3).all fun i => (aosFullEval .lessBetter demoAOSGauss x demoAOSRawEnv i).satisfies
          fun t => decide (tiedForBest .lessBetter t.electrons ≤ 4)) = true := by decide +kernel
  cases hx : aosFullSession .lessBetter demoAOSGauss (.new (1 / 10) none demoAOSJunk)
      (demoAOSSetup ++ [.run demoAOSRawEnv, .setOption ⟨4, 4, 10, 2⟩ (1 / 10)]) with
  | ub => rw [hx] at h; cases h
  | timeout => rw [hx] at h; cases h
  | ok x =>
    rw [hx] at h
    simp only [Out.satisfies, Bool.and_eq_true, decide_eq_true_eq, List.all_eq_true, List.mem_range] at h
    obtain ⟨⟨⟨h1, h2, h3, h4, h5, h6, h7, h8, h9, h10⟩, h11⟩, h12⟩ := h
    cases hb : x.bestElectron with
    | ub => rw [hb] at h11; cases h11
    | timeout => rw [hb] at h11; cases h11
    | ok g =>
      refine ⟨x, g, rfl, by simpa [Option.isSome_iff_ne_none] using h1, Option.isSome_iff_ne_none.1 h2,
        Option.isSome_iff_ne_none.1 h3, Option.isSome_iff_ne_none.1 h4, hb, ?_, by omega, ?_, ?_, ?_, ?_⟩
      · cases hxo : x.option; simp_all
      · intro g; simp only [demoAOSRawEnv]; split <;> norm_num
      · intro k _ _ i _; simp only [demoAOSGauss]; split <;> norm_num
      · intro k n k1 k2 n1 n2
        unfold PlanTooSmall
        interval_cases k <;> interval_cases n <;> decide +kernel
      · intro i t hi ht
        have := h12 i (by omega)
        rw [ht] at this
        rw [h6]
        simpa using this

/-- After narrowing the range to [2, 3], electrons outside remain, the best one among them. -/
example : (aosFullSession .lessBetter demoAOSGauss (.new (1 / 10) none demoAOSJunk)
      (demoAOSSetup ++ [.run demoAOSRawEnv, .box (.setRange 2 3), .setOption ⟨4, 4, 10, 2⟩ (1 / 10),
        .run demoAOSRawEnv])).satisfies
    (fun x => (x.st.electrons.any fun e => e.2.var.any fun a => decide (a < 2)) &&
      x.bestElectron.satisfies fun g => g.var.any fun a => decide (a < 2)) = true := by
  decide +kernel

/-- After changing the argument of the fitness function, energies for the old argument remain. -/
example : (aosFullSession .lessBetter demoAOSGauss (.new (1 / 10) none demoAOSJunk)
      (demoAOSSetup ++ [.run demoAOSRawEnv, .setArg 3, .setOption ⟨4, 4, 10, 2⟩ (1 / 10),
        .run demoAOSRawEnv])).satisfies
    (fun x => x.st.electrons.any fun e => decide (e.2.computed = true ∧
      e.2.fitness ≠ (e.2.var.getD 0 0 - 3) * (e.2.var.getD 0 0 - 3))) = true := by
  decide +kernel

/-- Raising `maxLayerNum` and `electronNum` after `initializePop` leaves more layers than electrons, which
`initializePop` would have refused.  Here a run still returns: the surplus layers stay empty. -/
example : (aosFullSession .lessBetter demoAOSGauss (.new (1 / 10) none demoAOSJunk)
      (demoAOSSetup ++ [.setOption ⟨20, 2, 10, 12⟩ (1 / 10), .run demoAOSRawEnv])).satisfies
    (fun x => decide (x.st.electrons.length = 16)) = true := by
  decide +kernel

/-- Removing the fitness function before the second run is harmless if it stops at once, and a call through a null
pointer if not. -/
example : (aosFullSession .lessBetter demoAOSGauss (.new (1 / 10) none demoAOSJunk)
      (demoAOSSetup ++ [.run demoAOSRawEnv, .setfFun none, .run demoAOSRawEnv])).satisfies (fun _ => true) = true ∧
    (∀ o : Out (AOSFull ℚ ℚ), (match o with | .ub => true | _ => false) = true → o = .ub) ∧
    (match aosFullSession .lessBetter demoAOSGauss (.new (1 / 10) none demoAOSJunk)
      (demoAOSSetup ++ [.run demoAOSRawEnv, .setfFun none, .setOption ⟨4, 4, 10, 2⟩ (1 / 10), .run demoAOSRawEnv])
      with | .ub => true | _ => false) = true := by
  refine ⟨by decide +kernel, ?_, by decide +kernel⟩
  intro o h
  cases o <;> simp_all

end demo

end Heu
