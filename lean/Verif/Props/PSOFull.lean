import Verif.Spec.PSOFull
import Verif.Props.Session2
import Verif.Props.NSGA3Obj
import Verif.Props.BoxConfig
import Verif.Props.PSOFl

/-!
# C126: histories of calls on a PSO object
-/

set_option linter.unusedVariables false
set_option linter.unusedSectionVars false
set_option linter.unusedSimpArgs false

namespace Heu
open Spec

section best
variable {V F : Type} [LT F] [DecidableLT F] (opt : FitnessOption)

theorem pgBestLoop_frame (n : Nat) : ∀ (i : Nat) (swarm : List (Particle V F)) (cur : Nat),
    i + n ≤ swarm.length → cur < swarm.length →
    (pgBestLoop opt n i swarm cur).1.length = swarm.length ∧
    (pgBestLoop opt n i swarm cur).2 < swarm.length := by
  induction n with
  | zero => intro i swarm cur _ h; exact ⟨rfl, h⟩
  | succ n ih =>
    intro i swarm cur h1 h2
    have hl : (swarm.modify i (updatePBest opt)).length = swarm.length := by simp
    have hi : i < (swarm.modify i (updatePBest opt)).length := by omega
    have hc : cur < (swarm.modify i (updatePBest opt)).length := by omega
    unfold pgBestLoop
    simp only [List.getElem?_eq_getElem hi, List.getElem?_eq_getElem hc]
    have := ih (i + 1) (swarm.modify i (updatePBest opt))
      (if psoBetter opt (swarm.modify i (updatePBest opt))[i].pBest.fitness
        (swarm.modify i (updatePBest opt))[cur].pBest.fitness = true then i else cur)
      (by omega) (by split <;> omega)
    rw [hl] at this
    exact this

theorem updatePGBest_total (s : PSOState V F) (h : s.swarm ≠ []) :
    ∃ t, updatePGBest opt s = .ok t ∧ t.swarm.length = s.swarm.length ∧ t.fail ≤ s.fail + 1 := by
  have hpos := List.length_pos_iff.2 h
  obtain ⟨h1, h2⟩ := pgBestLoop_frame opt s.swarm.length 0 s.swarm 0 (by omega) hpos
  unfold updatePGBest
  cases hsw : s.swarm with
  | nil => exact absurd hsw h
  | cons p ps =>
    rw [hsw] at h1 h2
    simp only
    rw [List.getElem?_eq_getElem (by rw [h1]; exact h2)]
    simp only
    split
    · exact ⟨_, rfl, h1, by simp⟩
    · exact ⟨_, rfl, h1, le_refl _⟩

theorem pgBestLoop_same (n : Nat) : ∀ (i : Nat) (swarm : List (Particle V F)) (cur : Nat),
    ∀ p ∈ (pgBestLoop opt n i swarm cur).1, ∃ q ∈ swarm, p.position = q.position ∧ p.velocity = q.velocity := by
  induction n with
  | zero => intro i swarm cur p hp; exact ⟨p, hp, rfl, rfl⟩
  | succ n ih =>
    intro i swarm cur
    have hm : ∀ p ∈ swarm.modify i (updatePBest opt), ∃ q ∈ swarm, p.position = q.position ∧
        p.velocity = q.velocity := by
      intro p hp
      obtain ⟨k, hk, rfl⟩ := List.getElem_of_mem hp
      rw [List.length_modify] at hk
      refine ⟨swarm[k], List.getElem_mem hk, ?_⟩
      rw [List.getElem_modify]
      split
      · unfold updatePBest; split <;> exact ⟨rfl, rfl⟩
      · exact ⟨rfl, rfl⟩
    intro p hp
    unfold pgBestLoop at hp
    simp only at hp
    split at hp
    · obtain ⟨q, hq, e1, e2⟩ := ih _ _ _ p hp
      obtain ⟨q', hq', e3, e4⟩ := hm q hq
      exact ⟨q', hq', e1.trans e3, e2.trans e4⟩
    · exact hm p hp

theorem updatePGBest_same (s t : PSOState V F) (h : updatePGBest opt s = .ok t) :
    ∀ p ∈ t.swarm, ∃ q ∈ s.swarm, p.position = q.position ∧ p.velocity = q.velocity := by
  unfold updatePGBest at h
  split at h
  · cases h
  · simp only at h
    split at h
    · cases h
    · split at h <;> cases h <;> exact pgBestLoop_same opt _ 0 s.swarm 0

theorem updatePGBest_nil (s : PSOState V F) (h : s.swarm = []) : updatePGBest opt s = .ub := by
  unfold updatePGBest; rw [h]

end best

section
variable {A α F : Type} [Add α] [Sub α] [Mul α] [Neg α] [LT α] [DecidableLT α] [LT F] [DecidableLT F]
  [Zero α]
variable (rd : α → α → α → α) (opt : FitnessOption)

/-- The box in force. -/
def PSOFull.boxOf (mn mx vm : α) (d : Nat) : PSOBox α := ⟨d, fun _ => mn, fun _ => mx, fun _ => vm⟩

theorem loop_eq (x : PSOFull A α F) (mn mx vm : α) (h1 : x.posMin = some mn) (h2 : x.posMax = some mx)
    (h3 : x.maxVelocity = some vm) (f : List α → F) (rnd : Nat → Nat → α × α) :
    ∀ (fuel gen : Nat) (s : PSOState (List α) F) (record : List F),
    PSOFull.loop opt x f rnd fuel gen s record =
      psoLoop opt f (fun g => updatePopulation ⟨0, fun _ => mn, fun _ => mx, fun _ => vm⟩ x.factors (rnd g))
        x.maxGen x.maxFail fuel gen s record := by
  intro fuel
  induction fuel with
  | zero => intro gen s record; rfl
  | succ fuel ih =>
    intro gen s record
    simp only [PSOFull.loop, psoLoop]
    cases updatePGBest opt (psoComputeAllFitness f s) with
    | ub => rfl
    | timeout => rfl
    | ok t =>
      simp only [Out.ok_bind]
      split
      · rfl
      · split
        · rfl
        · simp only [PSOFull.updatePopulation, h1, h2, h3, readMember, Out.ok_bind]
          exact ih _ _ _

theorem loop_zero (x : PSOFull A α F) (hG : x.maxGen = 0) (f : List α → F) (rnd : Nat → Nat → α × α)
    (move : Nat → PSOState (List α) F → PSOState (List α) F) (s : PSOState (List α) F) :
    PSOFull.loop opt x f rnd 1 0 s [] = psoLoop opt f move 0 x.maxFail 1 0 s [] := by
  simp only [PSOFull.loop, psoLoop, hG]
  cases updatePGBest opt (psoComputeAllFitness f s) <;> rfl

theorem psoLoop_total' (f : List α → F) (move : Nat → PSOState (List α) F → PSOState (List α) F)
    (hm : ∀ g s, (move g s).swarm.length = s.swarm.length) (maxGen maxFail : Nat)
    (s : PSOState (List α) F) (hs : s.swarm ≠ []) :
    ∃ r, psoRun opt f move maxGen maxFail (maxGen + 1) s = .ok r := by
  rw [psoRun_eq]
  refine gaLoop_total _ (fun t : PSOState (List α) F => t.swarm ≠ []) ?_ (by omega) (by omega) hs
  intro g t ht
  have ht' : (psoComputeAllFitness f t).swarm ≠ [] := by simpa [psoComputeAllFitness] using ht
  obtain ⟨u, hu, hsw, -⟩ := updatePGBest_total opt (psoComputeAllFitness f t) ht'
  refine ⟨u, hu, ⟨_, rfl⟩, ?_⟩
  show (move (g + 1) u).swarm ≠ []
  rw [← List.length_pos_iff, hm, hsw]
  exact List.length_pos_iff.2 ht'

theorem updatePopulation_length (b : PSOBox α) (o : PSOFactors α) (rnd : Nat → α × α)
    (s : PSOState (List α) F) : (updatePopulation b o rnd s).swarm.length = s.swarm.length := by
  simp [updatePopulation]

/-- An invariant of the loop. -/
theorem psoLoop_inv (P : PSOState (List α) F → Prop) (f : List α → F)
    (move : Nat → PSOState (List α) F → PSOState (List α) F)
    (hb : ∀ s t, P s → updatePGBest opt (psoComputeAllFitness f s) = .ok t → P t)
    (hm : ∀ g s, P s → P (move g s)) (maxGen maxFail : Nat) :
    ∀ (fuel gen : Nat) (s : PSOState (List α) F) (record : List F) r, P s →
    psoLoop opt f move maxGen maxFail fuel gen s record = .ok r → P r.state := by
  intro fuel
  induction fuel with
  | zero => intro gen s record r _ h; cases h
  | succ fuel ih =>
    intro gen s record r hs h
    simp only [psoLoop] at h
    rw [Out.bind_eq_ok] at h
    obtain ⟨t, ht, h⟩ := h
    have hPt := hb s t hs ht
    split at h
    · cases h; exact hPt
    · split at h
      · cases h; exact hPt
      · exact ih _ _ _ r (hm _ _ hPt) h

/-- Every generation adds at most one failure. -/
theorem psoLoop_fail (f : List α → F) (move : Nat → PSOState (List α) F → PSOState (List α) F)
    (hm : ∀ g s, (move g s).fail = s.fail) (maxGen maxFail : Nat) :
    ∀ (fuel gen : Nat) (s : PSOState (List α) F) (record : List F) r, s.fail ≤ gen →
    psoLoop opt f move maxGen maxFail fuel gen s record = .ok r → r.state.fail ≤ r.generation + 1 := by
  intro fuel
  induction fuel with
  | zero => intro gen s record r _ h; cases h
  | succ fuel ih =>
    intro gen s record r hs h
    simp only [psoLoop] at h
    rw [Out.bind_eq_ok] at h
    obtain ⟨t, ht, h⟩ := h
    have hPt : t.fail ≤ gen + 1 := by
      by_cases hne : (psoComputeAllFitness f s).swarm = []
      · rw [updatePGBest_nil opt _ hne] at ht; cases ht
      · obtain ⟨t', ht', -, hl⟩ := updatePGBest_total opt _ hne
        rw [ht] at ht'; cases ht'
        have : (psoComputeAllFitness f s).fail = s.fail := rfl
        omega
    split at h
    · cases h; simpa using hPt
    · split at h
      · cases h; simpa using hPt
      · exact ih _ _ _ r (by rw [hm]; exact hPt) h

/-- What `run` does, in terms of the loop of `Model/PSO`. -/
theorem psoFull_run_cases (x : PSOFull A α F) (rnd : Nat → Nat → α × α) (hmm : x.st.swarm ≠ [] →
      x.posMin ≠ none ∧ x.posMax ≠ none) :
    ((x.st.swarm ≠ [] ∧ x.fFun ≠ none ∧ (x.maxGen = 0 ∨ x.maxVelocity ≠ none)) →
      ∃ f b r, x.fFun = some f ∧
        psoRun opt (f x.arg) (fun g => updatePopulation b x.factors (rnd g)) x.maxGen x.maxFail
          (x.maxGen + 1) x.st = .ok r ∧
        (x.maxGen = 0 ∨ ∃ mn mx vm, x.posMin = some mn ∧ x.posMax = some mx ∧ x.maxVelocity = some vm ∧
          b = ⟨0, fun _ => mn, fun _ => mx, fun _ => vm⟩) ∧
        x.run opt rnd = .ok { x with st := r.state, generation := r.generation, record := r.record }) ∧
    (¬ (x.st.swarm ≠ [] ∧ x.fFun ≠ none ∧ (x.maxGen = 0 ∨ x.maxVelocity ≠ none)) → x.run opt rnd = .ub) := by
  constructor
  · rintro ⟨hs, hf, hv⟩
    obtain ⟨f, hf⟩ := Option.ne_none_iff_exists'.1 hf
    obtain ⟨h1, h2⟩ := hmm hs
    obtain ⟨mn, h1⟩ := Option.ne_none_iff_exists'.1 h1
    obtain ⟨mx, h2⟩ := Option.ne_none_iff_exists'.1 h2
    have hrun : ∀ r, PSOFull.loop opt x (f x.arg) rnd (x.maxGen + 1) 0 { x.st with fail := 0 } [] = .ok r →
        x.run opt rnd = .ok { x with st := r.state, generation := r.generation, record := r.record } := by
      intro r hr
      simp only [PSOFull.run, PSOFull.fitness, hf, readMember, Out.ok_bind]
      rw [hr]; rfl
    by_cases hG : x.maxGen = 0
    · have b : PSOBox α := ⟨0, fun _ => mn, fun _ => mx, fun _ => mn⟩
      obtain ⟨r, hr⟩ := psoLoop_total' opt (f x.arg) (fun g => updatePopulation b x.factors (rnd g))
        (fun g s => updatePopulation_length b _ _ s) x.maxGen x.maxFail x.st hs
      refine ⟨f, b, r, hf, hr, .inl hG, hrun r ?_⟩
      unfold psoRun at hr
      rw [hG] at hr ⊢
      rw [← hr]
      exact loop_zero opt x hG _ _ _ _
    · have hv' : x.maxVelocity ≠ none := hv.resolve_left hG
      obtain ⟨vm, h3⟩ := Option.ne_none_iff_exists'.1 hv'
      let b : PSOBox α := ⟨0, fun _ => mn, fun _ => mx, fun _ => vm⟩
      obtain ⟨r, hr⟩ := psoLoop_total' opt (f x.arg) (fun g => updatePopulation b x.factors (rnd g))
        (fun g s => updatePopulation_length b _ _ s) x.maxGen x.maxFail x.st hs
      refine ⟨f, b, r, hf, hr, .inr ⟨mn, mx, vm, h1, h2, h3, rfl⟩, hrun r ?_⟩
      rw [loop_eq opt x mn mx vm h1 h2 h3]
      exact hr
  · intro h
    by_cases hf : x.fFun = none
    · simp [PSOFull.run, PSOFull.fitness, hf, readMember]
    obtain ⟨f, hf⟩ := Option.ne_none_iff_exists'.1 hf
    simp only [PSOFull.run, PSOFull.fitness, hf, readMember, Out.ok_bind]
    by_cases hs : x.st.swarm = []
    · have : updatePGBest opt (psoComputeAllFitness (f x.arg) { x.st with fail := 0 }) = .ub :=
        updatePGBest_nil opt _ (by simp [psoComputeAllFitness, hs])
      simp only [PSOFull.loop, this]
      rfl
    · have hG : x.maxGen ≠ 0 := fun h' => h ⟨hs, by simp [hf], .inl h'⟩
      have hv : x.maxVelocity = none := by
        by_contra h'; exact h ⟨hs, by simp [hf], .inr h'⟩
      have hs' : (psoComputeAllFitness (f x.arg) { x.st with fail := 0 }).swarm ≠ [] := by
        simpa [psoComputeAllFitness] using hs
      obtain ⟨t, ht, -, hfail⟩ := updatePGBest_total opt _ hs'
      have hfail' : t.fail ≤ 1 := hfail
      simp only [PSOFull.loop, ht, Out.ok_bind, PSOFull.updatePopulation, hv, readMember]
      rw [if_neg (by omega), if_neg (by omega)]
      rfl

theorem psoFullSession_snoc (x : PSOFull A α F) (cs : List (PSOFullCall A α F)) (c : PSOFullCall A α F) :
    psoFullSession rd opt x (cs ++ [c]) = psoFullSession rd opt x cs >>= fun y => psoFullCall rd opt y c := by
  unfold psoFullSession
  rw [List.foldlM_append]
  congr 1
  funext y
  show (psoFullCall rd opt y c >>= fun z => Out.ok z) = _
  cases psoFullCall rd opt y c <;> rfl

theorem psoFullSession_append (x : PSOFull A α F) (cs ds : List (PSOFullCall A α F)) :
    psoFullSession rd opt x (cs ++ ds) = psoFullSession rd opt x cs >>= fun y => psoFullSession rd opt y ds := by
  unfold psoFullSession
  rw [List.foldlM_append]

theorem psoProper_snoc {dim0 : Option Int} {cs : List (PSOFullCall A α F)} {c : PSOFullCall A α F} :
    PSOProper dim0 (cs ++ [c]) ↔ PSOProper dim0 cs ∧ PSOAllowed dim0 cs c := by
  constructor
  · intro h
    exact ⟨fun b d a hcs => h b d (a ++ [c]) (by rw [hcs]; simp), h cs c [] rfl⟩
  · rintro ⟨h1, h2⟩ b d a hcs
    rcases snoc_split hcs with ⟨-, rfl, rfl⟩ | ⟨a', rfl, hcs'⟩
    · exact h2
    · exact h1 b d a' hcs'

/-- The settings of an object are those given last in the history. -/
structure PSOSettings (o0 : PSOFactors α) (dim0 : Option Int) (j : PSOJunk A α F)
    (cs : List (PSOFullCall A α F)) (x : PSOFull A α F) : Prop where
  option : (x.K, x.maxGen, x.maxFail) = lastSet psoGiveOption cs (200, 300, 100)
  factors : x.factors = lastSet psoGiveFactors cs o0
  fFun : x.fFun = lastSet psoGiveFun cs none
  arg : x.arg = lastSet psoGiveArg cs j.arg
  dim : x.dim = lastSet psoGiveDim cs dim0
  posMin : x.posMin = lastSet psoGiveMin cs none
  posMax : x.posMax = lastSet psoGiveMax cs none
  maxVelocity : x.maxVelocity = lastSet psoGiveVel cs none

/-- What a call changes. -/
theorem psoFullCall_changes (x y : PSOFull A α F) (c : PSOFullCall A α F)
    (h : psoFullCall rd opt x c = .ok y) :
    (y.K, y.maxGen, y.maxFail) = (psoGiveOption c).getD (x.K, x.maxGen, x.maxFail) ∧
    y.factors = (psoGiveFactors c).getD x.factors ∧ y.fFun = (psoGiveFun c).getD x.fFun ∧
    y.arg = (psoGiveArg c).getD x.arg ∧ y.dim = (psoGiveDim c).getD x.dim ∧
    y.posMin = (psoGiveMin c).getD x.posMin ∧ y.posMax = (psoGiveMax c).getD x.posMax ∧
    y.maxVelocity = (psoGiveVel c).getD x.maxVelocity := by
  cases c with
  | initializePop u =>
    simp only [psoFullCall, PSOFull.initializePop] at h
    split_ifs at h
    simp only [Out.bind_eq_ok] at h
    obtain ⟨i, -, f, -, s, -, h⟩ := h
    cases h
    exact ⟨rfl, rfl, rfl, rfl, rfl, rfl, rfl, rfl⟩
  | run rnd =>
    simp only [psoFullCall, PSOFull.run, Out.bind_eq_ok] at h
    obtain ⟨f, -, r, -, h⟩ := h
    cases h
    exact ⟨rfl, rfl, rfl, rfl, rfl, rfl, rfl, rfl⟩
  | setDimensions d =>
    simp only [psoFullCall] at h; split_ifs at h; cases h
    exact ⟨rfl, rfl, rfl, rfl, rfl, rfl, rfl, rfl⟩
  | setRange a b =>
    simp only [psoFullCall, PSOFull.setRange] at h; split_ifs at h; cases h
    exact ⟨rfl, rfl, rfl, rfl, rfl, rfl, rfl, rfl⟩
  | setMaxVelocity a =>
    simp only [psoFullCall, PSOFull.setMaxVelocity] at h; split_ifs at h; cases h
    exact ⟨rfl, rfl, rfl, rfl, rfl, rfl, rfl, rfl⟩
  | setPVRange a b v =>
    simp only [psoFullCall, PSOFull.setRange, PSOFull.setMaxVelocity, Out.bind_eq_ok] at h
    obtain ⟨z, hz, h⟩ := h
    split_ifs at hz; cases hz
    split_ifs at h; cases h
    exact ⟨rfl, rfl, rfl, rfl, rfl, rfl, rfl, rfl⟩
  | _ =>
    simp only [psoFullCall] at h; cases h
    exact ⟨rfl, rfl, rfl, rfl, rfl, rfl, rfl, rfl⟩

theorem psoSettings_snoc {o0 : PSOFactors α} {dim0 : Option Int} {j : PSOJunk A α F}
    {cs : List (PSOFullCall A α F)} {c : PSOFullCall A α F} {x y : PSOFull A α F}
    (hx : PSOSettings o0 dim0 j cs x) (h : psoFullCall rd opt x c = .ok y) :
    PSOSettings o0 dim0 j (cs ++ [c]) y := by
  obtain ⟨h1, h2, h3, h4, h5, h6, h7, h8⟩ := psoFullCall_changes rd opt x y c h
  constructor
  · rw [lastSet_snoc, ← hx.option]; exact h1
  · rw [lastSet_snoc, ← hx.factors]; exact h2
  · rw [lastSet_snoc, ← hx.fFun]; exact h3
  · rw [lastSet_snoc, ← hx.arg]; exact h4
  · rw [lastSet_snoc, ← hx.dim]; exact h5
  · rw [lastSet_snoc, ← hx.posMin]; exact h6
  · rw [lastSet_snoc, ← hx.posMax]; exact h7
  · rw [lastSet_snoc, ← hx.maxVelocity]; exact h8

/-- What `initializePop` does. -/
theorem psoFull_init_cases (x : PSOFull A α F) (u : Nat → Nat → α) :
    ((1 ≤ x.K ∧ x.dim ≠ none ∧ x.posMin ≠ none ∧ x.posMax ≠ none ∧ x.fFun ≠ none) →
      ∃ d mn mx f s, x.dim = some d ∧ x.posMin = some mn ∧ x.posMax = some mx ∧ x.fFun = some f ∧
        psoInitializePop x.K (fun k => ((List.range d.toNat).map fun i => rd (u k i) mn mx,
          (List.range d.toNat).map fun _ => (0 : α))) (f x.arg) = .ok s ∧
        x.initializePop rd u = .ok { x with st := s, generation := 0 }) ∧
    (¬ (1 ≤ x.K ∧ x.dim ≠ none ∧ x.posMin ≠ none ∧ x.posMax ≠ none ∧ x.fFun ≠ none) →
      x.initializePop rd u = .ub) := by
  constructor
  · rintro ⟨hK, h1, h2, h3, h4⟩
    obtain ⟨d, h1⟩ := Option.ne_none_iff_exists'.1 h1
    obtain ⟨mn, h2⟩ := Option.ne_none_iff_exists'.1 h2
    obtain ⟨mx, h3⟩ := Option.ne_none_iff_exists'.1 h3
    obtain ⟨f, h4⟩ := Option.ne_none_iff_exists'.1 h4
    obtain ⟨s, hs⟩ : ∃ s, psoInitializePop x.K (fun k => ((List.range d.toNat).map fun i => rd (u k i) mn mx,
          (List.range d.toNat).map fun _ => (0 : α))) (f x.arg) = .ok s := by
      obtain ⟨K, hK⟩ : ∃ K, x.K = K + 1 := ⟨x.K - 1, by omega⟩
      rw [hK]; unfold psoInitializePop
      simp only [List.range_succ_eq_map, List.map_cons]
      exact ⟨_, rfl⟩
    refine ⟨d, mn, mx, f, s, h1, h2, h3, h4, hs, ?_⟩
    simp only [PSOFull.initializePop, PSOFull.defaultInitialize, PSOFull.fitness, h1, h2, h3, h4, readMember,
      Out.ok_bind]
    rw [if_neg (by omega), hs]; rfl
  · intro h
    unfold PSOFull.initializePop
    split_ifs with hK
    · rfl
    · by_cases h1 : x.dim = none
      · simp [PSOFull.defaultInitialize, h1, readMember]
      obtain ⟨d, h1⟩ := Option.ne_none_iff_exists'.1 h1
      by_cases h2 : x.posMin = none
      · simp [PSOFull.defaultInitialize, h1, h2, readMember]
      obtain ⟨mn, h2⟩ := Option.ne_none_iff_exists'.1 h2
      by_cases h3 : x.posMax = none
      · simp [PSOFull.defaultInitialize, h1, h2, h3, readMember]
      obtain ⟨mx, h3⟩ := Option.ne_none_iff_exists'.1 h3
      have h4 : x.fFun = none := by
        by_contra h4; exact h ⟨by omega, by simp [h1], by simp [h2], by simp [h3], h4⟩
      simp [PSOFull.defaultInitialize, PSOFull.fitness, h1, h2, h3, h4, readMember]

/-- What is true after any history that returned. -/
structure PSOFullReach (o0 : PSOFactors α) (dim0 : Option Int) (j : PSOJunk A α F)
    (cs : List (PSOFullCall A α F)) (x : PSOFull A α F) : Prop where
  settings : PSOSettings o0 dim0 j cs x
  init : x.st.swarm ≠ [] ↔ ∃ c ∈ cs, PSOFullCall.IsInit c
  bounds : x.st.swarm ≠ [] → x.posMin ≠ none ∧ x.posMax ≠ none

theorem lastSet_some_of_ne {C T : Type} (get : C → Option (Option T)) (hget : ∀ c v, get c = some v → v ≠ none)
    (cs : List C) (c : C) (h : lastSet get cs none ≠ none) : lastSet get (cs ++ [c]) none ≠ none := by
  rw [lastSet_snoc]
  cases hc : get c with
  | none => exact h
  | some v => exact hget c v hc

theorem psoFull_cases (o0 : PSOFactors α) (dim0 : Option Int) (j : PSOJunk A α F)
    (cs : List (PSOFullCall A α F)) :
    (PSOProper dim0 cs → ∃ x, psoFullSession rd opt (.new o0 dim0 j) cs = .ok x ∧ PSOFullReach o0 dim0 j cs x) ∧
    (¬ PSOProper dim0 cs → psoFullSession rd opt (.new o0 dim0 j) cs = .ub) := by
  induction cs using List.reverseRecOn with
  | nil =>
    refine ⟨fun _ => ⟨_, rfl, ⟨rfl, rfl, rfl, rfl, rfl, rfl, rfl, rfl⟩, ?_, ?_⟩, fun h => absurd ?_ h⟩
    · simp [PSOFull.new]
    · intro h; exact absurd rfl h
    · intro b c a h; simp at h
  | append_singleton cs c ih =>
    obtain ⟨ih1, ih2⟩ := ih
    rw [psoFullSession_snoc, psoProper_snoc]
    by_cases hP : PSOProper dim0 cs
    · obtain ⟨x, hx, hr⟩ := ih1 hP
      rw [hx, Out.ok_bind]
      -- a call that changes neither the swarm nor unsets anything
      have plain : ∀ y, psoFullCall rd opt x c = .ok y → y.st = x.st → ¬ PSOFullCall.IsInit c →
          PSOFullReach o0 dim0 j (cs ++ [c]) y := by
        intro y hy hst hni
        have hset := psoSettings_snoc rd opt hr.settings hy
        refine ⟨hset, ?_, ?_⟩
        · rw [hst, hr.init]
          constructor
          · rintro ⟨d, hd, h⟩; exact ⟨d, List.mem_append_left _ hd, h⟩
          · rintro ⟨d, hd, h⟩
            rcases List.mem_append.1 hd with hd | hd
            · exact ⟨d, hd, h⟩
            · rw [List.mem_singleton] at hd; subst hd; exact absurd h hni
        · intro hne
          rw [hst] at hne
          obtain ⟨q1, q2⟩ := hr.bounds hne
          rw [hset.posMin, hset.posMax]
          rw [hr.settings.posMin] at q1
          rw [hr.settings.posMax] at q2
          refine ⟨lastSet_some_of_ne _ ?_ cs c q1, lastSet_some_of_ne _ ?_ cs c q2⟩
          · intro c v h; cases c <;> simp only [psoGiveMin, Option.some.injEq, reduceCtorEq] at h <;> subst h <;> simp
          · intro c v h; cases c <;> simp only [psoGiveMax, Option.some.injEq, reduceCtorEq] at h <;> subst h <;> simp
      have setter : (PSOAllowed dim0 cs c ↔ ∃ y, psoFullCall rd opt x c = .ok y ∧ y.st = x.st) →
          (¬ PSOAllowed dim0 cs c → psoFullCall rd opt x c = .ub) → ¬ PSOFullCall.IsInit c →
          (PSOProper dim0 cs ∧ PSOAllowed dim0 cs c →
            ∃ y, psoFullCall rd opt x c = .ok y ∧ PSOFullReach o0 dim0 j (cs ++ [c]) y) ∧
          (¬ (PSOProper dim0 cs ∧ PSOAllowed dim0 cs c) → psoFullCall rd opt x c = .ub) := by
        intro h1 h2 h3
        refine ⟨?_, fun h => h2 fun h' => h ⟨hP, h'⟩⟩
        rintro ⟨-, h⟩
        obtain ⟨y, hy, hst⟩ := h1.1 h
        exact ⟨y, hy, plain y hy hst h3⟩
      cases c with
      | setOption K G L o =>
        exact setter ⟨fun _ => ⟨_, rfl, rfl⟩, fun _ => trivial⟩ (fun h => absurd trivial h)
          (by rintro ⟨u, h⟩; cases h)
      | setfFun f =>
        exact setter ⟨fun _ => ⟨_, rfl, rfl⟩, fun _ => trivial⟩ (fun h => absurd trivial h)
          (by rintro ⟨u, h⟩; cases h)
      | setArgs a =>
        exact setter ⟨fun _ => ⟨_, rfl, rfl⟩, fun _ => trivial⟩ (fun h => absurd trivial h)
          (by rintro ⟨u, h⟩; cases h)
      | writePosMin a =>
        exact setter ⟨fun _ => ⟨_, rfl, rfl⟩, fun _ => trivial⟩ (fun h => absurd trivial h)
          (by rintro ⟨u, h⟩; cases h)
      | writePosMax a =>
        exact setter ⟨fun _ => ⟨_, rfl, rfl⟩, fun _ => trivial⟩ (fun h => absurd trivial h)
          (by rintro ⟨u, h⟩; cases h)
      | writeMaxVelocity a =>
        exact setter ⟨fun _ => ⟨_, rfl, rfl⟩, fun _ => trivial⟩ (fun h => absurd trivial h)
          (by rintro ⟨u, h⟩; cases h)
      | setDimensions d =>
        refine setter ?_ ?_ (by rintro ⟨u, h⟩; cases h)
        · simp only [PSOAllowed, psoFullCall]; split_ifs with h <;> simp [h]
        · intro h; simp only [PSOAllowed] at h; simp only [psoFullCall, if_neg h]
      | setRange a b =>
        refine setter ?_ ?_ (by rintro ⟨u, h⟩; cases h)
        · simp only [PSOAllowed, psoFullCall, PSOFull.setRange]; split_ifs with h <;> simp [h]
        · intro h; simp only [PSOAllowed] at h; simp only [psoFullCall, PSOFull.setRange, if_neg h]
      | setMaxVelocity a =>
        refine setter ?_ ?_ (by rintro ⟨u, h⟩; cases h)
        · simp only [PSOAllowed, psoFullCall, PSOFull.setMaxVelocity]; split_ifs with h <;> simp [h]
        · intro h; simp only [PSOAllowed] at h; simp only [psoFullCall, PSOFull.setMaxVelocity, if_neg h]
      | setPVRange a b v =>
        refine setter ?_ ?_ (by rintro ⟨u, h⟩; cases h)
        · simp only [PSOAllowed, psoFullCall, PSOFull.setMaxVelocity, PSOFull.setRange]
          by_cases h : a < b <;> by_cases h' : 0 < v <;> simp [h, h']
        · intro h
          simp only [PSOAllowed] at h
          simp only [psoFullCall, PSOFull.setMaxVelocity, PSOFull.setRange]
          by_cases h1 : a < b
          · have h2 : ¬ 0 < v := fun h2 => h ⟨h1, h2⟩
            simp [h1, h2]
          · simp [h1]
      | initializePop u =>
        obtain ⟨q1, q2⟩ := psoFull_init_cases rd x u
        have hiff : PSOAllowed dim0 cs (.initializePop u) ↔
            (1 ≤ x.K ∧ x.dim ≠ none ∧ x.posMin ≠ none ∧ x.posMax ≠ none ∧ x.fFun ≠ none) := by
          simp only [PSOAllowed]
          rw [← hr.settings.option, ← hr.settings.dim, ← hr.settings.posMin, ← hr.settings.posMax,
            ← hr.settings.fFun]
        rw [hiff]
        refine ⟨?_, fun h => q2 fun h' => h ⟨hP, h'⟩⟩
        rintro ⟨-, h⟩
        obtain ⟨d, mn, mx, f, s, e1, e2, e3, e4, hs, hcall⟩ := q1 h
        refine ⟨_, hcall, psoSettings_snoc rd opt hr.settings (c := .initializePop u) hcall, ?_, ?_⟩
        · refine ⟨fun _ => ⟨_, by simp, ⟨u, rfl⟩⟩, fun _ => ?_⟩
          exact (pso_init_consistent _ _ _ s hs).1.nonempty
        · intro _; exact ⟨h.2.2.1, h.2.2.2.1⟩
      | run rnd =>
        obtain ⟨q1, q2⟩ := psoFull_run_cases opt x rnd hr.bounds
        have hiff : PSOAllowed dim0 cs (.run rnd) ↔
            (x.st.swarm ≠ [] ∧ x.fFun ≠ none ∧ (x.maxGen = 0 ∨ x.maxVelocity ≠ none)) := by
          simp only [PSOAllowed]
          rw [← hr.settings.option, ← hr.settings.fFun, ← hr.settings.maxVelocity, hr.init]
        rw [hiff]
        refine ⟨?_, fun h => q2 fun h' => h ⟨hP, h'⟩⟩
        rintro ⟨-, h⟩
        obtain ⟨f, b, r, hf, hrun, -, hcall⟩ := q1 h
        have hset := psoSettings_snoc rd opt hr.settings (c := .run rnd) hcall
        have hne : r.state.swarm ≠ [] := by
          refine psoLoop_inv opt (fun s => s.swarm ≠ []) (f x.arg) _ ?_ ?_ _ _ _ _ _ _ r ?_ hrun
          · intro s t hs ht
            have hs' : (psoComputeAllFitness (f x.arg) s).swarm ≠ [] := by
              simpa [psoComputeAllFitness] using hs
            obtain ⟨t', ht', hl, -⟩ := updatePGBest_total opt _ hs'
            rw [ht] at ht'; cases ht'
            rw [← List.length_pos_iff, hl]; exact List.length_pos_iff.2 hs'
          · intro g s hs
            rw [← List.length_pos_iff, updatePopulation_length]; exact List.length_pos_iff.2 hs
          · exact h.1
        refine ⟨_, hcall, hset, ?_, ?_⟩
        · refine ⟨fun _ => ?_, fun _ => hne⟩
          obtain ⟨d, hd, h⟩ := hr.init.1 h.1
          exact ⟨d, List.mem_append_left _ hd, h⟩
        · intro _; exact hr.bounds h.1
    · rw [ih2 hP]
      exact ⟨fun h => absurd h.1 hP, fun _ => rfl⟩

/-- **C126** (which histories are defined).  A history of calls on a new object returns exactly if every call is
allowed after the calls before it; otherwise it has undefined behaviour (a failed assert, a call through the null
pointer, an indeterminate bound, or an empty population).  No history hangs. -/
theorem pso_object_defined (o0 : PSOFactors α) (dim0 : Option Int) (j : PSOJunk A α F)
    (cs : List (PSOFullCall A α F)) :
    ((∃ x, psoFullSession rd opt (.new o0 dim0 j) cs = .ok x) ↔ PSOProper dim0 cs) ∧
    (psoFullSession rd opt (.new o0 dim0 j) cs = .ub ↔ ¬ PSOProper dim0 cs) := by
  obtain ⟨h1, h2⟩ := psoFull_cases rd opt o0 dim0 j cs
  by_cases hP : PSOProper dim0 cs
  · obtain ⟨x, hx, -⟩ := h1 hP
    exact ⟨⟨fun _ => hP, fun _ => ⟨x, hx⟩⟩, ⟨fun h => (by rw [hx] at h; cases h), fun h => absurd hP h⟩⟩
  · have hub := h2 hP
    exact ⟨⟨fun ⟨x, hx⟩ => (by rw [hub] at hx; cases hx), fun h => absurd h hP⟩, ⟨fun _ => hP, fun _ => hub⟩⟩

theorem psoFull_reach (o0 : PSOFactors α) (dim0 : Option Int) (j : PSOJunk A α F)
    (cs : List (PSOFullCall A α F)) (x : PSOFull A α F)
    (h : psoFullSession rd opt (.new o0 dim0 j) cs = .ok x) : PSOFullReach o0 dim0 j cs x := by
  obtain ⟨y, hy, hr⟩ := (psoFull_cases rd opt o0 dim0 j cs).1
    ((pso_object_defined rd opt o0 dim0 j cs).1.1 ⟨x, h⟩)
  rw [h] at hy; cases hy; exact hr

/-- **C126** (settings).  After any history that returned, each setting is the one given last, or its initial
value: options 200 / 300 / 100 and the constructor's factors, the null pointer, indeterminate bounds.  In
particular neither `initializePop` nor `run` changes any of them. -/
theorem pso_object_settings (o0 : PSOFactors α) (dim0 : Option Int) (j : PSOJunk A α F)
    (cs : List (PSOFullCall A α F)) (x : PSOFull A α F)
    (h : psoFullSession rd opt (.new o0 dim0 j) cs = .ok x) :
    (x.K, x.maxGen, x.maxFail) = lastSet psoGiveOption cs (200, 300, 100) ∧
    x.factors = lastSet psoGiveFactors cs o0 ∧ x.fFun = lastSet psoGiveFun cs none ∧
    x.arg = lastSet psoGiveArg cs j.arg ∧ x.dim = lastSet psoGiveDim cs dim0 ∧
    x.posMin = lastSet psoGiveMin cs none ∧ x.posMax = lastSet psoGiveMax cs none ∧
    x.maxVelocity = lastSet psoGiveVel cs none := by
  have := (psoFull_reach rd opt o0 dim0 j cs x h).settings
  exact ⟨this.option, this.factors, this.fFun, this.arg, this.dim, this.posMin, this.posMax, this.maxVelocity⟩


/-- The value the call returns is set by the last call. -/
theorem psoFull_last {o0 : PSOFactors α} {dim0 : Option Int} {j : PSOJunk A α F}
    {cs : List (PSOFullCall A α F)} {c : PSOFullCall A α F} {x : PSOFull A α F}
    (h : psoFullSession rd opt (.new o0 dim0 j) (cs ++ [c]) = .ok x) :
    ∃ y, psoFullSession rd opt (.new o0 dim0 j) cs = .ok y ∧ psoFullCall rd opt y c = .ok x := by
  rw [psoFullSession_snoc, Out.bind_eq_ok] at h
  exact h

/-- After `initializePop`: exactly `populationSize` particles; every one at a freshly drawn position with the
number of dimensions in force, with velocity zero, evaluated with the function and argument in force, and its own
personal best; the global best is the first particle; `generation()` and `failTimes()` are 0. -/
theorem pso_object_initialised (o0 : PSOFactors α) (dim0 : Option Int) (j : PSOJunk A α F)
    (cs : List (PSOFullCall A α F)) (u : Nat → Nat → α) (x : PSOFull A α F)
    (h : psoFullSession rd opt (.new o0 dim0 j) (cs ++ [.initializePop u]) = .ok x) :
    ∃ d mn mx f, lastSet psoGiveDim cs dim0 = some d ∧ lastSet psoGiveMin cs none = some mn ∧
      lastSet psoGiveMax cs none = some mx ∧ lastSet psoGiveFun cs none = some f ∧
      x.st.swarm.length = (lastSet psoGiveOption cs (200, 300, 100)).1 ∧
      (∀ (k : Nat) (p : Particle (List α) F), x.st.swarm[k]? = some p →
        p.position = (List.range d.toNat).map (fun i => rd (u k i) mn mx) ∧
        p.velocity = List.replicate d.toNat 0 ∧
        p.fitness = f (lastSet psoGiveArg cs j.arg) p.position ∧
        p.pBest.position = p.position ∧ p.pBest.fitness = p.fitness) ∧
      (∃ p, x.st.swarm[0]? = some p ∧ x.st.gBest.position = p.position ∧ x.st.gBest.fitness = p.fitness) ∧
      x.generation = 0 ∧ x.st.fail = 0 := by
  obtain ⟨y, hy, hc⟩ := psoFull_last rd opt h
  have hr := (psoFull_reach rd opt o0 dim0 j cs y hy).settings
  obtain ⟨q1, q2⟩ := psoFull_init_cases rd y u
  by_cases hA : (1 ≤ y.K ∧ y.dim ≠ none ∧ y.posMin ≠ none ∧ y.posMax ≠ none ∧ y.fFun ≠ none)
  · obtain ⟨d, mn, mx, f, s, e1, e2, e3, e4, hs, hcall⟩ := q1 hA
    have hc' : y.initializePop rd u = .ok x := hc
    rw [hcall] at hc'
    cases hc'
    refine ⟨d, mn, mx, f, by rw [← hr.dim]; exact e1, by rw [← hr.posMin]; exact e2,
      by rw [← hr.posMax]; exact e3, by rw [← hr.fFun]; exact e4, ?_, ?_, ?_, rfl, ?_⟩
    · rw [← hr.option]; exact (pso_init_consistent _ _ _ s hs).2.1
    · rw [← hr.arg]
      intro k p hp
      unfold psoInitializePop at hs
      simp only at hs
      split at hs
      · cases hs
      · cases hs
        simp only [List.getElem?_map, Option.map_eq_some_iff, List.getElem?_eq_some_iff, List.length_range,
          List.getElem_range] at hp
        obtain ⟨_, ⟨hk, rfl⟩, rfl⟩ := hp
        refine ⟨rfl, ?_, rfl, rfl, rfl⟩
        simp
    · unfold psoInitializePop at hs
      simp only at hs
      split at hs
      · cases hs
      · rename_i p l hl
        cases hs
        refine ⟨p, ?_, rfl, rfl⟩
        rw [hl]; rfl
    · exact (pso_init_consistent _ _ _ s hs).2.2.2.2
  · have hc' : y.initializePop rd u = .ok x := hc
    rw [q2 hA] at hc'; cases hc'

/-- A `run` that moved the swarm leaves only confined positions and velocities. -/
theorem psoFull_moved (o0 : PSOFactors α) (dim0 : Option Int) (j : PSOJunk A α F)
    (cs : List (PSOFullCall A α F)) (rnd : Nat → Nat → α × α) (x : PSOFull A α F)
    (h : psoFullSession rd opt (.new o0 dim0 j) (cs ++ [.run rnd]) = .ok x) (hg : 1 ≤ x.generation) :
    ∃ mn mx vm, lastSet psoGiveMin cs none = some mn ∧ lastSet psoGiveMax cs none = some mx ∧
      lastSet psoGiveVel cs none = some vm ∧
      ∀ p ∈ x.st.swarm, (∀ y ∈ p.position, ∃ z, y = clampPos mn mx z) ∧
        ∀ y ∈ p.velocity, ∃ z, y = clampVel vm z := by
  obtain ⟨y, hy, hc⟩ := psoFull_last rd opt h
  have hr := psoFull_reach rd opt o0 dim0 j cs y hy
  obtain ⟨q1, q2⟩ := psoFull_run_cases opt y rnd hr.bounds
  have hc' : y.run opt rnd = .ok x := hc
  by_cases hA : (y.st.swarm ≠ [] ∧ y.fFun ≠ none ∧ (y.maxGen = 0 ∨ y.maxVelocity ≠ none))
  · obtain ⟨f, b, r, hf, hrun, hbox, hcall⟩ := q1 hA
    rw [hcall] at hc'
    cases hc'
    rw [psoRun_eq] at hrun
    obtain ⟨a1, -⟩ := run_stops _ _ _ _ _ _ hrun
    have hst := (run_record _ _ _ _ _ _ hrun).2.1
    have hg' : 1 ≤ r.generation := hg
    have hbox' := hbox.resolve_left (by omega)
    obtain ⟨mn, mx, vm, e1, e2, e3, rfl⟩ := hbox'
    refine ⟨mn, mx, vm, by rw [← hr.settings.posMin]; exact e1, by rw [← hr.settings.posMax]; exact e2,
      by rw [← hr.settings.maxVelocity]; exact e3, ?_⟩
    obtain ⟨i, hi⟩ : ∃ i, r.generation = i + 1 := ⟨r.generation - 1, by omega⟩
    rw [hi] at hst
    simp only [stateAfter] at hst
    rw [Out.bind_eq_ok] at hst
    obtain ⟨w, -, hst⟩ := hst
    intro p hp
    obtain ⟨q, hq, t1, t2⟩ := updatePGBest_same opt _ _ hst p hp
    obtain ⟨q', hq', rfl⟩ := List.mem_map.1 hq
    obtain ⟨k, hk, hq''⟩ := List.mem_mapIdx.1 hq'
    rw [t1, t2]
    subst hq''
    constructor
    · intro z hz
      simp only [moveParticle, applyConstraint4Position] at hz
      obtain ⟨k', hk', rfl⟩ := List.mem_mapIdx.1 hz
      exact ⟨_, rfl⟩
    · intro z hz
      simp only [moveParticle, applyConstraint4Velocity] at hz
      obtain ⟨k', hk', rfl⟩ := List.mem_mapIdx.1 hz
      exact ⟨_, rfl⟩
  · rw [q2 hA] at hc'; cases hc'

/-- As long as only options, function and argument are changed, an invariant of the swarm that holds after
`initializePop`, and that updating the bests and moving within the box in force preserve, holds. -/
theorem psoFull_invariant (P : PSOState (List α) F → Prop) (x : PSOFull A α F)
    (hbest : ∀ (f : List α → F) s t, P s → updatePGBest opt (psoComputeAllFitness f s) = .ok t → P t)
    (hfail : ∀ s, P s → P { s with fail := 0 })
    (hmove : ∀ mn mx vm o rnd s, x.posMin = some mn → x.posMax = some mx → x.maxVelocity = some vm → P s →
      P (updatePopulation ⟨0, fun _ => mn, fun _ => mx, fun _ => vm⟩ o rnd s))
    (after : List (PSOFullCall A α F)) (ha : ∀ c ∈ after, PSOFullCall.KeepsBox c)
    (hx : P x.st) (hne : x.st.swarm ≠ []) (hmm : x.posMin ≠ none ∧ x.posMax ≠ none) (z : PSOFull A α F)
    (h : psoFullSession rd opt x after = .ok z) : P z.st := by
  induction after generalizing x with
  | nil => cases h; exact hx
  | cons c cs ih =>
    unfold psoFullSession at h
    rw [List.foldlM_cons, Out.bind_eq_ok] at h
    obtain ⟨y, hy, h⟩ := h
    have hc := ha c (by simp)
    have ha' : ∀ c ∈ cs, PSOFullCall.KeepsBox c := fun d hd => ha d (by simp [hd])
    cases c with
    | setOption K G L o => cases hy; exact ih { x with K := K, maxGen := G, maxFail := L, factors := o } hmove ha' hx hne hmm h
    | setfFun f => cases hy; exact ih { x with fFun := f } hmove ha' hx hne hmm h
    | setArgs a => cases hy; exact ih { x with arg := a } hmove ha' hx hne hmm h
    | run rnd =>
      obtain ⟨q1, q2⟩ := psoFull_run_cases opt x rnd (fun _ => hmm)
      have hc' : x.run opt rnd = .ok y := hy
      by_cases hA : (x.st.swarm ≠ [] ∧ x.fFun ≠ none ∧ (x.maxGen = 0 ∨ x.maxVelocity ≠ none))
      · obtain ⟨f, b, r, hf, hrun, hbox, hcall⟩ := q1 hA
        rw [hcall] at hc'
        cases hc'
        have key : P r.state ∧ r.state.swarm ≠ [] := by
          have hne' : ∀ s t, s.swarm ≠ [] → updatePGBest opt (psoComputeAllFitness (f x.arg) s) = .ok t →
              t.swarm ≠ [] := by
            intro s t hs ht
            have hs' : (psoComputeAllFitness (f x.arg) s).swarm ≠ [] := by
              simpa [psoComputeAllFitness] using hs
            obtain ⟨t', ht', hl, -⟩ := updatePGBest_total opt _ hs'
            rw [ht] at ht'; cases ht'
            rw [← List.length_pos_iff, hl]; exact List.length_pos_iff.2 hs'
          rcases hbox with hG | ⟨mn, mx, vm, e1, e2, e3, rfl⟩
          · unfold psoRun at hrun
            rw [hG] at hrun
            rw [← loop_zero opt x hG (f x.arg) rnd] at hrun
            simp only [PSOFull.loop, hG] at hrun
            rw [Out.bind_eq_ok] at hrun
            obtain ⟨t, ht, hrun⟩ := hrun
            rw [if_pos (by omega)] at hrun
            cases hrun
            exact ⟨hbest _ _ _ (hfail _ hx) ht, hne' _ _ (by exact hne) ht⟩
          · refine psoLoop_inv opt (fun s => P s ∧ s.swarm ≠ []) (f x.arg) _ ?_ ?_ _ _ _ _ _ _ r
              ⟨hfail _ hx, hne⟩ hrun
            · rintro s t ⟨h1, h2⟩ ht
              exact ⟨hbest _ _ _ h1 ht, hne' _ _ h2 ht⟩
            · rintro g s ⟨h1, h2⟩
              refine ⟨hmove mn mx vm _ _ s e1 e2 e3 h1, ?_⟩
              rw [← List.length_pos_iff, updatePopulation_length]; exact List.length_pos_iff.2 h2
        exact ih { x with st := r.state, generation := r.generation, record := r.record } hmove ha' key.1 key.2
          hmm h
      · rw [q2 hA] at hc'; cases hc'
    | setDimensions d => exact absurd hc (by simp [PSOFullCall.KeepsBox])
    | setRange a b => exact absurd hc (by simp [PSOFullCall.KeepsBox])
    | setMaxVelocity a => exact absurd hc (by simp [PSOFullCall.KeepsBox])
    | setPVRange a b v => exact absurd hc (by simp [PSOFullCall.KeepsBox])
    | writePosMin a => exact absurd hc (by simp [PSOFullCall.KeepsBox])
    | writePosMax a => exact absurd hc (by simp [PSOFullCall.KeepsBox])
    | writeMaxVelocity a => exact absurd hc (by simp [PSOFullCall.KeepsBox])
    | initializePop u => exact absurd hc (by simp [PSOFullCall.KeepsBox])

/-- The generic form of the bounds theorem: `posOk` and `velOk` are any predicates that hold for the draws and
after confinement. -/
theorem psoFull_bounds (o0 : PSOFactors α) (dim0 : Option Int) (j : PSOJunk A α F)
    (before : List (PSOFullCall A α F)) (u : Nat → Nat → α) (after : List (PSOFullCall A α F))
    (ha : ∀ c ∈ after, PSOFullCall.KeepsBox c) (z : PSOFull A α F)
    (h : psoFullSession rd opt (.new o0 dim0 j) (before ++ .initializePop u :: after) = .ok z) :
    ∃ (d : Int) (mn mx : α), lastSet psoGiveDim before dim0 = some d ∧ lastSet psoGiveMin before none = some mn ∧
      lastSet psoGiveMax before none = some mx ∧
      ∀ (posOk velOk : α → Prop), (∀ k i, i < d.toNat → posOk (rd (u k i) mn mx)) → velOk 0 →
        (∀ y, posOk (clampPos mn mx y)) →
        (∀ vm y, lastSet psoGiveVel before none = some vm → velOk (clampVel vm y)) →
        InBounds d.toNat (fun _ y => posOk y) (fun _ y => velOk y) z.st := by
  rw [show before ++ .initializePop u :: after = (before ++ [.initializePop u]) ++ after by simp,
    psoFullSession_append, Out.bind_eq_ok] at h
  obtain ⟨x, hx, h⟩ := h
  obtain ⟨d, mn, mx, f, e1, e2, e3, e4, hlen, hall, ⟨p0, hp0, hg0, -⟩, -, -⟩ :=
    pso_object_initialised rd opt o0 dim0 j before u x hx
  refine ⟨d, mn, mx, e1, e2, e3, ?_⟩
  intro posOk velOk h1 h2 h3 h4
  have hr := psoFull_reach rd opt o0 dim0 j _ x hx
  have hset := hr.settings
  have s1 : x.posMin = some mn := by rw [hset.posMin, lastSet_snoc]; exact e2
  have s2 : x.posMax = some mx := by rw [hset.posMax, lastSet_snoc]; exact e3
  have s3 : x.maxVelocity = lastSet psoGiveVel before none := by rw [hset.maxVelocity, lastSet_snoc]; rfl
  have hpos : ∀ p ∈ x.st.swarm, EntriesOk d.toNat (fun _ y => posOk y) p.position ∧
      EntriesOk d.toNat (fun _ y => velOk y) p.velocity ∧
      EntriesOk d.toNat (fun _ y => posOk y) p.pBest.position := by
    intro p hp
    obtain ⟨k, hk, hkp⟩ := List.getElem_of_mem hp
    obtain ⟨t1, t2, -, t3, -⟩ := hall k p (by rw [← hkp]; exact List.getElem?_eq_getElem hk)
    have hP : EntriesOk d.toNat (fun _ y => posOk y) p.position := by
      rw [t1]
      refine ⟨by simp, ?_⟩
      intro i y hy
      simp only [List.getElem?_map, Option.map_eq_some_iff, List.getElem?_eq_some_iff, List.length_range,
        List.getElem_range] at hy
      obtain ⟨_, ⟨hi, rfl⟩, rfl⟩ := hy
      exact h1 k i hi
    refine ⟨hP, ?_, by rw [t3]; exact hP⟩
    rw [t2]
    refine ⟨by simp, ?_⟩
    intro i y hy
    rw [List.getElem?_replicate] at hy
    split_ifs at hy
    cases hy; exact h2
  have h0 : InBounds d.toNat (fun _ y => posOk y) (fun _ y => velOk y) x.st := by
    refine ⟨fun p hp => (hpos p hp).1, fun p hp => (hpos p hp).2.1, fun p hp => (hpos p hp).2.2, ?_⟩
    rw [hg0]; exact (hpos p0 (List.mem_of_getElem? hp0)).1
  refine psoFull_invariant rd opt (InBounds d.toNat (fun _ y => posOk y) (fun _ y => velOk y)) x ?_ ?_ ?_ after ha
    h0 (List.ne_nil_of_mem (List.mem_of_getElem? hp0)) ⟨by simp [s1], by simp [s2]⟩ z h
  · intro f s t hs ht
    exact inBounds_update opt f s t ht hs
  · intro s hs; exact ⟨hs.position, hs.velocity, hs.pBest, hs.gBest⟩
  · intro mn' mx' vm o rnd s q1 q2 q3 hs
    rw [s1] at q1; rw [s2] at q2; rw [s3] at q3
    cases q1; cases q2
    have := updatePopulation_inBounds ⟨d.toNat, fun _ => mn, fun _ => mx, fun _ => vm⟩ o rnd
      (fun _ y => posOk y) (fun _ y => velOk y) (fun i y _ => h3 y) (fun i y _ => h4 vm y q3) s hs
    exact this

/-- **C126** (stored values).  As long as neither the fitness function nor its argument is changed after the last
`initializePop` – the box and the options may change, and the solver may run any number of times –, the reported
best fitness and all personal bests are the values of the function in force with the argument in force at the
reported positions. -/
theorem pso_object_true_best (o0 : PSOFactors α) (dim0 : Option Int) (j : PSOJunk A α F)
    (before : List (PSOFullCall A α F)) (u : Nat → Nat → α) (after : List (PSOFullCall A α F))
    (ha : ∀ c ∈ after, PSOFullCall.KeepsFitness c) (z : PSOFull A α F)
    (h : psoFullSession rd opt (.new o0 dim0 j) (before ++ .initializePop u :: after) = .ok z) :
    ∃ f, lastSet psoGiveFun before none = some f ∧
      z.st.gBest.fitness = f (lastSet psoGiveArg before j.arg) z.st.gBest.position ∧
      ∀ p ∈ z.st.swarm, p.pBest.fitness = f (lastSet psoGiveArg before j.arg) p.pBest.position := by
  rw [show before ++ .initializePop u :: after = (before ++ [.initializePop u]) ++ after by simp,
    psoFullSession_append, Out.bind_eq_ok] at h
  obtain ⟨x, hx, h⟩ := h
  obtain ⟨d, mn, mx, f, e1, e2, e3, e4, hlen, hall, ⟨p0, hp0, hg0, hgf⟩, -, -⟩ :=
    pso_object_initialised rd opt o0 dim0 j before u x hx
  refine ⟨f, e4, ?_⟩
  have hset := (psoFull_reach rd opt o0 dim0 j _ x hx).settings
  have s1 : x.fFun = some f := by rw [hset.fFun, lastSet_snoc]; exact e4
  have s2 : x.arg = lastSet psoGiveArg before j.arg := by rw [hset.arg, lastSet_snoc]; rfl
  have hbd : x.posMin ≠ none ∧ x.posMax ≠ none := by
    constructor
    · rw [hset.posMin, lastSet_snoc]; simp [psoGiveMin, e2]
    · rw [hset.posMax, lastSet_snoc]; simp [psoGiveMax, e3]
  have h0 : AllTrue (f x.arg) x.st := by
    rw [s2]
    constructor
    · intro p hp
      obtain ⟨k, hk, hkp⟩ := List.getElem_of_mem hp
      obtain ⟨-, -, t3, t4, t5⟩ := hall k p (by rw [← hkp]; exact List.getElem?_eq_getElem hk)
      rw [t4, t5]; exact t3
    · rw [hg0, hgf]; exact (hall 0 p0 hp0).2.2.1
  rw [s2] at h0
  suffices key : ∀ (a : A) (after : List (PSOFullCall A α F)) (x : PSOFull A α F),
      (∀ c ∈ after, PSOFullCall.KeepsFitness c) → x.fFun = some f → x.arg = a →
      x.posMin ≠ none ∧ x.posMax ≠ none → AllTrue (f a) x.st →
      psoFullSession rd opt x after = .ok z → AllTrue (f a) z.st by
    have := key _ after x ha s1 s2 hbd h0 h
    exact ⟨this.2, this.1⟩
  clear h0 s1 s2 hbd hset hall hp0 hg0 hgf hlen hx ha h
  intro a after
  induction after with
  | nil => intro x _ _ _ _ h0 h; cases h; exact h0
  | cons c cs ih =>
    intro x ha s1 s2 hbd h0 h
    unfold psoFullSession at h
    rw [List.foldlM_cons, Out.bind_eq_ok] at h
    obtain ⟨y, hy, h⟩ := h
    have hc := ha c (by simp)
    have ha' : ∀ c ∈ cs, PSOFullCall.KeepsFitness c := fun d hd => ha d (by simp [hd])
    obtain ⟨-, -, c3, c4, -, c6, c7, -⟩ := psoFullCall_changes rd opt x y c hy
    have y1 : y.fFun = some f := by
      rw [c3]; cases c <;> first | exact s1 | exact absurd hc (by simp [PSOFullCall.KeepsFitness])
    have y2 : y.arg = a := by
      rw [c4]; cases c <;> first | exact s2 | exact absurd hc (by simp [PSOFullCall.KeepsFitness])
    have y3 : y.posMin ≠ none ∧ y.posMax ≠ none := by
      rw [c6, c7]
      constructor
      · cases c <;> first | exact hbd.1 | simp [psoGiveMin]
      · cases c <;> first | exact hbd.2 | simp [psoGiveMax]
    refine ih y ha' y1 y2 y3 ?_ h
    cases c with
    | run rnd =>
      obtain ⟨q1, q2⟩ := psoFull_run_cases opt x rnd (fun _ => hbd)
      have hc' : x.run opt rnd = .ok y := hy
      by_cases hA : (x.st.swarm ≠ [] ∧ x.fFun ≠ none ∧ (x.maxGen = 0 ∨ x.maxVelocity ≠ none))
      · obtain ⟨f', b, r, hf, hrun, hbox, hcall⟩ := q1 hA
        rw [hcall] at hc'
        cases hc'
        rw [s1] at hf; cases hf
        rw [s2] at hrun
        refine psoLoop_inv opt (AllTrue (f a)) (f a) _ ?_ ?_ _ _ _ _ _ _ r ?_ hrun
        · intro s t hs ht; exact update_true opt (f a) hs ht
        · intro g s hs
          have hm := updatePopulation_onlyMoves (F := F) b x.factors (rnd g)
          refine ⟨fun p hp => ?_, by rw [hm.gBest]; exact hs.2⟩
          have : p.pBest ∈ s.swarm.map (·.pBest) := by
            rw [← hm.pBest]; exact List.mem_map_of_mem hp
          obtain ⟨q, hq, hqp⟩ := List.mem_map.1 this
          rw [← hqp]; exact hs.1 q hq
        · exact h0
      · rw [q2 hA] at hc'; cases hc'
    | setOption K G L o => cases hy; exact h0
    | setDimensions d => simp only [psoFullCall] at hy; split_ifs at hy; cases hy; exact h0
    | setRange p q => simp only [psoFullCall, PSOFull.setRange] at hy; split_ifs at hy; cases hy; exact h0
    | setMaxVelocity p =>
      simp only [psoFullCall, PSOFull.setMaxVelocity] at hy; split_ifs at hy; cases hy; exact h0
    | setPVRange p q v =>
      simp only [psoFullCall, PSOFull.setRange, PSOFull.setMaxVelocity, Out.bind_eq_ok] at hy
      obtain ⟨w, hw, hy⟩ := hy
      split_ifs at hw; cases hw
      split_ifs at hy; cases hy
      exact h0
    | writePosMin p => cases hy; exact h0
    | writePosMax p => cases hy; exact h0
    | writeMaxVelocity p => cases hy; exact h0
    | setfFun g => exact absurd hc (by simp [PSOFullCall.KeepsFitness])
    | setArgs g => exact absurd hc (by simp [PSOFullCall.KeepsFitness])
    | initializePop g => exact absurd hc (by simp [PSOFullCall.KeepsFitness])

/-- **C126** (counters).  Let any history end with a `run`.  The record and `generation()` describe this run only:
one entry more than generations, at most the maximum of generations in force, fewer only if the failure limit in
force is positive and was exceeded by failures of this run (earlier failures do not count). -/
theorem pso_object_run (o0 : PSOFactors α) (dim0 : Option Int) (j : PSOJunk A α F)
    (cs : List (PSOFullCall A α F)) (rnd : Nat → Nat → α × α) (x : PSOFull A α F)
    (h : psoFullSession rd opt (.new o0 dim0 j) (cs ++ [.run rnd]) = .ok x) :
    x.record.length = x.generation + 1 ∧
    x.generation ≤ (lastSet psoGiveOption cs (200, 300, 100)).2.1 ∧
    (x.generation < (lastSet psoGiveOption cs (200, 300, 100)).2.1 →
      0 < (lastSet psoGiveOption cs (200, 300, 100)).2.2 ∧
      (lastSet psoGiveOption cs (200, 300, 100)).2.2 < x.st.fail ∧
      (lastSet psoGiveOption cs (200, 300, 100)).2.2 ≤ x.generation) ∧
    x.st.fail ≤ x.generation + 1 ∧
    x.record.getLast? = some x.st.gBest.fitness := by
  obtain ⟨y, hy, hc⟩ := psoFull_last rd opt h
  have hr := psoFull_reach rd opt o0 dim0 j cs y hy
  obtain ⟨q1, q2⟩ := psoFull_run_cases opt y rnd hr.bounds
  have hc' : y.run opt rnd = .ok x := hc
  by_cases hA : (y.st.swarm ≠ [] ∧ y.fFun ≠ none ∧ (y.maxGen = 0 ∨ y.maxVelocity ≠ none))
  · obtain ⟨f, b, r, hf, hrun, hbox, hcall⟩ := q1 hA
    rw [hcall] at hc'
    cases hc'
    have hfl : r.state.fail ≤ r.generation + 1 :=
      psoLoop_fail opt (f y.arg) (fun g => updatePopulation b y.factors (rnd g)) (fun _ _ => rfl) y.maxGen
        y.maxFail (y.maxGen + 1) 0 { y.st with fail := 0 } [] r (Nat.le_refl _) hrun
    rw [psoRun_eq] at hrun
    obtain ⟨a1, a2, -⟩ := run_stops _ _ _ _ _ _ hrun
    obtain ⟨b1, b2, b3⟩ := run_record _ _ _ _ _ _ hrun
    rw [← hr.settings.option]
    refine ⟨b1, a1, fun hlt => ⟨(a2 hlt).1, (a2 hlt).2, ?_⟩, hfl, ?_⟩
    · have h9 : y.maxFail < r.state.fail := (a2 hlt).2
      show y.maxFail ≤ r.generation
      omega
    obtain ⟨t, ht, hb⟩ := b3 r.generation (by omega)
    rw [b2] at ht; cases ht
    have hb' : r.state.gBest.fitness = r.record[r.generation] := by simpa [psoSolver] using hb
    show r.record.getLast? = some r.state.gBest.fitness
    rw [List.getLast?_eq_getElem?, b1, hb']
    exact List.getElem?_eq_getElem (by omega)
  · rw [q2 hA] at hc'; cases hc'

end

/-! ### exact arithmetic -/

section
variable {A α F : Type} [Field α] [LinearOrder α] [IsStrictOrderedRing α] [LT F] [DecidableLT F]
variable (opt : FitnessOption)

/-- Without assignments through the references, the bounds are in order and the limit is positive. -/
theorem pso_object_legal (cs : List (PSOFullCall A α F)) (dim0 : Option Int) (hp : PSOProper dim0 cs)
    (ho : PSOOnlySetters cs) :
    (∀ mn mx, lastSet psoGiveMin cs none = some mn → lastSet psoGiveMax cs none = some mx → mn < mx) ∧
    (∀ vm, lastSet psoGiveVel cs none = some vm → 0 < vm) ∧
    (lastSet psoGiveMin cs none = none ↔ lastSet psoGiveMax cs none = none) := by
  induction cs using List.reverseRecOn with
  | nil => simp [lastSet]
  | append_singleton cs c ih =>
    obtain ⟨h1, h2⟩ := psoProper_snoc.1 hp
    obtain ⟨i1, i2, i3⟩ := ih h1 fun d hd => ho d (List.mem_append_left _ hd)
    have hc := ho c (by simp)
    rw [lastSet_snoc, lastSet_snoc, lastSet_snoc]
    cases c with
    | setRange a b =>
      refine ⟨?_, i2, by simp [psoGiveMin, psoGiveMax]⟩
      intro mn mx e1 e2; cases e1; cases e2; exact h2
    | setMaxVelocity v => exact ⟨i1, fun vm e => by cases e; exact h2, i3⟩
    | setPVRange a b v =>
      refine ⟨?_, fun vm e => by cases e; exact h2.2, by simp [psoGiveMin, psoGiveMax]⟩
      intro mn mx e1 e2; cases e1; cases e2; exact h2.1
    | writePosMin a => exact absurd rfl (hc a).1
    | writePosMax a => exact absurd rfl (hc a).2.1
    | writeMaxVelocity a => exact absurd rfl (hc a).2.2
    | _ => exact ⟨i1, i2, i3⟩

/-- **C126** (bounds, box not changed since `initializePop`).  In every history in which the bounds, the velocity
limit and the number of dimensions are not touched after the last `initializePop` – whatever happened before it,
and whatever runs, options, functions and arguments follow – all positions, all personal bests and the reported
best lie in the box in force and have the number of dimensions in force, and no velocity exceeds the limit. -/
theorem pso_object_feasible (o0 : PSOFactors α) (dim0 : Option Int) (j : PSOJunk A α F)
    (before : List (PSOFullCall A α F)) (u : Nat → Nat → α) (hu : ∀ k i, 0 ≤ u k i ∧ u k i < 1)
    (after : List (PSOFullCall A α F)) (ha : ∀ c ∈ after, PSOFullCall.KeepsBox c) (z : PSOFull A α F)
    (h : psoFullSession (fun u mn mx => randDRange u mn mx) opt (.new o0 dim0 j)
      (before ++ .initializePop u :: after) = .ok z)
    (hle : ∀ mn mx, lastSet psoGiveMin before none = some mn → lastSet psoGiveMax before none = some mx → mn ≤ mx)
    (hvm : ∀ vm, lastSet psoGiveVel before none = some vm → 0 ≤ vm) :
    ∃ (d : Int) (mn mx : α), lastSet psoGiveDim before dim0 = some d ∧ lastSet psoGiveMin before none = some mn ∧
      lastSet psoGiveMax before none = some mx ∧
      InBounds d.toNat (fun _ y => mn ≤ y ∧ y ≤ mx)
        (fun _ y => ∀ vm, lastSet psoGiveVel before none = some vm → |y| ≤ vm) z.st := by
  obtain ⟨d, mn, mx, e1, e2, e3, hb⟩ := psoFull_bounds _ opt o0 dim0 j before u after ha z h
  refine ⟨d, mn, mx, e1, e2, e3, hb _ _ ?_ ?_ ?_ ?_⟩
  · intro k i _
    have h0 := hle mn mx e2 e3
    unfold randDRange
    have h1 : 0 ≤ (mx - mn) * u k i := mul_nonneg (by linarith) (hu k i).1
    have h2 : (mx - mn) * u k i ≤ (mx - mn) * 1 := mul_le_mul_of_nonneg_left (hu k i).2.le (by linarith)
    constructor <;> linarith
  · intro vm hv; rw [abs_zero]; exact hvm vm hv
  · intro y; exact clampPos_mem mn mx y (hle mn mx e2 e3)
  · intro vm y hv vm' hv'
    rw [hv] at hv'; cases hv'
    exact clampVel_mem vm y (hvm vm hv)

/-- **C126** (bounds, box possibly changed since `initializePop`).  Let any history end with a `run` that made at
least one generation.  Then all particles are in the box in force at that run and no velocity exceeds the limit in
force, even if the swarm was created for another box. -/
theorem pso_object_moved (rd : α → α → α → α) (o0 : PSOFactors α) (dim0 : Option Int) (j : PSOJunk A α F)
    (cs : List (PSOFullCall A α F)) (rnd : Nat → Nat → α × α) (x : PSOFull A α F)
    (h : psoFullSession rd opt (.new o0 dim0 j) (cs ++ [.run rnd]) = .ok x) (hg : 1 ≤ x.generation)
    (hle : ∀ mn mx, lastSet psoGiveMin cs none = some mn → lastSet psoGiveMax cs none = some mx → mn ≤ mx)
    (hvm : ∀ vm, lastSet psoGiveVel cs none = some vm → 0 ≤ vm) :
    ∃ mn mx vm, lastSet psoGiveMin cs none = some mn ∧ lastSet psoGiveMax cs none = some mx ∧
      lastSet psoGiveVel cs none = some vm ∧
      ∀ p ∈ x.st.swarm, (∀ y ∈ p.position, mn ≤ y ∧ y ≤ mx) ∧ ∀ y ∈ p.velocity, |y| ≤ vm := by
  obtain ⟨mn, mx, vm, e1, e2, e3, hall⟩ := psoFull_moved rd opt o0 dim0 j cs rnd x h hg
  refine ⟨mn, mx, vm, e1, e2, e3, fun p hp => ⟨?_, ?_⟩⟩
  · intro y hy
    obtain ⟨z, rfl⟩ := (hall p hp).1 y hy
    exact clampPos_mem mn mx z (hle mn mx e1 e2)
  · intro y hy
    obtain ⟨z, rfl⟩ := (hall p hp).2 y hy
    exact clampVel_mem vm z (hvm vm e3)

end

/-! ### IEEE arithmetic -/

section
variable {A F : Type} (fm : Fmt) [LT F] [DecidableLT F] (opt : FitnessOption)

/-- **C126** (bounds, IEEE arithmetic).  The same with rounded arithmetic, provided the bounds are finite numbers
whose difference does not overflow: positions never leave the box; a velocity entry is within the limit or NaN. -/
theorem pso_object_feasible_ieee (hF : fm.Good) (o0 : PSOFactors (Dbl fm)) (dim0 : Option Int)
    (j : PSOJunk A (Dbl fm) F) (before : List (PSOFullCall A (Dbl fm) F)) (u : Nat → Nat → Dbl fm)
    (hu : ∀ k i, UnitDraw fm (u k i)) (after : List (PSOFullCall A (Dbl fm) F))
    (ha : ∀ c ∈ after, PSOFullCall.KeepsBox c) (z : PSOFull A (Dbl fm) F)
    (h : psoFullSession (randDDbl fm) opt (.new o0 dim0 j) (before ++ .initializePop u :: after) = .ok z)
    (hle : ∀ mn mx, lastSet psoGiveMin before none = some mn → lastSet psoGiveMax before none = some mx →
      mn.val.le mx.val = true ∧ mn.val.Finite fm ∧ mx.val.Finite fm ∧ (mx - mn).val.Finite fm)
    (hvm : ∀ vm, lastSet psoGiveVel before none = some vm → (Fl.fin false 0).lt vm.val = true) :
    ∃ (d : Int) (mn mx : Dbl fm), lastSet psoGiveDim before dim0 = some d ∧
      lastSet psoGiveMin before none = some mn ∧ lastSet psoGiveMax before none = some mx ∧
      InBounds d.toNat (fun _ y => mn.val.le y.val = true ∧ y.val.le mx.val = true)
        (fun _ y => ∀ vm, lastSet psoGiveVel before none = some vm →
          y.val = .nan ∨ (vm.val.neg.le y.val = true ∧ y.val.le vm.val = true)) z.st := by
  obtain ⟨d, mn, mx, e1, e2, e3, hb⟩ := psoFull_bounds _ opt o0 dim0 j before u after ha z h
  obtain ⟨l1, l2, l3, l4⟩ := hle mn mx e2 e3
  refine ⟨d, mn, mx, e1, e2, e3, hb _ _ ?_ ?_ ?_ ?_⟩
  · intro k i _
    obtain ⟨h1, h2, h3⟩ := hu k i
    exact (randD_ieee_in_range fm hF (u k i).val _ _ h1 l2 l3 h2 h3 l1 l4).2
  · intro vm hv
    right
    have := hvm vm hv
    show vm.val.neg.le (Fl.fin false 0) = true ∧ (Fl.fin false 0).le vm.val = true
    revert this
    cases vm.val with
    | nan => simp [Fl.lt]
    | inf s => cases s <;> simp [Fl.lt, Fl.le, Fl.neg]
    | fin s n => cases s <;> simp [Fl.lt, Fl.le, Fl.neg, Fl.units]
  · intro y; exact clampPos_ieee fm mn mx y l1
  · intro vm y hv vm' hv'
    rw [hv] at hv'; cases hv'
    rcases clampVel_ieee fm vm y (hvm vm hv) with h | h
    · exact .inl h.1
    · exact .inr h

end

section monotone
variable {A α F : Type} [Add α] [Sub α] [Mul α] [Neg α] [LT α] [DecidableLT α] [Zero α] [LinearOrder F]
variable (rd : α → α → α → α) (opt : FitnessOption)

theorem updatePGBest_not_worse (s t : PSOState (List α) F) (h : updatePGBest opt s = .ok t) :
    ¬ Better opt s.gBest.fitness t.gBest.fitness := by
  unfold updatePGBest at h
  split at h
  · cases h
  · dsimp only at h
    split at h
    · cases h
    · split at h
      · rename_i hb
        cases h
        exact nb_of_better opt ((psoBetter_iff opt _ _).1 hb)
      · cases h; exact nb_refl opt _

theorem psoFull_loop_not_worse (x : PSOFull A α F) (f : List α → F) (rnd : Nat → Nat → α × α) :
    ∀ (fuel gen : Nat) (s : PSOState (List α) F) (record : List F) r,
    PSOFull.loop opt x f rnd fuel gen s record = .ok r →
    ¬ Better opt s.gBest.fitness r.state.gBest.fitness := by
  intro fuel
  induction fuel with
  | zero => intro gen s record r h; cases h
  | succ fuel ih =>
    intro gen s record r h
    simp only [PSOFull.loop] at h
    rw [Out.bind_eq_ok] at h
    obtain ⟨t, ht, h⟩ := h
    have h1 : ¬ Better opt s.gBest.fitness t.gBest.fitness :=
      updatePGBest_not_worse opt (psoComputeAllFitness f s) t ht
    split at h
    · cases h; exact h1
    · split at h
      · cases h; exact h1
      · rw [Out.bind_eq_ok] at h
        obtain ⟨w, hw, h⟩ := h
        have h2 := ih _ _ _ r h
        have hg : w.gBest = t.gBest := by
          unfold PSOFull.updatePopulation at hw
          simp only [Out.bind_eq_ok] at hw
          obtain ⟨_, -, _, -, _, -, hw⟩ := hw
          cases hw; rfl
        rw [hg] at h2
        exact nb_trans opt h1 h2

/-- **C126** (monotonicity).  Between two `initializePop` calls the reported best fitness never gets worse,
whatever else is called: settings, assignments through the references and runs. -/
theorem pso_object_monotone (x z : PSOFull A α F) (cs : List (PSOFullCall A α F))
    (hc : ∀ c ∈ cs, ¬ PSOFullCall.IsInit c) (h : psoFullSession rd opt x cs = .ok z) :
    ¬ Better opt x.st.gBest.fitness z.st.gBest.fitness := by
  induction cs generalizing x with
  | nil => cases h; exact nb_refl opt _
  | cons c cs ih =>
    unfold psoFullSession at h
    rw [List.foldlM_cons, Out.bind_eq_ok] at h
    obtain ⟨y, hy, h⟩ := h
    refine nb_trans opt ?_ (ih y (fun d hd => hc d (by simp [hd])) h)
    have hc := hc c (by simp)
    cases c with
    | setOption K G L o => cases hy; exact nb_refl opt _
    | setfFun f => cases hy; exact nb_refl opt _
    | setArgs a => cases hy; exact nb_refl opt _
    | setDimensions d => simp only [psoFullCall] at hy; split at hy <;> cases hy; exact nb_refl opt _
    | setRange a b =>
      simp only [psoFullCall, PSOFull.setRange] at hy; split at hy <;> cases hy; exact nb_refl opt _
    | setMaxVelocity a =>
      simp only [psoFullCall, PSOFull.setMaxVelocity] at hy; split at hy <;> cases hy; exact nb_refl opt _
    | setPVRange a b v =>
      simp only [psoFullCall, PSOFull.setRange, PSOFull.setMaxVelocity, Out.bind_eq_ok] at hy
      obtain ⟨w, h1, h2⟩ := hy
      split at h1 <;> cases h1
      split at h2 <;> cases h2
      exact nb_refl opt _
    | writePosMin a => cases hy; exact nb_refl opt _
    | writePosMax a => cases hy; exact nb_refl opt _
    | writeMaxVelocity a => cases hy; exact nb_refl opt _
    | initializePop u => exact absurd ⟨u, rfl⟩ hc
    | run rnd =>
      simp only [psoFullCall, PSOFull.run, Out.bind_eq_ok] at hy
      obtain ⟨f, -, r, hr, hy⟩ := hy
      cases hy
      have := psoFull_loop_not_worse opt x f rnd _ _ _ _ r hr
      exact this

end monotone

/-! ### Examples -/

/-- The fitness function `(x - a)^2` of the first coordinate with the argument `a`. -/
def demoArgF : Option (ℚ → List ℚ → ℚ) := some fun a v => (v.getD 0 0 - a) * (v.getD 0 0 - a)

def demoPSOJunk : PSOJunk ℚ ℚ ℚ := ⟨77, ⟨[5, 5, 5], 88⟩, 3, 9⟩

def demoPSOSetup : List (PSOFullCall ℚ ℚ ℚ) :=
  [.setDimensions 2, .setRange (-2) 2, .setMaxVelocity 2, .setfFun demoArgF, .setArgs 1,
    .setOption 2 1 0 ⟨1, 1, 2⟩, .initializePop fun k i => if k = 0 then 0 else 1 / 4]

def demoPSORunCall : PSOFullCall ℚ ℚ ℚ := .run fun _ _ => (1 / 2, 1)

/-- Non-vacuity of `pso_object_feasible`, `pso_object_true_best`, `pso_object_moved` and `pso_object_run`: a
history that returns, with a run that moves the swarm and finds something better. -/
example : ((psoFullSession (fun u a b => randDRange u a b) .lessBetter (.new ⟨4 / 5, 2, 2⟩ none demoPSOJunk)
      (demoPSOSetup ++ [demoPSORunCall])).satisfies fun x =>
      x.generation == 1 && x.record == [4, 1] && x.st.gBest.position == [0, 0] && x.st.swarm.length == 2) = true ∧
    (∀ c ∈ [demoPSORunCall], PSOFullCall.KeepsBox c ∧ PSOFullCall.KeepsFitness c) ∧
    PSOOnlySetters (demoPSOSetup ++ [demoPSORunCall]) ∧
    (∀ k : Nat, (0 : ℚ) ≤ (if k = 0 then 0 else 1 / 4) ∧ (if k = (0 : Nat) then (0 : ℚ) else 1 / 4) < 1) := by
  refine ⟨by decide +kernel, by simp [demoPSORunCall, PSOFullCall.KeepsBox, PSOFullCall.KeepsFitness], ?_, ?_⟩
  · intro c hc x
    simp only [demoPSOSetup, demoPSORunCall, List.cons_append, List.nil_append, List.mem_cons, List.not_mem_nil,
      or_false] at hc
    rcases hc with rfl | rfl | rfl | rfl | rfl | rfl | rfl | rfl <;> simp
  · intro k; split <;> norm_num

/-- **C126** fails without the hypothesis that the box is unchanged: if the range is narrowed between
`initializePop` and `run`, the particles move into the new range, but the reported best stays outside it: it is
`[-1, -1]` although the range in force is `[0, 2]`. -/
theorem pso_narrowed_range_infeasible :
    ((psoFullSession (fun u a b => randDRange u a b) .lessBetter (.new ⟨4 / 5, 2, 2⟩ none demoPSOJunk)
      (demoPSOSetup ++ [.setArgs (-1), .initializePop fun k i => if k = 0 then 0 else 1 / 4, .setRange 0 2,
        demoPSORunCall])).satisfies fun x =>
      x.posMin == some 0 && x.posMax == some 2 && x.generation == 1 && x.st.gBest.position == [-1, -1] &&
      x.st.swarm.map (·.position) == [[0, 0], [0, 0]]) = true := by decide +kernel

/-- **C126**: after a change of the argument without `initializePop` the reported best fitness is the value of the
*old* argument: the reported best `[0, 0]` keeps fitness 1 although its
value is 100 now, and the record of the new run says 1. -/
theorem pso_stale_argument :
    ((psoFullSession (fun u a b => randDRange u a b) .lessBetter (.new ⟨4 / 5, 2, 2⟩ none demoPSOJunk)
      (demoPSOSetup ++ [demoPSORunCall, .setArgs 10, .setOption 2 0 0 ⟨1, 1, 1⟩, demoPSORunCall])).satisfies
      fun x => x.arg == 10 && x.st.gBest.fitness == 1 && x.st.gBest.position == [0, 0] &&
        x.record == [1]) = true := by decide +kernel

/-- Histories that have undefined behaviour: no fitness function; no velocity limit; no range; no dimensions; no
`initializePop`; a null pointer set later. -/
theorem pso_object_undefined_examples :
    ∀ cs ∈ ([[.setDimensions 2, .setRange (-2) 2, .initializePop fun _ _ => 0],
        [.setDimensions 2, .setRange (-2) 2, .setfFun demoArgF, .initializePop fun _ _ => 0, demoPSORunCall],
        [.setDimensions 2, .setMaxVelocity 1, .setfFun demoArgF, .initializePop fun _ _ => 0],
        [.setRange (-2) 2, .setfFun demoArgF, .initializePop fun _ _ => 0],
        [.setDimensions 2, .setPVRange (-2) 2 1, .setfFun demoArgF, demoPSORunCall],
        demoPSOSetup ++ [.setfFun none, demoPSORunCall]] : List (List (PSOFullCall ℚ ℚ ℚ))),
      psoFullSession (fun u a b => randDRange u a b) .lessBetter (.new ⟨4 / 5, 2, 2⟩ none demoPSOJunk) cs = .ub := by
  intro cs hcs
  rw [(pso_object_defined _ _ _ _ _ _).2]
  simp only [List.mem_cons, List.not_mem_nil, or_false] at hcs
  rcases hcs with rfl | rfl | rfl | rfl | rfl | rfl
  · intro h; exact (h [_, _] _ [] rfl).2.2.2.2 rfl
  · intro h; rcases (h [_, _, _, _] _ [] rfl).2.2 with e | e
    · revert e; show ¬ ((300 : Nat) = 0); decide
    · exact e rfl
  · intro h; exact (h [_, _, _] _ [] rfl).2.2.1 rfl
  · intro h; exact (h [_, _] _ [] rfl).2.1 rfl
  · intro h; obtain ⟨c, hc, u, rfl⟩ := (h [_, _, _] _ [] rfl).1
    simp at hc
  · intro h; exact (h (demoPSOSetup ++ [.setfFun none]) demoPSORunCall [] (by simp)).2.1 rfl

/-- The same session on doubles (range `[-2, 2]`, limit 1, two particles, one generation). -/
def demoPSOSetupFl : List (PSOFullCall Unit (Dbl binary64) Nat) :=
  [.setDimensions 2, .setRange ⟨(Fl.ofNat binary64 2).neg⟩ ⟨Fl.ofNat binary64 2⟩,
    .setMaxVelocity ⟨Fl.ofNat binary64 1⟩, .setfFun (some fun _ v => v.length),
    .setOption 2 1 0 demoFactorsFl]

/-- Non-vacuity of `pso_object_feasible_ieee`. -/
example : ((psoFullSession (randDDbl binary64) .lessBetter
      (.new demoFactorsFl none ⟨(), ⟨[], 7⟩, 1, 1⟩)
      (demoPSOSetupFl ++ .initializePop (fun _ _ => ⟨.fin false (1 * 2 ^ (binary64.one - 1))⟩) ::
        [.run fun _ _ => (⟨.fin false 0⟩, ⟨.fin false 0⟩)])).satisfies fun x =>
      x.generation == 1 && x.record == [2, 2]) = true ∧
    UnitDraw binary64 ⟨.fin false (1 * 2 ^ (binary64.one - 1))⟩ ∧
    lastSet psoGiveMin demoPSOSetupFl none = some ⟨(Fl.ofNat binary64 2).neg⟩ ∧
    lastSet psoGiveMax demoPSOSetupFl none = some ⟨Fl.ofNat binary64 2⟩ ∧
    lastSet psoGiveVel demoPSOSetupFl none = some ⟨Fl.ofNat binary64 1⟩ ∧
    (Fl.ofNat binary64 2).neg.le (Fl.ofNat binary64 2) = true ∧
    (Fl.ofNat binary64 2).neg.Finite binary64 ∧ (Fl.ofNat binary64 2).Finite binary64 ∧
    ((⟨Fl.ofNat binary64 2⟩ : Dbl binary64) - ⟨(Fl.ofNat binary64 2).neg⟩).val.Finite binary64 ∧
    (Fl.fin false 0).lt (Fl.ofNat binary64 1) = true := by
  refine ⟨by decide +kernel, ⟨Fl.finite_of _ false 1 (binary64.one - 1) (by decide +kernel) (by decide +kernel),
    by decide +kernel, by decide +kernel⟩, rfl, rfl, rfl, by decide +kernel,
    Fl.finite_of _ true 2 binary64.one (by decide +kernel) (by decide +kernel),
    Fl.finite_of _ false 2 binary64.one (by decide +kernel) (by decide +kernel), ?_, by decide +kernel⟩
  have : ((⟨Fl.ofNat binary64 2⟩ : Dbl binary64) - ⟨(Fl.ofNat binary64 2).neg⟩).val =
      .fin false (4 * 2 ^ binary64.one) := by decide +kernel
  rw [this]
  exact Fl.finite_of _ false 4 binary64.one (by decide +kernel) (by decide +kernel)

end Heu
