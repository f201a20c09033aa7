import Verif.Spec.GAFull
import Verif.Props.Session
import Verif.Props.SelConfig
import Verif.Props.NSGA3Obj

/-! # Lemmas about genetic solver objects -/

set_option linter.unusedSectionVars false
set_option linter.unusedVariables false
set_option linter.unusedSimpArgs false

namespace Heu
open Spec

/-! ### The loop -/

section loop
variable {σ R : Type}

/-- The total solver `P` does the same as `S` whenever `S` is defined. -/
structure OpsRefine (S : GAOps σ R) (P : GASolver σ R) : Prop where
  evaluate : ∀ s t, S.evaluate s = .ok t → t = P.computeAllFitness s
  select : ∀ g s, S.select g s = P.select g s
  crossover : ∀ g s t, S.crossover g s = .ok t → t = P.crossover g s
  mutate : ∀ g s t, S.mutate g s = .ok t → t = P.mutate g s
  bestFitness : ∀ s, S.bestFitness s = P.bestFitness s
  failTimes : ∀ s, S.failTimes s = P.failTimes s

theorem opsLoop_refines {S : GAOps σ R} {P : GASolver σ R} (h : OpsRefine S P) {maxGen maxFail : Nat} :
    ∀ {fuel gen : Nat} {s : σ} {record : List R} {r : RunResult σ R},
      gaOpsLoop true S maxGen maxFail fuel gen s record = .ok r →
      gaLoop P maxGen maxFail fuel gen s record = .ok r := by
  intro fuel
  induction fuel with
  | zero => intro gen s record r hr; simp [gaOpsLoop] at hr
  | succ fuel ih =>
    intro gen s record r hr
    unfold gaOpsLoop at hr
    simp only [Out.bind_eq_ok, if_true] at hr
    obtain ⟨s1, h1, s2, h2, rec', ⟨b, hb, hrec⟩, hr⟩ := hr
    cases hrec
    rw [h.evaluate _ _ h1, h.select] at h2
    rw [h.bestFitness] at hb
    unfold gaLoop
    simp only [h2, Out.ok_bind, hb]
    rw [← h.failTimes]
    by_cases hg : gen + 1 > maxGen
    · rw [if_pos hg] at hr ⊢; exact hr
    · rw [if_neg hg] at hr ⊢
      by_cases hf : maxFail > 0 ∧ S.failTimes s2 > maxFail
      · rw [if_pos hf] at hr ⊢; exact hr
      · rw [if_neg hf] at hr ⊢
        simp only [Out.bind_eq_ok] at hr
        obtain ⟨s3, h3, s4, h4, hr⟩ := hr
        rw [h.crossover _ _ _ h3] at h4
        rw [h.mutate _ _ _ h4] at hr
        exact ih hr

/-- Conversely a run of the total solver is a run of `S` if the operations are defined where they are used. -/
theorem opsLoop_total {S : GAOps σ R} {P : GASolver σ R} (h : OpsRefine S P) (I : σ → Prop)
    (h1 : ∀ s, I s → ∃ t, S.evaluate s = .ok t)
    (h2 : ∀ g s t, I s → P.select g (P.computeAllFitness s) = .ok t →
      (∃ u, S.crossover g t = .ok u) ∧ (∃ u, S.mutate g (P.crossover g t) = .ok u) ∧
        I (P.mutate g (P.crossover g t))) {maxGen maxFail : Nat} :
    ∀ {fuel gen : Nat} {s : σ} {record : List R} {r : RunResult σ R}, I s →
      gaLoop P maxGen maxFail fuel gen s record = .ok r →
      gaOpsLoop true S maxGen maxFail fuel gen s record = .ok r := by
  intro fuel
  induction fuel with
  | zero => intro gen s record r _ hr; simp [gaLoop] at hr
  | succ fuel ih =>
    intro gen s record r hI hr
    unfold gaLoop at hr
    simp only [Out.bind_eq_ok] at hr
    obtain ⟨s2, hs2, b, hb, hr⟩ := hr
    obtain ⟨t, ht⟩ := h1 s hI
    have ht' := h.evaluate _ _ ht
    obtain ⟨⟨u, hu⟩, ⟨w, hw⟩, hI'⟩ := h2 (gen + 1) s s2 hI hs2
    rw [ht'] at ht
    unfold gaOpsLoop
    simp only [ht, Out.ok_bind, h.select, hs2, if_true, h.bestFitness, hb]
    rw [← h.failTimes] at hr
    by_cases hg : gen + 1 > maxGen
    · rw [if_pos hg] at hr ⊢; exact hr
    · rw [if_neg hg] at hr ⊢
      by_cases hf : maxFail > 0 ∧ S.failTimes s2 > maxFail
      · rw [if_pos hf] at hr ⊢; exact hr
      · rw [if_neg hf] at hr ⊢
        have hu' := h.crossover _ _ _ hu
        have hw' := h.mutate _ _ _ hw
        rw [hu'] at hu
        rw [hw'] at hw
        simp only [hu, Out.ok_bind, hw]
        exact ih hI' hr

/-- A run that records and returns also returns without recording, with the same final state after the same number
of generations. -/
theorem opsLoop_record {S : GAOps σ R} {maxGen maxFail : Nat} :
    ∀ {fuel gen : Nat} {s : σ} {record record' : List R} {r : RunResult σ R},
      gaOpsLoop true S maxGen maxFail fuel gen s record = .ok r →
      gaOpsLoop false S maxGen maxFail fuel gen s record' = .ok { r with record := record' } := by
  intro fuel
  induction fuel with
  | zero => intro gen s record record' r hr; simp [gaOpsLoop] at hr
  | succ fuel ih =>
    intro gen s record record' r hr
    unfold gaOpsLoop at hr ⊢
    simp only [Out.bind_eq_ok, if_true] at hr
    obtain ⟨s1, h1, s2, h2, rec', ⟨b, hb, hrec⟩, hr⟩ := hr
    cases hrec
    simp only [h1, Out.ok_bind, h2, Bool.false_eq_true, if_false]
    by_cases hg : gen + 1 > maxGen
    · rw [if_pos hg] at hr ⊢; cases hr; rfl
    · rw [if_neg hg] at hr ⊢
      by_cases hf : maxFail > 0 ∧ S.failTimes s2 > maxFail
      · rw [if_pos hf] at hr ⊢; cases hr; rfl
      · rw [if_neg hf] at hr ⊢
        simp only [Out.bind_eq_ok] at hr
        obtain ⟨s3, h3, s4, h4, hr⟩ := hr
        simp only [h3, Out.ok_bind, h4]
        exact ih hr

/-- The loop only depends on what the operations do to the states it meets. -/
theorem opsLoop_congr {rec : Bool} {S T : GAOps σ R} (h1 : S.evaluate = T.evaluate) (h2 : S.select = T.select)
    (h3 : S.crossover = T.crossover) (h4 : S.mutate = T.mutate) (h5 : S.bestFitness = T.bestFitness)
    (h6 : S.failTimes = T.failTimes) : S = T := by
  cases S; cases T; simp_all

theorem opsLoop_zero {rec : Bool} {S T : GAOps σ R} (h1 : S.evaluate = T.evaluate) (h2 : S.select = T.select)
    (h5 : S.bestFitness = T.bestFitness) (h6 : S.failTimes = T.failTimes) (maxFail : Nat) (s : σ)
    (record : List R) :
    gaOpsLoop rec S 0 maxFail 1 0 s record = gaOpsLoop rec T 0 maxFail 1 0 s record := by
  simp only [gaOpsLoop, h1, h2, h5, Nat.zero_add, gt_iff_lt, Nat.lt_one_iff, if_true]

end loop

/-! ### The operations -/

section ops
variable {κ A Ω V F : Type}

/-- The functions the pointers refer to, with arbitrary functions for null pointers. -/
def pureCx (x : GACore κ A Ω V F) (d : VaryDraw κ Ω V F) : Nat → V → V → V × V :=
  fun n => match x.cFun with
    | some f => f x.arg (d.cxW n)
    | none => fun a b => (a, b)

def pureMu (x : GACore κ A Ω V F) (d : VaryDraw κ Ω V F) : Nat → V → V :=
  fun n => match x.mFun with
    | some f => f x.arg (d.muW n)
    | none => id

variable [LinearOrder κ]

/-- The draws of one generation as the total solvers have them. -/
def pureVary (x : GACore κ A Ω V F) (d : VaryDraw κ Ω V F) : VaryEnv V F where
  cx := pureCx x d
  cxSel := fun a => decide (d.cxU a ≤ x.cxProb)
  cxShuffle := d.cxShuffle
  mu := pureMu x d
  muSel := fun a => decide (d.muU a ≤ x.muProb)
  junk := d.junk

theorem computeAllFitness_done {f : V → F} {pop : Pop (Gene V F)} (h : pop.all (fun c => c.2.computed) = true) :
    computeAllFitness f pop = pop := by
  unfold computeAllFitness
  conv_rhs => rw [← List.map_id pop]
  refine List.map_congr_left fun c hc => ?_
  have := List.all_eq_true.1 h c hc
  simp [evalGene, this]

theorem core_evaluate {x : GACore κ A Ω V F} {f : V → F} (hf : ∀ g, x.fFun = some g → f = g x.arg)
    {pop t : Pop (Gene V F)} (h : x.evaluate pop = .ok t) : t = computeAllFitness f pop := by
  unfold GACore.evaluate at h
  split at h
  · next hc => cases h; exact (computeAllFitness_done hc).symm
  · cases hg : x.fFun with
    | none => rw [hg] at h; simp [readMember] at h
    | some g =>
      rw [hg] at h
      simp only [readMember, Out.ok_bind] at h
      rw [hf g hg]; exact (Out.ok.inj h).symm

theorem core_evaluate_ok {x : GACore κ A Ω V F} (h : x.fFun ≠ none) (pop : Pop (Gene V F)) :
    ∃ t, x.evaluate pop = .ok t := by
  obtain ⟨g, hg⟩ := Option.ne_none_iff_exists'.1 h
  unfold GACore.evaluate
  split
  · exact ⟨_, rfl⟩
  · simp only [hg, readMember, Out.ok_bind]; exact ⟨_, rfl⟩

theorem crossover_few {junk : F} {cx : Nat → V → V → V × V} {sel : Addr → Bool}
    {shuffle : List (Cell (Gene V F)) → List (Cell (Gene V F))} {pop : Pop (Gene V F)}
    (h : (shuffle (pop.filter fun c => sel c.1)).length < 2) : Heu.crossover junk cx sel shuffle pop = pop := by
  unfold Heu.crossover
  dsimp only
  generalize shuffle (pop.filter fun c => sel c.1) = q at h
  match q, h with
  | [], _ => simp [crossoverLoop]
  | [a], _ => simp [crossoverLoop]
  | a :: b :: l, h => simp at h

theorem core_crossover {x : GACore κ A Ω V F} {d : VaryDraw κ Ω V F} {pop t : Pop (Gene V F)}
    (h : x.crossover d pop = .ok t) :
    t = Heu.crossover (pureVary x d).junk (pureVary x d).cx (pureVary x d).cxSel (pureVary x d).cxShuffle pop := by
  unfold GACore.crossover at h
  split at h
  · next hc =>
    cases h
    exact (crossover_few hc).symm
  · cases hg : x.cFun with
    | none => rw [hg] at h; simp [readMember] at h
    | some g =>
      rw [hg] at h
      simp only [readMember, Out.ok_bind] at h
      rw [← Out.ok.inj h]
      have : pureCx x d = fun n => g x.arg (d.cxW n) := by funext n; simp only [pureCx, hg]
      simp only [pureVary, this]

theorem core_crossover_ok {x : GACore κ A Ω V F} (h : x.cFun ≠ none) (d : VaryDraw κ Ω V F)
    (pop : Pop (Gene V F)) : ∃ t, x.crossover d pop = .ok t := by
  obtain ⟨g, hg⟩ := Option.ne_none_iff_exists'.1 h
  unfold GACore.crossover
  split
  · exact ⟨_, rfl⟩
  · simp only [hg, readMember, Out.ok_bind]; exact ⟨_, rfl⟩

variable [Ring κ]

theorem mutate_none {junk : F} {mu : Nat → V → V} {sel : Addr → Bool} {pop : Pop (Gene V F)}
    (h : (pop.all fun c => !sel c.1) = true) : Heu.mutate junk mu sel pop = pop := by
  have : pop.filter (fun c => sel c.1) = [] := by
    rw [List.filter_eq_nil_iff]
    intro c hc
    have := List.all_eq_true.1 h c hc
    simpa using this
  unfold Heu.mutate
  simp [this]

theorem core_mutate {cap : Nat} {x : GACore κ A Ω V F} {d : VaryDraw κ Ω V F} {pop t : Pop (Gene V F)}
    (h : x.mutate cap d pop = .ok t) :
    t = Heu.mutate (pureVary x d).junk (pureVary x d).mu (pureVary x d).muSel pop := by
  unfold GACore.mutate at h
  split at h
  · split at h
    · next hc =>
      cases h
      exact (mutate_none hc).symm
    · cases hg : x.mFun with
      | none => rw [hg] at h; simp [readMember] at h
      | some g =>
        rw [hg] at h
        simp only [readMember, Out.ok_bind] at h
        rw [← Out.ok.inj h]
        have : pureMu x d = fun n => g x.arg (d.muW n) := by funext n; simp only [pureMu, hg]
        simp only [pureVary, this]
  · cases h

theorem core_mutate_ok {cap : Nat} {x : GACore κ A Ω V F} (h : x.mFun ≠ none) (d : VaryDraw κ Ω V F)
    (pop : Pop (Gene V F))
    (hp : -1 < (pop.length : κ) * x.muProb * 2 ∧ (pop.length : κ) * x.muProb * 2 < (cap : κ) + 1) :
    ∃ t, x.mutate cap d pop = .ok t := by
  obtain ⟨g, hg⟩ := Option.ne_none_iff_exists'.1 h
  unfold GACore.mutate
  rw [if_pos hp]
  split
  · exact ⟨_, rfl⟩
  · simp only [hg, readMember, Out.ok_bind]; exact ⟨_, rfl⟩

/-- `initializePop` does what the total one does with an initialiser that depends on the position only. -/
theorem core_init {x : GACore κ A Ω V F} {w : Nat → Ω} {blank : Gene V F} {pop t : Pop (Gene V F)}
    (v0 : V) (h : x.initializePop w blank pop = .ok t) :
    ∃ init : Nat → V, t = reinitializePop x.K init blank pop ∧
      ∀ f, x.iFun = some f → ∀ (i : Nat) c, (resizePop x.K blank pop)[i]? = some c →
        init i = f x.arg (w i) c.2.var := by
  unfold GACore.initializePop at h
  dsimp only at h
  split at h
  · next he =>
    cases h
    refine ⟨fun _ => v0, ?_, ?_⟩
    · unfold reinitializePop; rw [he]; rfl
    · intro f _ i c hc; rw [he] at hc; simp at hc
  · cases hg : x.iFun with
    | none => rw [hg] at h; simp [readMember] at h
    | some f =>
      rw [hg] at h
      simp only [readMember, Out.ok_bind] at h
      have h' := Out.ok.inj h
      refine ⟨fun i => f x.arg (w i) (((resizePop x.K blank pop)[i]?.map (·.2.var)).getD v0), ?_, ?_⟩
      · rw [← h']
        unfold reinitializePop
        refine List.map_congr_left fun p hp => ?_
        have := (List.mk_mem_zipIdx_iff_getElem? (x := p.1) (i := p.2)).1 hp
        simp [this]
      · intro f' hf' i c hc
        cases hf'
        simp [hc]

end ops

end Heu
