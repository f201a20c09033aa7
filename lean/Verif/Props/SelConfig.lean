import Verif.Spec.SelConfig
import Verif.Props.Settings
import Verif.Props.SOPressure

/-!
# C115: parameters of the selection methods
-/

set_option linter.unusedVariables false
set_option linter.unusedSectionVars false

namespace Heu
open Spec

section
variable {κ : Type} [Field κ] [LinearOrder κ] [IsStrictOrderedRing κ]

theorem selCall_ok_iff (s : SelConfig κ) (c : SelCall κ) :
    (∃ t, selCall s c = .ok t) ↔ AllowedSelCall c := by
  cases c with
  | setTournamentSize n => simp only [selCall, AllowedSelCall]; split <;> simp <;> omega
  | writeTournamentSize n => simp [selCall, AllowedSelCall]
  | setLinearSelectProbability w b =>
    simp only [selCall, AllowedSelCall]
    split_ifs with h1 h2 h3
    · exact ⟨fun _ => ⟨h2.1, h1, h3.2⟩, fun _ => ⟨_, rfl⟩⟩
    · exact ⟨fun ⟨t, h⟩ => by simp at h, fun h => absurd ⟨h.2.1.le.trans h.2.2, h.2.2⟩ h3⟩
    · exact ⟨fun ⟨t, h⟩ => by simp at h, fun h => absurd ⟨h.1, h.1.trans h.2.1.le⟩ h2⟩
    · exact ⟨fun ⟨t, h⟩ => by simp at h, fun h => absurd h.2.1 h1⟩
  | setExponetialSelectBase c =>
    simp only [selCall, AllowedSelCall]
    split_ifs with h1 h2
    · exact ⟨fun _ => ⟨h1, h2⟩, fun _ => ⟨_, rfl⟩⟩
    · exact ⟨fun ⟨t, h⟩ => by simp at h, fun h => absurd h.2 h2⟩
    · exact ⟨fun ⟨t, h⟩ => by simp at h, fun h => absurd h.1 h1⟩
  | setBoltzmannSelectStrength b => simp [selCall, AllowedSelCall]
  | setEliteNum n => simp only [selCall, AllowedSelCall]; split <;> simp <;> omega
  | setSelectMethod m => cases m <;> simp [selCall, AllowedSelCall, setSelectMethod]

theorem selCall_changes (s t : SelConfig κ) (c : SelCall κ) (h : selCall s c = .ok t) :
    t.tournamentSize = (giveTournament c).getD s.tournamentSize ∧
    (t.worst, t.best) = (giveLinear c).getD (s.worst, s.best) ∧
    t.base = (giveBase c).getD s.base ∧ t.strength = (giveStrength c).getD s.strength ∧
    t.eliteNum = (giveElite c).getD s.eliteNum ∧ t.method = (giveMethod c).getD s.method := by
  cases c with
  | setTournamentSize n =>
    simp only [selCall] at h; split at h
    · cases h; exact ⟨rfl, rfl, rfl, rfl, rfl, rfl⟩
    · cases h
  | writeTournamentSize n => cases h; exact ⟨rfl, rfl, rfl, rfl, rfl, rfl⟩
  | setLinearSelectProbability w b =>
    simp only [selCall] at h; split_ifs at h
    cases h; exact ⟨rfl, rfl, rfl, rfl, rfl, rfl⟩
  | setExponetialSelectBase c =>
    simp only [selCall] at h; split_ifs at h
    cases h; exact ⟨rfl, rfl, rfl, rfl, rfl, rfl⟩
  | setBoltzmannSelectStrength b => cases h; exact ⟨rfl, rfl, rfl, rfl, rfl, rfl⟩
  | setEliteNum n =>
    simp only [selCall] at h; split at h
    · cases h; exact ⟨rfl, rfl, rfl, rfl, rfl, rfl⟩
    · cases h
  | setSelectMethod m =>
    cases m <;> first
      | (simp only [selCall, setSelectMethod, Out.ok_bind] at h; cases h
         exact ⟨rfl, rfl, rfl, rfl, rfl, rfl⟩)
      | (simp only [selCall, setSelectMethod, Out.ub_bind] at h; cases h)

theorem selFold_spec (cs : List (SelCall κ)) (s : SelConfig κ) :
    ((∃ t, cs.foldlM selCall s = .ok t) ↔ ∀ c ∈ cs, AllowedSelCall c) ∧
    ∀ t, cs.foldlM selCall s = .ok t →
      t.tournamentSize = lastSet giveTournament cs s.tournamentSize ∧
      (t.worst, t.best) = lastSet giveLinear cs (s.worst, s.best) ∧
      t.base = lastSet giveBase cs s.base ∧ t.strength = lastSet giveStrength cs s.strength ∧
      t.eliteNum = lastSet giveElite cs s.eliteNum ∧ t.method = lastSet giveMethod cs s.method := by
  induction cs generalizing s with
  | nil =>
    refine ⟨⟨fun _ c hc => by simp at hc, fun _ => ⟨s, rfl⟩⟩, ?_⟩
    intro t h; cases h
    exact ⟨rfl, rfl, rfl, rfl, rfl, rfl⟩
  | cons c cs ih =>
    rw [List.foldlM_cons]
    refine ⟨⟨?_, ?_⟩, ?_⟩
    · rintro ⟨t, h⟩
      rw [Out.bind_eq_ok] at h
      obtain ⟨a, ha, h⟩ := h
      intro d hd
      rcases List.mem_cons.1 hd with rfl | hd
      · exact (selCall_ok_iff s d).1 ⟨a, ha⟩
      · exact (ih a).1.1 ⟨t, h⟩ d hd
    · intro h
      obtain ⟨a, ha⟩ := (selCall_ok_iff s c).2 (h c (by simp))
      obtain ⟨t, ht⟩ := (ih a).1.2 fun d hd => h d (by simp [hd])
      exact ⟨t, by rw [ha]; exact ht⟩
    · intro t h
      rw [Out.bind_eq_ok] at h
      obtain ⟨a, ha, h⟩ := h
      obtain ⟨a1, a2, a3, a4, a5, a6⟩ := selCall_changes s a c ha
      have := (ih a).2 t h
      rw [a1, a2, a3, a4, a5, a6] at this
      simpa only [lastSet_cons] using this

/-- **C115.**  A history of parameter calls succeeds exactly if every argument is in its documented range
(otherwise an assertion fails). -/
theorem selection_settings_accepted (cs : List (SelCall κ)) :
    (∃ t, selSession cs = .ok t) ↔ ∀ c ∈ cs, AllowedSelCall c :=
  (selFold_spec cs _).1

/-- **C115.**  Afterwards every parameter, and the method, is what was given last for it, or the default if
nothing was given; no other call has any influence on it. -/
theorem selection_settings (cs : List (SelCall κ)) (t : SelConfig κ) (h : selSession cs = .ok t) :
    t.tournamentSize = lastSet giveTournament cs 3 ∧
    (t.worst, t.best) = lastSet giveLinear cs (1 / 10, 9 / 10) ∧
    t.base = lastSet giveBase cs (8 / 10) ∧ t.strength = lastSet giveStrength cs none ∧
    t.eliteNum = lastSet giveElite cs 1 ∧ t.method = lastSet giveMethod cs .EliteReserved :=
  (selFold_spec cs _).2 t h

theorem lastSet_all {C T : Type} (get : C → Option T) (P : T → Prop) (cs : List C) (i : T) (hi : P i)
    (h : ∀ c ∈ cs, ∀ t, get c = some t → P t) : P (lastSet get cs i) := by
  induction cs generalizing i with
  | nil => exact hi
  | cons c cs ih =>
    rw [lastSet_cons]
    refine ih _ ?_ fun d hd => h d (by simp [hd])
    cases hg : get c with
    | none => exact hi
    | some t => exact h c (by simp) t hg

/-- **C115.**  After any accepted history that only uses the setters, the parameters are in their ranges: the
tournament has at least two participants, there is at least one elite, the rank probabilities satisfy
`0 ≤ worst < best ≤ 1`, the base is in `[0,1)`, and the method is one of the ten. -/
theorem selection_settings_in_range (cs : List (SelCall κ)) (hcs : OnlySetters cs) (t : SelConfig κ)
    (h : selSession cs = .ok t) :
    2 ≤ t.tournamentSize ∧ 1 ≤ t.eliteNum ∧ (0 ≤ t.worst ∧ t.worst < t.best ∧ t.best ≤ 1) ∧
    (0 ≤ t.base ∧ t.base < 1) ∧ t.method ≠ .RunTimeSelectMethod := by
  have hal := (selection_settings_accepted cs).1 ⟨t, h⟩
  obtain ⟨h1, h2, h3, -, h5, h6⟩ := selection_settings cs t h
  refine ⟨?_, ?_, ?_, ?_, ?_⟩
  · rw [h1]
    refine lastSet_all _ (fun n => 2 ≤ n) cs 3 (by norm_num) ?_
    intro c hc n hn
    have ha := hal c hc
    cases c with
    | setTournamentSize k => cases hn; exact ha
    | writeTournamentSize k => exact absurd rfl (hcs _ hc k)
    | _ => cases hn
  · rw [h5]
    refine lastSet_all _ (fun n => 1 ≤ n) cs 1 (by norm_num) ?_
    intro c hc n hn
    have ha := hal c hc
    cases c with
    | setEliteNum k => cases hn; exact ha
    | _ => cases hn
  · have := lastSet_all giveLinear (fun p : κ × κ => 0 ≤ p.1 ∧ p.1 < p.2 ∧ p.2 ≤ 1) cs (1 / 10, 9 / 10)
      ⟨by norm_num, by norm_num, by norm_num⟩ (by
        intro c hc n hn
        have ha := hal c hc
        cases c with
        | setLinearSelectProbability w b => cases hn; exact ha
        | _ => cases hn)
    rw [← h2] at this
    exact this
  · rw [h3]
    refine lastSet_all _ (fun n => 0 ≤ n ∧ n < 1) cs _ ⟨by norm_num, by norm_num⟩ ?_
    intro c hc n hn
    have ha := hal c hc
    cases c with
    | setExponetialSelectBase k => cases hn; exact ha
    | _ => cases hn
  · rw [h6]
    refine lastSet_all _ (fun n => n ≠ SelectMethod.RunTimeSelectMethod) cs SelectMethod.EliteReserved (by decide) ?_
    intro c hc n hn
    have ha := hal c hc
    cases c with
    | setSelectMethod k => cases hn; exact ha
    | _ => cases hn

example : ∃ t, selSession (κ := ℚ) [.setTournamentSize 5, .setEliteNum 2, .setTournamentSize 4,
      .setSelectMethod .Tournament, .setLinearSelectProbability 0 1] = .ok t ∧
    t.tournamentSize = 4 ∧ t.eliteNum = 2 ∧ t.worst = 0 ∧ t.best = 1 ∧ t.base = 8 / 10 ∧
    t.method = .Tournament ∧ t.strength = none :=
  ⟨⟨4, 0, 1, 8 / 10, none, 2, .Tournament⟩, by
    simp [selSession, selCall, SelConfig.initial, setSelectMethod, List.foldlM], rfl, rfl, rfl, rfl, rfl,
    rfl, rfl⟩

/-- The range of the tournament size is not enforced for everybody: an assignment through the public
reference `tournamentSize()` is accepted with any value. -/
theorem tournament_size_unchecked :
    ∃ t : SelConfig κ, selSession [.writeTournamentSize 0] = .ok t ∧ t.tournamentSize = 0 :=
  ⟨_, rfl, rfl⟩

/-- **C115** in use: the parameters a selection works with are exactly those given last (or the defaults): the
size of the tournament, the two rank probabilities in their roles, the base, the strength (`junk`, an
indeterminate value, if none was ever given) and the number of elites. -/
theorem selection_uses_settings {γ : Type} (cs : List (SelCall κ)) (t : SelConfig κ)
    (h : selSession cs = .ok t) (junk : κ) (e : SelectEnv γ κ) :
    (t.into junk e).tournamentSize = (lastSet giveTournament cs 3).toNat ∧
    (t.into junk e).worst = (lastSet giveLinear cs (1 / 10, 9 / 10)).1 ∧
    (t.into junk e).best = (lastSet giveLinear cs (1 / 10, 9 / 10)).2 ∧
    (t.into junk e).base = lastSet giveBase cs (8 / 10) ∧
    (t.into junk e).strength = (lastSet giveStrength cs none).getD junk ∧
    (t.into junk e).eliteNum = (lastSet giveElite cs 1).toNat := by
  obtain ⟨h1, h2, h3, h4, h5, -⟩ := selection_settings cs t h
  refine ⟨by rw [← h1]; rfl, by rw [← h2]; rfl, by rw [← h2]; rfl, by rw [← h3]; rfl, by rw [← h4]; rfl,
    by rw [← h5]; rfl⟩

theorem lastSet_append_some {C T : Type} (get : C → Option T) (cs : List C) (c : C) (t : T) (i : T)
    (h : get c = some t) : lastSet get (cs ++ [c]) i = t := by
  induction cs generalizing i with
  | nil => simp [lastSet_cons, h, lastSet]
  | cons d cs ih => rw [List.cons_append, lastSet_cons, ih]

/-- **C115** in use: a Boltzmann selection after `setBoltzmannSelectStrength(b)` is a Boltzmann selection with
strength `b`, whatever was set before. -/
theorem configured_boltzmann {γ : Type} (cs : List (SelCall κ)) (b : κ) (t : SelConfig κ)
    (h : selSession (cs ++ [.setBoltzmannSelectStrength b]) = .ok t) (junk : κ) (o : FitnessOption)
    (fit : γ → κ) (e : SelectEnv γ κ) (K : Nat) (s : SOState γ) :
    runSelect o fit .Boltzmann (t.into junk e) K s =
      runSelect o fit .Boltzmann { e with strength := b } K s := by
  have hs := (selection_uses_settings _ t h junk e).2.2.2.2.1
  rw [lastSet_append_some giveStrength cs _ (some b) none rfl] at hs
  simp only [runSelect]
  rw [hs]
  rfl

/-- **C115** in use: likewise for the rank probabilities, the first argument being the worst one's. -/
theorem configured_linearRank {γ : Type} (cs : List (SelCall κ)) (w b : κ) (t : SelConfig κ)
    (h : selSession (cs ++ [.setLinearSelectProbability w b]) = .ok t) (junk : κ) (o : FitnessOption)
    (fit : γ → κ) (e : SelectEnv γ κ) (K : Nat) (s : SOState γ) :
    runSelect o fit .LinearRank (t.into junk e) K s =
      runSelect o fit .LinearRank { e with worst := w, best := b } K s := by
  obtain ⟨-, h1, h2, -⟩ := selection_uses_settings _ t h junk e
  rw [lastSet_append_some giveLinear cs _ (w, b) _ rfl] at h1 h2
  simp only [runSelect]
  rw [h1, h2]
  rfl

example : ∃ t, selSession (κ := ℚ) ([.setLinearSelectProbability 0 1, .setEliteNum 2] ++
    [.setBoltzmannSelectStrength 7]) = .ok t :=
  ⟨_, by
    simp [selSession, selCall, SelConfig.initial, List.foldlM]; rfl⟩

/-- **C115** in use: however the parameters were set (with the setters, in any order), a selection by
EliteReserved with them eliminates an individual only if one that is not worse survives. -/
theorem configured_elite_keeps_best {γ : Type} (cs : List (SelCall κ)) (hcs : OnlySetters cs)
    (t : SelConfig κ) (h : selSession cs = .ok t) (junk : κ) (o : FitnessOption) (fit : γ → κ)
    (e : SelectEnv γ κ) (hu : ∀ i, (e.ds i).u < 1) (K : Nat) (s s' : SOState γ)
    (hd : DistinctNodes s.pop)
    (hs : runSelect o fit .EliteReserved (t.into junk e) K s = .ok s') :
    ∀ d ∈ s.pop, d ∉ s'.pop → ∃ c ∈ s'.pop, ¬ Better o (fit d.2) (fit c.2) := by
  intro d hd1 hd2
  obtain ⟨l, -, hl, hc⟩ := elites_survive o fit (t.into junk e) hu K s s' hd hs d hd1 hd2
  have he := (selection_settings_in_range cs hcs t h).2.1
  have hl' : l.length = t.eliteNum.toNat := hl
  match l, hl', hc with
  | [], hl', _ => simp at hl'; omega
  | c :: _, _, hc => exact ⟨c, (hc c (by simp)).1, (hc c (by simp)).2⟩

/-- **C115** in use: the parameters never break the preconditions of `select` (the tournament size still has
to be below `populationSize`, which `select` asserts). -/
theorem configured_env_valid {γ : Type} (cs : List (SelCall κ)) (hcs : OnlySetters cs)
    (t : SelConfig κ) (h : selSession cs = .ok t) (junk : κ) (e : SelectEnv γ κ)
    (h1 : ∀ l, (e.shuffle l).Perm l) (h2 : ∀ l, (e.order l).Perm l)
    (h3 : ∀ n k j : Nat, t.tournamentSize < (n : Int) →
      t.tournamentSize ≤ (e.idxB n k j : Int) ∧ e.idxB n k j < n)
    (h4 : 0 ≤ e.u0 ∧ e.u0 < 1) (h5 : ∀ i, 0 ≤ e.u i ∧ e.u i < 1) : ValidEnv (t.into junk e) := by
  have hr := (selection_settings_in_range cs hcs t h).1
  refine ⟨h1, h2, ?_, ?_, h4, h5⟩
  · show 1 ≤ t.tournamentSize.toNat; omega
  · intro n k j hn
    have hn' : t.tournamentSize.toNat < n := hn
    obtain ⟨a, b⟩ := h3 n k j (by omega)
    show t.tournamentSize.toNat ≤ e.idxB n k j ∧ e.idxB n k j < n
    omega

end

/-! ## C84: ExponentialRank with base 0 -/

section
variable {γ α : Type} [Field α] [LinearOrder α] [IsStrictOrderedRing α]

/-- C84: with the smallest base the setter accepts, 0, ExponentialRank does not depend on the draws: it keeps
the `K` best ranks. -/
theorem exponentialRank_base_zero_is_truncation (o : FitnessOption) (fit : γ → α) (e : SelectEnv γ α)
    (hu : ∀ i, 0 ≤ (e.ds i).u ∧ (e.ds i).u < 1) (K : Nat) (hK : 1 ≤ K)
    (s s' : SOState γ) (hd : DistinctNodes s.pop) (hlt : K < s.pop.length) (hb : e.base = 0)
    (h : runSelect o fit .ExponentialRank e K s = .ok s') :
    ∃ ranking : List (Cell γ), ranking.Perm s.pop ∧
      ranking.Pairwise (fun a b => ¬ Better o (fit b.2) (fit a.2)) ∧
      s'.pop.Perm (ranking.take K) := by
  simp only [runSelect, selectExponentialRank] at h
  rw [Out.bind_eq_ok] at h
  obtain ⟨old, hold, h⟩ := h
  rw [if_neg (by omega)] at h
  obtain ⟨S, hSdef⟩ : ∃ S, S = e.sort.run (geneItCompare o fit) s.pop := ⟨_, rfl⟩
  rw [← hSdef] at h
  have hSp : S.Perm s.pop := hSdef ▸ e.sort.perm _ _
  have hSl := hSp.length_eq
  unfold selectByWeights at h
  rw [Out.bind_eq_ok] at h
  obtain ⟨E, hE, h⟩ := h
  obtain ⟨W, hWdef⟩ : ∃ W : List (Cell γ × α), W = S.zipIdx.map
      (fun p => (p.1, (e.base - 1) / (e.base ^ s.pop.length - 1) * e.base ^ p.2)) := ⟨_, rfl⟩
  rw [← hWdef] at hE
  have hfac : (e.base - 1) / (e.base ^ s.pop.length - 1) = 1 := by
    rw [hb, zero_pow (by omega)]
    exact div_self (by norm_num)
  have hWl : W.length = s.pop.length := by rw [hWdef]; simp [hSl]
  have hWmap : W.map (·.1) = S := by
    rw [hWdef]
    exact zipIdx_map_fst S (fun i => (e.base - 1) / (e.base ^ s.pop.length - 1) * e.base ^ i)
  have hWsnd : W.map (·.2) = (List.range s.pop.length).map fun r => e.base ^ r := by
    rw [hWdef]
    apply List.ext_getElem
    · simp [hSl]
    · intro i h1 h2; simp [hfac]
  have hnn : ∀ x ∈ W, 0 ≤ x.2 := by
    intro x hx
    have : x.2 ∈ W.map (·.2) := List.mem_map_of_mem hx
    rw [hWsnd] at this
    obtain ⟨r, -, hr⟩ := List.mem_map.1 this
    rw [← hr, hb]
    exact pow_nonneg le_rfl _
  rw [show s.pop.length - K = (W.drop K).length by rw [List.length_drop, hWl],
    ← List.take_append_drop K W] at hE
  have hEeq := elimLoop_linear hu (T := 1) (pre := W.take K) (suf := W.drop K)
    (by rw [List.take_append_drop]; exact hnn)
    (by
      rw [List.map_take, hWsnd, ← List.map_take, List.take_range, Nat.min_eq_left (by omega)]
      obtain ⟨k, rfl⟩ : ∃ k, K = 1 + k := ⟨K - 1, by omega⟩
      rw [List.range_add, List.map_append, List.sum_append]
      have h0 : 0 ≤ (((List.range k).map (1 + ·)).map fun r => e.base ^ r).sum := by
        apply List.sum_nonneg
        intro x hx
        obtain ⟨r, -, rfl⟩ := List.mem_map.1 hx
        rw [hb]; exact pow_nonneg le_rfl _
      have h1 : ((List.range 1).map fun r => e.base ^ r).sum = 1 := by
        simp
      rw [h1]; linarith) (by simpa using hE)
  refine ⟨S, hSp, hSdef ▸ geneItCompare_sorted o fit e.sort s.pop, ?_⟩
  rw [(finish_spec (o := o) (fit := fit) hd hold h).2, hEeq]
  have := applyErasement_kept hd (es := W) (by rw [hWmap]; exact hSp) (kept := W.take K)
    (left := W.drop K) (by rw [List.take_append_drop])
  rwa [List.map_take, hWmap] at this

end

example : (runSelect .lessBetter (fun g : ℚ => g) .ExponentialRank
      ((SelConfig.mk 3 (1 / 10) (9 / 10) 0 none 1 .ExponentialRank).into 0 (demoEnv ℚ)) 2
      ⟨[(0, 5), (1, 3), (2, 9), (3, 4)], 0, 0⟩).satisfies
    (fun s => decide (s.pop.map (·.1) = [1, 3])) = true := by decide +kernel

end Heu
