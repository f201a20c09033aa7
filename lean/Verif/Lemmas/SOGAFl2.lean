import Verif.Lemmas.SOGAFl

/-! Single-objective selection on IEEE data: whatever a method returns is right. -/

set_option linter.unusedSectionVars false
set_option linter.unusedSimpArgs false
set_option linter.unusedVariables false

namespace Heu
open Spec

variable {γ : Type} {F : Fmt}

/-! ### order-only parts -/

section transfer
variable {α β : Type} [LT α] [DecidableLT α] [LT β] [DecidableLT β]
  (o : FitnessOption) (f : γ → α) (g : γ → β)

theorem foldBest_transfer (l : List (Cell γ)) (c : Cell γ)
    (h : ∀ x ∈ c :: l, ∀ y ∈ c :: l, isBetter o (f x.2) (f y.2) = isBetter o (g x.2) (g y.2)) :
    l.foldl (fun b x => if isBetter o (f x.2) (f b.2) then x else b) c =
      l.foldl (fun b x => if isBetter o (g x.2) (g b.2) then x else b) c := by
  induction l generalizing c with
  | nil => rfl
  | cons x l ih =>
    simp only [List.foldl_cons]
    rw [h x (by simp) c (by simp)]
    apply ih
    intro y hy z hz
    have : ∀ y, y ∈ (if isBetter o (g x.2) (g c.2) = true then x else c) :: l → y ∈ c :: x :: l := by
      intro y hy
      rcases List.mem_cons.1 hy with rfl | hy
      · split <;> simp
      · simp [hy]
    exact h y (this y hy) z (this z hz)

theorem findBest_transfer (l : Pop γ)
    (h : ∀ x ∈ l, ∀ y ∈ l, isBetter o (f x.2) (f y.2) = isBetter o (g x.2) (g y.2)) :
    findCurrentBestGene o f l = findCurrentBestGene o g l := by
  cases l with
  | nil => rfl
  | cons c cs =>
    unfold findCurrentBestGene geneItCompare
    simp only
    rw [foldBest_transfer o f g (c :: cs) c (fun x hx y hy => h x (by simpa using hx) y (by simpa using hy))]

theorem tbest_transfer (TS : Nat) (l : List (Cell γ))
    (h : ∀ x ∈ l, ∀ y ∈ l, isBetter o (f x.2) (f y.2) = isBetter o (g x.2) (g y.2)) :
    tournamentBest o f TS l = tournamentBest o g TS l := by
  cases l with
  | nil => rfl
  | cons c cs =>
    unfold tournamentBest
    simp only
    split
    · rfl
    · rw [foldBest_transfer o f g (cs.take (TS - 1)) c]
      intro x hx y hy
      have : ∀ y, y ∈ c :: cs.take (TS - 1) → y ∈ c :: cs := fun y hy =>
        List.Sublist.subset ((List.take_sublist _ _).cons_cons c) hy
      exact h x (this x hx) y (this y hy)

theorem play_transfer (TS : Nat) (idxB : Nat → Nat → Nat) (K : Nat) (l : List (Cell γ))
    (h : ∀ x ∈ l, ∀ y ∈ l, isBetter o (f x.2) (f y.2) = isBetter o (g x.2) (g y.2)) :
    tournamentPlay o f TS idxB K l = tournamentPlay o g TS idxB K l ∧
      ∀ ws l', tournamentPlay o f TS idxB K l = .ok (ws, l') → l'.Perm l := by
  induction K with
  | zero => exact ⟨rfl, fun ws l' e => by simp [tournamentPlay] at e; rw [e.2]⟩
  | succ K ih =>
    obtain ⟨ih1, ih2⟩ := ih
    unfold tournamentPlay
    rw [← ih1]
    cases e : tournamentPlay o f TS idxB K l with
    | ub => simp
    | timeout => simp
    | ok r =>
      obtain ⟨ws, l'⟩ := r
      have hp := ih2 ws l' e
      simp only [Out.ok_bind]
      rw [tbest_transfer o f g TS l' (fun x hx y hy => h x (hp.mem_iff.1 hx) y (hp.mem_iff.1 hy))]
      refine ⟨rfl, ?_⟩
      intro ws2 l2 h2
      obtain ⟨w, -, h2⟩ := Out.bind_eq_ok.1 h2
      obtain ⟨l3, h3, h2⟩ := Out.bind_eq_ok.1 h2
      simp only [Out.ok.injEq, Prod.mk.injEq] at h2
      obtain ⟨-, rfl⟩ := h2
      exact (mix_ok h3).trans hp

end transfer

section order
variable (o : FitnessOption) (fit : γ → Dbl F)

theorem agree {pop : Pop γ} (hn : ∀ c ∈ pop, (fit c.2).val ≠ .nan) :
    ∀ x ∈ pop, ∀ y ∈ pop, isBetter o (fit x.2) (fit y.2) = isBetter o (fitExt fit x.2) (fitExt fit y.2) :=
  fun x hx y hy => isBetter_fl o (hn x hx) (hn y hy)

theorem tournament_fl {shuffle order : List (Cell γ) → List (Cell γ)} (hsh : ∀ l, (shuffle l).Perm l)
    {TS : Nat} {idxB : Nat → Nat → Nat} {K : Nat} {s : SOState γ}
    (hn : ∀ c ∈ s.pop, (fit c.2).val ≠ .nan) :
    selectTournament o fit shuffle TS idxB order K s =
      selectTournament o (fitExt fit) shuffle TS idxB order K s := by
  unfold selectTournament
  split
  · rfl
  · rcases deref_ok_or_ub s.pop s.best with ⟨old, hold⟩ | hub
    · have hob : (fit old).val ≠ .nan := hn _ (deref_ok hold)
      have hu : ∀ (s₁ : SOState γ) (b : Cell γ), (fit b.2).val ≠ .nan →
          updateFail o fit s₁ b (fit old) = updateFail o (fitExt fit) s₁ b (fitExt fit old) :=
        fun s₁ b hb => updateFail_fl o fit hb hob
      rw [hold]
      simp only [Out.ok_bind]
      split
      · unfold keepAll
        rw [findBest_transfer o fit (fitExt fit) _ (agree o fit hn)]
        cases hb : findCurrentBestGene o (fitExt fit) s.pop with
        | ub => rfl
        | timeout => rfl
        | ok b => simp only [Out.ok_bind]; rw [hu _ _ (hn b (findBest_ok hb).1)]
      · have hm : ∀ x ∈ shuffle s.pop, x ∈ s.pop := fun x hx => (hsh _).mem_iff.1 hx
        rw [(play_transfer o fit (fitExt fit) TS idxB K (shuffle s.pop)
          (fun x hx y hy => agree o fit hn x (hm x hx) y (hm y hy))).1]
        cases hp : tournamentPlay o (fitExt fit) TS idxB K (shuffle s.pop) with
        | ub => rfl
        | timeout => rfl
        | ok r =>
          simp only [Out.ok_bind]
          obtain ⟨ws, l⟩ := r
          simp only
          have hk : ∀ c ∈ s.pop.filter (fun c => decide ((ws.map (·.1)).count c.1 > 0)),
              (fit c.2).val ≠ .nan := fun c hc => hn c (List.mem_filter.1 hc).1
          rw [findBest_transfer o fit (fitExt fit) _ (agree o fit hk)]
          cases hb : findCurrentBestGene o (fitExt fit)
              (s.pop.filter (fun c => decide ((ws.map (·.1)).count c.1 > 0))) with
          | ub => rfl
          | timeout => rfl
          | ok b => simp only [Out.ok_bind]; rw [hu _ _ (hk b (findBest_ok hb).1)]
    · rw [hub]; rfl

variable [DecidableEq γ]

/-- `std::sort` on one particular range as a sorter. -/
def rangeSorter {G : Type} [DecidableEq G] (sort : Sorter G) (l₀ : List G) : Sorter G where
  run lt l := if l = l₀ then sort.run (onRange lt l) l else sort.run lt l
  perm lt l := by split <;> exact sort.perm _ _
  sorted lt l h1 h2 h3 := by
    split
    · have hs : StrictWeakOn lt l := ⟨fun a _ => h1 a, fun a _ b _ c _ => h2 a b c, fun a _ b _ c _ => h3 a b c⟩
      obtain ⟨l', e, -, e'⟩ := sortRange_ok sort hs
      simp only [sortRange, hs, if_true, Out.ok.injEq] at e
      rw [e]; exact e'
    · exact sort.sorted lt l h1 h2 h3

theorem strictWeak_fit {l : List (Cell γ)} (hn : ∀ c ∈ l, (fit c.2).val ≠ .nan) :
    StrictWeakOn (geneItCompare o fit) l := by
  have hb : ∀ x ∈ l, ∀ y ∈ l, geneItCompare o fit x y = geneItCompare o (fitExt fit) x y := agree o fit hn
  refine ⟨?_, ?_, ?_⟩
  · intro a ha
    rw [hb a ha a ha]; unfold geneItCompare
    rw [isBetter_false_iff]; exact better_irrefl _ _
  · intro a ha b hb' c hc
    rw [hb a ha b hb', hb b hb' c hc, hb a ha c hc]
    unfold geneItCompare
    rw [isBetter_iff, isBetter_iff, isBetter_iff]
    exact fun h1 h2 => Better.trans h1 h2
  · intro a ha b hb' c hc
    rw [hb a ha b hb', hb b hb' c hc, hb a ha c hc]
    unfold geneItCompare
    rw [isBetter_false_iff, isBetter_false_iff, isBetter_false_iff]
    exact fun h1 h2 => not_better_trans h1 h2

theorem sortRange_fl (sort : Sorter (Cell γ)) {l : List (Cell γ)} (hn : ∀ c ∈ l, (fit c.2).val ≠ .nan) :
    sortRange sort (geneItCompare o fit) l =
      .ok ((rangeSorter sort l).run (geneItCompare o (fitExt fit)) l) := by
  have h := strictWeak_fit o fit hn
  simp only [sortRange, h, if_true, rangeSorter, Out.ok.injEq]
  congr 1
  funext a b
  unfold onRange
  split
  · split
    · exact agree o fit hn a (by assumption) b (by assumption)
    · rfl
  · rfl

theorem updateFail1_fl {s : SOState γ} {b : Cell γ} (hn : ∀ c ∈ s.pop, (fit c.2).val ≠ .nan)
    (hb : (fit b.2).val ≠ .nan) : updateFail1 o fit s b = updateFail1 o (fitExt fit) s b := by
  unfold updateFail1
  rcases deref_ok_or_ub s.pop s.best with ⟨old, hold⟩ | hub
  · rw [hold]; simp only [Out.ok_bind]
    rw [updateFail_fl o fit hb (hn _ (deref_ok hold))]; rfl
  · rw [hub]; rfl

theorem truncation_fl {sort : Sorter (Cell γ)} {K : Nat} {s : SOState γ}
    (hn : ∀ c ∈ s.pop, (fit c.2).val ≠ .nan) :
    selectTruncationFl o fit sort K s = selectTruncation o (fitExt fit) (rangeSorter sort s.pop) K s := by
  unfold selectTruncationFl selectTruncation
  rw [sortRange_fl o fit sort hn]
  simp only [Out.ok_bind]
  have hp := (rangeSorter sort s.pop).perm (geneItCompare o (fitExt fit)) s.pop
  split
  · rename_i h; simp only [h]
  · rename_i b l h
    simp only [h]
    apply updateFail1_fl
    · intro c hc; exact hn c (List.mem_filter.1 hc).1
    · apply hn
      apply hp.mem_iff.1
      exact (List.take_sublist K _).subset (by rw [h]; simp)

end order

/-! ### the loops -/

theorem rouletteStep_shrinks_fl {β : Type} {u : Dbl F} {st st' : Dbl F × List (β × Dbl F)}
    (h : rouletteStep u st = .ok st') : st'.2.Sublist st.2 ∧ st.2.length ≤ st'.2.length + 1 := by
  unfold rouletteStep at h
  simp only at h
  cases hr : rouletteErase ((st.1 - 0) * u + 0) st.2 with
  | some p =>
    rw [hr] at h
    simp only [Out.ok.injEq] at h; subst h
    obtain ⟨x, -, hx2, hx3⟩ := rouletteErase_some hr
    refine ⟨hx2, ?_⟩
    have := hx3.length_eq; simp at this; simp; omega
  | none =>
    rw [hr] at h
    simp only at h
    split at h
    · split at h
      · simp only [Out.ok.injEq] at h; subst h
        exact ⟨List.dropLast_sublist _, by simp; omega⟩
      · cases h
    · simp only [Out.ok.injEq] at h; subst h
      exact ⟨List.Sublist.refl _, by omega⟩

section weights
variable (o : FitnessOption) (fit : γ → Dbl F)

theorem finish_inv {s s' : SOState γ} {old : γ} {E : List (Cell γ × Dbl F)} (hd : DistinctNodes s.pop)
    (hn : ∀ c ∈ s.pop, (fit c.2).val ≠ .nan) (hold : deref s.pop s.best = .ok old)
    (hE : (E.map (·.1)).Subperm s.pop) (h : finish o fit s E (fit old) = .ok s') :
    SelectSpec o (fitExt fit) s s' ∧ s'.pop = applyErasement s.pop E ∧
      s'.pop.length + E.length = s.pop.length := by
  have hlen := applyErasement_length hd hE
  have hlt : E.length < s.pop.length := by
    by_contra hc
    have : applyErasement s.pop E = [] := List.length_eq_zero_iff.1 (by omega)
    unfold finish at h
    simp only [this, findCurrentBestGene] at h
    cases h
  obtain ⟨s₁, h1, h2, h3, h4⟩ := finish_fl o fit hd hn hold hE hlt
  rw [h] at h1; cases h1
  exact ⟨h2, h3, h4⟩

theorem byWeightsFl_inv {ds : Nat → RouletteDraw (Dbl F)} {fuel K : Nat} {s s' : SOState γ} {old : γ}
    {rMax : Dbl F} {es : List (Cell γ × Dbl F)} (hd : DistinctNodes s.pop)
    (hn : ∀ c ∈ s.pop, (fit c.2).val ≠ .nan) (hold : deref s.pop s.best = .ok old)
    (hK : K < s.pop.length) (hp : (es.map (·.1)).Perm s.pop)
    (h : selectByWeightsFl o fit ds fuel K s old rMax es = .ok s') :
    SelectSpec o (fitExt fit) s s' ∧ s'.pop.length = K := by
  unfold selectByWeightsFl at h
  obtain ⟨E, hE, h⟩ := Out.bind_eq_ok.1 h
  obtain ⟨e1, e2, e3⟩ := elimLoop_ok (fun it st st' hm hs => rouletteStep_shrinks_fl hs) hE
  have hl : es.length = s.pop.length := by rw [← List.length_map (f := (·.1)), hp.length_eq]
  obtain ⟨h1, -, h3⟩ := finish_inv o fit hd hn hold (sub_of_perm hp e1) h
  refine ⟨h1, ?_⟩
  have := e2 (by simp only; omega)
  omega

theorem byWeightsFl_total {ds : Nat → RouletteDraw (Dbl F)} {fuel K k0 e : Nat} {s : SOState γ} {old : γ}
    {rMax : Dbl F} {es : List (Cell γ × Dbl F)} (hd : DistinctNodes s.pop)
    (hn : ∀ c ∈ s.pop, (fit c.2).val ≠ .nan) (hold : deref s.pop s.best = .ok old) (hK0 : 0 < K)
    (hK : K < s.pop.length) (hf : K ≤ fuel) (hp : (es.map (·.1)).Perm s.pop)
    (hu : ∀ i, (ds i).u.IsFin) (hk : k0 + s.pop.length < 2 ^ (F.mb + 1))
    (ht : (k0 + s.pop.length) * 2 ^ e < 2 ^ F.top) (h1 : Small F k0 e rMax.val)
    (hw : ∀ x ∈ es, Small F 1 e x.2.val) :
    ∃ s', selectByWeightsFl o fit ds fuel K s old rMax es = .ok s' := by
  have hl : es.length = s.pop.length := by rw [← List.length_map (f := (·.1)), hp.length_eq]
  obtain ⟨E, hE, e1, e2⟩ := wheel_fl (m := s.pop.length - K) hu hk ht h1 (le_of_eq hl) hw (fuel := fuel)
    (by omega)
  have := e2 (by omega)
  obtain ⟨s', h, -⟩ := finish_fl o fit hd hn hold (sub_of_perm hp e1) (by omega)
  refine ⟨s', ?_⟩
  unfold selectByWeightsFl
  rw [hE]; exact h

/-- The methods that turn a wheel over given weights. -/
theorem weightedFl_inv {ds : Nat → RouletteDraw (Dbl F)} {fuel K : Nat} {s s' : SOState γ}
    {rMax : Dbl F} {es : List (Cell γ × Dbl F)} (hd : DistinctNodes s.pop)
    (hn : ∀ c ∈ s.pop, (fit c.2).val ≠ .nan) (hp : (es.map (·.1)).Perm s.pop)
    (h : (deref s.pop s.best >>= fun old =>
      if s.pop.length ≤ K then keepAll o fit s (fit old)
      else selectByWeightsFl o fit ds fuel K s old rMax es) = .ok s') :
    SelectSpec o (fitExt fit) s s' ∧ s'.pop.length = min K s.pop.length := by
  obtain ⟨old, hold, h⟩ := Out.bind_eq_ok.1 h
  split at h
  · obtain ⟨s₁, h1, h2, h3⟩ := keepAll_fl o fit hd hn hold
    rw [h] at h1; cases h1
    exact ⟨h2, by rw [h3]; omega⟩
  · obtain ⟨h1, h2⟩ := byWeightsFl_inv o fit hd hn hold (by omega) hp h
    exact ⟨h1, by omega⟩

theorem shiftedSpaceFl_map (mn : List (Dbl F) → Dbl F) (l : List (Cell γ)) :
    (shiftedSpaceFl mn o fit l).2.map (·.1) = l := by
  unfold shiftedSpaceFl
  simp only [List.map_map]
  show l.map (fun c => c) = l
  simp

theorem rouletteFl_inv [DecidableEq γ] {ds : Nat → RouletteDraw (Dbl F)} {fuel K : Nat} {s s' : SOState γ}
    (hd : DistinctNodes s.pop) (hn : ∀ c ∈ s.pop, (fit c.2).val ≠ .nan)
    (h : selectRouletteFl o fit ds fuel K s = .ok s') :
    SelectSpec o (fitExt fit) s s' ∧ s'.pop.length = min K s.pop.length := by
  unfold selectRouletteFl at h
  obtain ⟨old, hold, h⟩ := Out.bind_eq_ok.1 h
  split at h
  · obtain ⟨s₁, h1, h2, h3⟩ := keepAll_fl o fit hd hn hold
    rw [h] at h1; cases h1
    exact ⟨h2, by rw [h3]; omega⟩
  · obtain ⟨E, hE, h⟩ := Out.bind_eq_ok.1 h
    obtain ⟨e1, e2, e3⟩ := elimLoop_ok (fun it st st' hm hs => by
      split at hs
      · exact rouletteStep_shrinks_fl hs
      · simp only [Out.ok.injEq] at hs; subst hs
        obtain ⟨r1, r2, -⟩ := randomPass_spec (ds it).hit 0 st.2
        exact ⟨r1, r2⟩) hE
    have hp := shiftedSpaceFl_map o fit minFl s.pop
    have hl : (shiftedSpaceFl minFl o fit s.pop).2.length = s.pop.length := by
      rw [← List.length_map (f := (·.1)), hp]
    obtain ⟨h1, -, h3⟩ := finish_inv o fit hd hn hold (sub_of_perm (by rw [hp]) e1) h
    refine ⟨h1, ?_⟩
    have := e2 (by omega)
    omega

theorem susFl_inv [DecidableEq γ] {u0 : Dbl F} {u : Nat → Dbl F} {K : Nat} {s s' : SOState γ}
    (hd : DistinctNodes s.pop) (hn : ∀ c ∈ s.pop, (fit c.2).val ≠ .nan)
    (h : selectSUSFl o fit u0 u K s = .ok s') :
    SelectSpec o (fitExt fit) s s' := by
  unfold selectSUSFl at h
  obtain ⟨old, hold, h⟩ := Out.bind_eq_ok.1 h
  split at h
  · obtain ⟨s₁, h1, h2, h3⟩ := keepAll_fl o fit hd hn hold
    rw [h] at h1; cases h1
    exact h2
  · have hp := shiftedSpaceFl_map o fit minFl s.pop
    refine (finish_inv o fit hd hn hold (sub_of_perm (es := (shiftedSpaceFl minFl o fit s.pop).2)
      (by rw [hp]) ?_) h).1
    split
    · exact susEqualPass_sublist _ _ _ _
    · exact (List.take_sublist _ _).trans (susPass_sublist _ _ _)

theorem eliteFl_inv [DecidableEq γ] {sort : Sorter (Cell γ)} {eliteNum : Nat} {ds : Nat → RouletteDraw (Dbl F)}
    {fuel K : Nat} {s s' : SOState γ} (hd : DistinctNodes s.pop)
    (hn : ∀ c ∈ s.pop, (fit c.2).val ≠ .nan)
    (h : selectEliteFl o fit sort eliteNum ds fuel K s = .ok s') :
    SelectSpec o (fitExt fit) s s' ∧ s'.pop.length = min s.pop.length (max K eliteNum) := by
  unfold selectEliteFl at h
  split at h
  · obtain ⟨b, hb, h⟩ := Out.bind_eq_ok.1 h
    rw [findBest_fl o fit hn] at hb
    have hu := findBest_ok hb
    rw [updateFail1_fl o fit hn (hn b hu.1)] at h
    obtain ⟨h1, h2, -, -⟩ := tail1_spec o (fitExt fit) (s := s) (pop' := s.pop) hd hd (fun c hc => hc) hu h
    exact ⟨h1, by rw [h2]; omega⟩
  · rw [sortRange_fl o fit sort hn] at h
    simp only [Out.ok_bind] at h
    obtain ⟨E, hE, h⟩ := Out.bind_eq_ok.1 h
    obtain ⟨b, hb, h⟩ := Out.bind_eq_ok.1 h
    obtain ⟨S, hS⟩ : ∃ S, S = (rangeSorter sort s.pop).run (geneItCompare o (fitExt fit)) s.pop := ⟨_, rfl⟩
    rw [← hS] at hE
    have hSp : S.Perm s.pop := hS ▸ (rangeSorter sort s.pop).perm _ _
    obtain ⟨e1, e2, e3⟩ := elimLoop_ok (fun it st st' hm hs => by
      split at hs
      · simp only [Out.ok.injEq] at hs; subst hs
        obtain ⟨r1, r2, -⟩ := randomPass_spec (ds it).hit 0 st.2
        exact ⟨r1, r2⟩
      · exact rouletteStep_shrinks_fl hs) hE
    have hp := shiftedSpaceFl_map o fit minFl (S.drop eliteNum)
    have hl : (shiftedSpaceFl minFl o fit (S.drop eliteNum)).2.length = s.pop.length - eliteNum := by
      rw [← List.length_map (f := (·.1)), hp, List.length_drop, hSp.length_eq]
    have hEs : (E.map (·.1)).Sublist (S.drop eliteNum) := by
      have := e1.map (·.1); rwa [hp] at this
    have hEp : (E.map (·.1)).Subperm s.pop :=
      ((hEs.trans (List.drop_sublist _ _)).subperm).trans hSp.subperm
    have hsize := applyErasement_length hd hEp
    have hsub : ∀ c ∈ applyErasement s.pop E, c ∈ s.pop := fun c hc => (List.mem_filter.1 hc).1
    have hn' : ∀ c ∈ applyErasement s.pop E, (fit c.2).val ≠ .nan := fun c hc => hn c (hsub c hc)
    rw [findBest_fl o fit hn'] at hb
    have hu := findBest_ok hb
    rw [updateFail1_fl o fit (by exact hn') (hn' b hu.1)] at h
    obtain ⟨h1, h2, h3, h4⟩ := tail1_spec o (fitExt fit) (pop' := applyErasement s.pop E) hd
      (distinct_filter hd _) hsub hu h
    rw [h2]
    refine ⟨h1, ?_⟩
    have hElen : E.length = min (s.pop.length - eliteNum) (s.pop.length - K) := by
      by_cases hc : s.pop.length - K ≤ s.pop.length - eliteNum
      · rw [e2 (by rw [hl]; exact hc)]; omega
      · rw [e3 (by rw [hl]; omega), hl]; omega
    omega

/-- EliteReserved with at least one elite: the reported best is unbeaten in the population before. -/
theorem eliteFl_best [DecidableEq γ] {sort : Sorter (Cell γ)} {eliteNum : Nat} {ds : Nat → RouletteDraw (Dbl F)}
    {fuel K : Nat} {s s' : SOState γ} (hd : DistinctNodes s.pop)
    (hn : ∀ c ∈ s.pop, (fit c.2).val ≠ .nan) (he : 0 < eliteNum)
    (h : selectEliteFl o fit sort eliteNum ds fuel K s = .ok s') :
    ∀ c, c.1 = s'.best → c ∈ s'.pop → Unbeaten o (fitExt fit) s.pop c := by
  unfold selectEliteFl at h
  split at h
  · obtain ⟨b, hb, h⟩ := Out.bind_eq_ok.1 h
    rw [findBest_fl o fit hn] at hb
    have hu := findBest_ok hb
    rw [updateFail1_fl o fit hn (hn b hu.1)] at h
    obtain ⟨h1, h2, h3, -⟩ := tail1_spec o (fitExt fit) (s := s) (pop' := s.pop) hd hd (fun c hc => hc) hu h
    intro c hcb hc
    rw [h2] at hc
    have : c = b := List.inj_on_of_nodup_map hd hc hu.1 (hcb.trans h3)
    rw [this]; exact hu
  · rw [sortRange_fl o fit sort hn] at h
    simp only [Out.ok_bind] at h
    obtain ⟨E, hE, h⟩ := Out.bind_eq_ok.1 h
    obtain ⟨b, hb, h⟩ := Out.bind_eq_ok.1 h
    obtain ⟨S, hS⟩ : ∃ S, S = (rangeSorter sort s.pop).run (geneItCompare o (fitExt fit)) s.pop := ⟨_, rfl⟩
    rw [← hS] at hE
    have hSp : S.Perm s.pop := hS ▸ (rangeSorter sort s.pop).perm _ _
    obtain ⟨e1, e2, e3⟩ := elimLoop_ok (fun it st st' hm hs => by
      split at hs
      · simp only [Out.ok.injEq] at hs; subst hs
        obtain ⟨r1, r2, -⟩ := randomPass_spec (ds it).hit 0 st.2
        exact ⟨r1, r2⟩
      · exact rouletteStep_shrinks_fl hs) hE
    have hp := shiftedSpaceFl_map o fit minFl (S.drop eliteNum)
    have hEs : (E.map (·.1)).Sublist (S.drop eliteNum) := by
      have := e1.map (·.1); rwa [hp] at this
    have hsub : ∀ c ∈ applyErasement s.pop E, c ∈ s.pop := fun c hc => (List.mem_filter.1 hc).1
    have hn' : ∀ c ∈ applyErasement s.pop E, (fit c.2).val ≠ .nan := fun c hc => hn c (hsub c hc)
    rw [findBest_fl o fit hn'] at hb
    have hu := findBest_ok hb
    rw [updateFail1_fl o fit (by exact hn') (hn' b hu.1)] at h
    obtain ⟨h1, h2, h3, h4⟩ := tail1_spec o (fitExt fit) (pop' := applyErasement s.pop E) hd
      (distinct_filter hd _) hsub hu h
    intro c hcb hc
    rw [h2] at hc
    have hcb' : c = b := List.inj_on_of_nodup_map (distinct_filter hd _) hc hu.1 (hcb.trans h3)
    rw [hcb']
    refine ⟨hsub _ hu.1, ?_⟩
    have hSne : S ≠ [] := by
      intro h0
      have h5 := hSp.length_eq
      have h6 : s.pop = [] := List.length_eq_zero_iff.1 (by rw [← h5, h0]; rfl)
      have := hsub _ hu.1
      rw [h6] at this
      cases this
    obtain ⟨f, S', hfS⟩ := List.exists_cons_of_ne_nil hSne
    have hsorted : S.Pairwise fun a b => ¬ Better o (fitExt fit b.2) (fitExt fit a.2) := by
      rw [hS]
      exact geneItCompare_sorted o (fitExt fit) (rangeSorter sort s.pop) s.pop
    have hSn : (S.map (·.1)).Nodup := (hSp.map _).nodup_iff.2 hd
    have hfpop : f ∈ s.pop := hSp.mem_iff.1 (by rw [hfS]; simp)
    have hfE : f.1 ∉ E.map (·.1.1) := by
      intro hf
      have hf2 : f.1 ∈ (S.drop eliteNum).map (·.1) := by
        have : E.map (·.1.1) = (E.map (·.1)).map (·.1) := by rw [List.map_map]; rfl
        rw [this] at hf
        exact (hEs.map _).subset hf
      obtain ⟨k, hk⟩ := Nat.exists_eq_succ_of_ne_zero (by omega : eliteNum ≠ 0)
      rw [hfS, hk, Nat.succ_eq_add_one, List.drop_succ_cons] at hf2
      rw [hfS, List.map_cons, List.nodup_cons] at hSn
      exact hSn.1 (((List.drop_sublist _ _).map _).subset hf2)
    have hfin : f ∈ applyErasement s.pop E := by
      refine List.mem_filter.2 ⟨hfpop, ?_⟩
      rw [Bool.not_eq_true', ← Bool.not_eq_true, List.contains_iff_mem]
      exact hfE
    intro c' hc'
    have h5 : ¬ Better o (fitExt fit c'.2) (fitExt fit f.2) := by
      have hm := hSp.mem_iff.2 hc'
      rw [hfS] at hm hsorted
      rcases List.mem_cons.1 hm with rfl | hm
      · exact better_irrefl _ _
      · exact (List.pairwise_cons.1 hsorted).1 c' hm
    exact not_better_trans h5 (hu.2 f hfin)

theorem montecarloFl_inv {shuffle : List (Cell γ) → List (Cell γ)} (hsh : ∀ l, (shuffle l).Perm l)
    {K : Nat} {s s' : SOState γ} (hd : DistinctNodes s.pop) (hn : ∀ c ∈ s.pop, (fit c.2).val ≠ .nan)
    (h : selectMonteCarlo o fit shuffle K s = .ok s') :
    SelectSpec o (fitExt fit) s s' ∧ s'.pop.length = min K s.pop.length := by
  unfold selectMonteCarlo at h
  obtain ⟨old, hold, h⟩ := Out.bind_eq_ok.1 h
  split at h
  · obtain ⟨s₁, h1, h2, h3⟩ := keepAll_fl o fit hd hn hold
    rw [h] at h1; cases h1
    exact ⟨h2, by rw [h3]; omega⟩
  · have he : ((((shuffle s.pop).take (s.pop.length - K)).map fun c => (c, (0 : Dbl F))).map (·.1)) =
        (shuffle s.pop).take (s.pop.length - K) := by rw [List.map_map]; exact List.map_id _
    obtain ⟨h1, -, h3⟩ := finish_inv o fit hd hn hold (by
      rw [he]; exact (List.take_sublist _ _).subperm.trans (hsh _).subperm) h
    refine ⟨h1, ?_⟩
    rw [List.length_map, List.length_take, (hsh _).length_eq] at h3
    omega

end weights

end Heu
