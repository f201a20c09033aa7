import Verif.Lemmas.MORunG
import Verif.Props.NSGA2Fl
import Verif.Props.NSGA3Fl
import Verif.Props.RefPointsFl
import Verif.Props.BoxFl

/-!
# C125: whole runs of NSGA-II and NSGA-III on real `double`s
-/

set_option linter.unusedSectionVars false
set_option linter.unusedVariables false

namespace Heu
open Spec

section best
variable {m : Nat} {V : Type}

theorem moBestFl_total (pick : Fl → Fl → Fl) (l : List (Fin m → Fl)) (h : l ≠ []) :
    ∃ b, moBestFitnessFl pick l = .ok b := by
  cases l with
  | nil => exact absurd rfl h
  | cons g gs => exact ⟨_, rfl⟩

theorem pick_fold {F : Fmt} {o : FitnessOption} {pick : Fl → Fl → Fl} (hp : PicksBetter F o pick) (j : Fin m) :
    ∀ (l : List (Fin m → Fl)) (a : Fin m → Fl), a j ≠ .nan → (∀ x ∈ l, x j ≠ .nan) →
      let r := l.foldl (fun best f => fun i => pick (best i) (f i)) a
      (r j = a j ∨ ∃ x ∈ l, r j = x j) ∧ ¬ Better o (extended F (a j)) (extended F (r j)) ∧
        ∀ x ∈ l, ¬ Better o (extended F (x j)) (extended F (r j)) := by
  intro l
  induction l with
  | nil => intro a _ _; exact ⟨Or.inl rfl, better_irrefl _ _, by simp⟩
  | cons y l ih =>
    intro a ha hl
    have hy := hl y (by simp)
    obtain ⟨h1, h2, h3⟩ := hp (a j) (y j) ha hy
    have hn : (fun i => pick (a i) (y i)) j ≠ Fl.nan := by
      show pick (a j) (y j) ≠ _
      rcases h1 with h | h <;> rw [h] <;> assumption
    obtain ⟨i1, i2, i3⟩ := ih (fun i => pick (a i) (y i)) hn (fun x hx => hl x (by simp [hx]))
    refine ⟨?_, not_better_trans h2 i2, ?_⟩
    · rcases i1 with i1 | ⟨x, hx, i1⟩
      · rcases h1 with h | h
        · exact Or.inl (i1.trans h)
        · exact Or.inr ⟨y, by simp, i1.trans h⟩
      · exact Or.inr ⟨x, by simp [hx], i1⟩
    · intro x hx
      rcases List.mem_cons.1 hx with rfl | hx
      · exact not_better_trans h3 i2
      · exact i3 x hx

/-- Without NaN the recorded value is the ideal point. -/
theorem moBestFl_ideal {F : Fmt} {o : FitnessOption} {pick : Fl → Fl → Fl} (hp : PicksBetter F o pick)
    (f : V → Fin m → Fl) (pop : List V) (b : Fin m → Fl) (hb : moBestFitnessFl pick (pop.map f) = .ok b)
    (hn : ∀ x ∈ pop, ∀ j, f x j ≠ .nan) : IsIdealFl F o f pop b := by
  cases pop with
  | nil => cases hb
  | cons x xs =>
    have hb' := Out.ok.inj hb
    intro j
    obtain ⟨h1, h2, h3⟩ := pick_fold hp j ((x :: xs).map f) (f x) (hn x (by simp) j) (by
      intro y hy
      obtain ⟨z, hz, rfl⟩ := List.mem_map.1 hy
      exact hn z hz j)
    have hb2 : List.foldl (fun best f i => pick (best i) (f i)) (f x) ((x :: xs).map f) = b := hb'
    rw [hb2] at h1 h2 h3
    refine ⟨?_, fun y hy => h3 (f y) (List.mem_map_of_mem hy)⟩
    rcases h1 with h1 | ⟨y, hy, h1⟩
    · exact ⟨x, by simp, h1⟩
    · obtain ⟨z, hz, rfl⟩ := List.mem_map.1 hy
      exact ⟨z, hz, h1⟩

end best

section record
variable {V : Type} {m : Nat} (F : Fmt) (o : FitnessOption) (Q : (Fin m → Fl) → Prop) (pick : Fl → Fl → Fl)
variable (f : V → Fin m → Fl) (K : Nat)
variable (sel : Nat → (Addr → Fin m → Fl) → List Addr → Out (SelectResult Addr)) (v : Nat → MOVary V m Fl)

theorem mo_record_monotoneFl (hp : PicksBetter F o pick) (hn : ∀ x j, f x j ≠ .nan) (hQ : ∀ x, Q (f x)) (hK : 1 ≤ K)
    (hg : ∀ g, GoodSelectionG (DominatesFl F o) Q K (sel g)) (s : MOState V m Fl)
    (h : MOReadyG K f s) (maxGen maxFail fuel : Nat) (r : RunResult (MOState V m Fl) (Fin m → Fl))
    (hr : gaRun (moSolverBy (moBestFitnessFl pick) f sel v) maxGen maxFail fuel s = .ok r) (i j : Nat) (hij : i ≤ j)
    (hj : j < r.record.length)
    (hroom : ∀ k, i ≤ k → k ≤ j → ∀ t,
      stateAfter (moSolverBy (moBestFitnessFl pick) f sel v) s k = .ok t → t.pf.card < K)
    (obj : Fin m) : ¬ Better o (extended F (r.record[i] obj)) (extended F (r.record[j] obj)) := by
  obtain ⟨-, -, h3⟩ := run_record _ maxGen maxFail fuel s r hr
  obtain ⟨ti, hti, hbi⟩ := h3 i (by omega)
  obtain ⟨tj, htj, hbj⟩ := h3 j hj
  obtain ⟨ti', ci, hti', hci, ci1, ci2, -, hsti, -⟩ :=
    mo_afterG (DominatesFl F o) Q (moBestFitnessFl pick) f K sel v hQ (moBestFl_total _) hK hg h i
  obtain ⟨tj', cj, htj', hcj, cj1, cj2, -, hstj, -⟩ :=
    mo_afterG (DominatesFl F o) Q (moBestFitnessFl pick) f K sel v hQ (moBestFl_total _) hK hg h j
  rw [hti] at hti'; cases hti'
  rw [htj] at htj'; cases htj'
  have e1 := (moStep_readyG (DominatesFl F o) f K ci1 ci2 hsti).2
  have e2 := (moStep_readyG (DominatesFl F o) f K cj1 cj2 hstj).2
  have key : ∀ {t : MOState V m Fl} {b : Fin m → Fl}, MOEvaluatedG f t.pop →
      (moSolverBy (moBestFitnessFl pick) f sel v).bestFitness t = .ok b →
      IsIdealFl F o f (t.pop.map fun c => c.2.var) b := by
    intro t b he hb
    refine moBestFl_ideal hp f _ b ?_ (fun x _ j => hn x j)
    rw [List.map_map]
    have e : t.pop.map (f ∘ fun c => c.2.var) = t.pop.map fun c => c.2.fitness :=
      List.map_congr_left fun c hc => ((he c hc).2).symm
    rw [e]; exact hb
  obtain ⟨⟨y, hy, hyj⟩, -⟩ := key e1 hbi obj
  obtain ⟨x, hx, rfl⟩ := List.mem_map.1 hy
  obtain ⟨z, hz, -, hzx⟩ := mo_coversG (DominatesFl F o) Q (moBestFitnessFl pick) f K sel v
    (dominatesFl_irrefl _ _) (dominatesFl_trans _ _) hQ (moBestFl_total _) hK hg s h i j hij hroom ci tj hci htj x
    (hsti.sub.subset hx)
  have h5 := (key e2 hbj obj).2 _ (List.mem_map_of_mem hz)
  rw [hyj]
  refine not_better_trans ?_ h5
  rcases hzx with e | e
  · rw [e]; exact better_irrefl _ _
  · exact e.2.1 obj

end record

section nsga3
variable {V : Type} {m : Nat} (F : Fmt) (E : Geometry m) (K : Nat) (tiny : Fl) (refs : List (Fin m → Fl))
variable (f : V → Fin m → Fl) (e : Nat → NSGA3Env Fl) (v : Nat → MOVary V m Fl) (fuel : Nat → Nat)

theorem good_nsga3Fl (hF : F.Good) (hK32 : K < 2 ^ 32) (hrefs : refs ≠ []) (e : NSGA3Env Fl)
    (hd : ∀ k, LegalDrawFl F (e.ds k)) (hfuel : ∀ n, n + refs.length ≤ fuel n) :
    GoodSelectionG (DominatesFl F .lessBetter) (fun _ => True) K (fun fit pop =>
      nsga3SelectFl F E K fit e.sortD tiny refs e.order e.ds (fuel pop.length) pop) := by
  intro fit pop hnd hne hK _
  exact nsga3_ieee_result F E K fit e.sortD tiny refs e.order e.ds (fuel pop.length) pop hF hK32 hrefs hd (hfuel _)
    hnd hne hK

/-- **C125**, NSGA-III: whatever `double`s the fitness function returns – NaN and infinities included – `run()`
returns after exactly `maxGenerations` generations, leaves exactly `K` evaluated individuals, and `paretoFront`
dereferences no dangling pointer and returns the objective vectors of exactly the individuals of the final population
that nobody in it dominates.  If no value is NaN, the last entry of the record is the ideal point. -/
theorem nsga3_run_ieee (hF : F.Good) (hK : 1 ≤ K) (hK32 : K < 2 ^ 32) (hrefs : refs ≠ [])
    (hd : ∀ g k, LegalDrawFl F ((e g).ds k)) (hfuel : ∀ n, n + refs.length ≤ fuel n)
    (s : MOState V m Fl) (h : MOReadyG K f s) (maxGen maxFail : Nat)
    (order : Finset Addr → List Addr) (hord : ∀ S, (order S).Nodup ∧ ∀ a, a ∈ order S ↔ a ∈ S) :
    ∃ r, gaRun (nsga3SolverFl F E K tiny refs f e v fuel) maxGen maxFail (maxGen + 1) s = .ok r ∧
      r.generation = maxGen ∧ r.state.pop.length = K ∧
      (∀ c ∈ r.state.pop, c.2.fitness = f c.2.var) ∧
      (∃ front, paretoFront order r.state = .ok front ∧
        IsFrontBy (DominatesFl F .lessBetter) f (r.state.pop.map fun c => c.2.var) front) ∧
      ∃ best, r.record.getLast? = some best ∧
        (PicksBetter F .lessBetter E.min → (∀ x j, f x j ≠ .nan) →
          IsIdealFl F .lessBetter f (r.state.pop.map fun c => c.2.var) best) := by
  obtain ⟨r, h1, h2, h3, h4, h5, b, h6, h7⟩ := mo_runG (DominatesFl F .lessBetter) (fun _ => True)
    (moBestFitnessFl E.min) f K _ v (fun _ => trivial) (moBestFl_total _) hK
    (fun g => good_nsga3Fl F E K tiny refs fuel hF hK32 hrefs (e g) (hd g) hfuel) s h maxGen maxFail order hord
  refine ⟨r, h1, h2, h3, h4, h5, b, h6, fun hp hn => ?_⟩
  refine moBestFl_ideal hp f _ b ?_ (fun x _ j => hn x j)
  rw [List.map_map]; exact h7

/-- **C125**, NSGA-III: in every generation, whoever dominates a survivor survives itself. -/
theorem nsga3_run_ieee_elitism (hF : F.Good) (hK : 1 ≤ K) (hK32 : K < 2 ^ 32) (hrefs : refs ≠ [])
    (hd : ∀ g k, LegalDrawFl F ((e g).ds k)) (hfuel : ∀ n, n + refs.length ≤ fuel n)
    (s : MOState V m Fl) (h : MOReadyG K f s) (i : Nat)
    (c t : MOState V m Fl) (hc : candidatesAt (nsga3SolverFl F E K tiny refs f e v fuel) s i = .ok c)
    (ht : stateAfter (nsga3SolverFl F E K tiny refs f e v fuel) s i = .ok t) :
    t.pop.length = K ∧ t.pop.Sublist c.pop ∧
    ∀ x ∈ c.pop, ∀ y ∈ t.pop, DominatesFl F .lessBetter (f x.2.var) (f y.2.var) → x ∈ t.pop :=
  mo_elitismG (DominatesFl F .lessBetter) (fun _ => True) (moBestFitnessFl E.min) f K _ v (fun _ => trivial)
    (moBestFl_total _) hK (fun g => good_nsga3Fl F E K tiny refs fuel hF hK32 hrefs (e g) (hd g) hfuel) s h i c t hc ht

/-- **C125**, NSGA-III: as long as the reported front is smaller than the population, everybody evaluated in
generation `i` is matched or dominated by a member of the front reported in any later generation `j`. -/
theorem nsga3_run_ieee_covers (hF : F.Good) (hK : 1 ≤ K) (hK32 : K < 2 ^ 32) (hrefs : refs ≠ [])
    (hd : ∀ g k, LegalDrawFl F ((e g).ds k)) (hfuel : ∀ n, n + refs.length ≤ fuel n)
    (s : MOState V m Fl) (h : MOReadyG K f s) (i j : Nat) (hij : i ≤ j)
    (hroom : ∀ k, i ≤ k → k ≤ j → ∀ t,
      stateAfter (nsga3SolverFl F E K tiny refs f e v fuel) s k = .ok t → t.pf.card < K)
    (c t : MOState V m Fl) (hc : candidatesAt (nsga3SolverFl F E K tiny refs f e v fuel) s i = .ok c)
    (ht : stateAfter (nsga3SolverFl F E K tiny refs f e v fuel) s j = .ok t) :
    ∀ x ∈ c.pop, ∃ y ∈ t.pop, y.1 ∈ t.pf ∧
      (f y.2.var = f x.2.var ∨ DominatesFl F .lessBetter (f y.2.var) (f x.2.var)) :=
  mo_coversG (DominatesFl F .lessBetter) (fun _ => True) (moBestFitnessFl E.min) f K _ v
    (dominatesFl_irrefl _ _) (dominatesFl_trans _ _) (fun _ => trivial)
    (moBestFl_total _) hK (fun g => good_nsga3Fl F E K tiny refs fuel hF hK32 hrefs (e g) (hd g) hfuel) s h i j hij
    hroom c t hc ht

/-- **C125**, NSGA-III: … and if no value is NaN, no objective of the record gets worse from `i` to `j`. -/
theorem nsga3_run_ieee_record (hF : F.Good) (hK : 1 ≤ K) (hK32 : K < 2 ^ 32) (hrefs : refs ≠ [])
    (hd : ∀ g k, LegalDrawFl F ((e g).ds k)) (hfuel : ∀ n, n + refs.length ≤ fuel n)
    (hp : PicksBetter F .lessBetter E.min) (hn : ∀ x j, f x j ≠ .nan)
    (s : MOState V m Fl) (h : MOReadyG K f s) (maxGen maxFail fl : Nat) (r : RunResult (MOState V m Fl) (Fin m → Fl))
    (hr : gaRun (nsga3SolverFl F E K tiny refs f e v fuel) maxGen maxFail fl s = .ok r) (i j : Nat) (hij : i ≤ j)
    (hj : j < r.record.length)
    (hroom : ∀ k, i ≤ k → k ≤ j → ∀ t,
      stateAfter (nsga3SolverFl F E K tiny refs f e v fuel) s k = .ok t → t.pf.card < K) (obj : Fin m) :
    ¬ Better .lessBetter (extended F (r.record[i] obj)) (extended F (r.record[j] obj)) :=
  mo_record_monotoneFl F .lessBetter (fun _ => True) E.min f K _ v hp hn (fun _ => trivial) hK
    (fun g => good_nsga3Fl F E K tiny refs fuel hF hK32 hrefs (e g) (hd g) hfuel) s h maxGen maxFail fl r hr i j hij hj
    hroom obj

end nsga3

/-- **C125**, from the settings to the result: `setReferencePointPrecision(p)`, `initializePop()` and `run()` of a
single-layer NSGA-III, everything in `double` arithmetic with rounding. -/
theorem nsga3_configured_run_ieee {V : Type} {d : Nat} (F : Fmt) (E : Geometry (d + 1)) (K : Nat) (tiny : Fl)
    (f : V → Fin (d + 1) → Fl) (e : Nat → NSGA3Env Fl) (v : Nat → MOVary V (d + 1) Fl) (hF : F.Good) (hK : 1 ≤ K)
    (hK32 : K < 2 ^ 32) (p : Nat) (hp : 1 ≤ p) (hN : d + 1 + p - 1 ≤ 20) (junk jf : Fin (d + 1) → Fl)
    (shuffle : List (Fin (d + 1) → Fl) → List (Fin (d + 1) → Fl)) (hsh : ∀ l, (shuffle l).Perm l)
    (hd : ∀ g k, LegalDrawFl F ((e g).ds k)) (init : Nat → V) (maxGen maxFail : Nat)
    (order : Finset Addr → List Addr) (hord : ∀ S, (order S).Nodup ∧ ∀ a, a ∈ order S ↔ a ∈ S) :
    ∃ refs r, makeReferencePosesFl F junk shuffle p = .ok refs ∧ NearLattice F (1 / 2 ^ F.mb) 1 p refs ∧
      gaRun (nsga3SolverFl F E K tiny refs f e v (· + refs.length)) maxGen maxFail (maxGen + 1) (moInit K init jf) =
        .ok r ∧
      r.generation = maxGen ∧ r.state.pop.length = K ∧ (∀ c ∈ r.state.pop, c.2.fitness = f c.2.var) ∧
      ∃ front, paretoFront order r.state = .ok front ∧
        IsFrontBy (DominatesFl F .lessBetter) f (r.state.pop.map fun c => c.2.var) front := by
  obtain ⟨refs, h1, h2, -, h4, -⟩ := referencePoses_ieee hF p hp hN junk shuffle hsh
  have hne : refs ≠ [] := by
    rintro rfl
    have : 0 < (d + 1 + p - 1).choose p := Nat.choose_pos (by omega)
    rw [← h4] at this
    exact absurd this (by simp)
  obtain ⟨r, k1, k2, k3, k4, k5, -⟩ := nsga3_run_ieee F E K tiny refs f e v (· + refs.length) hF hK hK32 hne hd
    (fun n => le_rfl) (moInit K init jf) (moReady_initG f K init jf) maxGen maxFail order hord
  exact ⟨refs, r, h1, h2, k1, k2, k3, k4, k5⟩

section nsga2
variable {V : Type} {m : Nat} (o : FitnessOption) (K : Nat) (pick : Fl → Fl → Fl)
variable (f : V → Fin m → Fl) (e : Nat → NSGA2Env m) (v : Nat → MOVary V m Fl)

theorem good_nsga2Fl (e : NSGA2Env m) :
    GoodSelectionG (DominatesFl binary64 o) ModerateFl K
      (fun fit => nsga2SelectFl binary64 o K demoEps fit e.sortD e.sortF e.sortC) := by
  intro fit pop hnd hne hK hQ
  obtain ⟨r, hr⟩ := nsga2_double_defined o K fit e.sortD e.sortF e.sortC pop hnd hne hK hQ
  exact ⟨r, hr, nsga2_ieee_result binary64 o K _ fit e.sortD e.sortF e.sortC pop hnd hne hK r hr⟩

/-- **C125**, NSGA-II: if every value of the fitness function is a `double` below `2^1023` in absolute value (no NaN,
no infinity), the run ends as for NSGA-III. -/
theorem nsga2_run_ieee (hK : 1 ≤ K) (hf : ∀ x, ModerateFl (f x))
    (s : MOState V m Fl) (h : MOReadyG K f s) (maxGen maxFail : Nat)
    (order : Finset Addr → List Addr) (hord : ∀ S, (order S).Nodup ∧ ∀ a, a ∈ order S ↔ a ∈ S) :
    ∃ r, gaRun (nsga2SolverFl binary64 o K demoEps pick f e v) maxGen maxFail (maxGen + 1) s = .ok r ∧
      r.generation = maxGen ∧ r.state.pop.length = K ∧
      (∀ c ∈ r.state.pop, c.2.fitness = f c.2.var) ∧
      (∃ front, paretoFront order r.state = .ok front ∧
        IsFrontBy (DominatesFl binary64 o) f (r.state.pop.map fun c => c.2.var) front) ∧
      ∃ best, r.record.getLast? = some best ∧
        (PicksBetter binary64 o pick → IsIdealFl binary64 o f (r.state.pop.map fun c => c.2.var) best) := by
  obtain ⟨r, h1, h2, h3, h4, h5, b, h6, h7⟩ := mo_runG (DominatesFl binary64 o) ModerateFl
    (moBestFitnessFl pick) f K _ v hf (moBestFl_total _) hK
    (fun g => good_nsga2Fl o K (e g)) s h maxGen maxFail order hord
  refine ⟨r, h1, h2, h3, h4, h5, b, h6, fun hp => ?_⟩
  refine moBestFl_ideal hp f _ b ?_ ?_
  · rw [List.map_map]; exact h7
  · intro x _ j hn
    obtain ⟨⟨s, n, hs, -⟩, -⟩ := hf x j
    rw [hn] at hs; cases hs

/-- **C125**, NSGA-II: in every generation, whoever dominates a survivor survives itself. -/
theorem nsga2_run_ieee_elitism (hK : 1 ≤ K) (hf : ∀ x, ModerateFl (f x))
    (s : MOState V m Fl) (h : MOReadyG K f s) (i : Nat)
    (c t : MOState V m Fl) (hc : candidatesAt (nsga2SolverFl binary64 o K demoEps pick f e v) s i = .ok c)
    (ht : stateAfter (nsga2SolverFl binary64 o K demoEps pick f e v) s i = .ok t) :
    t.pop.length = K ∧ t.pop.Sublist c.pop ∧
    ∀ x ∈ c.pop, ∀ y ∈ t.pop, DominatesFl binary64 o (f x.2.var) (f y.2.var) → x ∈ t.pop :=
  mo_elitismG (DominatesFl binary64 o) ModerateFl (moBestFitnessFl pick) f K _ v hf
    (moBestFl_total _) hK (fun g => good_nsga2Fl o K (e g)) s h i c t hc ht

/-- **C125**, NSGA-II: as for NSGA-III. -/
theorem nsga2_run_ieee_covers (hK : 1 ≤ K) (hf : ∀ x, ModerateFl (f x))
    (s : MOState V m Fl) (h : MOReadyG K f s) (i j : Nat) (hij : i ≤ j)
    (hroom : ∀ k, i ≤ k → k ≤ j → ∀ t,
      stateAfter (nsga2SolverFl binary64 o K demoEps pick f e v) s k = .ok t → t.pf.card < K)
    (c t : MOState V m Fl) (hc : candidatesAt (nsga2SolverFl binary64 o K demoEps pick f e v) s i = .ok c)
    (ht : stateAfter (nsga2SolverFl binary64 o K demoEps pick f e v) s j = .ok t) :
    ∀ x ∈ c.pop, ∃ y ∈ t.pop, y.1 ∈ t.pf ∧
      (f y.2.var = f x.2.var ∨ DominatesFl binary64 o (f y.2.var) (f x.2.var)) :=
  mo_coversG (DominatesFl binary64 o) ModerateFl (moBestFitnessFl pick) f K _ v
    (dominatesFl_irrefl _ _) (dominatesFl_trans _ _) hf
    (moBestFl_total _) hK (fun g => good_nsga2Fl o K (e g)) s h i j hij hroom c t hc ht

/-- **C125**, NSGA-II: as for NSGA-III. -/
theorem nsga2_run_ieee_record (hp : PicksBetter binary64 o pick) (hK : 1 ≤ K) (hf : ∀ x, ModerateFl (f x))
    (s : MOState V m Fl) (h : MOReadyG K f s) (maxGen maxFail fl : Nat) (r : RunResult (MOState V m Fl) (Fin m → Fl))
    (hr : gaRun (nsga2SolverFl binary64 o K demoEps pick f e v) maxGen maxFail fl s = .ok r) (i j : Nat) (hij : i ≤ j)
    (hj : j < r.record.length)
    (hroom : ∀ k, i ≤ k → k ≤ j → ∀ t,
      stateAfter (nsga2SolverFl binary64 o K demoEps pick f e v) s k = .ok t → t.pf.card < K) (obj : Fin m) :
    ¬ Better o (extended binary64 (r.record[i] obj)) (extended binary64 (r.record[j] obj)) := by
  refine mo_record_monotoneFl binary64 o ModerateFl pick f K _ v hp ?_ hf hK
    (fun g => good_nsga2Fl o K (e g)) s h maxGen maxFail fl r hr i j hij hj hroom obj
  intro x j hn
  obtain ⟨⟨s, n, hs, -⟩, -⟩ := hf x j
  rw [hn] at hs; cases hs

end nsga2

/-- The freshly initialised solver is a legitimate start. -/
theorem mo_init_ready_ieee {V : Type} {m : Nat} (K : Nat) (f : V → Fin m → Fl) (init : Nat → V)
    (junk : Fin m → Fl) : MOReadyG K f (moInit K init junk) := moReady_initG f K init junk

/-- The usual implementations of `min` and `max` are acceptable. -/
theorem picksBetter_usual (F : Fmt) : PicksBetter F .lessBetter (fun a b => if Fl.lt b a then b else a) ∧
    PicksBetter F .greaterBetter (fun a b => if Fl.lt a b then b else a) := by
  constructor
  · intro a b ha hb
    by_cases h : Fl.lt b a = true
    · simp only [h, if_true, Better]
      have := (fl_lt_iff F b a).1 h
      exact ⟨Or.inr trivial, not_lt.2 this.2.2.le, lt_irrefl _⟩
    · simp only [h, Better]
      rw [fl_lt_iff F] at h
      exact ⟨Or.inl rfl, lt_irrefl _, fun hc => h ⟨hb, ha, hc⟩⟩
  · intro a b ha hb
    by_cases h : Fl.lt a b = true
    · simp only [h, if_true, Better]
      have := (fl_lt_iff F a b).1 h
      exact ⟨Or.inr trivial, not_lt.2 this.2.2.le, lt_irrefl _⟩
    · simp only [h, Better]
      rw [fl_lt_iff F] at h
      exact ⟨Or.inl rfl, lt_irrefl _, fun hc => h ⟨ha, hb, hc⟩⟩

/-- A run of NSGA-III in which one initial individual has a NaN and one an infinite value: both survive two
generations and are reported. -/
example : (gaRun (nsga3SolverFl binary64 demoGeometry 3 demoEps [![demoNum 0, demoNum 1], ![demoNum 1, demoNum 0]]
      (fun n : Nat => (![![demoNum 1, demoNum 4], ![demoNum 2, .nan], ![.inf true, demoNum 9],
        ![demoNum 9, demoNum 9]] : Fin 4 → Fin 2 → Fl) (Fin.ofNat 4 n))
      (fun _ => ⟨insertionSorter, fun S => S.sort (· ≤ ·), fun _ => demoNicheDraw Addr⟩)
      (fun _ => ⟨fun _ _ _ => (3, 3), fun _ => true, id, fun _ x => x, fun _ => false, 0⟩) (· + 2))
    2 0 3 (moInit 3 id 0)).satisfies
      (fun r => decide (r.generation = 2 ∧ r.state.pop.map (fun c => c.2.var) = [0, 1, 2] ∧ r.state.pf.card = 3)) := by
  decide +kernel

/-- **C125**: NSGA-II, unlike NSGA-III, does not survive a NaN: two initial individuals, one with a NaN; the children
are two more non-dominated ones, and the first selection that has to cut the front calls `std::sort` with a comparator
that is no strict weak order. -/
theorem nsga2_run_nan_ub :
    gaRun (nsga2SolverFl binary64 .lessBetter 2 demoEps demoGeometry.min
      (fun n : Nat => (![![demoNum 1, demoNum 4], ![demoNum 2, .nan], ![demoNum 3, demoNum 1],
        ![demoNum 9, demoNum 0]] : Fin 4 → Fin 2 → Fl) (Fin.ofNat 4 n))
      (fun _ => ⟨insertionSorter, fun _ => insertionSorter, insertionSorter⟩)
      (fun _ => ⟨fun _ _ _ => (2, 3), fun _ => true, id, fun _ x => x, fun _ => false, 0⟩))
    1 0 2 (moInit 2 id 0) = .ub := by
  have h : ∀ {β : Type} (o : Out β), (match o with | .ub => true | _ => false) = true → o = .ub := by
    intro β o; cases o <;> simp
  apply h
  decide +kernel

/-- A moderate fitness. -/
example : ModerateFl ![(Dbl.nat binary64 3).val, (Dbl.nat binary64 7).val] := by
  have hp : (2 : ℚ) ^ 10 ≤ 2 ^ 1023 := pow_le_pow_right₀ (by norm_num) (by norm_num)
  have key : ∀ k : Nat, k < 10 → (Dbl.nat binary64 k).val.Finite binary64 ∧
      |(Dbl.nat binary64 k).val.number binary64| < 2 ^ 1023 := by
    intro k hk
    refine ⟨nat_finite64 k (by omega), lt_of_lt_of_le ?_ hp⟩
    rw [nat_number, Nat.abs_cast]
    have : (k : ℚ) < 10 := by exact_mod_cast hk
    linarith
  intro j
  fin_cases j
  · exact key 3 (by norm_num)
  · exact key 7 (by norm_num)

end Heu
