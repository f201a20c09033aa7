import Verif.Props.SOGARun
import Verif.Props.Box

/-!
# C65: a GA run never leaves a set its operators respect

If initialisation starts in a set `P` (e.g. a box) and crossover and mutation map members of `P` to
members of `P`, every individual of every generation, and the reported result, is in `P`; for every
selection method, every random draw and every number of generations.
-/

set_option linter.unusedSectionVars false

namespace Heu
open Spec

section
variable {V α : Type}

theorem emplaceBack_all {F : Type} (P : V → Prop) (pop : Pop (Gene V F)) (g : Gene V F)
    (h : ∀ c ∈ pop, P c.2.var) (hg : P g.var) : ∀ c ∈ emplaceBack pop g, P c.2.var := by
  intro c hc
  rcases List.mem_append.1 hc with hc | hc
  · exact h c hc
  · rw [List.mem_singleton.1 hc]; exact hg

theorem crossoverLoop_all {F : Type} (P : V → Prop) (junk : F) (cx : Nat → V → V → V × V)
    (hcx : ∀ n a b, P a → P b → P (cx n a b).1 ∧ P (cx n a b).2) (n : Nat)
    (q : List (Cell (Gene V F))) (pop : Pop (Gene V F)) (h : ∀ c ∈ pop, P c.2.var)
    (hq : ∀ c ∈ q, P c.2.var) : ∀ c ∈ crossoverLoop junk cx n q pop, P c.2.var := by
  match q with
  | [] => simpa [crossoverLoop] using h
  | [a] => simpa [crossoverLoop] using h
  | a :: b :: q =>
    simp only [crossoverLoop]
    have hc := hcx n a.2.var b.2.var (hq a (by simp)) (hq b (by simp))
    apply crossoverLoop_all P junk cx hcx
    · exact emplaceBack_all P _ _ (emplaceBack_all P _ _ h hc.1) hc.2
    · intro c hm; exact hq c (by simp [hm])

theorem crossover_all {F : Type} (P : V → Prop) (junk : F) (cx : Nat → V → V → V × V)
    (hcx : ∀ n a b, P a → P b → P (cx n a b).1 ∧ P (cx n a b).2) (sel : Addr → Bool)
    (shuffle : List (Cell (Gene V F)) → List (Cell (Gene V F)))
    (hsh : ∀ l, (shuffle l).Perm l) (pop : Pop (Gene V F)) (h : ∀ c ∈ pop, P c.2.var) :
    ∀ c ∈ crossover junk cx sel shuffle pop, P c.2.var := by
  unfold crossover
  refine crossoverLoop_all P junk cx hcx _ _ _ h ?_
  intro c hc
  rw [List.mem_reverse] at hc
  have hc' : c ∈ shuffle (pop.filter fun c => sel c.1) := by
    split at hc
    · exact List.dropLast_subset _ hc
    · exact hc
  exact h c (List.mem_of_mem_filter ((hsh _).mem_iff.1 hc'))

theorem mutate_all {F : Type} (P : V → Prop) (junk : F) (mu : Nat → V → V)
    (hmu : ∀ n a, P a → P (mu n a)) (sel : Addr → Bool) (pop : Pop (Gene V F))
    (h : ∀ c ∈ pop, P c.2.var) : ∀ c ∈ mutate junk mu sel pop, P c.2.var := by
  unfold mutate
  have key : ∀ (l : List (Cell (Gene V F) × Nat)) (p : Pop (Gene V F)), (∀ c ∈ p, P c.2.var) →
      (∀ x ∈ l, P x.1.2.var) →
      ∀ c ∈ l.foldl (fun (p : Pop (Gene V F)) s =>
        emplaceBack p { var := mu s.2 s.1.2.var, fitness := junk, computed := false }) p,
        P c.2.var := by
    intro l
    induction l with
    | nil => intro p hp _; simpa using hp
    | cons x l ih =>
      intro p hp hl
      simp only [List.foldl_cons]
      refine ih _ (emplaceBack_all P _ _ hp ?_) fun y hy => hl y (by simp [hy])
      exact hmu _ _ (hl x (by simp))
  refine key _ _ h ?_
  intro x hx
  obtain ⟨-, hx2⟩ := List.mem_zipIdx hx |>.2
  have : x.1 ∈ pop.filter fun c => sel c.1 := by
    rw [hx2]; exact List.getElem_mem _
  exact h _ (List.mem_of_mem_filter this)

variable [Field α] [LinearOrder α] [IsStrictOrderedRing α]
variable (o : FitnessOption) (f : V → α) (m : SelectMethod) (K : Nat)
variable (e : Nat → SelectEnv (Gene V α) α) (v : Nat → VaryEnv V α)

theorem compute_all (P : V → Prop) (pop : Pop (Gene V α)) (h : ∀ c ∈ pop, P c.2.var) :
    ∀ c ∈ computeAllFitness f pop, P c.2.var := by
  intro c hc
  obtain ⟨d, hd, rfl⟩ := List.mem_map.1 hc
  simp only [evalGene]
  split
  · exact h d hd
  · exact h d hd

/-- **C65.**  For every selection method, all draws and options: if the initial individuals are in `P`,
and crossover and mutation respect `P`, then after a run that returns, every individual is in `P`, and so
is the reported best one. -/
theorem soga_run_feasible (P : V → Prop) (he : ∀ g, ValidEnv (e g))
    (hsh : ∀ g l, ((v g).cxShuffle l).Perm l)
    (hcx : ∀ g n a b, P a → P b → P ((v g).cx n a b).1 ∧ P ((v g).cx n a b).2)
    (hmu : ∀ g n a, P a → P ((v g).mu n a)) (s : SOState (Gene V α)) (h : Ready f s)
    (hP : ∀ c ∈ s.pop, P c.2.var) (maxGen maxFail fuel : Nat) (r : RunResult (SOState (Gene V α)) α)
    (hr : gaRun (sogaSolver o f m K e v) maxGen maxFail fuel s = .ok r) :
    (∀ c ∈ r.state.pop, P c.2.var) ∧ ∃ g, deref r.state.pop r.state.best = .ok g ∧ P g.var := by
  have hsel : ∀ g s s', DistinctNodes s.pop → (∀ c ∈ s.pop, P c.2.var) →
      (sogaSolver o f m K e v).select g s = .ok s' → ∀ c ∈ s'.pop, P c.2.var := by
    intro g s s' hd hp hs c hc
    have hsp := runSelect_spec o Gene.fitness m (e g) (he g) K s s' hd hs
    obtain ⟨d, hd, hde⟩ := hsp.noInvention c hc
    rw [← hde]; exact hp d hd
  have key : ∀ i t, stateAfter (sogaSolver o f m K e v) s i = .ok t → ∀ c ∈ t.pop, P c.2.var := by
    intro i
    induction i with
    | zero =>
      intro t ht
      obtain ⟨h1, -, -⟩ := ready_compute o f m K e v
        (s := (sogaSolver o f m K e v).resetFailTimes s) ⟨h.distinct, h.best, h.cache⟩
      exact hsel _ _ _ h1.distinct (compute_all f P _ hP) ht
    | succ i ih =>
      intro t ht
      simp only [stateAfter, Out.bind_eq_ok] at ht
      obtain ⟨t0, ht0, ht⟩ := ht
      obtain ⟨a1, a2⟩ := after_ready o f m K e v he h i ht0
      refine hsel _ _ _ (next_candidates o f m K e v (g := i + 1) a1 a2).1.distinct ?_ ht
      refine compute_all f P _ ?_
      refine mutate_all P _ _ (hmu _) _ _ ?_
      exact crossover_all P _ _ (hcx _) _ _ (hsh _) _ (ih t0 ht0)
  obtain ⟨-, h2, -⟩ := run_record _ maxGen maxFail fuel s r hr
  have hall := key _ _ h2
  refine ⟨hall, ?_⟩
  obtain ⟨-, g, hg, -⟩ := soga_run_consistent o f m K e v he s h maxGen maxFail fuel r hr
  exact ⟨g, hg, hall _ (deref_ok hg)⟩

end

/-! ## The default real-coded operators respect a box

`boxCx`, `boxMu` are the default crossover `cFunNd` and the default mutation (`applyDelta` of a
continuous box) as total functions; on a box they are defined (no undefined behaviour), so the fallback
value is never used on feasible individuals. -/

section
variable {α : Type} [Field α] [LinearOrder α] [IsStrictOrderedRing α]

/-- `GADefaults::cFunNd`/`cFunXd`, `Genetic/Miscellaneous4GA.hpp` lines 203-226. -/
def boxCx (r : α) (p1 p2 : List α) : List α × List α :=
  match cFunNd r p1 p2 with
  | .ok c => c
  | _ => (p1, p2)

/-- `GADefaults::mFun`, `Genetic/Miscellaneous4GA.hpp` lines 300-307 (copy, then `applyDelta`). -/
def boxMu (b : Box α) (delta : Nat → α) (idx : Nat) (u : α) (v : List α) : List α :=
  match applyDeltaCont b delta v idx u with
  | .ok w => w
  | _ => v

/-- **C65** (instance).  A solver with a non-empty box, the default initialisation, the default real
crossover with `0 ≤ r ≤ 1` and the default continuous mutation keeps all individuals and the result in
the box. -/
theorem default_run_in_box (o : FitnessOption) (f : List α → α) (m : SelectMethod) (K : Nat)
    (e : Nat → SelectEnv (Gene (List α) α) α) (v : Nat → VaryEnv (List α) α)
    (he : ∀ g, ValidEnv (e g)) (hsh : ∀ g l, ((v g).cxShuffle l).Perm l)
    (b : Box α) (hne : NonEmptyBox b) (delta : Nat → α) (r : α) (hr0 : 0 ≤ r) (hr1 : r ≤ 1)
    (idx : Nat → Nat → Nat) (hidx : ∀ g n, idx g n < b.dim) (u : Nat → Nat → α)
    (hu : ∀ g n, 0 ≤ u g n ∧ u g n < 1)
    (hcx : ∀ g n, (v g).cx n = boxCx r) (hmu : ∀ g n, (v g).mu n = boxMu b delta (idx g n) (u g n))
    (draw : Nat → Nat → α) (hdraw : ∀ i j, 0 ≤ draw i j ∧ draw i j < 1) (junk : α)
    (hK : 0 < K) (maxGen maxFail fuel : Nat) (res : RunResult (SOState (Gene (List α) α)) α)
    (hres : gaRun (sogaSolver o f m K e v) maxGen maxFail fuel
      (sogaInit K (fun i => initializeReal b (draw i)) junk) = .ok res) :
    (∀ c ∈ res.state.pop, InBox b c.2.var) ∧
      ∃ g, deref res.state.pop res.state.best = .ok g ∧ InBox b g.var := by
  refine soga_run_feasible o f m K e v (InBox b) he hsh ?_ ?_ _ ⟨?_, ?_, ?_⟩ ?_ maxGen maxFail fuel res hres
  · intro g n p q hp hq
    rw [hcx]
    obtain ⟨c1, c2, h, h1, h2⟩ := cFunNd_in_box b r hr0 hr1 p q hp hq
    simp only [boxCx, h]
    exact ⟨h1, h2⟩
  · intro g n a ha
    rw [hmu]
    obtain ⟨w, -, -, h, h1, -⟩ := applyDelta_cont b delta a ha (idx g n) (hidx g n) (u g n)
      (hu g n).1 (hu g n).2
    simp only [boxMu, h]
    exact h1
  · show ((initializePop K _ junk).map (·.1)).Nodup
    unfold initializePop
    rw [List.map_map]
    have : (fun x : Nat => x) = ((·.1) ∘ fun i : Nat =>
      ((i, { var := initializeReal b (draw i), fitness := junk, computed := false }) :
        Cell (Gene (List α) α))) := rfl
    rw [← this]
    simpa using List.nodup_range
  · show 0 ∈ (initializePop K _ junk).map (·.1)
    simp [initializePop, hK]
  · intro c hc hcc
    obtain ⟨i, -, rfl⟩ := List.mem_map.1 hc
    simp at hcc
  · intro c hc
    obtain ⟨i, -, rfl⟩ := List.mem_map.1 hc
    exact initialize_real_in_box b (draw i) (hdraw i) hne

end

/-- Non-vacuity: the operators on a concrete box. -/
example : boxCx (1 / 5 : ℚ) [0, 1] [1, 0] = ([4 / 5, 1 / 5], [1 / 5, 4 / 5]) ∧
    boxMu (squareBox 2 (0 : ℚ) 1) (fun _ => 1 / 10) 1 (1 / 4) [0, 1] = [0, 19 / 20] := by
  decide +kernel

/-- Default operators on `[0,1]^2` with fixed draws (for the example below). -/
def demoBoxVary : VaryEnv (List ℚ) ℚ where
  cx := fun _ => boxCx (1 / 5)
  cxSel := fun _ => true
  cxShuffle := fun l => l
  mu := fun _ => boxMu (squareBox 2 (0 : ℚ) 1) (fun _ => 1 / 10) 1 (1 / 4)
  muSel := fun _ => true
  junk := 7

/-- Non-vacuity: a two-generation run with these operators on the box `[0,1]^2` returns, and the default
operators are at work (the population has changed). -/
example : (gaRun (sogaSolver .lessBetter (fun x : List ℚ => x.foldl (· + ·) 0) .RouletteWheel 2
      (fun _ => demoEnv (Gene (List ℚ) ℚ))
      (fun _ => demoBoxVary)) 1 0 2
      (sogaInit 2 (fun i => initializeReal (squareBox 2 0 1) fun j => ((i + j : Nat) : ℚ) / 4) 0)).satisfies
    (fun r => r.generation == 1 && r.state.pop.all fun c => c.2.var.length == 2 &&
      c.2.var.all fun x => decide (0 ≤ x) && decide (x ≤ 1)) = true := by
  decide +kernel

end Heu
