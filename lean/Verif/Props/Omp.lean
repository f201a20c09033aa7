import Verif.Lemmas.Omp
import Verif.Props.GA

/-!
# C104-C107: the parallel loops
-/

set_option linter.unusedVariables false
set_option linter.unusedSimpArgs false
set_option linter.unusedSectionVars false

namespace Heu
open Spec

/-! ## C104: schedules do not matter -/

section
variable {L : Type} {V : L → Type} [DecidableEq L]

/-- **C104** (the principle).  If a loop has no data race, every trace of every schedule ends in the memory the
sequential loop produces. -/
theorem race_free_eq_sequential (chunk n : Nat) (acts : Nat → List (Act V)) (hr : ¬ DataRace chunk n acts)
    (tr : List (Nat × Act V)) (ht : OmpTrace chunk n acts tr) (m : ∀ l, V l) :
    runTrace tr m = runTrace (seqTrace n acts) m := raceFree_run hr ht m

end

/-- Iteration `i` of the loop over `l` with body `body`. -/
def iteration {L A : Type} {V : L → Type} (body : A → List (Act V)) (l : List A) (i : Nat) : List (Act V) :=
  match l[i]? with
  | some a => body a
  | none => []

theorem mem_iteration {L A : Type} {V : L → Type} {body : A → List (Act V)} {l : List A} {i : Nat} {x : Act V}
    (h : x ∈ iteration body l i) : ∃ a, l[i]? = some a ∧ x ∈ body a := by
  unfold iteration at h
  split at h
  · exact ⟨_, ‹_›, h⟩
  · simp at h

theorem iteration_of {L A : Type} {V : L → Type} {body : A → List (Act V)} {l : List A} {i : Nat} {a : A}
    (h : l[i]? = some a) : iteration body l i = body a := by
  unfold iteration
  rw [h]

/-! ### Evaluation of genes and electrons -/

section
variable {V F : Type}

theorem evalActs_mem {f : V → F} {a : Addr} {x : Act (GLoc.ty V F)} (h : x ∈ evalActs f a) :
    (x.loc = .fit a ∧ ∀ l, x.reads l → l = .var a) ∨ (x.loc = .flag a ∧ ∀ l, ¬ x.reads l) := by
  unfold evalActs at h
  simp only [List.mem_cons, List.not_mem_nil, or_false] at h
  rcases h with rfl | rfl
  · exact Or.inl ⟨rfl, fun l h => h⟩
  · exact Or.inr ⟨rfl, fun l h => h⟩

theorem getElem?_inj' {A : Type} {l : List A} (hd : l.Nodup) {i j : Nat} {a : A} (hi : l[i]? = some a)
    (hj : l[j]? = some a) : i = j := by
  have hi' := (List.getElem?_eq_some_iff.mp hi).1
  have hj' := (List.getElem?_eq_some_iff.mp hj).1
  exact (List.Nodup.getElem_inj_iff hd).mp (by
    rw [(List.getElem?_eq_some_iff.mp hi).2, (List.getElem?_eq_some_iff.mp hj).2])

theorem eval_raceFree (f : V → F) (tasks : List Addr) (hd : tasks.Nodup) (n : Nat) :
    ¬ DataRace 1 n (iteration (evalActs f) tasks) := by
  rintro ⟨i, j, hi, hj, hne, x, hx, y, hy, hc⟩
  obtain ⟨a, ha, hx⟩ := mem_iteration hx
  obtain ⟨b, hb, hy⟩ := mem_iteration hy
  have hab : a ≠ b := by
    rintro rfl
    exact hne (by rw [getElem?_inj' hd ha hb])
  rcases evalActs_mem hx with ⟨hxl, hxr⟩ | ⟨hxl, hxr⟩ <;> rcases evalActs_mem hy with ⟨hyl, hyr⟩ | ⟨hyl, hyr⟩ <;>
    rcases hc with h | h | h <;> simp_all
  all_goals
    first
    | (have := hxr _ h; simp at this)
    | (have := hyr _ h; simp at this)

/-- **C104/C105**, evaluation in the genetic solvers and in AOS: there is no data race whatever the chunk size, and
after every possible trace the nodes hold what the sequential loop computes. -/
theorem evaluation_parallel (f : V → F) (pop : Pop (Gene V F)) (hd : DistinctNodes pop) (chunk : Nat) :
    ¬ DataRace chunk (evalTasks pop).length (iteration (evalActs f) (evalTasks pop)) ∧
    ∀ tr, OmpTrace chunk (evalTasks pop).length (iteration (evalActs f) (evalTasks pop)) tr →
      ∀ m, HoldsPop m pop → HoldsPop (runTrace tr m) (computeAllFitness f pop) := by
  have hnd := (evaluation_tasks_disjoint pop hd).1
  have hr := eval_raceFree f (evalTasks pop) hnd (evalTasks pop).length
  refine ⟨raceFree_mono hr chunk, fun tr ht m hm => ?_⟩
  rw [raceFree_run (raceFree_mono hr chunk) ht]
  intro c' hc'
  obtain ⟨c, hc, rfl⟩ := List.mem_map.mp hc'
  obtain ⟨h1, h2, h3⟩ := hm c hc
  have hvar : runTrace (seqTrace (evalTasks pop).length (iteration (evalActs f) (evalTasks pop))) m (.var c.1) =
      m (.var c.1) := by
    apply runTrace_frame
    intro s hs
    obtain ⟨a, -, ha⟩ := mem_iteration (mem_ompTrace (seqTrace_ompTrace 1 _ _) hs).2
    rcases evalActs_mem ha with ⟨h, -⟩ | ⟨h, -⟩ <;> rw [h] <;> simp
  by_cases hcomp : c.2.computed = true
  · have hnot : c.1 ∉ evalTasks pop := by
      intro hmem
      obtain ⟨d, hd', he⟩ := List.mem_map.mp hmem
      obtain ⟨hdp, hdc⟩ := List.mem_filter.mp hd'
      have : c = d := List.inj_on_of_nodup_map hd hc hdp he.symm
      subst this
      simp [hcomp] at hdc
    have hne : ∀ s ∈ seqTrace (evalTasks pop).length (iteration (evalActs f) (evalTasks pop)),
        (GLoc.fit c.1 ≠ s.2.loc) ∧ (GLoc.flag c.1 ≠ s.2.loc) := by
      intro s hs
      obtain ⟨a, hat, ha⟩ := mem_iteration (mem_ompTrace (seqTrace_ompTrace 1 _ _) hs).2
      have hac : a ≠ c.1 := by
        rintro rfl
        exact hnot (List.mem_of_getElem? hat)
      rcases evalActs_mem ha with ⟨h, -⟩ | ⟨h, -⟩ <;> rw [h] <;> simp [Ne.symm hac]
    have hev : evalGene f c.2 = c.2 := by unfold evalGene; rw [if_pos hcomp]
    show _ = (evalGene f c.2).var ∧ _ = (evalGene f c.2).fitness ∧ _ = (evalGene f c.2).computed
    rw [hev]
    refine ⟨hvar.trans h1, ?_, ?_⟩
    · rw [runTrace_frame _ _ (fun s hs => (hne s hs).1), h2]
    · rw [runTrace_frame _ _ (fun s hs => (hne s hs).2), h3]
  · have hmem : c.1 ∈ evalTasks pop :=
      List.mem_map.mpr ⟨c, List.mem_filter.mpr ⟨hc, by simpa using hcomp⟩, rfl⟩
    obtain ⟨i, hi, hget⟩ := List.getElem_of_mem hmem
    have hit : (evalTasks pop)[i]? = some c.1 := by rw [List.getElem?_eq_getElem hi, hget]
    have hother : ∀ j < (evalTasks pop).length, j ≠ i → ∀ a ∈ iteration (evalActs f) (evalTasks pop) j,
        (GLoc.fit c.1 ≠ a.loc) ∧ (GLoc.flag c.1 ≠ a.loc) := by
      intro j _ hji x hx
      obtain ⟨b, hb, hx⟩ := mem_iteration hx
      have hbc : b ≠ c.1 := by
        rintro rfl
        exact hji (getElem?_inj' hnd hb hit)
      rcases evalActs_mem hx with ⟨h, -⟩ | ⟨h, -⟩ <;> rw [h] <;> simp [Ne.symm hbc]
    have hev : evalGene f c.2 = { c.2 with fitness := f c.2.var, computed := true } := by
      unfold evalGene; rw [if_neg hcomp]
    show _ = (evalGene f c.2).var ∧ _ = (evalGene f c.2).fitness ∧ _ = (evalGene f c.2).computed
    rw [hev]
    refine ⟨hvar.trans h1, ?_, ?_⟩
    · rw [raceFree_local hr hi (.fit c.1) (fun j hj hji a ha => (hother j hj hji a ha).1), iteration_of hit]
      show (flagAct c.1).exec ((fitAct f c.1).exec m) (.fit c.1) = f c.2.var
      rw [exec_of_ne _ _ (by simp [flagAct])]
      exact (exec_self (fitAct f c.1) m).trans (congrArg f h1)
    · rw [raceFree_local hr hi (.flag c.1) (fun j hj hji a ha => (hother j hj hji a ha).2), iteration_of hit]
      exact exec_self (flagAct c.1) _

end

section
/-- Two unevaluated nodes and an evaluated one. -/
def ompDemoPop : Pop (Gene Nat Nat) :=
  [(7, { var := 3, fitness := 0, computed := false }), (8, { var := 4, fitness := 16, computed := true }),
   (9, { var := 5, fitness := 0, computed := false })]

/-- A memory that holds them. -/
def ompDemoMem : ∀ l, GLoc.ty Nat Nat l
  | .var a => if a = 7 then (3 : Nat) else if a = 8 then (4 : Nat) else (5 : Nat)
  | .fit a => if a = 8 then (16 : Nat) else (0 : Nat)
  | .flag a => decide (a = 8)

/-- Hypotheses met: distinct nodes, a memory holding them, and a trace in which the second task's fitness is stored
before the first one's – not the sequential order. -/
example : DistinctNodes ompDemoPop ∧ HoldsPop ompDemoMem ompDemoPop ∧
    OmpTrace 1 2 (iteration (evalActs fun v : Nat => v * v) (evalTasks ompDemoPop))
      [(1, fitAct (fun v => v * v) 9), (0, fitAct (fun v => v * v) 7), (1, flagAct 9), (0, flagAct 7)] ∧
    (computeAllFitness (fun v => v * v) ompDemoPop).map (fun c => c.2.fitness) = [9, 16, 25] := by
  refine ⟨by decide, ?_, fun k => ?_, by decide⟩
  · intro c hc
    simp only [ompDemoPop, List.mem_cons, List.not_mem_nil, or_false] at hc
    rcases hc with rfl | rfl | rfl <;> exact ⟨rfl, rfl, rfl⟩
  · have ht : evalTasks ompDemoPop = [7, 9] := by decide
    rw [ht]
    rcases k with _ | _ | k
    · simp [iteration, evalActs, List.range_succ]
    · simp [iteration, evalActs, List.range_succ]
    · rw [List.filter_eq_nil_iff.mpr, List.filter_eq_nil_iff.mpr]
      · rfl
      · intro i hi
        have := List.mem_range.mp hi
        simp; omega
      · intro s hs
        simp only [List.mem_cons, List.not_mem_nil, or_false] at hs
        rcases hs with rfl | rfl | rfl | rfl <;> simp

end

/-! ### Counting dominators -/

section
variable {G F : Type} [DecidableEq G]

theorem dominatedActs_mem {dom : F → F → Bool} {l : List G} {g : G} {x : Act (DLoc.ty G F)}
    (h : x ∈ dominatedActs dom l g) : x.loc = .num g ∧ ∀ k, x.reads k → k = .num g ∨ ∃ e, k = .fit e := by
  unfold dominatedActs at h
  rcases List.mem_cons.mp h with rfl | h
  · exact ⟨rfl, fun k hk => hk.elim⟩
  · obtain ⟨er, -, rfl⟩ := List.mem_map.mp h
    refine ⟨rfl, fun k hk => ?_⟩
    rcases hk with h | h | h
    · exact Or.inl h
    · exact Or.inr ⟨_, h⟩
    · exact Or.inr ⟨_, h⟩

theorem dominated_raceFree (dom : F → F → Bool) (l : List G) (hd : l.Nodup) :
    ¬ DataRace 1 l.length (iteration (dominatedActs dom l) l) := by
  rintro ⟨i, j, hi, hj, hne, x, hx, y, hy, hc⟩
  obtain ⟨a, ha, hx⟩ := mem_iteration hx
  obtain ⟨b, hb, hy⟩ := mem_iteration hy
  have hab : a ≠ b := by
    rintro rfl
    exact hne (by rw [getElem?_inj' hd ha hb])
  obtain ⟨hxl, hxr⟩ := dominatedActs_mem hx
  obtain ⟨hyl, hyr⟩ := dominatedActs_mem hy
  rcases hc with h | h | h
  · rw [hxl, hyl] at h
    simp [hab] at h
  · rcases hxr _ h with e | ⟨e, he⟩
    · rw [hyl] at e; simp [Ne.symm hab] at e
    · rw [hyl] at he; simp at he
  · rcases hyr _ h with e | ⟨e, he⟩
    · rw [hxl] at e; simp [hab] at e
    · rw [hxl] at he; simp at he

theorem dominated_fold (dom : F → F → Bool) (l : List G) (ed : G) (m : ∀ k, DLoc.ty G F k) (n : Nat)
    (hn : m (.num ed) = n) :
    ((l.filter (fun er => er ≠ ed)).map (countAct dom ed)).foldl (fun m a => a.exec m) m (.num ed) =
    l.foldl (fun n er => if er = ed then n else n + (if dom (m (.fit er)) (m (.fit ed)) then 1 else 0)) n := by
  induction l generalizing m n with
  | nil => exact hn
  | cons er l ih =>
    by_cases e : er = ed
    · rw [List.filter_cons_of_neg (by simp [e]), List.foldl_cons, if_pos e]
      exact ih m n hn
    · rw [List.filter_cons_of_pos (by simp [e]), List.map_cons, List.foldl_cons, List.foldl_cons, if_neg e]
      rw [ih _ (n + (if dom (m (.fit er)) (m (.fit ed)) then 1 else 0))]
      · have hfit : ∀ g, (countAct dom ed er).exec m (.fit g) = m (.fit g) := fun g =>
          exec_of_ne _ m (by simp [countAct])
        simp only [hfit]
        rfl
      · refine (exec_self (countAct dom ed er) m).trans ?_
        show (show Nat from m (.num ed)) + _ = _
        rw [show (show Nat from m (.num ed)) = n from hn]

/-- **C104/C105**, counting dominators in NSGA-II and NSGA-III: no data race whatever the chunk size, and after
every possible trace the counters are the numbers of dominators; the fitness values are untouched. -/
theorem dominated_num_parallel (dom : F → F → Bool) (pop : List G) (hd : pop.Nodup) (chunk : Nat) :
    ¬ DataRace chunk pop.length (iteration (dominatedActs dom pop) pop) ∧
    ∀ tr, OmpTrace chunk pop.length (iteration (dominatedActs dom pop) pop) tr → ∀ m,
      ∀ g ∈ pop, runTrace tr m (.fit g) = m (.fit g) ∧
        runTrace tr m (.num g) =
          calculateDominatedNum (fun a b => dom (m (.fit a)) (m (.fit b))) pop g ∧
        runTrace tr m (.num g) = (pop.filter fun e => decide (e ≠ g) && dom (m (.fit e)) (m (.fit g))).length := by
  have hr := dominated_raceFree dom pop hd
  refine ⟨raceFree_mono hr chunk, fun tr ht m g hg => ?_⟩
  rw [raceFree_run (raceFree_mono hr chunk) ht]
  obtain ⟨i, hi, hget⟩ := List.getElem_of_mem hg
  have hit : pop[i]? = some g := by rw [List.getElem?_eq_getElem hi, hget]
  have hnum : runTrace (seqTrace pop.length (iteration (dominatedActs dom pop) pop)) m (.num g) =
      calculateDominatedNum (fun a b => dom (m (.fit a)) (m (.fit b))) pop g := by
    rw [raceFree_local hr hi (.num g), iteration_of hit]
    · unfold dominatedActs
      rw [List.foldl_cons]
      refine (dominated_fold dom pop g _ 0 (exec_self (zeroAct g) m)).trans ?_
      have hfit : ∀ e, (zeroAct g).exec m (.fit e) = m (.fit e) := fun e =>
        exec_of_ne _ m (by simp [zeroAct])
      simp only [hfit]
      rfl
    · intro j _ hji x hx
      obtain ⟨b, hb, hx⟩ := mem_iteration hx
      rw [(dominatedActs_mem hx).1]
      intro e
      injection e with e
      subst e
      exact hji (getElem?_inj' hd hb hit)
  refine ⟨?_, hnum, hnum.trans ?_⟩
  · apply runTrace_frame
    intro s hs
    obtain ⟨a, -, ha⟩ := mem_iteration (mem_ompTrace (seqTrace_ompTrace 1 _ _) hs).2
    rw [(dominatedActs_mem ha).1]
    simp
  · unfold calculateDominatedNum
    have key : ∀ (l : List G) (n : Nat),
        l.foldl (fun n er => if er = g then n else n + (if dom (m (.fit er)) (m (.fit g)) then 1 else 0)) n =
          n + (l.filter fun e => decide (e ≠ g) && dom (m (.fit e)) (m (.fit g))).length := by
      intro l
      induction l with
      | nil => intro n; rfl
      | cons e l ih =>
        intro n
        rw [List.foldl_cons, ih]
        by_cases h : e = g
        · rw [if_pos h, List.filter_cons_of_neg (by simp [h])]
        · by_cases hdm : dom (m (.fit e)) (m (.fit g)) = true
          · rw [if_neg h, if_pos hdm, List.filter_cons_of_pos (by simp [h, hdm]), List.length_cons]; omega
          · rw [if_neg h, if_neg hdm, List.filter_cons_of_neg (by simp [hdm]), Nat.add_zero]
    rw [key, Nat.zero_add]

end

/-- A memory with fitness `g` for individual `g`. -/
def ompDemoDom : ∀ k, DLoc.ty Nat Nat k
  | .fit g => g
  | .num _ => (77 : Nat)

/-- Three individuals, counted in the order last, first, second. -/
example :
    let acts := iteration (dominatedActs (fun a b : Nat => decide (a < b)) [0, 1, 2]) [0, 1, 2]
    let tr := [2, 0, 1].flatMap fun i => (acts i).map fun a => (i, a)
    OmpTrace 1 3 acts tr ∧ runTrace tr ompDemoDom (.num 2) = (2 : Nat) := by
  intro acts tr
  have ht : OmpTrace 1 3 acts tr := by
    intro k
    refine (filter_flatMap_tag (fun i => i / 1) k [2, 0, 1] acts).trans ?_
    rcases k with _ | _ | _ | k
    · rfl
    · rfl
    · rfl
    · rw [List.filter_eq_nil_iff.mpr, List.filter_eq_nil_iff.mpr]
      · intro i hi
        have := List.mem_range.mp hi
        simp; omega
      · intro i hi
        simp only [List.mem_cons, List.not_mem_nil, or_false] at hi
        rcases hi with rfl | rfl | rfl <;> simp
  refine ⟨ht, ?_⟩
  exact ((dominated_num_parallel (fun a b : Nat => decide (a < b)) [0, 1, 2] (by decide) 1).2 tr ht ompDemoDom 2
    (by simp)).2.2

/-! ### The particle swarm -/

section
variable {P F E α : Type}

theorem psoEval_raceFree (f : P → F) (n : Nat) :
    ¬ DataRace 1 n (psoEvalActs f : Nat → List (Act (PLoc.ty P F E α))) := by
  rintro ⟨i, j, hi, hj, hne, x, hx, y, hy, hc⟩
  rw [Nat.div_one, Nat.div_one] at hne
  obtain rfl := List.mem_singleton.mp hx
  obtain rfl := List.mem_singleton.mp hy
  rcases hc with h | h | h
  · simp [psoFitAct, hne] at h
  · simp [psoFitAct] at h
  · simp [psoFitAct] at h

/-- **C104/C105**, evaluation of a swarm: no data race whatever the chunk size, and after every possible trace the
particles hold what the sequential loop computes. -/
theorem pso_evaluate_parallel (f : P → F) (s : PSOState P F) (chunk : Nat) :
    ¬ DataRace chunk s.swarm.length (psoEvalActs f : Nat → List (Act (PLoc.ty P F E α))) ∧
    ∀ tr, OmpTrace chunk s.swarm.length (psoEvalActs f : Nat → List (Act (PLoc.ty P F E α))) tr →
      ∀ m, HoldsSwarm m s → HoldsSwarm (runTrace tr m) (psoComputeAllFitness f s) := by
  have hr := psoEval_raceFree (E := E) (α := α) f s.swarm.length
  refine ⟨raceFree_mono hr chunk, fun tr ht m hm => ?_⟩
  rw [raceFree_run (raceFree_mono hr chunk) ht]
  have hframe : ∀ l : PLoc, (∀ k, l ≠ .fit k) →
      runTrace (seqTrace s.swarm.length (psoEvalActs f : Nat → List (Act (PLoc.ty P F E α)))) m l = m l := by
    intro l hl
    apply runTrace_frame
    intro t ht'
    have := (mem_ompTrace (seqTrace_ompTrace 1 _ _) ht').2
    rw [List.mem_singleton.mp this]
    exact hl _
  refine ⟨(hframe .gBest (by simp)).trans hm.1, fun k p hp => ?_⟩
  unfold psoComputeAllFitness at hp
  rw [List.getElem?_map] at hp
  obtain ⟨q, hq, rfl⟩ := Option.map_eq_some_iff.mp hp
  obtain ⟨h1, h2, h3, h4⟩ := hm.2 k q hq
  have hk : k < s.swarm.length := (List.getElem?_eq_some_iff.mp hq).1
  refine ⟨(hframe (.pos k) (by simp)).trans h1, (hframe (.vel k) (by simp)).trans h2, ?_,
    (hframe (.pBest k) (by simp)).trans h4⟩
  rw [raceFree_local hr hk (.fit k)]
  · exact (exec_self (psoFitAct f k) m).trans (congrArg f h1)
  · intro j _ hj a ha
    rw [List.mem_singleton.mp ha]
    simp [psoFitAct, Ne.symm hj]

/-- Hypotheses met: a memory holding a swarm of two particles. -/
example : ∃ m : ∀ l, PLoc.ty Nat Nat Nat Nat l, HoldsSwarm m
    { swarm := [⟨1, 0, 5, ⟨1, 0⟩⟩, ⟨2, 0, 6, ⟨2, 0⟩⟩], gBest := ⟨1, 0⟩, fail := 0 } := by
  refine ⟨fun l => match l with
    | .pos k => (k + 1 : Nat) | .vel k => (k + 5 : Nat) | .fit _ => (0 : Nat) | .pBest k => (k + 1 : Nat)
    | .gBest => (1 : Nat) | .engine => (0 : Nat) | .rnd _ _ => (0 : Nat), rfl, fun k p hp => ?_⟩
  rcases k with _ | _ | k
  · obtain rfl := Option.some.inj hp
    exact ⟨rfl, rfl, rfl, rfl⟩
  · obtain rfl := Option.some.inj hp
    exact ⟨rfl, rfl, rfl, rfl⟩
  · simp at hp

theorem moveActs_mem {vel : α → α → P → P → P → P → P} {pos : P → P → P} {k : Nat} {x : Act (PLoc.ty P F E α)}
    (h : x ∈ moveActs vel pos k) :
    (x.loc = .vel k ∨ x.loc = .pos k) ∧
      ∀ l, x.reads l → l = .rnd k false ∨ l = .rnd k true ∨ l = .vel k ∨ l = .pos k ∨ l = .pBest k ∨ l = .gBest := by
  unfold moveActs at h
  simp only [List.mem_cons, List.not_mem_nil, or_false] at h
  rcases h with rfl | rfl
  · exact ⟨Or.inl rfl, fun l h => h⟩
  · refine ⟨Or.inr rfl, fun l h => ?_⟩
    rcases h with h | h
    · simp [h]
    · simp [h]

theorem move_raceFree (vel : α → α → P → P → P → P → P) (pos : P → P → P) (n : Nat) :
    ¬ DataRace 1 n (moveActs vel pos : Nat → List (Act (PLoc.ty P F E α))) := by
  rintro ⟨i, j, hi, hj, hne, x, hx, y, hy, hc⟩
  rw [Nat.div_one, Nat.div_one] at hne
  obtain ⟨hxl, hxr⟩ := moveActs_mem hx
  obtain ⟨hyl, hyr⟩ := moveActs_mem hy
  rcases hc with h | h | h
  · rcases hxl with e | e <;> rcases hyl with e' | e' <;> rw [e, e'] at h <;> simp [hne] at h
  · have := hxr _ h
    rcases hyl with e | e <;> rw [e] at this <;> simp [Ne.symm hne] at this
  · have := hyr _ h
    rcases hxl with e | e <;> rw [e] at this <;> simp [hne] at this

end

section
variable {F E α : Type} [Add α] [Sub α] [Mul α] [Neg α] [LT α] [DecidableLT α]

/-- The two expressions of `__impl_updatePopulation`, `PSO4Eigen.hpp` lines 93-107. -/
def psoVel (b : PSOBox α) (o : PSOFactors α) (lFP lFG : α) (v p pb gb : List α) : List α :=
  applyConstraint4Velocity b (newVelocity o lFP lFG v p pb gb)

/-- The new position, `PSO4Eigen.hpp` lines 100-103. -/
def psoPos (b : PSOBox α) (p v : List α) : List α := applyConstraint4Position b (List.zipWith (· + ·) p v)

/-- **C104/C105**, the move of a swarm *without* the draws: if every iteration already has its two random factors,
the loop has no data race whatever the chunk size, and after every possible trace the particles are those of the
sequential loop with the same factors. -/
theorem pso_move_private_draws (b : PSOBox α) (o : PSOFactors α) (s : PSOState (List α) F) (chunk : Nat) :
    ¬ DataRace chunk s.swarm.length
      (moveActs (psoVel b o) (psoPos b) : Nat → List (Act (PLoc.ty (List α) F E α))) ∧
    ∀ tr, OmpTrace chunk s.swarm.length
        (moveActs (psoVel b o) (psoPos b) : Nat → List (Act (PLoc.ty (List α) F E α))) tr →
      ∀ m, HoldsSwarm m s →
        HoldsSwarm (runTrace tr m) (updatePopulation b o (fun k => (m (.rnd k false), m (.rnd k true))) s) := by
  have hr := move_raceFree (F := F) (E := E) (psoVel b o) (psoPos b) s.swarm.length
  refine ⟨raceFree_mono hr chunk, fun tr ht m hm => ?_⟩
  rw [raceFree_run (raceFree_mono hr chunk) ht]
  have hframe : ∀ l : PLoc, (∀ k, l ≠ .vel k ∧ l ≠ .pos k) →
      runTrace (seqTrace s.swarm.length
        (moveActs (psoVel b o) (psoPos b) : Nat → List (Act (PLoc.ty (List α) F E α)))) m l = m l := by
    intro l hl
    apply runTrace_frame
    intro t ht'
    rcases (moveActs_mem (mem_ompTrace (seqTrace_ompTrace 1 _ _) ht').2).1 with e | e <;> rw [e]
    · exact (hl _).1
    · exact (hl _).2
  refine ⟨(hframe .gBest (by simp)).trans hm.1, fun k p hp => ?_⟩
  unfold updatePopulation at hp
  rw [List.getElem?_mapIdx] at hp
  obtain ⟨q, hq, rfl⟩ := Option.map_eq_some_iff.mp hp
  obtain ⟨h1, h2, h3, h4⟩ := hm.2 k q hq
  have h5 := hm.1
  have hk : k < s.swarm.length := (List.getElem?_eq_some_iff.mp hq).1
  have hother : ∀ j < s.swarm.length, j ≠ k → ∀ a ∈ (moveActs (psoVel b o) (psoPos b) j :
      List (Act (PLoc.ty (List α) F E α))), PLoc.vel k ≠ a.loc ∧ PLoc.pos k ≠ a.loc := by
    intro j _ hj a ha
    rcases (moveActs_mem ha).1 with e | e <;> rw [e] <;> simp [Ne.symm hj]
  let m1 := (velAct (psoVel b o) k : Act (PLoc.ty (List α) F E α)).exec m
  have hv1 : m1 (.vel k) = psoVel b o (m (.rnd k false)) (m (.rnd k true)) q.velocity q.position q.pBest.position
      s.gBest.position := by
    refine (exec_self (velAct (psoVel b o) k : Act (PLoc.ty (List α) F E α)) m).trans ?_
    show psoVel b o _ _ (m (.vel k)) (m (.pos k)) (m (.pBest k)) (m .gBest) = _
    rw [h1, h2, h4, h5]
  have hp1 : m1 (.pos k) = q.position := (exec_of_ne _ _ (by simp [velAct])).trans h1
  refine ⟨?_, ?_, (hframe (.fit k) (by simp)).trans h3, (hframe (.pBest k) (by simp)).trans h4⟩
  · rw [raceFree_local hr hk (.pos k) (fun j hj hne a ha => (hother j hj hne a ha).2)]
    refine (exec_self (posAct (psoPos b) k : Act (PLoc.ty (List α) F E α)) m1).trans ?_
    show psoPos b (m1 (.pos k)) (m1 (.vel k)) = _
    rw [hp1, hv1]
    rfl
  · rw [raceFree_local hr hk (.vel k) (fun j hj hne a ha => (hother j hj hne a ha).1)]
    refine (exec_of_ne (l := .vel k) (posAct (psoPos b) k : Act (PLoc.ty (List α) F E α)) m1
      (by simp [posAct])).trans ?_
    exact hv1

end

/-! ## C105: the shared random engine -/

section
variable {P F E α : Type}

/-- **C105** (where it fails): the update of a swarm with two or more chunks races on the random engine, whatever
the particles are; with a single chunk it does not. -/
theorem pso_update_races_iff (out : E → α) (next : E → E) (vel : α → α → P → P → P → P → P) (pos : P → P → P)
    (chunk n : Nat) (hc : 0 < chunk) :
    DataRace chunk n (psoMoveActs out next vel pos : Nat → List (Act (PLoc.ty P F E α))) ↔ chunk < n := by
  constructor
  · rintro ⟨i, j, hi, hj, hne, -⟩
    by_contra h
    push Not at h
    rw [Nat.div_eq_of_lt (by omega), Nat.div_eq_of_lt (by omega)] at hne
    exact hne rfl
  · intro h
    refine ⟨0, chunk, by omega, h, ?_, advanceAct next, ?_, advanceAct next, ?_, Or.inl rfl⟩
    · rw [Nat.zero_div, Nat.div_self hc]; exact Nat.zero_ne_one
    · simp [psoMoveActs, drawActs]
    · simp [psoMoveActs, drawActs]

theorem exec_draw_ne (out : E → α) (k : Nat) (b : Bool) (m : ∀ l, PLoc.ty P F E α l) {l : PLoc}
    (h : l ≠ .rnd k b) : (drawAct out k b : Act (PLoc.ty P F E α)).exec m l = m l := exec_of_ne _ _ h
theorem exec_adv_ne (next : E → E) (m : ∀ l, PLoc.ty P F E α l) {l : PLoc}
    (h : l ≠ .engine) : (advanceAct next : Act (PLoc.ty P F E α)).exec m l = m l := exec_of_ne _ _ h
theorem exec_vel_ne (vel : α → α → P → P → P → P → P) (k : Nat) (m : ∀ l, PLoc.ty P F E α l) {l : PLoc}
    (h : l ≠ .vel k) : (velAct vel k : Act (PLoc.ty P F E α)).exec m l = m l := exec_of_ne _ _ h
theorem exec_pos_ne (pos : P → P → P) (k : Nat) (m : ∀ l, PLoc.ty P F E α l) {l : PLoc}
    (h : l ≠ .pos k) : (posAct pos k : Act (PLoc.ty P F E α)).exec m l = m l := exec_of_ne _ _ h

/-- The memory after the first `n` iterations of the sequential update. -/
theorem psoMove_seq (out : E → α) (next : E → E) (vel : α → α → P → P → P → P → P) (pos : P → P → P) (n : Nat)
    (m : ∀ l, PLoc.ty P F E α l) (m' : ∀ l, PLoc.ty P F E α l)
    (hm' : m' = runTrace (seqTrace n (psoMoveActs out next vel pos : Nat → List (Act (PLoc.ty P F E α)))) m) :
    m' .engine = next^[2 * n] (m .engine) ∧ m' .gBest = m .gBest ∧
    (∀ k, m' (.fit k) = m (.fit k) ∧ m' (.pBest k) = m (.pBest k)) ∧
    (∀ k, n ≤ k → m' (.pos k) = m (.pos k) ∧ m' (.vel k) = m (.vel k)) ∧
    (∀ k, k < n → m' (.vel k) = vel (out (next^[2 * k] (m .engine))) (out (next^[2 * k + 1] (m .engine)))
        (m (.vel k)) (m (.pos k)) (m (.pBest k)) (m .gBest) ∧
      m' (.pos k) = pos (m (.pos k)) (m' (.vel k))) := by
  induction n generalizing m' with
  | zero =>
    subst hm'
    exact ⟨rfl, rfl, fun k => ⟨rfl, rfl⟩, fun k _ => ⟨rfl, rfl⟩, fun k hk => absurd hk (Nat.not_lt_zero k)⟩
  | succ n ih =>
    obtain ⟨i1, i2, i3, i4, i5⟩ := ih _ rfl
    have hstep : seqTrace (n + 1) (psoMoveActs out next vel pos : Nat → List (Act (PLoc.ty P F E α))) =
        seqTrace n (psoMoveActs out next vel pos) ++ (psoMoveActs out next vel pos n).map fun a => (n, a) := by
      unfold seqTrace
      rw [List.range_succ, List.flatMap_append, List.flatMap_singleton]
    rw [hstep, runTrace_append] at hm'
    generalize runTrace (seqTrace n (psoMoveActs out next vel pos : Nat → List (Act (PLoc.ty P F E α)))) m = q at *
    let q1 := (drawAct out n false : Act (PLoc.ty P F E α)).exec q
    let q2 := (advanceAct next : Act (PLoc.ty P F E α)).exec q1
    let q3 := (drawAct out n true : Act (PLoc.ty P F E α)).exec q2
    let q4 := (advanceAct next : Act (PLoc.ty P F E α)).exec q3
    let q5 := (velAct vel n : Act (PLoc.ty P F E α)).exec q4
    have hm5 : m' = (posAct pos n : Act (PLoc.ty P F E α)).exec q5 := hm'
    have hrnd : ∀ l : PLoc, l ≠ .engine → l ≠ .rnd n false → l ≠ .rnd n true → q4 l = q l := by
      intro l h1 h2 h3
      show (advanceAct next : Act (PLoc.ty P F E α)).exec q3 l = _
      rw [exec_of_ne _ _ (show l ≠ (advanceAct next : Act (PLoc.ty P F E α)).loc from h1)]
      show (drawAct out n true : Act (PLoc.ty P F E α)).exec q2 l = _
      rw [exec_of_ne _ _ (show l ≠ (drawAct out n true : Act (PLoc.ty P F E α)).loc from h3)]
      show (advanceAct next : Act (PLoc.ty P F E α)).exec q1 l = _
      rw [exec_of_ne _ _ (show l ≠ (advanceAct next : Act (PLoc.ty P F E α)).loc from h1)]
      exact exec_of_ne _ _ h2
    have e1 : q1 .engine = q .engine := exec_draw_ne _ _ _ _ (l := PLoc.engine) (by simp)
    have e2 : q2 .engine = next (q .engine) :=
      (exec_self (advanceAct next : Act (PLoc.ty P F E α)) q1).trans (congrArg next e1)
    have e3 : q3 .engine = next (q .engine) := (exec_draw_ne _ _ _ _ (l := PLoc.engine) (by simp)).trans e2
    have e4 : q4 .engine = next (next (q .engine)) :=
      (exec_self (advanceAct next : Act (PLoc.ty P F E α)) q3).trans (congrArg next e3)
    have r1 : q4 (.rnd n false) = out (q .engine) := by
      refine (exec_adv_ne _ _ (l := PLoc.rnd n false) (by simp)).trans ?_
      refine (exec_draw_ne _ _ _ _ (l := PLoc.rnd n false) (by simp)).trans ?_
      refine (exec_adv_ne _ _ (l := PLoc.rnd n false) (by simp)).trans ?_
      exact exec_self (drawAct out n false : Act (PLoc.ty P F E α)) q
    have r2 : q4 (.rnd n true) = out (next (q .engine)) := by
      refine (exec_adv_ne _ _ (l := PLoc.rnd n true) (by simp)).trans ?_
      exact (exec_self (drawAct out n true : Act (PLoc.ty P F E α)) q2).trans (congrArg out e2)
    have hrest : ∀ l : PLoc, l ≠ .vel n → l ≠ .pos n → m' l = q4 l := by
      intro l h1 h2
      rw [hm5, exec_of_ne _ _ (show l ≠ (posAct pos n : Act (PLoc.ty P F E α)).loc from h2)]
      exact exec_of_ne _ _ h1
    have hv : m' (.vel n) = vel (out (q .engine)) (out (next (q .engine))) (q (.vel n)) (q (.pos n)) (q (.pBest n))
        (q .gBest) := by
      rw [hm5]
      refine (exec_pos_ne _ _ _ (l := PLoc.vel n) (by simp)).trans ?_
      refine (exec_self (velAct vel n : Act (PLoc.ty P F E α)) q4).trans ?_
      show vel (q4 (.rnd n false)) (q4 (.rnd n true)) (q4 (.vel n)) (q4 (.pos n)) (q4 (.pBest n)) (q4 .gBest) = _
      rw [r1, r2, hrnd _ (by simp) (by simp) (by simp), hrnd _ (by simp) (by simp) (by simp),
        hrnd _ (by simp) (by simp) (by simp), hrnd _ (by simp) (by simp) (by simp)]
    have hv5 : q5 (.vel n) = m' (.vel n) := by
      rw [hm5]
      exact (exec_pos_ne _ _ _ (l := PLoc.vel n) (by simp)).symm
    have hp : m' (.pos n) = pos (q (.pos n)) (m' (.vel n)) := by
      rw [← hv5, hm5]
      refine (exec_self (posAct pos n : Act (PLoc.ty P F E α)) q5).trans ?_
      show pos (q5 (.pos n)) (q5 (.vel n)) = _
      have : q5 (.pos n) = q (.pos n) :=
        (exec_vel_ne _ _ _ (l := PLoc.pos n) (by simp)).trans (hrnd _ (by simp) (by simp) (by simp))
      rw [this]
    have hpow : next^[2 * (n + 1)] (m .engine) = next (next (next^[2 * n] (m .engine))) := by
      exact (Function.iterate_succ_apply' next (2 * n + 1) _).trans
        (congrArg next (Function.iterate_succ_apply' next (2 * n) _))
    refine ⟨?_, ?_, fun k => ⟨?_, ?_⟩, fun k hk => ⟨?_, ?_⟩, fun k hk => ?_⟩
    · rw [hrest _ (by simp) (by simp), e4, i1, hpow]
    · rw [hrest _ (by simp) (by simp), hrnd _ (by simp) (by simp) (by simp), i2]
    · rw [hrest _ (by simp) (by simp), hrnd _ (by simp) (by simp) (by simp), (i3 k).1]
    · rw [hrest _ (by simp) (by simp), hrnd _ (by simp) (by simp) (by simp), (i3 k).2]
    · have : k ≠ n := by omega
      rw [hrest _ (by simp) (by simp [this]), hrnd _ (by simp) (by simp) (by simp), (i4 k (by omega)).1]
    · have : k ≠ n := by omega
      rw [hrest _ (by simp [this]) (by simp), hrnd _ (by simp) (by simp) (by simp), (i4 k (by omega)).2]
    · by_cases hkn : k = n
      · subst hkn
        obtain ⟨h1, h2⟩ := i4 k (Nat.le_refl k)
        refine ⟨?_, by rw [hp, h1]⟩
        rw [hv, h1, h2, (i3 k).2, i2, i1]
        exact congrArg (fun e => vel _ (out e) _ _ _ _) (Function.iterate_succ_apply' next (2 * k) _).symm
      · obtain ⟨h1, h2⟩ := i5 k (by omega)
        have hvk : m' (.vel k) = q (.vel k) := by
          rw [hrest _ (by simp [hkn]) (by simp), hrnd _ (by simp) (by simp) (by simp)]
        refine ⟨by rw [hvk, h1], ?_⟩
        rw [hvk, hrest _ (by simp) (by simp [hkn]), hrnd _ (by simp) (by simp) (by simp), h2]

/-- A loop with a single chunk has only one trace. -/
theorem ompTrace_single_chunk {chunk n : Nat} (hc : 0 < chunk) (hn : n ≤ chunk)
    {acts : Nat → List (Act (PLoc.ty P F E α))} {tr : List (Nat × Act (PLoc.ty P F E α))}
    (ht : OmpTrace chunk n acts tr) : tr = seqTrace n acts := by
  have h0 := ht 0
  rw [List.filter_eq_self.mpr, List.filter_eq_self.mpr] at h0
  · exact h0
  · intro i hi
    have := List.mem_range.mp hi
    simp only [decide_eq_true_eq]
    exact Nat.div_eq_of_lt (by omega)
  · intro s hs
    have := (mem_ompTrace ht hs).1
    simp only [decide_eq_true_eq]
    exact Nat.div_eq_of_lt (by omega)

/-- **C105** (the case that is left): when the whole swarm is a single chunk, the loop is the sequential one, and
particle `k` gets draws number `2k` and `2k+1` of the engine. -/
theorem pso_update_single_chunk_partial {α : Type} [Add α] [Sub α] [Mul α] [Neg α] [LT α] [DecidableLT α]
    (out : E → α) (next : E → E) (b : PSOBox α) (o : PSOFactors α) (s : PSOState (List α) F) (chunk : Nat)
    (hc : 0 < chunk) (hn : s.swarm.length ≤ chunk) (tr : List (Nat × Act (PLoc.ty (List α) F E α)))
    (ht : OmpTrace chunk s.swarm.length (psoMoveActs out next (psoVel b o) (psoPos b)) tr)
    (m : ∀ l, PLoc.ty (List α) F E α l) (hm : HoldsSwarm m s) :
    HoldsSwarm (runTrace tr m) (updatePopulation b o
      (fun k => (out (next^[2 * k] (m .engine)), out (next^[2 * k + 1] (m .engine)))) s) := by
  rw [ompTrace_single_chunk hc hn ht]
  obtain ⟨h1, h2, h3, h4, h5⟩ := psoMove_seq (F := F) out next (psoVel b o) (psoPos b) s.swarm.length m _ rfl
  refine ⟨h2.trans hm.1, fun k p hp => ?_⟩
  unfold updatePopulation at hp
  rw [List.getElem?_mapIdx] at hp
  obtain ⟨q, hq, rfl⟩ := Option.map_eq_some_iff.mp hp
  obtain ⟨g1, g2, g3, g4⟩ := hm.2 k q hq
  have hk : k < s.swarm.length := (List.getElem?_eq_some_iff.mp hq).1
  obtain ⟨hv, hp'⟩ := h5 k hk
  have hg := hm.1
  have hv' : runTrace (seqTrace s.swarm.length (psoMoveActs out next (psoVel b o) (psoPos b) :
      Nat → List (Act (PLoc.ty (List α) F E α)))) m (.vel k) = psoVel b o (out (next^[2 * k] (m .engine)))
      (out (next^[2 * k + 1] (m .engine))) q.velocity q.position q.pBest.position s.gBest.position := by
    rw [hv, g1, g2, g4, hg]
  refine ⟨?_, hv', (h3 k).1.trans g3, (h3 k).2.trans g4⟩
  rw [hp', hv', g1]
  rfl

/-- **C105** (consequence): with two chunks of one particle each and a counting engine, one possible interleaving
gives both particles the same random factor – the sequential program never does. -/
theorem pso_shared_draw (vel : Nat → Nat → P → P → P → P → P) (pos : P → P → P) :
    ∃ tr, OmpTrace 1 2 (psoMoveActs id Nat.succ vel pos : Nat → List (Act (PLoc.ty P F Nat Nat))) tr ∧
      ∀ m, runTrace tr m (.rnd 0 false) = runTrace tr m (.rnd 1 false) ∧
        runTrace (seqTrace 2 (psoMoveActs id Nat.succ vel pos : Nat → List (Act (PLoc.ty P F Nat Nat)))) m
            (.rnd 0 false) ≠
          runTrace (seqTrace 2 (psoMoveActs id Nat.succ vel pos : Nat → List (Act (PLoc.ty P F Nat Nat)))) m
            (.rnd 1 false) := by
  let D : Nat → Bool → Act (PLoc.ty P F Nat Nat) := fun k b => drawAct id k b
  let A : Act (PLoc.ty P F Nat Nat) := advanceAct Nat.succ
  let W : Nat → Act (PLoc.ty P F Nat Nat) := fun k => velAct vel k
  let X : Nat → Act (PLoc.ty P F Nat Nat) := fun k => posAct pos k
  refine ⟨[(0, D 0 false), (1, D 1 false), (0, A), (1, A), (0, D 0 true), (0, A), (0, W 0), (0, X 0),
    (1, D 1 true), (1, A), (1, W 1), (1, X 1)], fun k => ?_, fun m => ⟨rfl, ?_⟩⟩
  · rcases k with _ | _ | k
    · simp [psoMoveActs, drawActs, moveActs, List.range_succ, D, A, W, X]
    · simp [psoMoveActs, drawActs, moveActs, List.range_succ, D, A, W, X]
    · rw [List.filter_eq_nil_iff.mpr, List.filter_eq_nil_iff.mpr]
      · rfl
      · intro i hi
        have := List.mem_range.mp hi
        simp; omega
      · intro s hs
        simp only [List.mem_cons, List.not_mem_nil, or_false] at hs
        rcases hs with rfl | rfl | rfl | rfl | rfl | rfl | rfl | rfl | rfl | rfl | rfl | rfl <;> simp
  · show (m .engine : Nat) ≠ Nat.succ (Nat.succ (m .engine))
    exact Nat.ne_of_lt (Nat.lt_succ_of_lt (Nat.lt_succ_self _))

end

/-! ## C106: which sizes and thread numbers are admissible -/

/-- **C106**: a parallel loop has defined behaviour exactly if its thread number is positive and not larger than the
number of iterations.  (`thN` is the number in force when the loop first ran.) -/
theorem chunkSize_defined_iff (size : Nat) (s : ThreadState) :
    (∃ r, chunkSize size s = .ok r) ↔ 0 < s.thN.getD s.thNum ∧ s.thN.getD s.thNum ≤ size := by
  unfold chunkSize ThreadState.threadNum
  obtain ⟨t, ht⟩ : ∃ t, t = s.thN.getD s.thNum := ⟨_, rfl⟩
  simp only [← ht]
  by_cases h : t ≤ 0
  · rw [if_pos h]
    constructor
    · rintro ⟨r, hr⟩; cases hr
    · rintro ⟨h', -⟩; omega
  · rw [if_neg h]
    have htn : 0 < t.toNat := by omega
    by_cases h0 : size / t.toNat = 0
    · rw [if_pos h0]
      have := (Nat.div_eq_zero_iff_lt htn).mp h0
      constructor
      · rintro ⟨r, hr⟩; cases hr
      · rintro ⟨-, h'⟩; omega
    · rw [if_neg h0]
      have : ¬ size < t.toNat := fun hh => h0 ((Nat.div_eq_zero_iff_lt htn).mpr hh)
      exact ⟨fun _ => ⟨by omega, by omega⟩, fun _ => ⟨_, rfl⟩⟩

/-- **C106** (where it fails): populations smaller than the number of threads – in particular an evaluation with
nothing left to evaluate – make every parallel loop undefined. -/
theorem chunkSize_small_population_partial (size : Nat) (s : ThreadState) (h : (size : Int) < s.thN.getD s.thNum) :
    chunkSize size s = .ub := by
  have hn := mt (chunkSize_defined_iff size s).mp (by omega)
  cases hc : chunkSize size s with
  | ok r => exact absurd ⟨r, hc⟩ hn
  | ub => rfl
  | timeout =>
    unfold chunkSize at hc
    simp only at hc
    split at hc
    · cases hc
    · split at hc <;> cases hc

example : chunkSize 3 ⟨4, none⟩ = .ub := chunkSize_small_population_partial 3 ⟨4, none⟩ (by decide)
example : chunkSize 0 ⟨1, none⟩ = .ub := chunkSize_small_population_partial 0 ⟨1, none⟩ (by decide)
example : chunkSize 100 ⟨8, none⟩ = .ok (12, ⟨8, some 8⟩) := rfl

/-! ## C107: `setThreadNum` -/

/-- **C107** (before the first evaluation it works): the number set is the one the first loop uses. -/
theorem setThreadNum_first (n : Int) (hn : 0 < n) (s : ThreadState) (hs : s.thN = none) (size : Nat) :
    ∃ s', setThreadNum n s = .ok s' ∧ s'.threadNum = n ∧
      (n ≤ size → chunkSize size s' = .ok (size / n.toNat, { s' with thN := some n })) := by
  refine ⟨{ s with thNum := n }, by unfold setThreadNum; rw [if_pos hn], rfl, fun hle => ?_⟩
  unfold chunkSize ThreadState.threadNum
  simp only [hs, Option.getD_none]
  rw [if_neg (by omega)]
  have : ¬ size / n.toNat = 0 := by
    rw [Nat.div_eq_zero_iff_lt (by omega)]
    omega
  rw [if_neg this]

/-- **C107** (where it fails): once a loop has run, `setThreadNum` no longer changes what it does. -/
theorem setThreadNum_ignored_partial (size size' : Nat) (s s' s'' : ThreadState) (chunk : Nat) (n : Int)
    (h : chunkSize size s = .ok (chunk, s')) (hset : setThreadNum n s' = .ok s'') :
    s''.threadNum = n ∧ s''.thN = s'.thN ∧ s'.thN = some (s.thN.getD s.thNum) ∧
      (∀ c t, chunkSize size' s' = .ok (c, t) → ∃ t', chunkSize size' s'' = .ok (c, t')) ∧
      (chunkSize size' s' = .ub → chunkSize size' s'' = .ub) := by
  have hs' : s'.thN = some (s.thN.getD s.thNum) := by
    unfold chunkSize ThreadState.threadNum at h
    simp only at h
    split at h
    · cases h
    · split at h
      · cases h
      · injection h with h
        injection h with h1 h2
        rw [← h2]
  have hs'' : s'' = { s' with thNum := n } := by
    unfold setThreadNum at hset
    split at hset
    · injection hset with hset; exact hset.symm
    · cases hset
  subst hs''
  refine ⟨rfl, rfl, hs', ?_, ?_⟩
  · intro c t hc
    unfold chunkSize ThreadState.threadNum at hc ⊢
    simp only [hs', Option.getD_some] at hc ⊢
    split at hc
    · cases hc
    · rename_i h1
      rw [if_neg h1]
      split at hc
      · cases hc
      · rename_i h2
        rw [if_neg h2]
        injection hc with hc
        injection hc with hc _
        rw [hc]
        exact ⟨_, rfl⟩
  · intro hc
    unfold chunkSize ThreadState.threadNum at hc ⊢
    simp only [hs', Option.getD_some] at hc ⊢
    split at hc
    · rename_i h1; rw [if_pos h1]
    · rename_i h1
      rw [if_neg h1]
      split at hc
      · rename_i h2; rw [if_pos h2]
      · cases hc

/-- A loop that ran with four threads keeps chunks of 25 of 100 although one thread was asked for. -/
example : ∃ s' s'', chunkSize 100 ⟨4, none⟩ = .ok (25, s') ∧ setThreadNum 1 s' = .ok s'' ∧
    s''.threadNum = 1 ∧ chunkSize 100 s'' = .ok (25, s'') := ⟨_, _, rfl, rfl, rfl, rfl⟩

end Heu
