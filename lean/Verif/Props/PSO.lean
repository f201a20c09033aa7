import Verif.Lemmas.PSO2
import Verif.Props.GA
import Verif.Props.SOGARun
import Verif.Props.Box
import Verif.Lemmas.IEEERound
import Mathlib.Algebra.Order.Field.Rat

/-!
# C44–C47, C66–C68: particle swarms
-/

set_option linter.unusedSimpArgs false
set_option linter.unusedVariables false
set_option linter.unusedSectionVars false

namespace Heu
open Spec

/-! ## C44: bounds -/

section exact
variable {α F : Type} [Field α] [LinearOrder α] [IsStrictOrderedRing α]

theorem clampPos_mem {α : Type} [LinearOrder α] (mn mx x : α) (h : mn ≤ mx) :
    mn ≤ clampPos mn mx x ∧ clampPos mn mx x ≤ mx := by
  unfold clampPos stdMax stdMin
  split <;> split <;> rename_i h1 h2 <;> simp_all [not_lt, le_of_lt]

theorem clampVel_mem (vm x : α) (h : 0 ≤ vm) : |clampVel vm x| ≤ vm := by
  rw [abs_le]
  unfold clampVel stdMax stdMin
  split <;> split <;> rename_i h1 h2 <;> (try simp only [not_lt] at *) <;> constructor <;> linarith

/-- The bounds a user of the box expects: every entry of a position between its two bounds, every entry
of a velocity at most `velocityMax` in absolute value. -/
abbrev BoundsHold (b : PSOBox α) (s : PSOState (List α) F) : Prop :=
  InBounds b.dim (fun i x => b.posMin i ≤ x ∧ x ≤ b.posMax i) (fun i x => |x| ≤ b.velocityMax i) s

/-- **C44** (one update).  Whatever the draws and factors, moving the swarm leaves all positions in the
box and all velocities within their bounds. -/
theorem pso_move_in_bounds (b : PSOBox α) (hb : LegalBox b) (o : PSOFactors α) (rnd : Nat → α × α)
    (s : PSOState (List α) F) (hs : BoundsHold b s) : BoundsHold b (updatePopulation b o rnd s) :=
  updatePopulation_inBounds b o rnd _ _ (fun i x hi => clampPos_mem _ _ _ (hb i hi).1)
    (fun i x hi => clampVel_mem _ _ (hb i hi).2.le) s hs

/-- **C44** (initialisation).  The default initialisation with draws in `[0,1)` is within the bounds. -/
theorem pso_init_in_bounds (b : PSOBox α) (hb : LegalBox b) (K : Nat) (u : Nat → Nat → α)
    (hu : ∀ k i, 0 ≤ u k i ∧ u k i < 1) (f : List α → F) (s : PSOState (List α) F)
    (h : psoInitializePop K (fun k => psoDefaultInitialize b (u k)) f = .ok s) : BoundsHold b s := by
  have hpos : ∀ k, EntriesOk b.dim (fun i x => b.posMin i ≤ x ∧ x ≤ b.posMax i)
      (psoDefaultInitialize b (u k)).1 := by
    intro k
    refine ⟨by simp [psoDefaultInitialize], ?_⟩
    intro i x hx
    simp only [psoDefaultInitialize, List.getElem?_map, Option.map_eq_some_iff,
      List.getElem?_eq_some_iff, List.length_range, List.getElem_range] at hx
    obtain ⟨_, ⟨hi, rfl⟩, rfl⟩ := hx
    unfold randDRange
    have h := (hb i hi).1
    have h1 : 0 ≤ (b.posMax i - b.posMin i) * u k i := mul_nonneg (by linarith) (hu k i).1
    have h2 : (b.posMax i - b.posMin i) * u k i ≤ (b.posMax i - b.posMin i) * 1 :=
      mul_le_mul_of_nonneg_left (hu k i).2.le (by linarith)
    constructor <;> linarith
  have hvel : ∀ k, EntriesOk b.dim (fun i x => |x| ≤ b.velocityMax i)
      (psoDefaultInitialize b (u k)).2 := by
    intro k
    refine ⟨by simp [psoDefaultInitialize], ?_⟩
    intro i x hx
    simp only [psoDefaultInitialize, List.getElem?_map, Option.map_eq_some_iff,
      List.getElem?_eq_some_iff, List.length_range, List.getElem_range] at hx
    obtain ⟨_, ⟨hi, rfl⟩, rfl⟩ := hx
    rw [abs_zero]; exact (hb i hi).2.le
  unfold psoInitializePop at h
  simp only at h
  split at h
  · cases h
  · rename_i p l hl
    cases h
    have hall : ∀ q ∈ p :: l, ∃ k, q.position = (psoDefaultInitialize b (u k)).1 ∧
        q.velocity = (psoDefaultInitialize b (u k)).2 ∧
        q.pBest.position = (psoDefaultInitialize b (u k)).1 := by
      intro q hq
      rw [← hl] at hq
      obtain ⟨k, -, rfl⟩ := List.mem_map.1 hq
      exact ⟨k, rfl, rfl, rfl⟩
    have hd : ∀ q ∈ (p :: l), EntriesOk b.dim (fun i x => b.posMin i ≤ x ∧ x ≤ b.posMax i) q.position := by
      intro q hq
      obtain ⟨k, h1, -, -⟩ := hall q hq
      rw [h1]; exact hpos k
    rw [hl]
    refine ⟨hd, ?_, ?_, hd p (by simp)⟩
    · intro q hq
      obtain ⟨k, -, h2, -⟩ := hall q hq
      rw [h2]; exact hvel k
    · intro q hq
      obtain ⟨k, -, -, h3⟩ := hall q hq
      rw [h3]; exact hpos k

/-- **C44** (whole history).  Starting within the bounds, after every generation of a run — whatever the
fitness function (even one returning values that do not compare, like NaN), the draws and the options —
all positions, all personal bests and the global best are in the box and all velocities within their
bounds; and so are they after the following move. -/
theorem pso_history_in_bounds [LT F] [DecidableLT F] (b : PSOBox α) (hb : LegalBox b)
    (o : PSOFactors α) (rnd : Nat → Nat → α × α) (opt : FitnessOption) (f : List α → F)
    (s0 : PSOState (List α) F) (h0 : BoundsHold b s0) (i : Nat) (t : PSOState (List α) F)
    (ht : stateAfter (psoSolver opt f fun g => updatePopulation b o (rnd g)) s0 i = .ok t) :
    BoundsHold b t ∧ ∀ g, BoundsHold b (updatePopulation b o (rnd g) t) := by
  have := inBounds_stateAfter opt f (fun g => updatePopulation b o (rnd g))
    (fun g s hs => pso_move_in_bounds b hb o (rnd g) s hs) s0 h0 i t ht
  exact ⟨this, fun g => pso_move_in_bounds b hb o (rnd g) t this⟩

/-- **C44** (result).  The state in which a run of an initialised solver ends is within the bounds; in
particular the reported solution `gBest` is feasible. -/
theorem pso_result_feasible [LT F] [DecidableLT F] (b : PSOBox α) (hb : LegalBox b)
    (o : PSOFactors α) (rnd : Nat → Nat → α × α) (opt : FitnessOption) (f : List α → F) (K : Nat)
    (u : Nat → Nat → α) (hu : ∀ k i, 0 ≤ u k i ∧ u k i < 1) (s0 : PSOState (List α) F)
    (hs : psoInitializePop K (fun k => psoDefaultInitialize b (u k)) f = .ok s0)
    (maxGen maxFail fuel : Nat) (r : RunResult (PSOState (List α) F) F)
    (hr : psoRun opt f (fun g => updatePopulation b o (rnd g)) maxGen maxFail fuel s0 = .ok r) :
    BoundsHold b r.state := by
  rw [psoRun_eq] at hr
  exact (pso_history_in_bounds b hb o rnd opt f s0 (pso_init_in_bounds b hb K u hu f s0 hs) _ _
    (run_record _ _ _ _ _ _ hr).2.1).1

/-- Every box accepted by `setPVRange` is legal. -/
theorem setPVRangeSquare_legal (dim : Nat) (pMin pMax vMax : α) (b : PSOBox α)
    (h : setPVRangeSquare dim pMin pMax vMax = .ok b) : LegalBox b := by
  unfold setPVRangeSquare at h
  split at h
  · rename_i h1
    split at h
    · rename_i h2
      cases h
      exact fun i _ => ⟨h1.le, h2⟩
    · cases h
  · cases h

theorem setPVRangeRect_legal (pMin pMax vMax : List α) (b : PSOBox α)
    (h : setPVRangeRect pMin pMax vMax = .ok b) : LegalBox b := by
  unfold setPVRangeRect at h
  split at h
  · rename_i hc
    obtain ⟨h1, h2, h3, h4⟩ := hc
    cases h
    intro i hi
    simp only at hi
    have hi2 : i < pMax.length := by omega
    have hi3 : i < vMax.length := by omega
    simp only [List.getD_eq_getElem?_getD, List.getElem?_eq_getElem hi, List.getElem?_eq_getElem hi2,
      List.getElem?_eq_getElem hi3, Option.getD_some]
    constructor
    · have hm : decide (pMin[i] < pMax[i]) ∈ List.zipWith (fun a b => decide (a < b)) pMin pMax := by
        have hl : i < (List.zipWith (fun a b => decide (a < b)) pMin pMax).length := by
          simp only [List.length_zipWith]; omega
        have := List.getElem_mem hl
        rwa [List.getElem_zipWith] at this
      have := List.all_eq_true.1 h3 _ hm
      simp only [id, decide_eq_true_eq] at this
      exact this.le
    · have := List.all_eq_true.1 h4 _ (List.mem_map_of_mem (List.getElem_mem hi3))
      simpa using this
  · cases h

end exact

/-- Non-vacuity: a legal box, a swarm of two particles in one dimension, and a run over it. -/
def demoBox : PSOBox ℚ := ⟨1, fun _ => -2, fun _ => 2, fun _ => 1⟩
def demoF : List ℚ → ℚ := fun v => (v.getD 0 0 - 1) * (v.getD 0 0 - 1)
def demoU : Nat → Nat → ℚ := fun k _ => if k = 0 then 0 else 3 / 4

example : setPVRangeSquare 1 (-2 : ℚ) 2 1 = .ok demoBox := by
  unfold setPVRangeSquare demoBox
  rw [if_pos (by norm_num), if_pos (by norm_num)]

example : ((psoInitializePop 3 (fun k => psoDefaultInitialize demoBox (demoU k)) demoF) >>= fun s =>
      psoRun .lessBetter demoF
        (fun g => updatePopulation demoBox ⟨4/5, 2, 2⟩ fun k => (1/2, (g : ℚ) / (g + 1))) 5 0 6 s).satisfies
    (fun r => r.generation == 5 && r.record == [0, 0, 0, 0, 0, 0] && r.state.gBest.position == [1]
      && r.state.swarm.map (·.velocity) != r.state.swarm.map (fun _ => [0])) = true := by
  decide +kernel

/-! ### C44 in IEEE arithmetic -/

section ieee
variable {F : Type} (fm : Fmt)

/-- A box of floating-point numbers accepted by `setPVRange` (or with `min = max`): the bounds compare
(so none is NaN). -/
def LegalBoxFl (b : PSOBox (Dbl fm)) : Prop :=
  ∀ i, i < b.dim → (b.posMin i).val.le (b.posMax i).val = true ∧
    (Fl.fin false 0).lt (b.velocityMax i).val = true

/-- Bounds over floating-point numbers. A velocity may be NaN. -/
abbrev BoundsHoldFl (b : PSOBox (Dbl fm)) (s : PSOState (List (Dbl fm)) F) : Prop :=
  InBounds b.dim
    (fun i x => (b.posMin i).val.le x.val = true ∧ x.val.le (b.posMax i).val = true)
    (fun i x => x.val = .nan ∨
      ((b.velocityMax i).val.neg.le x.val = true ∧ x.val.le (b.velocityMax i).val = true)) s

theorem Fl.le_refl_of {x y : Fl} (h : x.le y = true) : x.le x = true ∧ y.le y = true := by
  cases x <;> cases y <;> simp_all [Fl.le]

theorem Fl.le_of_lt {x y : Fl} (h : x.lt y = true) : x.le y = true := by
  cases x <;> cases y <;> simp_all [Fl.le, Fl.lt]
  all_goals omega

theorem Fl.le_of_not_lt {x y : Fl} (h : ¬ x.lt y = true) (hx : x ≠ .nan) (hy : y ≠ .nan) :
    y.le x = true := by
  cases x <;> cases y <;> simp_all [Fl.le, Fl.lt]
  all_goals (rename_i a b; cases a <;> cases b <;> simp_all)

theorem Fl.le_ne_nan {x y : Fl} (h : x.le y = true) : x ≠ .nan ∧ y ≠ .nan := by
  cases x <;> cases y <;> simp_all [Fl.le]

theorem clampPos_ieee (mn mx x : Dbl fm) (h : mn.val.le mx.val = true) :
    mn.val.le (clampPos mn mx x).val = true ∧ (clampPos mn mx x).val.le mx.val = true := by
  have hr := Fl.le_refl_of h
  unfold clampPos stdMax stdMin
  by_cases h1 : x < mx
  · rw [if_pos h1]
    by_cases h2 : mn < x
    · rw [if_pos h2]
      exact ⟨Fl.le_of_lt h2, Fl.le_of_lt h1⟩
    · rw [if_neg h2]; exact ⟨hr.1, h⟩
  · rw [if_neg h1]
    by_cases h2 : mn < mx
    · rw [if_pos h2]; exact ⟨h, hr.2⟩
    · rw [if_neg h2]; exact ⟨hr.1, h⟩

theorem clampVel_ieee (vm x : Dbl fm) (h : (Fl.fin false 0).lt vm.val = true) :
    (clampVel vm x).val = .nan ∧ x.val = .nan ∨
      (vm.val.neg.le (clampVel vm x).val = true ∧ (clampVel vm x).val.le vm.val = true) := by
  have hneg : vm.val.neg.le vm.val = true ∧ vm.val ≠ .nan ∧ vm.val.neg ≠ .nan ∧ vm.val.le vm.val = true
      ∧ vm.val.neg.le vm.val.neg = true := by
    revert h
    cases vm with | mk v => ?_
    cases v <;> simp [Fl.lt, Fl.le, Fl.neg, Fl.units]
    rename_i s n
    intro h
    cases s <;> simp_all [Fl.units] <;> omega
  unfold clampVel stdMax stdMin
  by_cases hx : x.val = .nan
  · left
    have h1 : ¬ vm < x := by
      change ¬ vm.val.lt x.val = true
      rw [hx]; cases vm.val <;> simp [Fl.lt]
    rw [if_neg h1]
    have h2 : ¬ x < -vm := by
      change ¬ x.val.lt _ = true
      rw [hx]; simp [Fl.lt]
    rw [if_neg h2]
    exact ⟨hx, hx⟩
  · right
    by_cases h1 : vm < x
    · rw [if_pos h1]
      by_cases h2 : vm < -vm
      · rw [if_pos h2]; exact ⟨hneg.2.2.2.2, hneg.1⟩
      · rw [if_neg h2]; exact ⟨hneg.1, hneg.2.2.2.1⟩
    · rw [if_neg h1]
      by_cases h2 : x < -vm
      · rw [if_pos h2]; exact ⟨hneg.2.2.2.2, hneg.1⟩
      · rw [if_neg h2]
        exact ⟨Fl.le_of_not_lt h2 hx hneg.2.2.1, Fl.le_of_not_lt h1 hneg.2.1 hx⟩

/-- **C44** (IEEE arithmetic, any history).  Also with rounding, overflow and NaN, and whatever the
factors, the draws and the fitness function, all positions (hence the solution) stay in the box; each
velocity entry is within its bounds or NaN. -/
theorem pso_history_in_bounds_ieee_any [LT F] [DecidableLT F] (b : PSOBox (Dbl fm))
    (hb : LegalBoxFl fm b) (o : PSOFactors (Dbl fm)) (rnd : Nat → Nat → Dbl fm × Dbl fm)
    (opt : FitnessOption) (f : List (Dbl fm) → F) (s0 : PSOState (List (Dbl fm)) F)
    (h0 : BoundsHoldFl fm b s0) (i : Nat) (t : PSOState (List (Dbl fm)) F)
    (ht : stateAfter (psoSolver opt f fun g => updatePopulation b o (rnd g)) s0 i = .ok t) :
    BoundsHoldFl fm b t := by
  refine inBounds_stateAfter opt f (fun g => updatePopulation b o (rnd g)) ?_ s0 h0 i t ht
  intro g s hs
  refine updatePopulation_inBounds b o (rnd g) _ _ ?_ ?_ s hs
  · intro i x hi
    exact clampPos_ieee fm _ _ _ (hb i hi).1
  · intro i x hi
    rcases clampVel_ieee fm _ x (hb i hi).2 with h | h
    · exact Or.inl h.1
    · exact Or.inr h

/-- The NaN case happens: on the box `[-DBL_MAX, DBL_MAX]` a particle at the lower end whose personal
best is at the upper end gets a NaN velocity when the draw is 0 (`0 * inf`), and every later velocity of
that particle is NaN too. -/
theorem pso_velocity_nan :
    let dblMax : Dbl binary64 := ⟨.fin false ((2 ^ 53 - 1) * 2 ^ (binary64.top - 53))⟩
    let zero : Dbl binary64 := ⟨.fin false 0⟩
    let one : Dbl binary64 := ⟨.ofNat binary64 1⟩
    let b : PSOBox (Dbl binary64) := ⟨1, fun _ => -dblMax, fun _ => dblMax, fun _ => one⟩
    let p : Particle (List (Dbl binary64)) Nat := ⟨[-dblMax], 0, [zero], ⟨[dblMax], 0⟩⟩
    let q := moveParticle b ⟨one, one, one⟩ [-dblMax] zero zero p
    q.velocity = [⟨.nan⟩] ∧ q.position = [dblMax] ∧
    (moveParticle b ⟨one, one, one⟩ [-dblMax] one one q).velocity = [⟨.nan⟩] := by
  decide +kernel

end ieee

/-! ### … and without overflow no velocity is NaN -/

section ieeeFinite
variable {F : Type} (fm : Fmt)

/-- Finite, and at most `B` units in absolute value. -/
def Fl.AbsLe (B : Nat) (x : Fl) : Prop := ∃ s n, x = .fin s n ∧ n ≤ B

theorem Fl.mk_absLe {s : Bool} {n B : Nat} (h : n ≤ B) (hB : B < 2 ^ fm.top) :
    (Fl.mk fm s n).AbsLe B := by
  unfold Fl.mk
  rw [if_neg (by omega)]
  exact ⟨s, n, rfl, h⟩

theorem Fl.mul_absLe {x y : Fl} {A B : Nat} (hx : x.AbsLe A) (hy : y.AbsLe B)
    (h : rndUnits fm.mb (A * B) (2 ^ fm.one) < 2 ^ fm.top) :
    (x.mul fm y).AbsLe (rndUnits fm.mb (A * B) (2 ^ fm.one)) := by
  obtain ⟨s, n, rfl, hn⟩ := hx
  obtain ⟨t, m, rfl, hm⟩ := hy
  exact Fl.mk_absLe fm (rndUnits_mono _ _ _ _ (by positivity) (Nat.mul_le_mul hn hm)) h

/-- Finite numbers stay finite or overflow, they do not become NaN. -/
theorem Fl.add_fin_ne_nan (x y : Fl) (hx : x ≠ .nan) (hy : ∃ s n, y = .fin s n) : x.add fm y ≠ .nan := by
  obtain ⟨t, m, rfl⟩ := hy
  cases x with
  | nan => exact absurd rfl hx
  | inf s => simp [Fl.add]
  | fin s n =>
    simp only [Fl.add]
    split
    · simp
    · unfold Fl.mk; split <;> simp

/-- The product of finite floating-point numbers does not overflow. -/
def MulFinite (x y : Fl) : Prop := (x.mul fm y).Finite fm

theorem mulFinite_units {s t : Bool} {n m : Nat} (h : MulFinite fm (.fin s n) (.fin t m)) :
    rndUnits fm.mb (n * m) (2 ^ fm.one) < 2 ^ fm.top := by
  by_contra hc
  obtain ⟨s', n', he, -, -⟩ := h
  simp only [Fl.mul, Fl.mk] at he
  rw [if_pos (by omega)] at he
  cases he

/-- Nothing overflows in coordinate `i`: the bounds are finite numbers, and the width of the box and the
largest terms of the velocity update are finite. -/
structure NoOverflow (b : PSOBox (Dbl fm)) (o : PSOFactors (Dbl fm)) (i : Nat) : Prop where
  posMin : (b.posMin i).val.Finite fm
  posMax : (b.posMax i).val.Finite fm
  velocityMax : (b.velocityMax i).val.Finite fm
  inertia : o.inertia.val.Finite fm
  learnP : o.learnP.val.Finite fm
  learnG : o.learnG.val.Finite fm
  width : (b.posMax i - b.posMin i).val.Finite fm
  inertiaTerm : (o.inertia * b.velocityMax i).val.Finite fm
  learnPTerm : (o.learnP * (b.posMax i - b.posMin i)).val.Finite fm
  learnGTerm : (o.learnG * (b.posMax i - b.posMin i)).val.Finite fm

/-- A draw of `randD()`: a number in `[0,1)`. -/
def UnitDraw (u : Dbl fm) : Prop :=
  u.val.Finite fm ∧ (Fl.ofNat fm 0).le u.val = true ∧ u.val.lt (Fl.ofNat fm 1) = true

theorem unitDraw_absLe {u : Dbl fm} (h : UnitDraw fm u) : u.val.AbsLe (2 ^ fm.one) := by
  obtain ⟨⟨s, n, he, -, -⟩, h0, h1⟩ := h
  refine ⟨s, n, he, ?_⟩
  rw [he] at h0 h1
  simp only [Fl.ofNat, Fl.le, Fl.lt, decide_eq_true_eq, Nat.zero_mul, Nat.one_mul] at h0 h1
  cases s
  · simp only [Fl.units, Bool.false_eq_true, if_false] at h1
    have : (n : Int) < ((2 ^ fm.one : Nat) : Int) := by exact_mod_cast h1
    omega
  · simp only [Fl.units, Bool.false_eq_true, if_false, if_true] at h0
    have : n = 0 := by omega
    subst this; positivity

/-- Two numbers in a finite box: their difference is at most the width. -/
theorem sub_absLe {mn mx x y : Dbl fm} (hmn : mn.val.Finite fm) (hmx : mx.val.Finite fm)
    (hw : (mx - mn).val.Finite fm) (hx : mn.val.le x.val = true ∧ x.val.le mx.val = true)
    (hy : mn.val.le y.val = true ∧ y.val.le mx.val = true) :
    ∃ s w, (mx - mn).val = .fin s w ∧ w < 2 ^ fm.top ∧ (x - y).val.AbsLe w := by
  obtain ⟨mn⟩ := mn; obtain ⟨mx⟩ := mx; obtain ⟨x⟩ := x; obtain ⟨y⟩ := y
  simp only at hmn hmx hx hy
  obtain ⟨s1, n1, rfl, -, ht1⟩ := hmn
  obtain ⟨s2, n2, rfl, -, ht2⟩ := hmx
  cases x with
  | nan => simp [Fl.le] at hx
  | inf s => cases s <;> simp [Fl.le] at hx
  | fin sx nx =>
  cases y with
  | nan => simp [Fl.le] at hy
  | inf s => cases s <;> simp [Fl.le] at hy
  | fin sy ny =>
  simp only [Fl.le, decide_eq_true_eq] at hx hy
  have hunits : ∀ s n, Fl.units (!s) n = - Fl.units s n := by
    intro s n; cases s <;> simp [Fl.units]
  obtain ⟨D, hD⟩ : ∃ D : Nat, (D : Int) = Fl.units s2 n2 - Fl.units s1 n1 :=
    ⟨(Fl.units s2 n2 - Fl.units s1 n1).toNat, by omega⟩
  have hz : rndUnits fm.mb 0 1 = 0 := rndUnits_rep1 ⟨0, 0, by positivity, by simp⟩
  -- the width
  have hwid : ∃ s, Fl.sub fm (.fin s2 n2) (.fin s1 n1) = .fin s (rndUnits fm.mb D 1) ∧
      rndUnits fm.mb D 1 < 2 ^ fm.top := by
    have hw' : (Fl.sub fm (.fin s2 n2) (.fin s1 n1)).Finite fm := hw
    unfold Fl.sub at hw' ⊢
    simp only [Fl.neg, Fl.add, hunits] at hw' ⊢
    have e : Fl.units s2 n2 + -Fl.units s1 n1 = (D : Int) := by omega
    rw [e] at hw' ⊢
    by_cases h0 : D = 0
    · subst h0
      rw [if_pos (by simp), hz]
      exact ⟨_, rfl, by positivity⟩
    · rw [if_neg (by omega)] at hw' ⊢
      rw [Int.natAbs_natCast] at hw' ⊢
      have hlt : rndUnits fm.mb D 1 < 2 ^ fm.top := by
        by_contra hc
        obtain ⟨s, n, he, -, -⟩ := hw'
        unfold Fl.mk at he
        rw [if_pos (by omega)] at he
        cases he
      refine ⟨decide ((D : Int) < 0), ?_, hlt⟩
      unfold Fl.mk
      rw [if_neg (by omega)]
  obtain ⟨sw, hwe, hwt⟩ := hwid
  refine ⟨sw, _, hwe, hwt, ?_⟩
  show (Fl.sub fm (.fin sx nx) (.fin sy ny)).AbsLe _
  unfold Fl.sub
  simp only [Fl.neg, Fl.add, hunits]
  by_cases h0 : Fl.units sx nx + -Fl.units sy ny = 0
  · rw [if_pos h0]; exact ⟨_, 0, rfl, Nat.zero_le _⟩
  · rw [if_neg h0]
    refine Fl.mk_absLe fm (rndUnits_mono _ _ _ _ one_pos ?_) hwt
    omega

/-- One entry of the new velocity is not NaN. -/
theorem newVelocity_ne_nan (b : PSOBox (Dbl fm)) (o : PSOFactors (Dbl fm)) (i : Nat)
    (hno : NoOverflow fm b o i)
    (v p pb gb r1 r2 : Dbl fm) (hr1 : UnitDraw fm r1) (hr2 : UnitDraw fm r2)
    (hv : (b.velocityMax i).val.neg.le v.val = true ∧ v.val.le (b.velocityMax i).val = true)
    (hp : (b.posMin i).val.le p.val = true ∧ p.val.le (b.posMax i).val = true)
    (hpb : (b.posMin i).val.le pb.val = true ∧ pb.val.le (b.posMax i).val = true)
    (hgb : (b.posMin i).val.le gb.val = true ∧ gb.val.le (b.posMax i).val = true) :
    (o.inertia * v + o.learnP * r1 * (pb - p) + o.learnG * r2 * (gb - p)).val ≠ .nan := by
  -- a learning term
  have term : ∀ (l r q : Dbl fm), l.val.Finite fm → UnitDraw fm r →
      (l * (b.posMax i - b.posMin i)).val.Finite fm →
      ((b.posMin i).val.le q.val = true ∧ q.val.le (b.posMax i).val = true) →
      ∃ s n, (l * r * (q - p)).val = .fin s n := by
    intro l r q hl hr hlt hq
    obtain ⟨sw, w, hwe, -, hwa⟩ := sub_absLe fm hno.posMin hno.posMax hno.width hq hp
    obtain ⟨sl, L, hle, hLrep, hLt⟩ := hl
    have hlr : (l * r).val.AbsLe L := by
      obtain ⟨sr, m, hre, hm⟩ := unitDraw_absLe fm hr
      show (l.val.mul fm r.val).AbsLe L
      rw [hle, hre]
      exact Fl.mk_absLe fm (rndUnits_le _ _ _ (by positivity) hLrep (Nat.mul_le_mul_left _ hm)) hLt
    have hmf : rndUnits fm.mb (L * w) (2 ^ fm.one) < 2 ^ fm.top := by
      refine mulFinite_units fm (s := sl) (t := sw) ?_
      show (Fl.mul fm _ _).Finite fm
      rw [← hle, ← hwe]; exact hlt
    obtain ⟨s, n, he, -⟩ := Fl.mul_absLe fm hlr hwa hmf
    exact ⟨s, n, he⟩
  -- the inertia term
  have hin : ∃ s n, (o.inertia * v).val = .fin s n := by
    obtain ⟨s1, n1, he1, -, -⟩ := hno.inertia
    obtain ⟨s2, n2, he2, -, -⟩ := hno.velocityMax
    have hva : v.val.AbsLe n2 := by
      rw [he2] at hv
      cases hvv : v.val with
      | nan => rw [hvv] at hv; simp [Fl.le] at hv
      | inf s => rw [hvv] at hv; cases s <;> simp [Fl.le, Fl.neg] at hv
      | fin s n =>
        rw [hvv] at hv
        simp only [Fl.le, Fl.neg, decide_eq_true_eq] at hv
        refine ⟨s, n, rfl, ?_⟩
        revert hv
        cases s <;> cases s2 <;> simp [Fl.units] <;> omega
    have hmf : rndUnits fm.mb (n1 * n2) (2 ^ fm.one) < 2 ^ fm.top := by
      refine mulFinite_units fm (s := s1) (t := s2) ?_
      show (Fl.mul fm _ _).Finite fm
      rw [← he1, ← he2]; exact hno.inertiaTerm
    obtain ⟨s, n, he, -⟩ := Fl.mul_absLe fm ⟨s1, n1, he1, le_refl _⟩ hva hmf
    exact ⟨s, n, he⟩
  obtain ⟨s, n, he⟩ := hin
  have h1 := Fl.add_fin_ne_nan fm (o.inertia * v).val (o.learnP * r1 * (pb - p)).val
    (by rw [he]; simp) (term _ _ _ hno.learnP hr1 hno.learnPTerm hpb)
  exact Fl.add_fin_ne_nan fm _ (o.learnG * r2 * (gb - p)).val h1
    (term _ _ _ hno.learnG hr2 hno.learnGTerm hgb)

/-- **C44** (IEEE arithmetic, without overflow).  If the box, the velocity bounds and the factors are
finite and the largest terms of the update do not overflow, then in every history all positions are in
the box and all velocities within their bounds (none is NaN), with rounding taken into account. -/
theorem pso_history_in_bounds_ieee [LT F] [DecidableLT F] (b : PSOBox (Dbl fm))
    (hb : LegalBoxFl fm b) (o : PSOFactors (Dbl fm)) (hno : ∀ i, i < b.dim → NoOverflow fm b o i)
    (rnd : Nat → Nat → Dbl fm × Dbl fm)
    (hrnd : ∀ g k, UnitDraw fm (rnd g k).1 ∧ UnitDraw fm (rnd g k).2)
    (opt : FitnessOption) (f : List (Dbl fm) → F) (s0 : PSOState (List (Dbl fm)) F)
    (h0 : InBounds b.dim
      (fun i x => (b.posMin i).val.le x.val = true ∧ x.val.le (b.posMax i).val = true)
      (fun i x => (b.velocityMax i).val.neg.le x.val = true ∧ x.val.le (b.velocityMax i).val = true) s0)
    (i : Nat) (t : PSOState (List (Dbl fm)) F)
    (ht : stateAfter (psoSolver opt f fun g => updatePopulation b o (rnd g)) s0 i = .ok t) :
    InBounds b.dim
      (fun i x => (b.posMin i).val.le x.val = true ∧ x.val.le (b.posMax i).val = true)
      (fun i x => (b.velocityMax i).val.neg.le x.val = true ∧ x.val.le (b.velocityMax i).val = true) t := by
  refine inBounds_stateAfter opt f (fun g => updatePopulation b o (rnd g)) ?_ s0 h0 i t ht
  intro g s hs
  refine updatePopulation_inBounds_gen b o (rnd g) _ _ ?_ ?_ s hs
  · intro i x hi
    exact clampPos_ieee fm _ _ _ (hb i hi).1
  · intro i k v p pb gb hi hv hp hpb hgb
    rcases clampVel_ieee fm (b.velocityMax i) _ (hb i hi).2 with h | h
    · exact absurd h.2 (newVelocity_ne_nan fm b o i (hno i hi) v p pb gb _ _ (hrnd g k).1
        (hrnd g k).2 hv hp hpb hgb)
    · exact h

/-- **C44** (IEEE, initialisation).  The default initialisation in floating point: zero velocities and
positions in the (closed) box, if its width does not overflow. -/
theorem pso_init_in_bounds_ieee (hF : fm.Good) (b : PSOBox (Dbl fm)) (hb : LegalBoxFl fm b)
    (hfin : ∀ i, i < b.dim → (b.posMin i).val.Finite fm ∧ (b.posMax i).val.Finite fm ∧
      (b.posMax i - b.posMin i).val.Finite fm)
    (K : Nat) (u : Nat → Nat → Fl) (hu : ∀ k i, UnitDraw fm ⟨u k i⟩) (f : List (Dbl fm) → F)
    (s : PSOState (List (Dbl fm)) F)
    (h : psoInitializePop K (fun k => psoDefaultInitializeFl fm b (u k)) f = .ok s) :
    InBounds b.dim
      (fun i x => (b.posMin i).val.le x.val = true ∧ x.val.le (b.posMax i).val = true)
      (fun i x => (b.velocityMax i).val.neg.le x.val = true ∧ x.val.le (b.velocityMax i).val = true) s := by
  have hpos : ∀ k, EntriesOk b.dim
      (fun i (x : Dbl fm) => (b.posMin i).val.le x.val = true ∧ x.val.le (b.posMax i).val = true)
      (psoDefaultInitializeFl fm b (u k)).1 := by
    intro k
    refine ⟨by simp [psoDefaultInitializeFl], ?_⟩
    intro i x hx
    simp only [psoDefaultInitializeFl, List.getElem?_map, Option.map_eq_some_iff,
      List.getElem?_eq_some_iff, List.length_range, List.getElem_range] at hx
    obtain ⟨_, ⟨hi, rfl⟩, rfl⟩ := hx
    obtain ⟨h1, h2, h3⟩ := hu k i
    obtain ⟨q1, q2, q3⟩ := hfin i hi
    exact (randD_ieee_in_range fm hF (u k i) _ _ h1 q1 q2 h2 h3 (hb i hi).1 q3).2
  have hvel : ∀ k, EntriesOk b.dim
      (fun i (x : Dbl fm) =>
        (b.velocityMax i).val.neg.le x.val = true ∧ x.val.le (b.velocityMax i).val = true)
      (psoDefaultInitializeFl fm b (u k)).2 := by
    intro k
    refine ⟨by simp [psoDefaultInitializeFl], ?_⟩
    intro i x hx
    simp only [psoDefaultInitializeFl, List.getElem?_map, Option.map_eq_some_iff,
      List.getElem?_eq_some_iff, List.length_range, List.getElem_range] at hx
    obtain ⟨_, ⟨hi, rfl⟩, rfl⟩ := hx
    have := (hb i hi).2
    revert this
    cases (b.velocityMax i).val with
    | nan => simp [Fl.lt]
    | inf s => cases s <;> simp [Fl.lt, Fl.le, Fl.neg]
    | fin s n => cases s <;> simp [Fl.lt, Fl.le, Fl.neg, Fl.units]
  unfold psoInitializePop at h
  simp only at h
  split at h
  · cases h
  · rename_i p l hl
    cases h
    have hall : ∀ q ∈ p :: l, ∃ k, q.position = (psoDefaultInitializeFl fm b (u k)).1 ∧
        q.velocity = (psoDefaultInitializeFl fm b (u k)).2 ∧
        q.pBest.position = (psoDefaultInitializeFl fm b (u k)).1 := by
      intro q hq
      rw [← hl] at hq
      obtain ⟨k, -, rfl⟩ := List.mem_map.1 hq
      exact ⟨k, rfl, rfl, rfl⟩
    rw [hl]
    refine ⟨?_, ?_, ?_, ?_⟩
    · intro q hq
      obtain ⟨k, h1, -, -⟩ := hall q hq
      rw [h1]; exact hpos k
    · intro q hq
      obtain ⟨k, -, h2, -⟩ := hall q hq
      rw [h2]; exact hvel k
    · intro q hq
      obtain ⟨k, -, -, h3⟩ := hall q hq
      rw [h3]; exact hpos k
    · obtain ⟨k, h1, -, -⟩ := hall p (by simp)
      show EntriesOk _ _ p.position
      rw [h1]; exact hpos k

/-- Finite-ness of a concrete datum. -/
theorem Fl.finite_of (s : Bool) (m k : Nat) (h1 : m < 2 ^ (fm.mb + 1)) (h2 : m * 2 ^ k < 2 ^ fm.top) :
    (Fl.fin s (m * 2 ^ k)).Finite fm := ⟨s, _, rfl, ⟨m, k, h1, rfl⟩, h2⟩

end ieeeFinite

/-- Non-vacuity: the box `[-2, 2]` with velocity bound 1 and the library's default factors' size
(inertia 0.5, learning factors 2) in double precision does not overflow. -/
def demoBoxFl : PSOBox (Dbl binary64) :=
  ⟨1, fun _ => ⟨(Fl.ofNat binary64 2).neg⟩, fun _ => ⟨Fl.ofNat binary64 2⟩,
    fun _ => ⟨Fl.ofNat binary64 1⟩⟩
def demoFactorsFl : PSOFactors (Dbl binary64) :=
  ⟨⟨.fin false (1 * 2 ^ (binary64.one - 1))⟩, ⟨Fl.ofNat binary64 2⟩, ⟨Fl.ofNat binary64 2⟩⟩

example : LegalBoxFl binary64 demoBoxFl ∧
    (∀ i, i < demoBoxFl.dim → NoOverflow binary64 demoBoxFl demoFactorsFl i) ∧
    UnitDraw binary64 ⟨.fin false (1 * 2 ^ (binary64.one - 1))⟩ := by
  have hw : ∀ i, (demoBoxFl.posMax i - demoBoxFl.posMin i).val = .fin false (4 * 2 ^ binary64.one) := by
    intro i
    simp only [demoBoxFl]
    decide +kernel
  refine ⟨fun i _ => by constructor <;> simp only [demoBoxFl] <;> decide +kernel, fun i _ => ?_, ?_⟩
  · constructor
    · exact Fl.finite_of _ true 2 binary64.one (by decide +kernel) (by decide +kernel)
    · exact Fl.finite_of _ false 2 binary64.one (by decide +kernel) (by decide +kernel)
    · exact Fl.finite_of _ false 1 binary64.one (by decide +kernel) (by decide +kernel)
    · exact Fl.finite_of _ false 1 (binary64.one - 1) (by decide +kernel) (by decide +kernel)
    · exact Fl.finite_of _ false 2 binary64.one (by decide +kernel) (by decide +kernel)
    · exact Fl.finite_of _ false 2 binary64.one (by decide +kernel) (by decide +kernel)
    · rw [hw]
      exact Fl.finite_of _ false 4 binary64.one (by decide +kernel) (by decide +kernel)
    · have : (demoFactorsFl.inertia * demoBoxFl.velocityMax i).val =
          .fin false (1 * 2 ^ (binary64.one - 1)) := by
        simp only [demoBoxFl, demoFactorsFl]
        decide +kernel
      rw [this]
      exact Fl.finite_of _ false 1 (binary64.one - 1) (by decide +kernel) (by decide +kernel)
    · have : (demoFactorsFl.learnP * (demoBoxFl.posMax i - demoBoxFl.posMin i)).val =
          .fin false (8 * 2 ^ binary64.one) := by
        simp only [demoBoxFl, demoFactorsFl]
        decide +kernel
      rw [this]
      exact Fl.finite_of _ false 8 binary64.one (by decide +kernel) (by decide +kernel)
    · have : (demoFactorsFl.learnG * (demoBoxFl.posMax i - demoBoxFl.posMin i)).val =
          .fin false (8 * 2 ^ binary64.one) := by
        simp only [demoBoxFl, demoFactorsFl]
        decide +kernel
      rw [this]
      exact Fl.finite_of _ false 8 binary64.one (by decide +kernel) (by decide +kernel)
  · exact ⟨Fl.finite_of _ false 1 (binary64.one - 1) (by decide +kernel) (by decide +kernel),
      by decide +kernel, by decide +kernel⟩

/-! ## C45 -/

section best
variable {α F : Type} [Add α] [Sub α] [Mul α] [Neg α] [LT α] [DecidableLT α] [LinearOrder F]
variable (b : PSOBox α) (o : PSOFactors α) (rnd : Nat → Nat → α × α) (opt : FitnessOption)
variable (f : List α → F)

/-- The states after every generation (update of the bests), counted from 0. -/
abbrev psoAfter (s0 : PSOState (List α) F) (i : Nat) : Out (PSOState (List α) F) :=
  stateAfter (psoSolver opt f fun g => updatePopulation b o (rnd g)) s0 i

/-- What `initializePop` leaves behind: fitness values belong to positions, everybody's personal best is
its position, and the global best is at some particle. -/
theorem pso_init_consistent {V F : Type} (K : Nat) (init : Nat → V × V) (f : V → F)
    (s : PSOState V F) (h : psoInitializePop K init f = .ok s) :
    Consistent f s ∧ s.swarm.length = K ∧ (∀ p ∈ s.swarm, p.pBest.position = p.position) ∧
    (∃ p ∈ s.swarm, p.position = s.gBest.position) ∧ s.fail = 0 := by
  unfold psoInitializePop at h
  simp only at h
  split at h
  · cases h
  · rename_i p l hl
    cases h
    have hall : ∀ q ∈ p :: l, q.pBest.position = q.position ∧ q.pBest.fitness = f q.position ∧
        q.fitness = f q.position := by
      intro q hq
      rw [← hl] at hq
      obtain ⟨k, -, rfl⟩ := List.mem_map.1 hq
      exact ⟨rfl, rfl, rfl⟩
    have hlen := congrArg List.length hl
    simp only [List.length_map, List.length_range] at hlen
    rw [hl]
    refine ⟨⟨by simp, ?_, ?_⟩, by simpa using hlen.symm, fun q hq => (hall q hq).1,
      ⟨p, by simp, rfl⟩, rfl⟩
    · intro q hq
      rw [(hall q hq).1]; exact (hall q hq).2.1
    · exact (hall p (by simp)).2.2

/-- **C45**.  Let `initializePop` have created the swarm.  After every generation `j` of a run:
the run has not failed; the global best carries the fitness of its position, and that position was
evaluated for some particle in some generation `i ≤ j`; no position evaluated in any generation `i ≤ j`
by any particle is better.  Each particle's personal best carries the fitness of its position, which
that particle had in some generation `i ≤ j`, and no position it ever had is better. -/
theorem pso_best_of_history (K : Nat) (init : Nat → List α × List α) (s0 : PSOState (List α) F)
    (h0 : psoInitializePop K init f = .ok s0) (j : Nat) :
    ∃ t, psoAfter b o rnd opt f s0 j = .ok t ∧ t.swarm.length = K ∧
      t.gBest.fitness = f t.gBest.position ∧
      (∃ i ≤ j, ∃ u, psoAfter b o rnd opt f s0 i = .ok u ∧
        ∃ p ∈ u.swarm, p.position = t.gBest.position) ∧
      (∀ i ≤ j, ∀ u, psoAfter b o rnd opt f s0 i = .ok u → ∀ p ∈ u.swarm,
        ¬ Better opt (f p.position) t.gBest.fitness) ∧
      (∀ (k : Nat) (q : Particle (List α) F), t.swarm[k]? = some q →
        q.pBest.fitness = f q.pBest.position ∧
        (∃ i ≤ j, ∃ u, psoAfter b o rnd opt f s0 i = .ok u ∧
          ∃ p, u.swarm[k]? = some p ∧ p.position = q.pBest.position) ∧
        ∀ i ≤ j, ∀ u, psoAfter b o rnd opt f s0 i = .ok u →
          ∀ p, u.swarm[k]? = some p → ¬ Better opt (f p.position) q.pBest.fitness) := by
  have hm : ∀ g, OnlyMoves (F := F) (updatePopulation b o (rnd g)) :=
    fun g => updatePopulation_onlyMoves b o (rnd g)
  obtain ⟨hc, hK, hpp, ⟨pg, hpg, hpgp⟩, hf0⟩ := pso_init_consistent K init f s0 h0
  obtain ⟨t, ht, htc, hl, hall, hhist, hatt, hgatt, -, -⟩ :=
    pso_step opt f (fun g => updatePopulation b o (rnd g)) hm hc j
  -- the positions of the first generation are those of the initial state
  have hfirst : ∃ u, psoAfter b o rnd opt f s0 0 = .ok u ∧
      u.swarm.map (·.position) = s0.swarm.map (·.position) := by
    obtain ⟨u, hu, -, hpos, -⟩ := generation_step opt f
      (s := { s0 with fail := 0 }) ⟨hc.nonempty, hc.pBest, hc.gBest⟩
    exact ⟨u, hu, hpos⟩
  obtain ⟨u0, hu0, hu0p⟩ := hfirst
  have hat0 : ∀ (k : Nat) (p0 : Particle (List α) F), s0.swarm[k]? = some p0 →
      ∃ p, u0.swarm[k]? = some p ∧ p.position = p0.position := by
    intro k p0 hp0
    have := congrArg (fun l => l[k]?) hu0p
    simp only [List.getElem?_map, hp0, Option.map_some] at this
    cases hk : u0.swarm[k]? with
    | none => rw [hk] at this; simp at this
    | some p => rw [hk] at this; exact ⟨p, rfl, by simpa using this⟩
  have hall_of : ∀ i ≤ j, ∀ u, psoAfter b o rnd opt f s0 i = .ok u → ∀ p ∈ u.swarm,
      ¬ Better opt (f p.position) p.pBest.fitness ∧ ¬ Better opt p.pBest.fitness u.gBest.fitness := by
    intro i hi u hu p hp
    obtain ⟨u', hu', -, -, ha, -⟩ := pso_step opt f (fun g => updatePopulation b o (rnd g)) hm hc i
    have hu2 : stateAfter (psoSolver opt f fun g => updatePopulation b o (rnd g)) s0 i = .ok u := hu
    rw [hu'] at hu2; cases hu2
    exact (ha p hp).2
  refine ⟨t, ht, by omega, htc.gBest, ?_, ?_, ?_⟩
  · rcases hgatt with h | ⟨p0, hp0, h⟩ | h
    · obtain ⟨k, hk, hkp⟩ := List.getElem_of_mem hpg
      obtain ⟨p, hp, hpp'⟩ := hat0 k pg (by rw [List.getElem?_eq_getElem hk, hkp])
      exact ⟨0, by omega, u0, hu0, p, List.mem_of_getElem? hp, by rw [hpp', hpgp, h]⟩
    · obtain ⟨k, hk, hkp⟩ := List.getElem_of_mem hp0
      obtain ⟨p, hp, hpp'⟩ := hat0 k p0 (by rw [List.getElem?_eq_getElem hk, hkp])
      exact ⟨0, by omega, u0, hu0, p, List.mem_of_getElem? hp, by rw [hpp', h, hpp p0 hp0]⟩
    · exact h
  · intro i hi u hu p hp
    have h1 := hall_of i hi u hu p hp
    exact nb_trans opt (nb_trans opt h1.1 h1.2) (hhist i hi u hu).1
  · intro k q hq
    refine ⟨htc.pBest q (List.mem_of_getElem? hq), ?_, ?_⟩
    · rcases hatt k q hq with ⟨p0, hp0, he⟩ | h
      · obtain ⟨p, hp, hpp'⟩ := hat0 k p0 hp0
        exact ⟨0, by omega, u0, hu0, p, hp, by rw [hpp', he, hpp p0 (List.mem_of_getElem? hp0)]⟩
      · exact h
    · intro i hi u hu p hp
      have h1 := hall_of i hi u hu p (List.mem_of_getElem? hp)
      exact nb_trans opt h1.1 ((hhist i hi u hu).2 k p q hp hq)

/-- **C45** (monotone).  From one generation to any later one neither the global best nor any personal
best gets worse. -/
theorem pso_best_monotone (K : Nat) (init : Nat → List α × List α) (s0 : PSOState (List α) F)
    (h0 : psoInitializePop K init f = .ok s0) (i j : Nat) (hij : i ≤ j) (u t : PSOState (List α) F)
    (hu : psoAfter b o rnd opt f s0 i = .ok u) (ht : psoAfter b o rnd opt f s0 j = .ok t) :
    ¬ Better opt u.gBest.fitness t.gBest.fitness ∧
    ∀ (k : Nat) (p q : Particle (List α) F), u.swarm[k]? = some p → t.swarm[k]? = some q →
      ¬ Better opt p.pBest.fitness q.pBest.fitness := by
  obtain ⟨hc, -⟩ := pso_init_consistent K init f s0 h0
  obtain ⟨t', ht', -, -, -, hh, -⟩ := pso_step opt f (fun g => updatePopulation b o (rnd g))
    (fun g => updatePopulation_onlyMoves b o (rnd g)) hc j
  have ht2 : stateAfter (psoSolver opt f fun g => updatePopulation b o (rnd g)) s0 j = .ok t := ht
  rw [ht'] at ht2; cases ht2
  exact hh i hij u hu

end best

/-- `initializePop` alone does not make `gBest` the best: it is the first particle. -/
theorem pso_initial_gBest_is_first :
    (psoInitializePop 2 (fun k => ((k : Nat), (0 : Nat))) (fun x => x)).satisfies (fun s =>
      s.gBest.fitness == 0 && s.swarm.map (·.fitness) == [0, 1] &&
      psoBetter .greaterBetter 1 s.gBest.fitness) = true := by decide +kernel

/-- Non-vacuity of C45: a swarm that finds something better only in its third generation. -/
example : ((psoInitializePop 2 (fun k => ([if k = 0 then -2 else (-1 : ℚ)], [0])) demoF) >>= fun s =>
      psoRun .lessBetter demoF (fun _ => updatePopulation demoBox ⟨1, 1, 1⟩ fun _ => (1/2, 1)) 4 0 5 s).satisfies
    (fun r => r.record == [4, 4, 1, 0, 0]) = true := by decide +kernel

/-! ## C46 -/

section run
variable {α F : Type} [Add α] [Sub α] [Mul α] [Neg α] [LT α] [DecidableLT α] [LinearOrder F]
variable (b : PSOBox α) (o : PSOFactors α) (rnd : Nat → Nat → α × α) (opt : FitnessOption)
variable (f : List α → F)

/-- **C46**.  A run of an initialised swarm ends (within `maxGeneration + 1` iterations), with
`generation() ≤ maxGeneration`; it ended because of the limit or because of too many failures, and not
later than the first generation with too many failures; the record has `generation() + 1` entries, the
`i`-th being the best fitness after generation `i`, each not worse than the previous one. -/
theorem pso_run (K : Nat) (init : Nat → List α × List α) (s0 : PSOState (List α) F)
    (h0 : psoInitializePop K init f = .ok s0) (maxGen maxFail : Nat) :
    ∃ r, psoRun opt f (fun g => updatePopulation b o (rnd g)) maxGen maxFail (maxGen + 1) s0 = .ok r ∧
      r.generation ≤ maxGen ∧
      (r.generation < maxGen → 0 < maxFail ∧ maxFail < r.state.fail) ∧
      (∀ i < r.generation, ∀ t, psoAfter b o rnd opt f s0 i = .ok t →
        ¬ (0 < maxFail ∧ maxFail < t.fail)) ∧
      psoAfter b o rnd opt f s0 r.generation = .ok r.state ∧
      r.record.length = r.generation + 1 ∧
      (∀ i (hi : i < r.record.length), ∃ t, psoAfter b o rnd opt f s0 i = .ok t ∧
        t.gBest.fitness = r.record[i]) ∧
      ∀ i j (hi : i < j) (hj : j < r.record.length), ¬ Better opt r.record[i] r.record[j] := by
  obtain ⟨hc, -⟩ := pso_init_consistent K init f s0 h0
  have hm : ∀ g, OnlyMoves (F := F) (updatePopulation b o (rnd g)) :=
    fun g => updatePopulation_onlyMoves b o (rnd g)
  obtain ⟨r, hr⟩ : ∃ r, psoRun opt f (fun g => updatePopulation b o (rnd g)) maxGen maxFail
      (maxGen + 1) s0 = .ok r := by
    rw [psoRun_eq]
    refine gaLoop_total _ (Consistent f) ?_ (by omega) (by omega)
      (⟨hc.nonempty, hc.pBest, hc.gBest⟩ : Consistent f { s0 with fail := 0 })
    intro g s hs
    obtain ⟨t, ht, htc, -⟩ := generation_step opt f hs
    exact ⟨t, ht, ⟨_, rfl⟩, onlyMoves_consistent f (hm (g + 1)) htc⟩
  refine ⟨r, hr, ?_⟩
  rw [psoRun_eq] at hr
  obtain ⟨a1, a2, -, a4⟩ := run_stops _ _ _ _ _ _ hr
  obtain ⟨b1, b2, b3⟩ := run_record _ _ _ _ _ _ hr
  have hrec : ∀ i (hi : i < r.record.length), ∃ t, psoAfter b o rnd opt f s0 i = .ok t ∧
      t.gBest.fitness = r.record[i] := by
    intro i hi
    obtain ⟨t, ht, hb⟩ := b3 i hi
    simp only [psoSolver, Out.ok.injEq] at hb
    exact ⟨t, ht, hb⟩
  refine ⟨a1, a2, a4, b2, b1, hrec, ?_⟩
  intro i j hij hj
  obtain ⟨u, hu, hub⟩ := hrec i (by omega)
  obtain ⟨t, ht, htb⟩ := hrec j hj
  rw [← hub, ← htb]
  exact (pso_best_monotone b o rnd opt f K init s0 h0 i j hij.le u t hu ht).1

/-- An empty swarm (population size 0) is undefined behaviour already in `initializePop`. -/
theorem pso_empty_ub {V F : Type} (init : Nat → V × V) (f : V → F) :
    psoInitializePop 0 init f = .ub := rfl

/-- **C67**.  The failure counter at the end of a run is the number of consecutive latest generations
whose best was not strictly better than the one before; the reference of the first generation is the
fitness of the first particle (the provisional global best). -/
theorem pso_failTimes [∀ a b : F, Decidable (Better opt a b)] (K : Nat)
    (init : Nat → List α × List α) (s0 : PSOState (List α) F)
    (h0 : psoInitializePop K init f = .ok s0) (maxGen maxFail fuel : Nat)
    (r : RunResult (PSOState (List α) F) F)
    (hr : psoRun opt f (fun g => updatePopulation b o (rnd g)) maxGen maxFail fuel s0 = .ok r) :
    r.state.fail = trailingFails opt (f (init 0).1) r.record := by
  have hg0 : s0.gBest.fitness = f (init 0).1 := by
    have h := h0
    unfold psoInitializePop at h
    simp only at h
    cases K with
    | zero => simp at h
    | succ K => simp only [List.range_succ_eq_map, List.map_cons] at h; cases h; rfl
  obtain ⟨hc, -⟩ := pso_init_consistent K init f s0 h0
  have hm : ∀ g, OnlyMoves (F := F) (updatePopulation b o (rnd g)) :=
    fun g => updatePopulation_onlyMoves b o (rnd g)
  rw [psoRun_eq] at hr
  obtain ⟨b1, b2, b3⟩ := run_record _ _ _ _ _ _ hr
  have key : ∀ i (hi : i < r.record.length) t,
      stateAfter (psoSolver opt f fun g => updatePopulation b o (rnd g)) s0 i = .ok t →
      Consistent f t ∧ t.fail = trailingFails opt (f (init 0).1) (r.record.take (i + 1)) ∧
      t.gBest.fitness = r.record[i] := by
    intro i
    induction i with
    | zero =>
      intro hi t ht
      obtain ⟨t', ht', hb⟩ := b3 0 hi
      rw [ht] at ht'; cases ht'
      simp only [psoSolver, Out.ok.injEq] at hb
      obtain ⟨t2, ht2, htc, -, -, -, -, hnb, hcase⟩ := generation_step opt f
        (s := { s0 with fail := 0 }) ⟨hc.nonempty, hc.pBest, hc.gBest⟩
      have ht3 : updatePGBest opt (psoComputeAllFitness f { s0 with fail := 0 }) = .ok t := ht
      rw [ht2] at ht3; cases ht3
      refine ⟨htc, ?_, hb⟩
      have e : r.record.take (0 + 1) = [] ++ [r.record[0]] := by
        rw [List.take_succ_eq_append_getElem hi]; simp
      have hta := trailingFails_append opt (f (init 0).1) [] r.record[0] (f (init 0).1) rfl
      rw [e]
      rcases hcase with ⟨h1, h2⟩ | ⟨h1, h2, -⟩
      · have : ¬ Better opt r.record[0] (f (init 0).1) := by
          rw [← hb, h1]; show ¬ Better opt s0.gBest.fitness _
          rw [hg0]; exact nb_refl opt _
        rw [hta.2 this, h2]; rfl
      · have : Better opt r.record[0] (f (init 0).1) := by
          rw [← hb, ← hg0]; exact h1
        rw [hta.1 this, h2]
    | succ i ih =>
      intro hi t ht
      obtain ⟨t', ht', hb⟩ := b3 (i + 1) hi
      rw [ht] at ht'; cases ht'
      simp only [psoSolver, Out.ok.injEq] at hb
      obtain ⟨u, hu, -⟩ := b3 i (by omega)
      obtain ⟨huc, huf, hub⟩ := ih (by omega) u hu
      simp only [stateAfter, hu, Out.ok_bind] at ht
      have hc' := onlyMoves_consistent f (hm (i + 1)) huc
      obtain ⟨t2, ht2, htc, -, -, -, -, hnb, hcase⟩ := generation_step opt f hc'
      have ht3 : updatePGBest opt (psoComputeAllFitness f (updatePopulation b o (rnd (i + 1)) u)) = .ok t := ht
      rw [ht2] at ht3; cases ht3
      refine ⟨htc, ?_, hb⟩
      have e : r.record.take (i + 1 + 1) = r.record.take (i + 1) ++ [r.record[i + 1]] := by
        rw [List.take_succ_eq_append_getElem hi]
      have hlast : (f (init 0).1 :: r.record.take (i + 1)).getLast (by simp) = r.record[i] := by
        rw [List.getLast_cons (by
          intro h0
          have := congrArg List.length h0
          simp only [List.length_take, List.length_nil] at this; omega)]
        rw [List.getLast_eq_getElem]
        simp only [List.length_take, List.getElem_take]
        congr 1; omega
      have hta := trailingFails_append opt (f (init 0).1) (r.record.take (i + 1)) r.record[i + 1]
        r.record[i] hlast
      rw [e]
      rcases hcase with ⟨h1, h2⟩ | ⟨h1, h2, -⟩
      · have : ¬ Better opt r.record[i + 1] r.record[i] := by
          rw [← hb, ← hub, h1]
          exact nb_refl opt _
        rw [hta.2 this, h2]
        show u.fail + 1 = _
        rw [huf]
      · have : Better opt r.record[i + 1] r.record[i] := by
          rw [← hb, ← hub]; exact h1
        rw [hta.1 this, h2]
  obtain ⟨-, h2, -⟩ := key r.generation (by omega) r.state b2
  rw [h2, ← b1, List.take_length]

end run

/-- Non-vacuity of C46 and C67: a run stopped by the failure limit. -/
example : ((psoInitializePop 2 (fun k => ([if k = 0 then -2 else (-1 : ℚ)], [0])) demoF) >>= fun s =>
      psoRun .lessBetter demoF (fun _ => updatePopulation demoBox ⟨1, 1, 1⟩ fun _ => (1/2, 1)) 40 2 41 s).satisfies
    (fun r => r.record == [4, 4, 1, 0, 0, 0, 0] && r.generation == 6 && r.state.fail == 3) = true := by
  decide +kernel

/-! ## C47 -/

/-- **C47** (rectangular boxes, and the square accessors that are right): after `setPVRange` the accessors
report what was given. -/
theorem pso_accessors_partial {α : Type} [Field α] [LinearOrder α] (pMin pMax vMax : List α)
    (b : PSOBox α) (h : setPVRangeRect pMin pMax vMax = .ok b) :
    b.dim = pMin.length ∧ ∀ i (hi : i < pMin.length), some (b.posMin i) = pMin[i]? ∧
      some (b.posMax i) = pMax[i]? ∧ some (b.velocityMax i) = vMax[i]? := by
  unfold setPVRangeRect at h
  split at h
  · rename_i hc
    cases h
    refine ⟨rfl, ?_⟩
    intro i hi
    have hi2 : i < pMax.length := by omega
    have hi3 : i < vMax.length := by omega
    simp only [List.getD_eq_getElem?_getD, List.getElem?_eq_getElem hi, List.getElem?_eq_getElem hi2,
      List.getElem?_eq_getElem hi3, Option.getD_some, and_self]
  · cases h

/-- C47 is false for square boxes: `posMax(i)` returns the *lower* bound, for every legal box and every
index; `posMin(i)`, `posMax()` and `maxVelocity(i)` are right. -/
theorem pso_square_posMax_wrong {α : Type} [LinearOrder α] (mn mx vm : α) (h : mn < mx) (i : Nat) :
    SquareBox4PSO.posMaxAt mn mx i = mn ∧ SquareBox4PSO.posMaxAt mn mx i ≠ mx ∧
    SquareBox4PSO.posMinAt mn mx i = mn ∧ SquareBox4PSO.posMax mn mx = mx ∧
    SquareBox4PSO.maxVelocityAt vm i = vm :=
  ⟨rfl, h.ne, rfl, rfl, rfl⟩

example : (setPVRangeRect [(0 : ℚ), 1] [2, 3] [1, 1]).satisfies (fun b => b.posMax 1 == 3) = true := by
  decide +kernel

/-! ## C66: the two implementations -/

section std
variable {α F : Type} [Field α] [LinearOrder α] [IsStrictOrderedRing α]

theorem clampVelStd_eq (vm x : α) (h : 0 ≤ vm) : clampVelStd vm x = clampVel vm x := by
  unfold clampVelStd clampVel stdMax stdMin
  simp only
  by_cases h1 : 0 < x
  · rw [if_neg (not_lt.2 h1.le), if_pos h1]
    by_cases h2 : vm < x
    · have e : ¬ vm < -vm := by linarith
      rw [if_pos h2, if_pos h2, if_neg e]; ring
    · have e : ¬ x < -vm := by linarith
      rw [if_neg h2, if_neg h2, if_neg e]
  · by_cases h2 : x < 0
    · rw [if_pos h2, if_neg h1, if_pos h2]
      by_cases h3 : vm < -x
      · have e1 : ¬ vm < x := by linarith
        have e2 : x < -vm := by linarith
        rw [if_pos h3, if_neg e1, if_pos e2]; ring
      · have e1 : ¬ vm < x := by linarith
        have e2 : ¬ x < -vm := by linarith
        rw [if_neg h3, if_neg e1, if_neg e2]
    · have : x = 0 := le_antisymm (not_lt.1 h1) (not_lt.1 h2)
      subst this
      simp only [lt_irrefl, if_false]
      have e : ¬ (0 : α) < -vm := by linarith
      rw [if_neg (not_lt.2 h), if_neg (not_lt.2 h), if_neg e]

theorem clampPosStd_eq (mn mx x : α) (h : mn ≤ mx) : clampPosStd mn mx x = clampPos mn mx x := by
  unfold clampPosStd clampPos stdMax stdMin
  by_cases h1 : x < mn
  · rw [if_pos h1, if_neg (not_lt.2 h), if_pos (lt_of_lt_of_le h1 h), if_neg (not_lt.2 h1.le)]
  · rw [if_neg h1]
    by_cases h2 : mx < x
    · rw [if_pos h2, if_neg (not_lt.2 h2.le)]
      rcases lt_or_eq_of_le h with h3 | h3
      · rw [if_pos h3]
      · rw [if_neg (by rw [h3]; exact lt_irrefl _), h3]
    · rw [if_neg h2]
      by_cases h3 : x < mx
      · rw [if_pos h3]
        by_cases h4 : mn < x
        · rw [if_pos h4]
        · rw [if_neg h4]; exact le_antisymm (not_lt.1 h4) (not_lt.1 h1)
      · rw [if_neg h3]
        have : x = mx := le_antisymm (not_lt.1 h2) (not_lt.1 h3)
        subst this
        by_cases h4 : mn < x
        · rw [if_pos h4]
        · rw [if_neg h4]; exact le_antisymm (not_lt.1 h4) (not_lt.1 h1)

/-- **C66**.  The two implementations of the move (Eigen and std containers) agree: same draws, same new
velocity and position, for every legal box (exact arithmetic). -/
theorem pso_std_eq_eigen (b : PSOBox α) (hb : LegalBox b) (o : PSOFactors α) (g : List α) (r1 r2 : α)
    (p : Particle (List α) F) (h1 : p.velocity.length = b.dim) (h2 : p.position.length = b.dim) :
    moveParticleStd b o g r1 r2 p = moveParticle b o g r1 r2 p := by
  have hv : (newVelocity o r1 r2 p.velocity p.position p.pBest.position g).mapIdx
      (fun k x => clampVelStd (b.velocityMax k) x) =
      applyConstraint4Velocity b (newVelocity o r1 r2 p.velocity p.position p.pBest.position g) := by
    unfold applyConstraint4Velocity
    apply List.ext_getElem (by simp)
    intro i hi hi'
    simp only [List.getElem_mapIdx]
    apply clampVelStd_eq
    have : i < b.dim := by
      simp only [newVelocity, List.length_mapIdx, List.length_zipWith, List.length_map, h1, h2] at hi
      omega
    exact (hb i this).2.le
  unfold moveParticleStd moveParticle
  simp only [hv]
  congr 1
  unfold applyConstraint4Position
  apply List.ext_getElem (by simp)
  intro i hi hi'
  simp only [List.getElem_mapIdx]
  apply clampPosStd_eq
  have : i < b.dim := by
    simp only [List.length_mapIdx, List.length_zipWith, h2] at hi
    omega
  exact (hb i this).1

end std

example : moveParticleStd (F := Nat) demoBox ⟨1, 2, 2⟩ [(2 : ℚ)] (1/2) 1 ⟨[-1], 0, [1/2], ⟨[1], 0⟩⟩ =
    ⟨[0], 0, [1], ⟨[1], 0⟩⟩ := by decide +kernel

/-- Without `velocityMax ≥ 0` or `min ≤ max` they differ, so the box must be legal. -/
example : clampPosStd (2 : ℚ) 1 0 ≠ clampPos 2 1 0 := by decide +kernel

end Heu
