import Verif.Props.MOFeasible
import Verif.Spec.FeasibleInt

/-!
# C43 on bounded integer types, and C114: runs over integer and Boolean boxes stay in the box
-/

set_option linter.unusedSectionVars false
set_option linter.unusedVariables false

namespace Heu
open Spec

theorem randIdxT_eq (T : IntT) (hb : 1 ≤ T.bits) (t m : Nat) (mn mx1 : Int) (hf : FloatDraw (t, m))
    (hlo : T.lo ≤ mn) (hle : mn ≤ mx1) (hhi : mx1 ≤ T.hi) (hd : mx1 - mn ≤ T.hi) :
    randIdxT T t m mn mx1 = .ok (randIdxRangeF32 t m mn mx1) := by
  obtain ⟨ht, hm, hrep⟩ := hf
  have h0 := T.lo_nonpos
  have hr : mn ≤ randIdxRangeF32 t m mn mx1 ∧ randIdxRangeF32 t m mn mx1 ≤ mx1 := by
    rcases eq_or_lt_of_le hle with he | hlt
    · subst he
      have hz : randIdxF32 t m 0 = 0 := by
        have h : roundF32 0 = 0 := by decide +kernel
        unfold randIdxF32
        rw [h, Nat.mul_zero, h, Nat.zero_div]
      unfold randIdxRangeF32
      rw [show (mn - mn).toNat = 0 by omega, hz]
      constructor <;> omega
    · have := randIdx_range_in_range t m mn mx1 ht hm hrep hlt
      omega
  unfold randIdxT
  rw [T.arith_id hb _ (by omega) (by omega)]
  simp only [Out.ok_bind]
  have e : (mx1 - mn).natAbs = (mx1 - mn).toNat := by omega
  rw [if_pos (show 0 ≤ mx1 - mn by omega), e]
  unfold randIdxRangeF32 at hr ⊢
  rw [if_pos (by omega), T.arith_id hb _ (by omega) (by omega)]
  simp only [Out.ok_bind]
  rw [T.conv_id hb _ (by omega) (by omega)]

theorem IntT.hi_lt (T : IntT) (h64 : T.bits ≤ 64) : T.hi < 2 ^ 64 := by
  unfold IntT.hi
  split
  · have : (2 : Int) ^ (T.bits - 1) ≤ 2 ^ 64 := pow_le_pow_right₀ (by norm_num) (by omega)
    omega
  · have : (2 : Int) ^ T.bits ≤ 2 ^ 64 := pow_le_pow_right₀ (by norm_num) h64
    omega

/-- On a scalar type that can hold `max + 1` and `max + 1 - min`, the bounded-type symbol mutation is
the one on mathematical integers. -/
theorem symbolMutateT_eq {κ : Type} [Field κ] [LinearOrder κ] [IsStrictOrderedRing κ] (T : IntT)
    (hb : 1 ≤ T.bits) (h64 : T.bits ≤ 64) (b : Box Int) (v : List Int) (hv : InBox b v) (idx : Nat)
    (hi : idx < b.dim) (u : κ) (t m : Nat) (hf : FloatDraw (t, m)) (hu0 : 0 ≤ u) (hu1 : u < 1)
    (hlo : T.lo ≤ b.min idx) (hhi : b.max idx + 1 ≤ T.hi) (hd : b.max idx + 1 - b.min idx ≤ T.hi) :
    symbolMutateT T b v idx u t m = symbolMutate b v idx u t m := by
  have hi' : idx < v.length := by rw [hv.1]; exact hi
  obtain ⟨h1, h2⟩ := hv.2 idx hi'
  obtain ⟨x, hx⟩ : ∃ x, v[idx] = x := ⟨_, rfl⟩
  rw [hx] at h1 h2
  have h0 := T.lo_nonpos
  have hl := T.hi_lt h64
  unfold symbolMutateT symbolMutate
  rw [List.getElem?_eq_getElem hi', hx]
  simp only
  rw [T.arith_id hb _ (by omega) (by omega), T.arith_id hb _ (by omega) (by omega)]
  simp only [Out.ok_bind]
  rw [Int.emod_eq_of_lt (by omega) (by omega), Int.emod_eq_of_lt (by omega) (by omega)]
  split
  · rw [randIdxT_eq T hb t m _ _ hf hlo h1 (by omega) (by omega)]; rfl
  · rw [T.arith_id hb _ (by omega) (by omega), T.arith_id hb _ (by omega) (by omega)]
    simp only [Out.ok_bind]
    rw [T.conv_id hb _ (by omega) (by omega), T.conv_id hb _ (by omega) (by omega),
      randIdxT_eq T hb t m _ _ hf (by omega) (by omega) (by omega) (by omega)]
    rfl

/-- **C43** on a bounded integer type, when `max + 1` and `max + 1 - min` are representable: defined,
in the box, only the drawn coordinate can change, and it does change unless it is at the lower bound and
the draw is 0 or there is only one value. -/
theorem symbolMutate_typed_partial {κ : Type} [Field κ] [LinearOrder κ] [IsStrictOrderedRing κ]
    (T : IntT) (hb : 1 ≤ T.bits) (h64 : T.bits ≤ 64) (b : Box Int) (v : List Int) (hv : InBox b v)
    (idx : Nat) (hi : idx < b.dim) (u : κ) (hu0 : 0 ≤ u) (hu1 : u < 1) (t m : Nat)
    (hf : FloatDraw (t, m)) (hlo : T.lo ≤ b.min idx) (hhi : b.max idx + 1 ≤ T.hi)
    (hd : b.max idx + 1 - b.min idx ≤ T.hi) :
    ∃ w x y, symbolMutateT T b v idx u t m = .ok w ∧ InBox b w ∧ SameExcept v w idx ∧
      v[idx]? = some x ∧ w[idx]? = some y ∧
      (y ≠ x ∨ (x = b.min idx ∧ (u = 0 ∨ b.min idx = b.max idx))) := by
  rw [symbolMutateT_eq T hb h64 b v hv idx hi u t m hf hu0 hu1 hlo hhi hd]
  exact symbolMutate_spec_partial b v hv idx hi u hu0 hu1 t m hf

example : symbolMutateT ⟨8, false⟩ (squareBox 2 0 254) [100, 7] 0 (3 / 4 : ℚ) 24 (2 ^ 23) = .ok [178, 7] ∧
    symbolMutateT ⟨32, true⟩ (squareBox 2 (-5) 5) [1, 3] 1 (1 / 8 : ℚ) 24 (2 ^ 23) = .ok [1, -1] := by
  decide +kernel

/-- The condition on the type is needed: on `int8_t` with upper bound 127, `max + 1` wraps to -128, so a
step *up* from 0 in the box `[-10, 127]` leaves the box downwards. -/
theorem symbolMutate_int8_leaves_box :
    symbolMutateT ⟨8, true⟩ (squareBox 1 (-10) 127) [0] 0 (3 / 4 : ℚ) 24 (2 ^ 23) = .ok [-63] ∧
      ¬ InBox (squareBox 1 (-10) 127) [-63] := by
  refine ⟨by decide +kernel, fun h => ?_⟩
  have := (h.2 0 (by decide)).1
  revert this
  decide +kernel

/-- On the full `uint8_t` range `[0, 255]` going up converts a negative number to the unsigned type, which
is undefined. -/
theorem symbolMutate_uint8_undefined :
    symbolMutateT ⟨8, false⟩ (squareBox 1 0 255) [100] 0 (3 / 4 : ℚ) 24 (2 ^ 23) = .ub := by
  decide +kernel

/-- On `int` with `max = INT_MAX` going up is undefined. -/
theorem symbolMutate_int_max_overflow :
    symbolMutateT ⟨32, true⟩ (squareBox 1 0 (2 ^ 31 - 1)) [100] 0 (3 / 4 : ℚ) 24 (2 ^ 23) = .ub := by
  decide +kernel

/-! ## C114: whole runs over integer and Boolean boxes -/

/-- What the run may call as crossover: a single-point swap or a coordinate-wise exchange, with any
draws. -/
def IntCx (b : Box Int) (cx : List Int → List Int → List Int × List Int) : Prop :=
  ∀ p q, InBox b p → InBox b q →
    (∃ i, cFunSwapNs p q i = .ok (cx p q)) ∨
    (∃ (r : ℚ) (u w : Nat → ℚ), cFunRandNs r u w p q = .ok (cx p q))

/-- What the run may call as mutation: a unit step of the box, or the symbol mutation, at any coordinate
with any draws. -/
def IntMu (T : IntT) (b : Box Int) (mu : List Int → List Int) : Prop :=
  ∀ p, InBox b p →
    (∃ i up, i < b.dim ∧ applyDeltaInt T b p i up = .ok (mu p)) ∨
    (∃ i, ∃ u : ℚ, ∃ t m, i < b.dim ∧ 0 ≤ u ∧ u < 1 ∧ FloatDraw (t, m) ∧
      symbolMutateT T b p i u t m = .ok (mu p))

theorem intCx_keeps {b : Box Int} {cx : List Int → List Int → List Int × List Int} (h : IntCx b cx)
    (p q : List Int) (hp : InBox b p) (hq : InBox b q) : InBox b (cx p q).1 ∧ InBox b (cx p q).2 := by
  have hx := exchange_in_box (κ := ℚ) b p q hp hq
  rcases h p q hp hq with ⟨i, hi⟩ | ⟨r, u, w, hi⟩
  · obtain ⟨c1, c2, h1, h2, h3⟩ := hx.1 i
    rw [h1] at hi
    rw [← Out.ok.inj hi]; exact ⟨h2, h3⟩
  · obtain ⟨c1, c2, h1, h2, h3⟩ := hx.2 r u w
    rw [h1] at hi
    rw [← Out.ok.inj hi]; exact ⟨h2, h3⟩

theorem intMu_keeps {T : IntT} {b : Box Int} (hT : RoomFor T b) {mu : List Int → List Int}
    (h : IntMu T b mu) (p : List Int) (hp : InBox b p) : InBox b (mu p) := by
  obtain ⟨hb, h64, hr⟩ := hT
  rcases h p hp with ⟨i, up, hi, he⟩ | ⟨i, u, t, m, hi, h0, h1, hf, he⟩
  · obtain ⟨w, -, -, h2, h3, -⟩ := applyDelta_int_partial T hb b p hp i hi up (hr i hi).1 (hr i hi).2.1
    rw [h2] at he; cases he; exact h3
  · obtain ⟨w, -, -, h2, h3, -⟩ := symbolMutate_typed_partial T hb h64 b p hp i hi u h0 h1 t m hf
      (by have := (hr i hi).1; omega) (hr i hi).2.1 (hr i hi).2.2
    rw [h2] at he; cases he; exact h3

theorem intInit_keeps {T : IntT} {b : Box Int} (hT : RoomFor T b) (hne : NonEmptyBox b)
    {draw : Nat → Nat × Nat} (hdraw : ∀ j, FloatDraw (draw j)) {x : List Int}
    (h : initializeInt T b draw = .ok x) : InBox b x := by
  obtain ⟨w, h2, h3⟩ := initialize_int_in_box_partial T hT.1 b draw hdraw hne
    (fun i hi => by have := (hT.2.2 i hi).1; omega) (fun i hi => (hT.2.2 i hi).2.1)
    (fun i hi => (hT.2.2 i hi).2.2)
  rw [h2] at h; cases h; exact h3

section
variable {α : Type} [Field α] [LinearOrder α] [IsStrictOrderedRing α]

/-- **C114**, single-objective.  Integer genes, a non-empty box the scalar type has room for, the library's
initialisation, exchange crossovers and step or symbol mutations in any mixture, every selection method, all
draws: after a run every individual and the reported best are in the box. -/
theorem soga_int_run_in_box (o : FitnessOption) (f : List Int → α) (m : SelectMethod) (K : Nat)
    (e : Nat → SelectEnv (Gene (List Int) α) α) (v : Nat → VaryEnv (List Int) α)
    (he : ∀ g, ValidEnv (e g)) (hsh : ∀ g l, ((v g).cxShuffle l).Perm l)
    (T : IntT) (b : Box Int) (hT : RoomFor T b) (hne : NonEmptyBox b)
    (hcx : ∀ g n, IntCx b ((v g).cx n)) (hmu : ∀ g n, IntMu T b ((v g).mu n))
    (draw : Nat → Nat → Nat × Nat) (hdraw : ∀ i j, FloatDraw (draw i j)) (init : Nat → List Int)
    (hinit : ∀ i, initializeInt T b (draw i) = .ok (init i)) (junk : α)
    (hK : 0 < K) (maxGen maxFail fuel : Nat) (res : RunResult (SOState (Gene (List Int) α)) α)
    (hres : gaRun (sogaSolver o f m K e v) maxGen maxFail fuel (sogaInit K init junk) = .ok res) :
    (∀ c ∈ res.state.pop, InBox b c.2.var) ∧
      ∃ g, deref res.state.pop res.state.best = .ok g ∧ InBox b g.var := by
  refine soga_run_feasible o f m K e v (InBox b) he hsh
    (fun g n p q hp hq => intCx_keeps (hcx g n) p q hp hq)
    (fun g n p hp => intMu_keeps hT (hmu g n) p hp) _ (sogaInit_ready f K hK init junk) ?_
    maxGen maxFail fuel res hres
  intro c hc
  obtain ⟨i, -, rfl⟩ := List.mem_map.1 hc
  exact intInit_keeps hT hne (hdraw i) (hinit i)

/-- **C114**, multi-objective: the same for every multi-objective solver, whatever its selection. -/
theorem mo_int_run_in_box {k : Nat} (o : FitnessOption) (f : List Int → Fin k → α) (K : Nat)
    (sel : Nat → (Addr → Fin k → α) → List Addr → Out (SelectResult Addr))
    (v : Nat → MOVary (List Int) k α) (hsh : ∀ g l, ((v g).cxShuffle l).Perm l)
    (T : IntT) (b : Box Int) (hT : RoomFor T b) (hne : NonEmptyBox b)
    (hcx : ∀ g n, IntCx b ((v g).cx n)) (hmu : ∀ g n, IntMu T b ((v g).mu n))
    (draw : Nat → Nat → Nat × Nat) (hdraw : ∀ i j, FloatDraw (draw i j)) (init : Nat → List Int)
    (hinit : ∀ i, initializeInt T b (draw i) = .ok (init i)) (junk : Fin k → α)
    (maxGen maxFail fuel : Nat) (res : RunResult (MOState (List Int) k α) (Fin k → α))
    (hres : gaRun (moSolver o f sel v) maxGen maxFail fuel (moInit K init junk) = .ok res) :
    ∀ c ∈ res.state.pop, InBox b c.2.var := by
  refine mo_run_feasible o f sel v (InBox b) hsh
    (fun g n p q hp hq => intCx_keeps (hcx g n) p q hp hq)
    (fun g n p hp => intMu_keeps hT (hmu g n) p hp) _ ?_ maxGen maxFail fuel res hres
  intro c hc
  simp only [moInit, initializePop, List.mem_map] at hc
  obtain ⟨i, -, rfl⟩ := hc
  exact intInit_keeps hT hne (hdraw i) (hinit i)

/-! ### Boolean genes: the number of bits never changes -/

/-- Library crossovers on Boolean vectors of `d` entries. -/
def BoolCx (d : Nat) (cx : List Bool → List Bool → List Bool × List Bool) : Prop :=
  ∀ p q, p.length = d → q.length = d →
    (∃ i, cFunSwapNs p q i = .ok (cx p q)) ∨
    (∃ (r : ℚ) (u w : Nat → ℚ), cFunRandNs r u w p q = .ok (cx p q))

/-- The library's bit-flip mutation. -/
def BoolMu (d : Nat) (mu : List Bool → List Bool) : Prop :=
  ∀ p, p.length = d → ∃ i, i < d ∧ applyDeltaBool d p i = .ok (mu p)

/-- **C114**, Boolean genes. -/
theorem soga_bool_run_dimension (o : FitnessOption) (f : List Bool → α) (m : SelectMethod) (K : Nat)
    (e : Nat → SelectEnv (Gene (List Bool) α) α) (v : Nat → VaryEnv (List Bool) α)
    (he : ∀ g, ValidEnv (e g)) (hsh : ∀ g l, ((v g).cxShuffle l).Perm l) (d : Nat)
    (hcx : ∀ g n, BoolCx d ((v g).cx n)) (hmu : ∀ g n, BoolMu d ((v g).mu n))
    (draw : Nat → Nat → Nat × Nat) (junk : α)
    (hK : 0 < K) (maxGen maxFail fuel : Nat) (res : RunResult (SOState (Gene (List Bool) α)) α)
    (hres : gaRun (sogaSolver o f m K e v) maxGen maxFail fuel
      (sogaInit K (fun i => initializeBool d (draw i)) junk) = .ok res) :
    (∀ c ∈ res.state.pop, c.2.var.length = d) ∧
      ∃ g, deref res.state.pop res.state.best = .ok g ∧ g.var.length = d := by
  refine soga_run_feasible o f m K e v (fun x => x.length = d) he hsh ?_ ?_ _
    (sogaInit_ready f K hK _ junk) ?_ maxGen maxFail fuel res hres
  · intro g n p q hp hq
    rcases hcx g n p q hp hq with ⟨i, hi⟩ | ⟨r, u, w, hi⟩
    · obtain ⟨c1, c2, h1, h2, h3, -⟩ := cFunSwapNs_exchange p q (hp.trans hq.symm) i
      rw [h1] at hi; have hi := Out.ok.inj hi
      rw [← hi]; exact ⟨h2.trans hp, h3.trans hp⟩
    · obtain ⟨c1, c2, h1, h2, h3, -⟩ := cFunRandNs_coordinates r u w p q (hp.trans hq.symm)
      rw [h1] at hi; have hi := Out.ok.inj hi
      rw [← hi]; exact ⟨h2.trans hp, h3.trans hp⟩
  · intro g n p hp
    obtain ⟨i, hi, hx⟩ := hmu g n p hp
    subst hp
    obtain ⟨w, x, h1, h2, -⟩ := applyDelta_bool p i hi
    rw [h1] at hx; have hx := Out.ok.inj hx
    rw [← hx]; exact h2.1.symm
  · intro c hc
    obtain ⟨i, -, rfl⟩ := List.mem_map.1 hc
    simp [initializeBool]

end

/-! Non-vacuity: the operators as total functions, a run that returns, and its population. -/

/-- The result of a call that is defined (`d` otherwise). -/
def orElse {β : Type} (d : β) : Out β → β
  | .ok a => a
  | _ => d

theorem orElse_ok {β : Type} {x : Out β} {d a : β} (h : x = .ok a) : x = .ok (orElse d x) := by
  subst h; rfl

/-- Integer operators with fixed draws on the `int` box `[0, 9]^3` (for the examples below). -/
def demoIntVary : VaryEnv (List Int) ℚ where
  cx := fun _ p q => orElse (p, q) (cFunSwapNs p q 1)
  cxSel := fun _ => true
  cxShuffle := fun l => l
  mu := fun n p => if n = 0 then orElse p (applyDeltaInt ⟨32, true⟩ (squareBox 3 0 9) p 2 true)
    else orElse p (symbolMutateT ⟨32, true⟩ (squareBox 3 0 9) p 0 (3 / 4 : ℚ) 24 (2 ^ 23))
  muSel := fun _ => true
  junk := 7

theorem demoInt_room : RoomFor ⟨32, true⟩ (squareBox 3 0 9) := by
  refine ⟨by decide, by decide, ?_⟩
  intro i hi
  refine ⟨?_, ?_, ?_⟩ <;> · simp only [squareBox]; decide

/-- Non-vacuity: these operators are library operators, in the sense the theorems ask for. -/
example : NonEmptyBox (squareBox 3 (0 : Int) 9) ∧ (∀ n, IntCx (squareBox 3 0 9) (demoIntVary.cx n)) ∧
    (∀ n, IntMu ⟨32, true⟩ (squareBox 3 0 9) (demoIntVary.mu n)) := by
  refine ⟨fun i _ => by simp only [squareBox]; decide, ?_, ?_⟩
  · intro n p q hp hq
    obtain ⟨c1, c2, h, -⟩ := (exchange_in_box (κ := ℚ) _ p q hp hq).1 1
    exact .inl ⟨1, orElse_ok h⟩
  · intro n p hp
    by_cases hn : n = 0
    · left
      subst hn
      obtain ⟨w, -, -, h, -⟩ := applyDelta_int_partial ⟨32, true⟩ (by decide) _ p hp 2 (by decide) true
        (demoInt_room.2.2 2 (by decide)).1 (demoInt_room.2.2 2 (by decide)).2.1
      exact ⟨2, true, by decide, orElse_ok h⟩
    · right
      have hf : FloatDraw (24, 2 ^ 23) := ⟨by decide, by decide, by decide +kernel⟩
      obtain ⟨w, -, -, h, -⟩ := symbolMutate_typed_partial ⟨32, true⟩ (by decide) (by decide) _ p hp 0
        (by decide) (3 / 4 : ℚ) (by norm_num) (by norm_num) 24 (2 ^ 23) hf
        (by simp only [squareBox]; decide) (by simp only [squareBox]; decide)
        (by simp only [squareBox]; decide)
      refine ⟨0, 3 / 4, 24, 2 ^ 23, by decide, by norm_num, by norm_num, hf, ?_⟩
      have : demoIntVary.mu n p =
          orElse p (symbolMutateT ⟨32, true⟩ (squareBox 3 0 9) p 0 (3 / 4 : ℚ) 24 (2 ^ 23)) := if_neg hn
      rw [this]; exact orElse_ok h

/-- Non-vacuity: a two-generation run from the library's initialisation returns points of the box. -/
example : (gaRun (sogaSolver .lessBetter (fun x : List Int => ((x.foldl (· + ·) 0 : Int) : ℚ))
      .RouletteWheel 2 (fun _ => demoEnv (Gene (List Int) ℚ)) (fun _ => demoIntVary)) 1 0 2
      (sogaInit 2 (fun i => orElse [] (initializeInt ⟨32, true⟩ (squareBox 3 0 9)
        fun j => (24, (i + j + 1) * 2 ^ 21))) 0)).satisfies
    (fun r => r.generation == 1 && r.state.pop.all fun c => c.2.var.length == 3 &&
      c.2.var.all fun x => decide (0 ≤ x) && decide (x ≤ 9)) = true := by
  decide +kernel

/-- Non-vacuity, multi-objective: a one-generation NSGA-II run with the same operators. -/
example : (gaRun (nsga2Solver .lessBetter 3 (1 / 10000000000 : ℚ)
      (fun x : List Int => ![((x.getD 0 0 : Int) : ℚ), 9 - ((x.getD 0 0 : Int) : ℚ)])
      (fun _ => ⟨insertionSorter, fun _ => insertionSorter, insertionSorter⟩)
      (fun _ => ⟨demoIntVary.cx, fun _ => true, id, demoIntVary.mu, fun _ => true, 0⟩)) 1 0 2
      (moInit 3 (fun i => orElse [] (initializeInt ⟨32, true⟩ (squareBox 3 0 9)
        fun j => (24, (i + j + 1) * 2 ^ 21))) 0)).satisfies
    (fun r => decide (r.generation = 1 ∧ r.state.pop.length = 3) && r.state.pop.all fun c =>
      c.2.var.length == 3 && c.2.var.all fun x => decide (0 ≤ x) && decide (x ≤ 9)) = true := by
  decide +kernel

/-- Boolean operators with fixed draws. -/
def demoBoolVary : VaryEnv (List Bool) ℚ where
  cx := fun _ p q => orElse (p, q) (cFunSwapNs p q 1)
  cxSel := fun _ => true
  cxShuffle := fun l => l
  mu := fun _ p => orElse p (applyDeltaBool 3 p 2)
  muSel := fun _ => true
  junk := 7

example : (∀ n, BoolCx 3 (demoBoolVary.cx n)) ∧ (∀ n, BoolMu 3 (demoBoolVary.mu n)) := by
  refine ⟨fun n p q hp hq => ?_, fun n p hp => ?_⟩
  · obtain ⟨c1, c2, h, -⟩ := cFunSwapNs_exchange p q (hp.trans hq.symm) 1
    exact .inl ⟨1, orElse_ok h⟩
  · obtain ⟨w, x, h, -⟩ := applyDelta_bool p 2 (by omega)
    rw [hp] at h
    exact ⟨2, by omega, orElse_ok h⟩

example : (gaRun (sogaSolver .lessBetter (fun x : List Bool => ((x.count true : Nat) : ℚ))
      .RouletteWheel 2 (fun _ => demoEnv (Gene (List Bool) ℚ)) (fun _ => demoBoolVary)) 1 0 2
      (sogaInit 2 (fun i => initializeBool 3 fun j => (24, (i + j + 1) * 2 ^ 22)) 0)).satisfies
    (fun r => r.generation == 1 && r.state.pop.all fun c => c.2.var.length == 3) = true := by
  decide +kernel

end Heu
