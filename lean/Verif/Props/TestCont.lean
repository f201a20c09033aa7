import Verif.Spec.TestCont
import Verif.Props.TestFunsMO

/-!
# C134, C77: the containers of the multi-objective test functions
-/

set_option linter.unusedVariables false
set_option linter.unusedSimpArgs false

namespace Heu
open Spec TestFuns

/-! ### Writing the objectives -/

theorem wr_two (a b : ℝ) (fv : List ℝ) :
    (do let fv ← wr fv 0 a; wr fv 1 b) =
      if fv.length < 2 then .ub else .ok ([a, b] ++ fv.drop 2) := by
  rcases fv with _ | ⟨c, _ | ⟨d, rest⟩⟩ <;> simp [wr, Out.ok_bind, Out.ub_bind]

theorem wr_three (a b c : ℝ) (fv : List ℝ) :
    (do let fv ← wr fv 0 a; let fv ← wr fv 1 b; wr fv 2 c) =
      if fv.length < 3 then .ub else .ok ([a, b, c] ++ fv.drop 3) := by
  rcases fv with _ | ⟨d, _ | ⟨e, _ | ⟨g, rest⟩⟩⟩ <;> simp [wr, Out.ok_bind, Out.ub_bind]

/-- Two writes followed by two conditional additions. -/
theorem wr_two_add (a b p q d e : ℝ) (fv : List ℝ) :
    (do let fv ← wr fv 0 a; let fv ← wr fv 1 b; let fv ← addIf p 0 d fv; addIf q 1 e fv) =
      if fv.length < 2 then .ub else
        .ok ([if p > 0 then a + d else a, if q > 0 then b + e else b] ++ fv.drop 2) := by
  rcases fv with _ | ⟨c, _ | ⟨c', rest⟩⟩
  · simp [wr, Out.ub_bind]
  · simp [wr, Out.ok_bind, Out.ub_bind]
  · by_cases hp : p > 0 <;> by_cases hq : q > 0 <;>
      simp [wr, rd, addIf, hp, hq, Out.ok_bind, Out.pure_eq]

/-! ### What the result object looks like before the writes -/

/-- A result object of run-time size is resized by Schaffer's problems whatever it held. -/
theorem initFitness12_spec (junk : List ℝ) (f : Cont) (fv : List ℝ) (hf : sizeMayMatch f 2 = true)
    (h : f.Holds fv) : ∃ fv', initFitness12 junk f fv = .ok fv' ∧ fv'.length = 2 := by
  rcases f with (_ | n) | (_ | n)
  · refine ⟨_, rfl, ?_⟩
    show (ite _ _ _ : List ℝ).length = _
    split
    · assumption
    · simp
  · refine ⟨fv, rfl, ?_⟩
    have : n = 2 := by simpa [sizeMayMatch, Cont.isFixed, Cont.sizeCT] using hf
    exact this ▸ h n rfl
  · refine ⟨_, rfl, ?_⟩
    simp
  · refine ⟨fv, rfl, ?_⟩
    have : n = 2 := by simpa [sizeMayMatch, Cont.isFixed, Cont.sizeCT] using hf
    exact this ▸ h n rfl

/-- The other problems resize it if the *variable* has a run-time size. -/
theorem initFitness2_spec (n : Nat) (junk : List ℝ) (v f : Cont) (fv : List ℝ)
    (hf : sizeMayMatch f n = true) (hc : bodyCompiles2 v f = true) (h : f.Holds fv) :
    ∃ fv', initFitness2 n junk v f fv = .ok fv' ∧
      (if v.isFixed && !f.isFixed then fv' = fv else fv'.length = n) := by
  unfold initFitness2
  by_cases hv : v.isFixed = true
  · refine ⟨fv, by rw [if_pos hv], ?_⟩
    by_cases hff : f.isFixed = true
    · simp only [hv, hff, Bool.not_true, Bool.and_false, Bool.false_eq_true, if_false]
      obtain ⟨m, hm⟩ := Option.isSome_iff_exists.1 hff
      have : m = n := by simpa [sizeMayMatch, hff, hm] using hf
      exact this ▸ h m hm
    · simp [hv, hff]
  · rw [if_neg hv]
    have hb : resizeCompiles f = true := by simpa [bodyCompiles2, hv] using hc
    have hcond : (v.isFixed && !f.isFixed) = false := by simp [hv]
    simp only [hcond, Bool.false_eq_true, if_false]
    rcases f with (_ | m) | (_ | m)
    · refine ⟨_, rfl, ?_⟩
      show (ite _ _ _ : List ℝ).length = _
      split
      · assumption
      · simp
    · have hm : m = n := by simpa [sizeMayMatch, Cont.isFixed, Cont.sizeCT] using hf
      exact ⟨fv, by simp [resizeTo, hm], hm ▸ h m rfl⟩
    · exact ⟨_, rfl, by simp⟩
    · simp [resizeCompiles] at hb

theorem assert4Size_ok (v : Cont) (n : Nat) (x : List ℝ) (h : x.length = n) :
    assert4Size v n x = .ok () := by
  simp [assert4Size, h]

/-! ### C134: Schaffer's problems -/

/-- C134: Schaffer's two problems deliver exactly their two objectives into every result object,
whatever container types are used and whatever it held before. -/
theorem schaffer_delivers (junk : List ℝ) (v f : Cont) (x : ℝ) (fv : List ℝ)
    (hf : sizeMayMatch f 2 = true) (h : f.Holds fv) :
    Delivers (callSchaffer1 junk v f [x] fv) (schafferMO1 x) ∧
      Delivers (callSchaffer2 junk v f [x] fv) (schafferMO2 x) := by
  obtain ⟨fv', h1, h2⟩ := initFitness12_spec junk f fv hf h
  obtain ⟨a, b, rfl⟩ : ∃ a b, fv' = [a, b] := by
    rcases fv' with _ | ⟨a, _ | ⟨b, _ | ⟨c, r⟩⟩⟩ <;> simp at h2
    exact ⟨a, b, rfl⟩
  constructor
  · simp [Delivers, callSchaffer1, assert4Size_ok, h1, Out.ok_bind, rd, wr, schafferMO1, List.ofFn_succ]
  · simp only [Delivers, callSchaffer2, assert4Size_ok v 1 [x] rfl, h1, Out.ok_bind]
    by_cases h3 : x ≤ 1
    · simp [h3, rd, wr, schafferMO2, List.ofFn_succ, Out.ok_bind]
    · have h4 : ¬ x ≤ -3 := fun h => h3 (by linarith)
      by_cases h5 : x ≤ 4 <;> simp [h3, h4, h5, rd, wr, schafferMO2, List.ofFn_succ, Out.ok_bind]

/-! ### C134: the problems with two variables -/

theorem delivers_tail {n : Nat} (junk : List ℝ) (v f : Cont) (fv vals : List ℝ) (k : List ℝ → Out (List ℝ))
    (hn : vals.length = n)
    (hk : ∀ fv, k fv = if fv.length < n then .ub else .ok (vals ++ fv.drop n))
    (hf : sizeMayMatch f n = true) (hc : bodyCompiles2 v f = true) (h : f.Holds fv) :
    (initFitness2 n junk v f fv).bind k =
      if v.isFixed && !f.isFixed then (if fv.length < n then .ub else .ok (vals ++ fv.drop n))
      else .ok vals := by
  obtain ⟨fv', h1, h2⟩ := initFitness2_spec n junk v f fv hf hc h
  rw [h1]
  show k fv' = _
  rw [hk]
  split at h2
  · next hcond => rw [if_pos hcond, h2]
  · next hcond =>
      rw [if_neg hcond, if_neg (by omega), List.drop_eq_nil_of_le (by omega), List.append_nil]

/-- What a call with a result object of the given type and content does: it delivers the objectives,
except that a result object of run-time size is used as it is when the variable has a compile-time size:
too short a one is written behind its end, too long a one keeps its surplus entries. -/
def PairOutcome {n : Nat} (r : Out (List ℝ)) (v f : Cont) (fv : List ℝ) (values : Fin n → ℝ) : Prop :=
  r = if v.isFixed && !f.isFixed then
        (if fv.length < n then .ub else .ok (List.ofFn values ++ fv.drop n))
      else .ok (List.ofFn values)

theorem binhKorn_outcome (junk : List ℝ) (v f : Cont) (x y : ℝ) (fv : List ℝ)
    (hf : sizeMayMatch f 2 = true) (hc : bodyCompiles2 v f = true) (h : f.Holds fv) :
    PairOutcome (callBinhKorn junk v f [x, y] fv) v f fv (binhKorn x y) := by
  have := delivers_tail (n := 2) junk v f fv (List.ofFn (binhKorn x y))
    (fun fv => do
      let fv ← wr fv 0 (4 * x * x + 4 * y * y)
      let fv ← wr fv 1 (square (x - 5) + square (y - 5))
      let fv ← addIf (square (x - 5) + y * y - 25) 0 (1e5 + (square (x - 5) + y * y - 25)) fv
      addIf (7.7 - square (x - 8) - square (y + 3)) 1
        (1e5 + (7.7 - square (x - 8) - square (y + 3))) fv) (by simp)
    (fun fv => by
      rw [wr_two_add]
      simp only [binhKorn, List.ofFn_succ, List.ofFn_zero, Matrix.cons_val_zero, Fin.succ_zero_eq_one,
        Matrix.cons_val_one]) hf hc h
  rw [PairOutcome, ← this]
  simp only [callBinhKorn, assert4Size_ok v 2 [x, y] rfl, Out.ok_bind, rd]
  rfl

theorem changkongHaimes_outcome (junk : List ℝ) (v f : Cont) (x y : ℝ) (fv : List ℝ)
    (hf : sizeMayMatch f 2 = true) (hc : bodyCompiles2 v f = true) (h : f.Holds fv) :
    PairOutcome (callChangkongHaimes junk v f [x, y] fv) v f fv (changkongHaimes x y) := by
  have := delivers_tail (n := 2) junk v f fv (List.ofFn (changkongHaimes x y))
    (fun fv => do
      let fv ← wr fv 0 (2 + square (x - 2) + square (y - 1))
      let fv ← wr fv 1 (9 * x - square (y - 1))
      let fv ← addIf (x * x + y * y - 225) 0 (1e5 + (x * x + y * y - 225)) fv
      addIf (x - 3 * y + 10) 1 (1e5 + (x - 3 * y + 10)) fv) (by simp)
    (fun fv => by
      rw [wr_two_add]
      simp only [changkongHaimes, List.ofFn_succ, List.ofFn_zero, Matrix.cons_val_zero, Fin.succ_zero_eq_one,
        Matrix.cons_val_one]) hf hc h
  rw [PairOutcome, ← this]
  simp only [callChangkongHaimes, assert4Size_ok v 2 [x, y] rfl, Out.ok_bind, rd]
  rfl

theorem poloni_outcome (junk : List ℝ) (v f : Cont) (x y : ℝ) (fv : List ℝ)
    (hf : sizeMayMatch f 2 = true) (hc : bodyCompiles2 v f = true) (h : f.Holds fv) :
    PairOutcome (callPoloni junk v f [x, y] fv) v f fv (poloni x y) := by
  have := delivers_tail (n := 2) junk v f fv (List.ofFn (poloni x y))
    (fun fv => do
      let fv ← wr fv 0 (poloni x y 0)
      wr fv 1 (poloni x y 1)) (by simp)
    (fun fv => by rw [wr_two]; simp [List.ofFn_succ]) hf hc h
  rw [PairOutcome, ← this]
  simp only [callPoloni, assert4Size_ok v 2 [x, y] rfl, Out.ok_bind, rd]
  rfl

theorem viennet_outcome (junk : List ℝ) (v f : Cont) (x y : ℝ) (fv : List ℝ)
    (hf : sizeMayMatch f 3 = true) (hc : bodyCompiles2 v f = true) (h : f.Holds fv) :
    PairOutcome (callViennet junk v f [x, y] fv) v f fv (viennet x y) := by
  have := delivers_tail (n := 3) junk v f fv (List.ofFn (viennet x y))
    (fun fv => do
      let fv ← wr fv 0 (viennet x y 0)
      let fv ← wr fv 1 (viennet x y 1)
      wr fv 2 (viennet x y 2)) (by simp)
    (fun fv => by rw [wr_three]; simp [List.ofFn_succ]) hf hc h
  rw [PairOutcome, ← this]
  simp only [callViennet, assert4Size_ok v 2 [x, y] rfl, Out.ok_bind, rd]
  rfl

/-- C134, the part that holds: with a result object of compile-time size (the only kind a solver uses), or
a variable of run-time size, the problems with two variables deliver exactly their objectives, for every
pair of container types the call compiles for and whatever the result object held before. -/
theorem pair_delivers_partial (junk : List ℝ) (v f : Cont) (x y : ℝ) (fv : List ℝ)
    (hc : bodyCompiles2 v f = true) (hfix : f.isFixed = true ∨ v.isFixed = false) (h : f.Holds fv) :
    (sizeMayMatch f 2 = true →
      Delivers (callBinhKorn junk v f [x, y] fv) (binhKorn x y) ∧
      Delivers (callChangkongHaimes junk v f [x, y] fv) (changkongHaimes x y) ∧
      Delivers (callPoloni junk v f [x, y] fv) (poloni x y)) ∧
    (sizeMayMatch f 3 = true → Delivers (callViennet junk v f [x, y] fv) (viennet x y)) := by
  have hcond : (v.isFixed && !f.isFixed) = false := by rcases hfix with h | h <;> simp [h]
  refine ⟨fun hf => ⟨?_, ?_, ?_⟩, fun hf => ?_⟩
  · have := binhKorn_outcome junk v f x y fv hf hc h
    rwa [PairOutcome, hcond, if_neg (by simp)] at this
  · have := changkongHaimes_outcome junk v f x y fv hf hc h
    rwa [PairOutcome, hcond, if_neg (by simp)] at this
  · have := poloni_outcome junk v f x y fv hf hc h
    rwa [PairOutcome, hcond, if_neg (by simp)] at this
  · have := viennet_outcome junk v f x y fv hf hc h
    rwa [PairOutcome, hcond, if_neg (by simp)] at this

/-- C134, what fails: with a variable of compile-time size and a result object of run-time size nothing is
resized; an object with fewer entries than objectives (such as a new, empty one) is written behind its end,
one with more keeps its surplus entries. -/
theorem pair_not_resized (junk : List ℝ) (v f : Cont) (x y : ℝ) (fv : List ℝ)
    (hv : v.isFixed = true) (hf : f.isFixed = false) :
    (fv.length < 2 → callBinhKorn junk v f [x, y] fv = .ub ∧ callChangkongHaimes junk v f [x, y] fv = .ub ∧
      callPoloni junk v f [x, y] fv = .ub) ∧
    (fv.length < 3 → callViennet junk v f [x, y] fv = .ub) ∧
    (2 < fv.length → ¬ Delivers (callBinhKorn junk v f [x, y] fv) (binhKorn x y) ∧
      ¬ Delivers (callChangkongHaimes junk v f [x, y] fv) (changkongHaimes x y) ∧
      ¬ Delivers (callPoloni junk v f [x, y] fv) (poloni x y)) ∧
    (3 < fv.length → ¬ Delivers (callViennet junk v f [x, y] fv) (viennet x y)) := by
  have hc : bodyCompiles2 v f = true := by simp [bodyCompiles2, hv]
  have h2 : sizeMayMatch f 2 = true := by simp [sizeMayMatch, hf]
  have h3 : sizeMayMatch f 3 = true := by simp [sizeMayMatch, hf]
  have hh : f.Holds fv := by
    intro n hn
    simp [Cont.isFixed, hn] at hf
  have hcond : (v.isFixed && !f.isFixed) = true := by simp [hv, hf]
  have b := binhKorn_outcome junk v f x y fv h2 hc hh
  have c := changkongHaimes_outcome junk v f x y fv h2 hc hh
  have p := poloni_outcome junk v f x y fv h2 hc hh
  have w := viennet_outcome junk v f x y fv h3 hc hh
  simp only [PairOutcome, hcond, if_true] at b c p w
  have key : ∀ {n : Nat} (r : Out (List ℝ)) (values : Fin n → ℝ), n < fv.length →
      r = (if fv.length < n then .ub else .ok (List.ofFn values ++ fv.drop n)) → ¬ Delivers r values := by
    intro n r values hn hr hd
    rw [Delivers, hr, if_neg (by omega)] at hd
    have := congrArg List.length (Out.ok.inj hd)
    simp at this
    omega
  refine ⟨fun hl => ?_, fun hl => ?_, fun hl => ⟨key _ _ hl b, key _ _ hl c, key _ _ hl p⟩, fun hl => key _ _ hl w⟩
  · rw [if_pos hl] at b c p
    exact ⟨b, c, p⟩
  · rw [if_pos hl] at w
    exact w

/-- The wrong number of variables in a vector of run-time size violates an assertion. -/
theorem pair_wrong_dimension (junk : List ℝ) (v f : Cont) (xv fv : List ℝ) (hv : v.isFixed = false)
    (hx : xv.length ≠ 2) :
    callBinhKorn junk v f xv fv = .ub ∧ callChangkongHaimes junk v f xv fv = .ub ∧
      callPoloni junk v f xv fv = .ub ∧ callViennet junk v f xv fv = .ub := by
  have : assert4Size v 2 xv = .ub := by simp [assert4Size, hv, hx]
  simp [callBinhKorn, callChangkongHaimes, callPoloni, callViennet, this, Out.ub_bind]

-- non-vacuity: a `std::vector` with two entries and the solver's `Eigen::Array<double, 2, 1>`, as it was after an
-- earlier call; and a `std::array<double, 2>` with a new `std::vector`
example : Delivers (callBinhKorn [] (.std none) (.eigen (some 2)) [1, 2] [7, 7]) (binhKorn 1 2) :=
  ((pair_delivers_partial [] (.std none) (.eigen (some 2)) 1 2 [7, 7] (by decide) (Or.inl (by decide))
    (by intro n hn; simp [Cont.sizeCT] at hn; simp [← hn])).1 (by decide)).1

example : callBinhKorn [] (.std (some 2)) (.std none) [1, 2] [] = .ub :=
  ((pair_not_resized [] (.std (some 2)) (.std none) 1 2 [] (by decide) (by decide)).1 (by decide)).1

/-! ### C134: which containers the class accepts -/

/-- C134: with an argument type, the class of test functions exists exactly for result containers with at
least two entries, or of run-time size, that do not have more entries than the variable. -/
theorem instantiates_arg_iff (v f : Cont) :
    instantiates true v f = true ↔
      (∀ M, f.sizeCT = some M → 2 ≤ M ∧ ∀ N, v.sizeCT = some N → M ≤ N) := by
  unfold instantiates offers sizeMayMatchDTLZ1to7 sizeMayMatchDTLZ89
  rcases hv : v.sizeCT with _ | N <;> rcases hf : f.sizeCT with _ | M <;> simp
  omega

/-- C134: without an argument type it exists exactly for result containers of a compile-time size of at
least two, not larger than the variable: never for one of run-time size. -/
theorem instantiates_void_iff (v f : Cont) :
    instantiates false v f = true ↔
      ∃ M, f.sizeCT = some M ∧ 2 ≤ M ∧ ∀ N, v.sizeCT = some N → M ≤ N := by
  unfold instantiates offers specialises sizeMayMatchDTLZ1to7 sizeMayMatchDTLZ89 sizeMayMatch Cont.isFixed
  rcases hv : v.sizeCT with _ | N <;> rcases hf : f.sizeCT with _ | M <;> simp
  · omega
  · constructor
    · rintro ⟨⟨h1, h2⟩, h3⟩
      omega
    · rintro ⟨h1, h2⟩
      refine ⟨⟨h1, by omega⟩, ?_⟩
      omega

/-- C134: so a fixed variable with fewer entries than there are objectives is never accepted, and
Schaffer's problems (one variable, two objectives) and Viennet's (two variables, three objectives) do not
exist for fixed containers of their own dimensions. -/
theorem own_dimensions_rejected (hasArg : Bool) (v f : Cont) :
    (v.sizeCT = some 1 → f.sizeCT = some 2 → instantiates hasArg v f = false) ∧
    (v.sizeCT = some 2 → f.sizeCT = some 3 → instantiates hasArg v f = false) := by
  constructor <;> intro hv hf <;> rw [← Bool.not_eq_true] <;> cases hasArg
  · rw [instantiates_void_iff]
    rintro ⟨M, h1, h2, h3⟩
    have := h3 1 hv
    omega
  · rw [instantiates_arg_iff]
    intro h
    have := (h 2 hf).2 1 hv
    omega
  · rw [instantiates_void_iff]
    rintro ⟨M, h1, h2, h3⟩
    have hm : M = 3 := by rw [hf] at h1; exact (Option.some.inj h1).symm
    have := h3 2 hv
    omega
  · rw [instantiates_arg_iff]
    intro h
    have := (h 3 hf).2 2 hv
    omega

/-- C134: whatever the class offers can be instantiated by a call if the class exists and the result has a
compile-time size; with a result of run-time size (possible with an argument type only) DTLZ1 to DTLZ7 are
offered but no call of them compiles. -/
theorem offered_specialises (hasArg : Bool) (v f : Cont) (g : Family) (hi : instantiates hasArg v f = true)
    (ho : offers v f g = true) (hf : f.isFixed = true) : specialises v f g = true := by
  obtain ⟨M, hM⟩ := Option.isSome_iff_exists.1 hf
  have hle : 2 ≤ M ∧ ∀ N, v.sizeCT = some N → M ≤ N := by
    cases hasArg
    · obtain ⟨M', h1, h2⟩ := (instantiates_void_iff v f).1 hi
      rw [hM] at h1
      exact (Option.some.inj h1) ▸ h2
    · exact (instantiates_arg_iff v f).1 hi M hM
  cases g
  · exact ho
  · exact ho
  · exact ho
  · simp only [offers] at ho
    simp [specialises, ho, hM]
    right
    omega
  · simp only [specialises, hM]
    rcases hv : v.sizeCT with _ | N
    · simp; omega
    · have := hle.2 N hv
      simp; omega
  · rfl

theorem dtlz_dynamic_never_compiles (v f : Cont) (hf : f.isFixed = false) :
    offers v f .dtlz1to7 = true ∧ specialises v f .dtlz1to7 = false := by
  have : f.sizeCT = none := by
    cases h : f.sizeCT with
    | none => rfl
    | some n => simp [Cont.isFixed, h] at hf
  constructor
  · simp [offers, sizeMayMatchDTLZ1to7, this]
  · simp [specialises, this]

-- non-vacuity: the pairs used by the tests of the library, and Schaffer's problem with a vector of run-time size
example : instantiates true (.std (some 2)) (.eigen (some 2)) = true := by decide
example : instantiates false (.std (some 3)) (.eigen (some 2)) = true := by decide
example : instantiates false (.eigen none) (.eigen (some 2)) = true ∧ offers (.eigen none) (.eigen (some 2)) .f12 = true := by
  decide

/-! ### C77: Kursawe with Eigen vectors -/

/-- C77, Eigen vectors: the second objective is the documented one for every number of variables; the first
is computed from the first and the last variable only. -/
theorem kursawe_eigen_value_partial (a : ℝ) (rest : List ℝ) :
    ∃ r, kursaweEigen (a :: rest) = .ok r ∧ r 1 = Spec.kursawe (a :: rest) 1 ∧
      r 0 = -10 * Real.exp (-0.2 * Real.sqrt (a ^ 2 + ((a :: rest).getLast (by simp)) ^ 2)) := by
  refine ⟨_, by rw [kursaweEigen, if_neg (by simp)], ?_, ?_⟩
  · simp [Spec.kursawe]
  · have : (a :: rest).drop ((a :: rest).length - (2 - 1)) = [(a :: rest).getLast (by simp)] := by
      simpa using List.drop_length_sub_one (l := a :: rest) (by simp)
    simp only [this, Matrix.cons_val_zero]
    simp

/-- C77: for two variables the Eigen code returns the documented values, which are those of the std code. -/
theorem kursawe_eigen_two (a b : ℝ) :
    kursaweEigen [a, b] = .ok (Spec.kursawe [a, b]) ∧ kursaweStd [a, b] = .ok (Spec.kursawe [a, b]) := by
  constructor
  · simp [kursaweEigen, Spec.kursawe]
  · rw [kursawe_eq]
    simp [Spec.kursawe]

/-- C77: for any other number of variables the Eigen code is wrong: at the origin of `n` variables it returns
`-10` where `-10 (n - 1)` is documented. -/
theorem kursawe_eigen_wrong (n : Nat) (hn : n ≠ 1) :
    ∃ r, kursaweEigen (List.replicate (n + 1) 0) = .ok r ∧ r 0 = -10 ∧
      Spec.kursawe (List.replicate (n + 1) 0) 0 = -10 * n ∧ r ≠ Spec.kursawe (List.replicate (n + 1) 0) := by
  have hz : ∀ p : ℝ × ℝ, p = (0, 0) → -10 * Real.exp (-0.2 * Real.sqrt (p.1 ^ 2 + p.2 ^ 2)) = -10 := by
    rintro p rfl
    simp
  have hs : Spec.kursawe (List.replicate (n + 1) 0) 0 = -10 * n := by
    have : (List.replicate (n + 1) (0 : ℝ)).zip (List.replicate (n + 1) (0 : ℝ)).tail = List.replicate n (0, 0) := by
      rw [List.tail_replicate, List.zip_replicate]
      simp
    simp only [Spec.kursawe, Matrix.cons_val_zero, this, List.map_replicate, List.sum_replicate]
    simp
    ring
  obtain ⟨r, h1, h2, h3⟩ := kursawe_eigen_value_partial 0 (List.replicate n 0)
  have hl : (0 :: List.replicate n (0 : ℝ)).getLast (by simp) = 0 :=
    List.eq_of_mem_replicate (n := n + 1) (by rw [List.replicate_succ]; exact List.getLast_mem _)
  rw [hl] at h3
  have h4 : r 0 = -10 := by rw [h3]; simp
  refine ⟨r, h1, h4, hs, fun he => hn ?_⟩
  have h5 : (-10 : ℝ) = -10 * n := by rw [← hs, ← he, h4]
  have : (n : ℝ) = 1 := by linarith
  exact_mod_cast this

/-- C77, C134: a call of Kursawe's problem: a result object of run-time size must already have two entries (a
new one has none); then the two objectives are stored in it and it keeps its size. -/
theorem kursawe_call (v f : Cont) (xv fv : List ℝ) (hf : sizeMayMatch f 2 = true) (h : f.Holds fv) :
    callKursawe v f xv fv =
      if fv.length ≠ 2 then .ub
      else (if v.isEigen then kursaweEigen xv else kursaweStd xv).bind fun r => .ok [r 0, r 1] := by
  unfold callKursawe
  by_cases hl : fv.length = 2
  · obtain ⟨a, b, rfl⟩ : ∃ a b, fv = [a, b] := by
      rcases fv with _ | ⟨a, _ | ⟨b, _ | ⟨c, r⟩⟩⟩ <;> simp at hl
      exact ⟨a, b, rfl⟩
    rw [if_neg (by simp), if_neg (by simp)]
    cases hv : v.isEigen
    · simp only [cond_false, Bool.false_eq_true, if_false]
      cases kursaweStd xv <;> rfl
    · simp only [cond_true, if_true]
      cases kursaweEigen xv <;> rfl
  · have : f.isFixed = false := by
      rw [← Bool.not_eq_true]
      intro hfx
      obtain ⟨n, hn⟩ := Option.isSome_iff_exists.1 hfx
      have h2 : n = 2 := by simpa [sizeMayMatch, Cont.isFixed, hn] using hf
      exact hl (h2 ▸ h n hn)
    rw [if_pos (by simp [this, hl]), if_pos hl]

-- non-vacuity
example : ∃ r, kursaweEigen [1, 2, 3] = .ok r ∧ r 1 = Spec.kursawe [1, 2, 3] 1 :=
  let ⟨r, h1, h2, _⟩ := kursawe_eigen_value_partial 1 [2, 3]
  ⟨r, h1, h2⟩
example : callKursawe (.eigen none) (.eigen none) [1, 2] [] = .ub := by
  rw [kursawe_call _ _ _ _ (by decide) (by intro n hn; simp [Cont.sizeCT] at hn)]
  simp

end Heu
