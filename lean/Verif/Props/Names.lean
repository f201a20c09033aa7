import Verif.Model.Names
import Verif.Model.ChaosObj
import Verif.Props.ChaosFl
import Verif.Props.Maths
import Verif.Props.Box

/-!
# Printed names (C139), `LogisticChaos` objects (C140), bulk random numbers (C15)
-/

set_option linter.unusedVariables false
set_option linter.unusedSimpArgs false

namespace Heu

/-- What the documentation and the declarations promise: the text of every enumerator. -/
def Spec.methodText : SelectMethod → String
  | .RouletteWheel => "RouletteWheel"
  | .Tournament => "Tournament"
  | .Truncation => "Truncation"
  | .MonteCarlo => "MonteCarlo"
  | .Probability => "Probability"
  | .LinearRank => "LinearRank"
  | .ExponentialRank => "ExponentialRank"
  | .Boltzmann => "Boltzmann"
  | .StochasticUniversal => "StochasticUniversal"
  | .EliteReserved => "EliteReserved"
  | .RunTimeSelectMethod => "RunTimeSelectMethod"

/-- **C139** (selection methods).  Every method is printed with its own name. -/
theorem method_names (m : SelectMethod) : methodName m.toNat = .ok (Spec.methodText m) := by
  cases m <;> rfl

/-- **C139** (selection methods).  Different methods have different names; numbers that are no method are printed as
`RunTimeSelectMethod`. -/
theorem method_names_distinct :
    (∀ a b : SelectMethod, methodName a.toNat = methodName b.toNat → a = b) ∧
    (∀ n, 10 ≤ n → methodName n = .ok "RunTimeSelectMethod") ∧ ∀ n, ∃ s, methodName n = .ok s := by
  refine ⟨fun a b h => ?_, fun n h => ?_, fun n => ?_⟩
  · rw [method_names, method_names] at h
    have h' := Out.ok.inj h
    revert h'
    cases a <;> cases b <;> simp [Spec.methodText]
  · unfold methodName
    simp only [show n ≠ 0 by omega, show n ≠ 1 by omega, show n ≠ 2 by omega, show n ≠ 3 by omega,
      show n ≠ 4 by omega, show n ≠ 5 by omega, show n ≠ 6 by omega, show n ≠ 7 by omega, show n ≠ 8 by omega,
      show n ≠ 9 by omega, if_false]
  · unfold methodName
    split_ifs <;> exact ⟨_, rfl⟩

/-- **C139** (the two-valued options).  Their enumerators are printed with their names; for every other number the
function is undefined. -/
theorem option_names :
    (recordName RecordOption.RECORD_FITNESS.num = .ok "RECORD_FITNESS" ∧
      recordName RecordOption.DONT_RECORD_FITNESS.num = .ok "DONT_RECORD_FITNESS" ∧
      ∀ n, recordName n = .ub ↔ ∀ o : RecordOption, o.num ≠ n) ∧
    (fitnessName FitnessOptionE.FITNESS_LESS_BETTER.num = .ok "FITNESS_LESS_BETTER" ∧
      fitnessName FitnessOptionE.FITNESS_GREATER_BETTER.num = .ok "FITNESS_GREATER_BETTER" ∧
      ∀ n, fitnessName n = .ub ↔ ∀ o : FitnessOptionE, o.num ≠ n) ∧
    (shapeName BoxShapeE.SQUARE_BOX.num = .ok "Square box" ∧
      shapeName BoxShapeE.RECTANGLE_BOX.num = .ok "Non-square box" ∧
      ∀ n, shapeName n = .ub ↔ ∀ o : BoxShapeE, o.num ≠ n) ∧
    (encodeName EncodeTypeE.Real.num = .ok "Real encoding" ∧ encodeName EncodeTypeE.Binary.num = .ok "Binary encoding" ∧
      encodeName EncodeTypeE.Symbolic.num = .ok "Symbolic encoding" ∧
      ∀ n, encodeName n = .ub ↔ ∀ o : EncodeTypeE, o.num ≠ n) := by
  refine ⟨⟨rfl, rfl, fun n => ?_⟩, ⟨rfl, rfl, fun n => ?_⟩, ⟨rfl, rfl, fun n => ?_⟩, ⟨rfl, rfl, rfl, fun n => ?_⟩⟩
  · unfold recordName
    constructor
    · intro h o
      split_ifs at h with h1 h2
      cases o <;> simp only [RecordOption.num] <;> omega
    · intro h
      have h1 := h .RECORD_FITNESS
      have h2 := h .DONT_RECORD_FITNESS
      simp only [RecordOption.num] at h1 h2
      rw [if_neg (by omega), if_neg (by omega)]
  · unfold fitnessName
    constructor
    · intro h o
      split_ifs at h with h1 h2
      cases o <;> simp only [FitnessOptionE.num] <;> omega
    · intro h
      have h1 := h .FITNESS_LESS_BETTER
      have h2 := h .FITNESS_GREATER_BETTER
      simp only [FitnessOptionE.num] at h1 h2
      rw [if_neg (by omega), if_neg (by omega)]
  · unfold shapeName
    constructor
    · intro h o
      split_ifs at h with h1 h2
      cases o <;> simp only [BoxShapeE.num] <;> omega
    · intro h
      have h1 := h .SQUARE_BOX
      have h2 := h .RECTANGLE_BOX
      simp only [BoxShapeE.num] at h1 h2
      rw [if_neg (by omega), if_neg (by omega)]
  · unfold encodeName
    constructor
    · intro h o
      split_ifs at h with h1 h2 h3
      cases o <;> simp only [EncodeTypeE.num] <;> omega
    · intro h
      have h1 := h .Real
      have h2 := h .Binary
      have h3 := h .Symbolic
      simp only [EncodeTypeE.num] at h1 h2 h3
      rw [if_neg (by omega), if_neg (by omega), if_neg (by omega)]

/-- **C139** (containers).  The three kinds have three different texts, and the function is defined for every number. -/
theorem container_names :
    containerName ContainerOption.Std.num = .ok "C++ std vector/array" ∧
    containerName ContainerOption.Eigen.num = .ok "Eigen Array" ∧
    containerName ContainerOption.Custom.num = .ok "Unknown custom types" ∧ ∀ n, ∃ s, containerName n = .ok s := by
  refine ⟨rfl, rfl, rfl, fun n => ?_⟩
  unfold containerName
  split_ifs <;> exact ⟨_, rfl⟩

/-- **C139** (the guard of the run-time dispatch).  `RunTimeSelectMethod` has the greatest number of all methods, which
is what the static assertion of the library checks. -/
theorem runtime_is_greatest :
    maxSelectMethod = SelectMethod.RunTimeSelectMethod.toNat ∧
    ∀ m : SelectMethod, m.toNat ≤ SelectMethod.RunTimeSelectMethod.toNat := by
  refine ⟨by decide +kernel, fun m => ?_⟩
  cases m <;> decide

/-- **C139** (selection methods).  The numbers are a bijection with 0 … 10. -/
theorem method_numbers (m : SelectMethod) : SelectMethod.ofIdx m.toNat = m ∧ m.toNat ≤ 10 := by
  cases m <;> decide

example : methodName 9 = .ok "EliteReserved" ∧ recordName 2 = .ub ∧ containerName 0 = .ok "Unknown custom types" := by
  decide +kernel

/-! ## Objects of `LogisticChaos` -/

/-- Number of single steps a call makes. -/
def Spec.chaosSteps : ChaosCall → Nat
  | .step => 1
  | .value => 0
  | .makeSequence L => L
  | .iterate n => n

/-- What the caller receives from a call made when the object has gone `k` steps along `orbit`. -/
def Spec.chaosReceived (orbit : Nat → Fl) (k : Nat) : ChaosCall → List Fl
  | .step => [orbit (k + 1)]
  | .value => [orbit k]
  | .makeSequence L => (List.range L).map fun i => orbit (k + i + 1)
  | .iterate _ => []

/-- What the caller receives from a history of calls. -/
def Spec.chaosAllReceived (orbit : Nat → Fl) : Nat → List ChaosCall → List Fl
  | _, [] => []
  | k, c :: cs => Spec.chaosReceived orbit k c ++ Spec.chaosAllReceived orbit (k + Spec.chaosSteps c) cs

theorem chaos_orbit_in_unit (F : Fmt) (hF : F.Good) (v : Fl) (hv : InUnit F v) (n : Nat) :
    InUnit F ((chaosStepFl F)^[n] v) := by
  rw [← chaos_ieee_iterate]
  exact chaos_ieee_iterates_in_unit F hF v hv n

theorem chaosCall_spec (F : Fmt) (hF : F.Good) (v : Fl) (hv : InUnit F v) (k : Nat) (c : ChaosCall) :
    chaosCall F ((chaosStepFl F)^[k] v) c =
      ((chaosStepFl F)^[k + Spec.chaosSteps c] v, Spec.chaosReceived (fun j => (chaosStepFl F)^[j] v) k c) := by
  have hk := chaos_orbit_in_unit F hF v hv k
  have shift : ∀ i, (chaosStepFl F)^[i] ((chaosStepFl F)^[k] v) = (chaosStepFl F)^[k + i] v := by
    intro i
    rw [← Function.iterate_add_apply, Nat.add_comm]
  cases c with
  | step =>
    simp only [chaosCall, Spec.chaosSteps, Spec.chaosReceived]
    rw [← shift 1]; rfl
  | value => rfl
  | makeSequence L =>
    simp only [chaosCall, Spec.chaosSteps, Spec.chaosReceived]
    obtain ⟨h1, h2⟩ := chaos_ieee_makeSequence F hF _ hk L
    rw [h1, h2, shift]
    congr 1
    apply List.map_congr_left
    intro i _
    rw [shift, Nat.add_assoc]
  | iterate n =>
    simp only [chaosCall, Spec.chaosSteps, Spec.chaosReceived]
    rw [chaos_ieee_iterate, shift]

/-- **C140.**  An object walks along one orbit: after any history of calls it has gone as many steps as the calls ask
for, and every number received is the corresponding value of the orbit, whatever mixture of single steps, bulk
sequences and silent iterations was used - bit for bit in floating point. -/
theorem chaos_object_orbit (F : Fmt) (hF : F.Good) (v : Fl) (hv : InUnit F v) (cs : List ChaosCall) :
    chaosHistory F v cs = ((chaosStepFl F)^[(cs.map Spec.chaosSteps).sum] v,
      Spec.chaosAllReceived (fun j => (chaosStepFl F)^[j] v) 0 cs) := by
  have key : ∀ (cs : List ChaosCall) (k : Nat), chaosHistory F ((chaosStepFl F)^[k] v) cs =
      ((chaosStepFl F)^[k + (cs.map Spec.chaosSteps).sum] v,
        Spec.chaosAllReceived (fun j => (chaosStepFl F)^[j] v) k cs) := by
    intro cs
    induction cs with
    | nil => intro k; rfl
    | cons c cs ih =>
      intro k
      simp only [chaosHistory, chaosCall_spec F hF v hv k c, ih, Spec.chaosAllReceived, List.map_cons, List.sum_cons,
        Nat.add_assoc]
  have := key cs 0
  simpa using this

/-- **C140** (range).  Every number received from an object is in [0, 1], for every history of calls, both for the
default constructor (whose draw is in [0, 1)) and for an accepted seed. -/
theorem chaos_object_in_unit (F : Fmt) (hF : F.Good) (v : Fl) (hv : InUnit F v) (cs : List ChaosCall) :
    InUnit F (chaosHistory F v cs).1 ∧ ∀ x ∈ (chaosHistory F v cs).2, InUnit F x := by
  rw [chaos_object_orbit F hF v hv cs]
  refine ⟨chaos_orbit_in_unit F hF v hv _, ?_⟩
  have key : ∀ (cs : List ChaosCall) (k : Nat),
      ∀ x ∈ Spec.chaosAllReceived (fun j => (chaosStepFl F)^[j] v) k cs, InUnit F x := by
    intro cs
    induction cs with
    | nil => intro k x hx; simp [Spec.chaosAllReceived] at hx
    | cons c cs ih =>
      intro k x hx
      simp only [Spec.chaosAllReceived, List.mem_append] at hx
      rcases hx with hx | hx
      · cases c with
        | step =>
          simp only [Spec.chaosReceived, List.mem_singleton] at hx
          subst hx; exact chaos_orbit_in_unit F hF v hv _
        | value =>
          simp only [Spec.chaosReceived, List.mem_singleton] at hx
          subst hx; exact chaos_orbit_in_unit F hF v hv _
        | makeSequence L =>
          simp only [Spec.chaosReceived, List.mem_map] at hx
          obtain ⟨i, _, rfl⟩ := hx
          exact chaos_orbit_in_unit F hF v hv _
        | iterate n => simp [Spec.chaosReceived] at hx
      · exact ih _ x hx
  exact key cs 0

/-- **C140** (constructors).  A seed is accepted exactly if it lies strictly between 0 and 1; NaN and the infinities
are not; an accepted seed is the value the object starts with and is in the range required by the theorems above. -/
theorem chaos_seed (F : Fmt) (s : Fl) :
    (∀ v, chaosSeeded F s = .ok v ↔ v = s ∧ Fl.lt (Fl.ofNat F 0) s = true ∧ Fl.lt s (Fl.ofNat F 1) = true) ∧
    chaosSeeded F .nan = .ub ∧ (∀ b, chaosSeeded F (.inf b) = .ub) ∧
    (∀ v, s.Finite F → chaosSeeded F s = .ok v → InUnit F v) := by
  have h1 : ∀ s v, chaosSeeded F s = .ok v ↔
      v = s ∧ Fl.lt (Fl.ofNat F 0) s = true ∧ Fl.lt s (Fl.ofNat F 1) = true := by
    intro s v
    unfold chaosSeeded
    split_ifs with ha hb
    · simp [ha, hb, eq_comm]
    · simp [hb]
    · simp [ha]
  have hub : ∀ s, (¬ ∃ v, chaosSeeded F s = .ok v) → chaosSeeded F s = .ub := by
    intro s hs
    unfold chaosSeeded at hs ⊢
    split_ifs at hs ⊢ <;> simp_all
  refine ⟨h1 s, ?_, fun b => ?_, fun v hs hv => ?_⟩
  · apply hub
    rintro ⟨v, hv⟩
    have := ((h1 _ _).1 hv).2.2
    simp [Fl.lt] at this
  · apply hub
    rintro ⟨v, hv⟩
    have h := ((h1 _ _).1 hv).2
    have e0 : Fl.ofNat F 0 = .fin false 0 := by simp [Fl.ofNat]
    have e1 : Fl.ofNat F 1 = .fin false (2 ^ F.one) := by simp [Fl.ofNat]
    rw [e0, e1] at h
    cases b <;> simp [Fl.lt] at h
  · obtain ⟨rfl, ha, hb⟩ := (h1 s v).1 hv
    have hle : ∀ x y : Fl, x.lt y = true → x.le y = true := by
      intro x y h
      cases x <;> cases y <;> simp only [Fl.lt, Fl.le, decide_eq_true_eq, Bool.and_eq_true, Bool.or_eq_true] at h ⊢ <;>
        first
          | exact h
          | (exact Or.inl h.1)
          | (exact le_of_lt h)
          | (cases h; done)
    exact ⟨hs, hle _ _ ha, hle _ _ hb⟩

/-- **C140** (degenerate orbits).  The default constructor may draw 0 (the draw is in [0, 1)), and then every number
received is 0 for ever. -/
theorem chaos_object_stuck (F : Fmt) (hF : F.Good) (n : Nat) :
    (chaosStepFl F)^[n] (chaosDefault (.fin false 0)) = .fin false 0 := by
  unfold chaosDefault
  induction n with
  | zero => rfl
  | succ n ih =>
    rw [Function.iterate_succ_apply', ih]
    have h := (chaos_step_units (s := false) (n := 0) hF ⟨0, 0, by positivity, by simp⟩ (Nat.zero_le _) (fun h => rfl)).1
    have hz := rndUnits_le (mb := F.mb) (a := 0) (b := 2 ^ F.one) (by positivity) (n := 0) ⟨0, 0, by positivity, by simp⟩
      (by simp)
    rw [h, Nat.zero_mul, Nat.le_zero.1 hz]

/-! ## Bulk random numbers -/

/-- **C15** (array versions of `randD`).  They write exactly the first `num` elements, with one draw each, and leave
the rest alone; a negative `num` writes nothing; `num` greater than the array writes behind its end. -/
theorem randD_fill {β : Type} (draw : Nat → β) (num : Int) (mem : List β) :
    (num ≤ mem.length → randDFill draw num mem =
      .ok ((List.range num.toNat).map draw ++ mem.drop num.toNat)) ∧
    (¬ num ≤ mem.length → randDFill draw num mem = .ub) := by
  have key : ∀ k, k ≤ mem.length → (List.range k).foldlM (fun m i => writeAt m i (draw i)) mem =
      Out.ok ((List.range k).map draw ++ mem.drop k) := by
    intro k
    induction k with
    | zero => intro _; rfl
    | succ k ih =>
      intro hk
      rw [List.range_succ, List.foldlM_append, ih (by omega)]
      simp only [Out.ok_bind, List.foldlM_cons, List.foldlM_nil]
      unfold writeAt
      rw [if_pos (by simp; omega)]
      simp only [Out.ok_bind]
      show Out.ok _ = Out.ok _
      congr 1
      rw [List.set_append_right _ _ (by simp)]
      simp only [List.length_map, List.length_range, Nat.sub_self, List.map_append, List.map_cons, List.map_nil,
        List.append_assoc]
      congr 1
      rw [List.drop_eq_getElem_cons (by omega), List.set_cons_zero]
      rfl
  constructor
  · intro h
    exact key _ (by omega)
  · intro h
    unfold randDFill
    obtain ⟨d, hd⟩ : ∃ d, num.toNat = mem.length + 1 + d := ⟨num.toNat - mem.length - 1, by omega⟩
    rw [hd, Nat.add_assoc, List.range_add, List.foldlM_append, key _ le_rfl, Out.ok_bind, Nat.add_comm 1 d,
      List.range_succ_eq_map, List.map_cons, List.foldlM_cons]
    have : writeAt ((List.range mem.length).map draw ++ mem.drop mem.length) (mem.length + 0) (draw (mem.length + 0))
        = Out.ub := by
      unfold writeAt
      rw [if_neg (by simp)]
    rw [this, Out.ub_bind]

example : randDFill (fun i => (i : ℚ) / 4) 2 [7, 8, 9] = .ok [0, 1 / 4, 9] ∧
    randDFill (fun i => (i : ℚ)) (-3) [7] = .ok [7] ∧ randDFill (fun i => (i : ℚ)) 2 [7] = .ub := by
  decide +kernel

example : chaosSeeded binary64 (.fin false (5404319552844595 * 2 ^ (binary64.one - 54))) =
    .ok (.fin false (5404319552844595 * 2 ^ (binary64.one - 54))) := by
  rw [(chaos_seed _ _).1]
  exact ⟨rfl, by decide +kernel, by decide +kernel⟩

end Heu
