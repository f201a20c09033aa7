import Verif.Spec.Traits
import Mathlib.Tactic.Linarith
import Mathlib.Tactic.Push

/-!
# Container traits, box classes and acceptance conditions (C136, C137, C138)
-/

set_option linter.unusedVariables false
set_option linter.unusedSimpArgs false

namespace Heu
open Spec

theorem toInt_small (n : Nat) (h : n < 2 ^ 31) : toInt n = n := by
  unfold toInt IntT.conv IntT.lo
  norm_num
  omega

theorem arraySize_ordinary (s0 : Nat) (e : Elem) (n : Nat) (h : 0 < n ∧ n < 2 ^ 31 ∧ 0 < e.sizeof) :
    stdArraySizeCT s0 e n = n := by
  unfold stdArraySizeCT sizeofArray
  rw [if_neg (by omega), Nat.mul_div_cancel _ h.2.2]
  exact toInt_small n h.2.1

/-- **C136** (size).  For every ordinary container type, `array_traits` says "fixed size n" exactly if all objects of
the type have `n` elements, and "dynamic" exactly if there is no such `n`. -/
theorem traits_size (s0 : Nat) (t : CType) (ht : Ordinary t) :
    (∀ n : Nat, t.sizeCT s0 = n ↔ AlwaysSize t n) ∧
    (t.isFixedSize s0 = true ↔ ∃ n, AlwaysSize t n) := by
  have key : (∀ n : Nat, t.sizeCT s0 = n ↔ AlwaysSize t n) ∧ (t.sizeCT s0 = -1 ∨ ∃ n : Nat, t.sizeCT s0 = n) := by
    cases t with
    | vector e =>
      refine ⟨fun n => ⟨fun h => ?_, fun h => ?_⟩, Or.inl rfl⟩
      · simp only [CType.sizeCT] at h; omega
      · exfalso
        have h1 := h 0 1 rfl
        have h2 := h 1 1 rfl
        omega
    | array e n =>
      have hs := arraySize_ordinary s0 e n ht
      refine ⟨fun m => ?_, Or.inr ⟨n, hs⟩⟩
      simp only [CType.sizeCT]
      rw [hs]
      constructor
      · intro h r c hrc
        obtain ⟨h1, h2⟩ := hrc
        subst h1 h2
        omega
      · intro h
        have := h n 1 ⟨rfl, rfl⟩
        omega
    | eigen e R C =>
      obtain ⟨hR, hC⟩ := ht
      simp only [CType.sizeCT, eigenSizeCT]
      by_cases hd : R = -1 ∨ C = -1
      · rw [if_pos hd]
        refine ⟨fun n => ⟨fun h => by omega, fun h => ?_⟩, Or.inl rfl⟩
        exfalso
        rcases hd with hd | hd
        · by_cases hc : C = -1
          · have h1 := h 0 0 ⟨Or.inl hd, Or.inl hc⟩
            have h2 := h 1 1 ⟨Or.inl hd, Or.inl hc⟩
            omega
          · have hc' : 0 < C := by omega
            have h1 := h 0 C.toNat ⟨Or.inl hd, Or.inr (by omega)⟩
            have h2 := h 1 C.toNat ⟨Or.inl hd, Or.inr (by omega)⟩
            omega
        · by_cases hr : R = -1
          · have h1 := h 0 0 ⟨Or.inl hr, Or.inl hd⟩
            have h2 := h 1 1 ⟨Or.inl hr, Or.inl hd⟩
            omega
          · have hr' : 0 < R := by omega
            have h1 := h R.toNat 0 ⟨Or.inr (by omega), Or.inl hd⟩
            have h2 := h R.toNat 1 ⟨Or.inr (by omega), Or.inl hd⟩
            omega
      · rw [if_neg hd]
        have hR' : 0 < R := by omega
        have hC' : 0 < C := by omega
        obtain ⟨r, rfl⟩ : ∃ r : Nat, R = r := ⟨R.toNat, by omega⟩
        obtain ⟨c, rfl⟩ : ∃ c : Nat, C = c := ⟨C.toNat, by omega⟩
        refine ⟨fun n => ⟨fun h a b hab => ?_, fun h => ?_⟩, Or.inr ⟨r * c, by push_cast; rfl⟩⟩
        · obtain ⟨h1, h2⟩ := hab
          have e1 : a = r := by omega
          have e2 : b = c := by omega
          subst e1 e2
          exact_mod_cast h
        · have := h r c ⟨Or.inr rfl, Or.inr rfl⟩
          exact_mod_cast this
  refine ⟨key.1, ?_⟩
  unfold CType.isFixedSize
  simp only [decide_eq_true_eq]
  constructor
  · intro h
    rcases key.2 with h1 | ⟨n, hn⟩
    · exact absurd h1 h
    · exact ⟨n, (key.1 n).1 hn⟩
  · rintro ⟨n, hn⟩ h
    rw [(key.1 n).2 hn] at h
    omega

/-- **C136** (shape).  For every ordinary container type, `isVector` holds exactly if every object of the type has a
single row or a single column, and `isMatrix` is its opposite. -/
theorem traits_vector (s0 : Nat) (t : CType) (ht : Ordinary t) :
    (t.isVector s0 = true ↔ AlwaysVector t) ∧ t.isMatrix s0 = !t.isVector s0 := by
  refine ⟨?_, by unfold CType.isMatrix CType.isVector; rw [Bool.not_or]⟩
  cases t with
  | vector e =>
    simp only [CType.isVector, CType.colsCT, decide_true, Bool.or_true, true_iff]
    intro r c h
    exact Or.inr h
  | array e n =>
    simp only [CType.isVector, CType.colsCT, decide_true, Bool.or_true, true_iff]
    intro r c h
    exact Or.inr h.2
  | eigen e R C =>
    obtain ⟨hR, hC⟩ := ht
    have hiff : (CType.eigen e R C).isVector s0 = true ↔ R = 1 ∨ C = 1 :=
      Bool.or_eq_true _ _ ▸ or_congr ⟨fun h => of_decide_eq_true h, fun h => decide_eq_true h⟩
        ⟨fun h => of_decide_eq_true h, fun h => decide_eq_true h⟩
    rw [hiff]
    constructor
    · rintro (h | h) r c ⟨h1, h2⟩
      · left; omega
      · right; omega
    · intro h
      by_contra hn
      push Not at hn
      have h1 : ∃ r : Nat, (R = -1 ∨ (r : Int) = R) ∧ r ≠ 1 := by
        by_cases hr : R = -1
        · exact ⟨2, Or.inl hr, by omega⟩
        · exact ⟨R.toNat, Or.inr (by omega), by omega⟩
      have h2 : ∃ c : Nat, (C = -1 ∨ (c : Int) = C) ∧ c ≠ 1 := by
        by_cases hc : C = -1
        · exact ⟨2, Or.inl hc, by omega⟩
        · exact ⟨C.toNat, Or.inr (by omega), by omega⟩
      obtain ⟨r, hr, hr1⟩ := h1
      obtain ⟨c, hc, hc1⟩ := h2
      rcases h r c ⟨hr, hc⟩ with h' | h'
      · exact hr1 h'
      · exact hc1 h'

/-- **C136** (element type).  The element type found is the one the user wrote, except for `std::vector<bool>`, whose
element type is taken to be the proxy class. -/
theorem traits_element_iff (t : CType) : t.toElement = element t ↔ t ≠ .vector .bool := by
  cases t with
  | vector e => cases e <;> simp [CType.toElement, element]
  | array e n => simp [CType.toElement, element]
  | eigen e R C => simp [CType.toElement, element]

/-- **C136** (negation).  Empty arrays of one-byte elements are taken to have an element (when the library gives the
empty array one byte), and an array of 2^32-1 elements is taken to be resizable. -/
theorem traits_not_ordinary :
    (CType.array .bool 0).sizeCT 1 = 1 ∧ AlwaysSize (.array .bool 0) 0 ∧
    (CType.array (.flt 8) 0).sizeCT 1 = 0 ∧
    (CType.array .bool (2 ^ 32 - 1)).isFixedSize 1 = false ∧
    AlwaysSize (.array .bool (2 ^ 32 - 1)) (2 ^ 32 - 1) := by
  refine ⟨by decide +kernel, ?_, by decide +kernel, by decide +kernel, ?_⟩
  · rintro r c ⟨rfl, rfl⟩; rfl
  · rintro r c ⟨rfl, rfl⟩; omega

/-- **C136** (exact sizes of empty arrays). -/
theorem traits_empty_array (s0 : Nat) (e : Elem) (hs : s0 < 2 ^ 31) (he : 0 < e.sizeof) :
    (CType.array e 0).sizeCT s0 = 0 ↔ s0 < e.sizeof := by
  have h1 : s0 / e.sizeof ≤ s0 := Nat.div_le_self _ _
  simp only [CType.sizeCT, stdArraySizeCT, sizeofArray, if_true]
  rw [toInt_small _ (by omega)]
  have : s0 / e.sizeof = 0 ↔ s0 < e.sizeof := by
    rw [Nat.div_eq_zero_iff]; omega
  omega

/-- **C136** (`stdContainer`).  For `Dim = -1` the container can be resized, for positive `Dim` it has `Dim` elements;
and the traits recover `Dim`. -/
theorem stdContainer_size (s0 : Nat) (e : Elem) (he : 0 < e.sizeof) (dim : Int)
    (hd : dim = -1 ∨ 0 < dim ∧ dim < 2 ^ 31) :
    (stdContainer e dim).sizeCT s0 = dim ∧ element (stdContainer e dim) = e ∧
    (dim = -1 → ∀ r, HasShape (stdContainer e dim) r 1) ∧
    (0 < dim → AlwaysSize (stdContainer e dim) dim.toNat) := by
  unfold stdContainer
  rcases hd with hd | ⟨h1, h2⟩
  · subst hd
    exact ⟨rfl, rfl, fun _ _ => rfl, fun h => by omega⟩
  · rw [if_neg (by omega)]
    have hmod : dim % 2 ^ 64 = dim := Int.emod_eq_of_lt (by omega) (by omega)
    rw [hmod]
    refine ⟨?_, rfl, fun h => by omega, ?_⟩
    · simp only [CType.sizeCT]
      rw [arraySize_ordinary s0 e _ ⟨by omega, by omega, he⟩]
      omega
    · rintro _ r c ⟨h3, h4⟩
      subst h3 h4
      omega

/-- **C136** (`uintX_t`).  The type chosen is the smallest of the four unsigned types that has the bits asked for. -/
theorem uintX_smallest (n : Nat) :
    (∀ w, uintXBits n = some w ↔ (w = 8 ∨ w = 16 ∨ w = 32 ∨ w = 64) ∧ n ≤ w ∧
      ∀ v, (v = 8 ∨ v = 16 ∨ v = 32 ∨ v = 64) → n ≤ v → w ≤ v) ∧
    (uintXBits n = none ↔ 64 < n) := by
  unfold uintXBits
  by_cases h64 : n ≤ 64
  · rw [if_pos h64]
    refine ⟨fun w => ?_, by simp; omega⟩
    simp only [Option.some.injEq]
    constructor
    · intro h
      split_ifs at h <;> (subst h; refine ⟨by omega, by omega, fun v hv hnv => ?_⟩; omega)
    · rintro ⟨hw, hn, hmin⟩
      have m8 := hmin 8 (by omega)
      have m16 := hmin 16 (by omega)
      have m32 := hmin 32 (by omega)
      split_ifs <;> omega
  · rw [if_neg h64]
    refine ⟨fun w => ⟨fun h => (by cases h), fun h => ?_⟩, by simp; omega⟩
    exfalso
    obtain ⟨hw, hn, _⟩ := h
    omega

example : (CType.eigen (.flt 8) 3 1).sizeCT 1 = 3 ∧ (CType.eigen (.flt 8) 2 3).isVector 1 = false ∧
    (CType.eigen (.flt 8) (-1) 3).isFixedSize 1 = false ∧ (CType.eigen (.flt 8) (-1) 1).isVector 1 = true ∧
    (CType.array (.int 4 true) 7).sizeCT 1 = 7 ∧ Ordinary (.array (.int 4 true) 7) ∧
    Ordinary (.eigen (.flt 8) (-1) 3) := by
  refine ⟨by decide +kernel, by decide +kernel, by decide +kernel, by decide +kernel, by decide +kernel, ?_, ?_⟩
  · exact ⟨by omega, by omega, by decide⟩
  · exact ⟨by omega, by omega⟩

/-! ## Box classes -/

/-- **C137** (implementation chosen).  For every ordinary container the square and the rectangular box take the same
of the four implementations, the size body of the square box is the matching one, and it is the one for objects of
fixed/variable size and of one/two dimensions. -/
theorem box_impl (s0 : Nat) (t : CType) (ht : Ordinary t) :
    squareBoxImpl s0 t = rectBoxImpl s0 t ∧ squareBoxImpl s0 t = squareSizeBody s0 t ∧
    (squareBoxImpl s0 t = .constVec ↔ (∃ n, AlwaysSize t n) ∧ AlwaysVector t) ∧
    (squareBoxImpl s0 t = .constMat ↔ (∃ n, AlwaysSize t n) ∧ ¬ AlwaysVector t) ∧
    (squareBoxImpl s0 t = .dynVec ↔ (¬ ∃ n, AlwaysSize t n) ∧ AlwaysVector t) ∧
    (squareBoxImpl s0 t = .dynMat ↔ (¬ ∃ n, AlwaysSize t n) ∧ ¬ AlwaysVector t) := by
  have h1 := (traits_size s0 t ht).2
  have h2 := (traits_vector s0 t ht).1
  rw [← h1, ← h2]
  unfold squareBoxImpl rectBoxImpl squareSizeBody
  cases t.isFixedSize s0 <;> cases t.isVector s0 <;> simp

/-- **C137** (`setDimensions`).  Square boxes have the documented function for every ordinary container; rectangular
boxes exactly unless the container is a vector of variable size, for which there is none that compiles. -/
theorem setDimensions_documented (s0 : Nat) (t : CType) (ht : Ordinary t) :
    DocumentedSetDimensions t (setDimensionsArgs false s0 t) ∧
    (DocumentedSetDimensions t (setDimensionsArgs true s0 t) ↔ ¬ ((¬ ∃ n, AlwaysSize t n) ∧ AlwaysVector t)) ∧
    ((¬ ∃ n, AlwaysSize t n) ∧ AlwaysVector t → setDimensionsArgs true s0 t = none) := by
  obtain ⟨e1, _, hcv, hcm, hdv, hdm⟩ := box_impl s0 t ht
  unfold DocumentedSetDimensions setDimensionsArgs
  simp only [if_true, Bool.false_eq_true, if_false]
  rw [← e1]
  by_cases hs : ∃ n, AlwaysSize t n
  · by_cases hv : AlwaysVector t
    · rw [hcv.2 ⟨hs, hv⟩]; simp [hs, hv]
    · rw [hcm.2 ⟨hs, hv⟩]; simp [hs, hv]
  · by_cases hv : AlwaysVector t
    · rw [hdv.2 ⟨hs, hv⟩]; simp [hs, hv]
    · rw [hdm.2 ⟨hs, hv⟩]; simp [hs, hv]

/-- **C137** (Boolean variables).  The bounds of a square box are fixed to 0 and 1 exactly if the elements are `bool`
and the container is not `std::vector<bool>`; for `std::vector<bool>` the operations of the box do not compile, for
everything else they do; a rectangular box of `bool` is refused except, again, for `std::vector<bool>`. -/
theorem boolean_boxes (t : CType) (hp : element t ≠ .bitRef) :
    (booleanCore t = true ↔ element t = .bool ∧ t ≠ .vector .bool) ∧
    (boxBodiesCompile t = true ↔ t ≠ .vector .bool) ∧
    (discretBoxOK true t = false ↔ element t = .bool ∧ t ≠ .vector .bool) ∧
    discretBoxOK false t = true := by
  cases t with
  | vector e => cases e <;> simp_all [booleanCore, boxBodiesCompile, discretBoxOK, CType.toElement, element]
  | array e n => cases e <;> simp_all [booleanCore, boxBodiesCompile, discretBoxOK, CType.toElement, element]
  | eigen e R C => cases e <;> simp_all [booleanCore, boxBodiesCompile, discretBoxOK, CType.toElement, element]

/-- **C137** (continuous boxes).  `ContinousBox` exists exactly for floating-point elements. -/
theorem continous_boxes (rect : Bool) (t : CType) :
    continousBoxOK rect t = true ↔ ∃ b, element t = .flt b := by
  cases t with
  | vector e => cases e <;> cases rect <;> simp [continousBoxOK, discretBoxOK, CType.toElement, element]
  | array e n => cases e <;> cases rect <;> simp [continousBoxOK, discretBoxOK, CType.toElement, element]
  | eigen e R C => cases e <;> cases rect <;> simp [continousBoxOK, discretBoxOK, CType.toElement, element]

/-- **C137** (negation).  A rectangular box on `std::vector<double>` has no usable `setDimensions`. -/
theorem rect_vector_setDimensions_missing :
    setDimensionsArgs true 1 (.vector (.flt 8)) = none ∧
    ¬ DocumentedSetDimensions (.vector (.flt 8)) (setDimensionsArgs true 1 (.vector (.flt 8))) := by
  refine ⟨by decide +kernel, ?_⟩
  have := (setDimensions_documented 1 (.vector (.flt 8)) trivial).2.1
  rw [this]
  have h := (box_impl 1 (.vector (.flt 8)) trivial).2.2.2.2.1
  rw [← h]
  decide +kernel

example : squareBoxImpl 1 (.eigen (.int 4 true) 2 3) = .constMat ∧ squareBoxImpl 1 (.vector (.int 4 true)) = .dynVec ∧
    setDimensionsArgs true 1 (.eigen (.flt 8) (-1) (-1)) = some 2 ∧ booleanCore (.array .bool 10) = true ∧
    boxBodiesCompile (.vector .bool) = false := by decide +kernel

/-! ## Acceptance -/

/-- The boxes of the library have everything documented. -/
theorem libBox_isBox (b : LibBox) : IsBox b.members := by
  cases b <;> exact ⟨rfl, rfl, rfl, rfl, rfl, rfl, rfl, rfl, rfl, rfl⟩

/-- **C138** (default initialisation and mutation).  In C++17 they accept every box of the library; in C++20 exactly
those that are not a `DiscretBox`. -/
theorem defaults_accept (b : LibBox) :
    (iFunAccepts false b.members = true ∧ mFunAccepts false b.members = true) ∧
    (iFunAccepts true b.members = true ↔ ∀ r, b ≠ .discrete r) ∧
    (mFunAccepts true b.members = true ↔ ∀ r, b ≠ .discrete r) := by
  cases b <;> simp [iFunAccepts, mFunAccepts, isBoxConstraint20, LibBox.members]

/-- **C138** (any class).  In C++17 a class is accepted exactly if it has the member that is called; in C++20 exactly
if it has everything documented for a box, the bounds of all dimensions at once, and the member `Shape`. -/
theorem defaults_accept_any (m : BoxMembers) :
    (iFunAccepts false m = true ↔ m.init = true) ∧ (mFunAccepts false m = true ↔ m.applyDelta = true) ∧
    (iFunAccepts true m = true ↔ IsBox m ∧ m.minAll = true ∧ m.maxAll = true ∧ m.shape = true) ∧
    (mFunAccepts true m = true ↔ IsBox m ∧ m.minAll = true ∧ m.maxAll = true ∧ m.shape = true) := by
  refine ⟨by simp [iFunAccepts], by simp [mFunAccepts], ?_, ?_⟩ <;>
    (simp only [iFunAccepts, mFunAccepts, isBoxConstraint20, IsBox, Bool.and_eq_true, Bool.or_eq_true,
      Bool.not_true, Bool.false_eq_true, false_or]
     tauto)

/-- **C138** (symbolic mutation).  It accepts no box of the library, in neither version of the language; what it needs
of a class is exactly `isBox`, `Encoding == Symbolic`, `Shape`, `Var_t` and the bounds (and in C++20 all the rest). -/
theorem symbolic_mutation_accepts :
    (∀ cxx20 (b : LibBox), mFunSAccepts cxx20 b.members = false) ∧
    (∀ m : BoxMembers, mFunSAccepts false m = true ↔ m.isBox = some true ∧ m.encoding = some .symbolic ∧
      m.var = true ∧ m.shape = true ∧ m.minAll = true ∧ m.maxAll = true) ∧
    (∀ m : BoxMembers, mFunSAccepts true m = true ↔ mFunSAccepts false m = true ∧ IsBox m) := by
  refine ⟨fun cxx20 b => ?_, fun m => ?_, fun m => ?_⟩
  · cases b <;> cases cxx20 <;> rfl
  · simp only [mFunSAccepts, Bool.and_eq_true, Bool.or_eq_true, Bool.not_false, true_or, true_and, decide_eq_true_eq]
    tauto
  · simp only [mFunSAccepts, isBoxConstraint20, IsBox, Bool.and_eq_true, Bool.or_eq_true, Bool.not_false, true_or,
      true_and, decide_eq_true_eq, Bool.not_true, Bool.false_eq_true, false_or]
    tauto

/-- **C138** (atomic orbital search).  Of the boxes of the library it accepts exactly those with a step width
(`ContinousBox`, the fixed continuous boxes and `GaussianBox`), in both versions of the language. -/
theorem aos_accepts (cxx20 : Bool) (b : LibBox) :
    aosAccepts cxx20 b.members = true ↔ (∃ r, b = .continous r) ∨ b = .fixedContinous20 ∨ b = .fixedContinous17 ∨
      b = .gaussian := by
  cases b <;> cases cxx20 <;> simp [aosAccepts, isContinousBox17, isBoxConstraint20, LibBox.members]

/-- **C138** (negation).  The assertion "Box_t must be a continous box constraint" lets classes pass in C++17 that are
not box constraints at all. -/
theorem aos_assertion_weak :
    ∃ m : BoxMembers, aosAccepts false m = true ∧ ¬ IsBox m ∧ m.init = false ∧ m.applyDelta = false := by
  refine ⟨{ var := true, scalar := true, shape := false, minAll := false, maxAll := false, minIdx := false,
            maxIdx := false, init := false, initSize := false, applyConstraint := false, applyConstraintIdx := false,
            applyDelta := false, dimensions := false, deltaIdx := true, isBox := none, encoding := none },
    rfl, ?_, rfl, rfl⟩
  rintro ⟨_, _, h, _⟩
  cases h

/-- **C138** (negation).  The same program that runs with a `DiscretBox` in C++17 is refused in C++20. -/
theorem defaults_language_dependent :
    iFunAccepts false (LibBox.discrete false).members = true ∧ iFunAccepts true (LibBox.discrete false).members = false ∧
    IsBox (LibBox.discrete false).members :=
  ⟨rfl, rfl, libBox_isBox _⟩

example : mFunSAccepts true { (LibBox.discrete false).members with
    shape := true, isBox := some true, encoding := some .symbolic } = true := rfl

end Heu
