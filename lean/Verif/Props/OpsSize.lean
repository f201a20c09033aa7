import Verif.Model.OpsSize
import Verif.Props.Box

set_option linter.unusedSimpArgs false
set_option linter.unusedVariables false

/-!
# Property C118: the default operators and the containers they write to
-/

namespace Heu

open Spec

section Loop
variable {α : Type}

/-- the first `k` passes of the loop -/
theorem crossLoop_prefix (f g : Nat → α → α → α) (p1 p2 c1 c2 : List α) (k : Nat) (h1 : k ≤ p1.length)
    (h2 : k ≤ p2.length) (h3 : k ≤ c1.length) (h4 : k ≤ c2.length) :
    ∃ d1 d2, (List.range k).foldlM (crossStep f g p1 p2) (c1, c2) = .ok (d1, d2) ∧
      d1.length = c1.length ∧ d2.length = c2.length ∧
      (∀ i (hi : i < k), d1[i]? = some (f i (p1[i]'(by omega)) (p2[i]'(by omega))) ∧
        d2[i]? = some (g i (p1[i]'(by omega)) (p2[i]'(by omega)))) ∧
      (∀ i, k ≤ i → d1[i]? = c1[i]? ∧ d2[i]? = c2[i]?) := by
  induction k with
  | zero => exact ⟨c1, c2, rfl, rfl, rfl, fun i hi => absurd hi (by omega), fun i _ => ⟨rfl, rfl⟩⟩
  | succ k ih =>
    obtain ⟨d1, d2, he, hl1, hl2, hw, hr⟩ := ih (by omega) (by omega) (by omega) (by omega)
    have hk1 : k < p1.length := by omega
    have hk2 : k < p2.length := by omega
    refine ⟨d1.set k (f k p1[k] p2[k]), d2.set k (g k p1[k] p2[k]), ?_, by simpa using hl1,
      by simpa using hl2, ?_, ?_⟩
    · rw [List.range_succ, List.foldlM_append, he]
      simp only [Out.ok_bind, List.foldlM_cons, List.foldlM_nil]
      unfold crossStep readEntry writeAt
      rw [List.getElem?_eq_getElem hk1, List.getElem?_eq_getElem hk2]
      simp only [Out.ok_bind]
      rw [if_pos (by omega), if_pos (by omega)]
      rfl
    · intro i hi
      by_cases hik : i = k
      · subst hik
        exact ⟨List.getElem?_set_self (by omega), List.getElem?_set_self (by omega)⟩
      · rw [List.getElem?_set_ne (by omega), List.getElem?_set_ne (by omega)]
        exact hw i (by omega)
    · intro i hi
      rw [List.getElem?_set_ne (by omega), List.getElem?_set_ne (by omega)]
      exact hr i (by omega)

theorem foldlM_ub {σ β : Type} (f : σ → β → Out σ) (l l' : List β) (s s' : σ) (x : β)
    (h : l.foldlM f s = .ok s') (hx : f s' x = .ub) : (l ++ x :: l').foldlM f s = .ub := by
  rw [List.foldlM_append, h, Out.ok_bind, List.foldlM_cons, hx, Out.ub_bind]

/-- The loop is defined exactly when the second parent and both children are at least as long as the
first parent; then the first entries of the children are the operator's values and the others are not
touched. -/
theorem crossLoop_iff (f g : Nat → α → α → α) (p1 p2 c1 c2 : List α) :
    (crossLoop f g p1 p2 c1 c2 = .ub ∧
      ¬ (p1.length ≤ p2.length ∧ p1.length ≤ c1.length ∧ p1.length ≤ c2.length)) ∨
    ((p1.length ≤ p2.length ∧ p1.length ≤ c1.length ∧ p1.length ≤ c2.length) ∧
      ∃ d1 d2, crossLoop f g p1 p2 c1 c2 = .ok (d1, d2) ∧ d1.length = c1.length ∧ d2.length = c2.length ∧
        (∀ (i : Nat) (a b : α), p1[i]? = some a → p2[i]? = some b →
          d1[i]? = some (f i a b) ∧ d2[i]? = some (g i a b)) ∧
        (∀ i, p1.length ≤ i → d1[i]? = c1[i]? ∧ d2[i]? = c2[i]?)) := by
  by_cases h : p1.length ≤ p2.length ∧ p1.length ≤ c1.length ∧ p1.length ≤ c2.length
  · right
    refine ⟨h, ?_⟩
    obtain ⟨d1, d2, he, hl1, hl2, hw, hr⟩ := crossLoop_prefix f g p1 p2 c1 c2 p1.length le_rfl h.1 h.2.1 h.2.2
    refine ⟨d1, d2, he, hl1, hl2, ?_, hr⟩
    intro i a b ha hb
    obtain ⟨hi, ha⟩ := List.getElem?_eq_some_iff.1 ha
    obtain ⟨hi2, hb⟩ := List.getElem?_eq_some_iff.1 hb
    have := hw i hi
    rw [ha, hb] at this
    exact this
  · left
    refine ⟨?_, h⟩
    obtain ⟨k, hk1, hk2, hk3, hk4, hk5⟩ : ∃ k, k < p1.length ∧ k ≤ p2.length ∧ k ≤ c1.length ∧ k ≤ c2.length ∧
        (k = p2.length ∨ k = c1.length ∨ k = c2.length) :=
      ⟨min p2.length (min c1.length c2.length), by omega, by omega, by omega, by omega, by omega⟩
    obtain ⟨d1, d2, he, hl1, hl2, -, -⟩ := crossLoop_prefix f g p1 p2 c1 c2 k hk1.le hk2 hk3 hk4
    obtain ⟨m, hm⟩ : ∃ m, p1.length = k + (1 + m) := ⟨p1.length - k - 1, by omega⟩
    have hsplit : List.range p1.length = List.range k ++ k :: (List.range m).map (fun x => k + 1 + x) := by
      rw [hm, List.range_add, List.range_add, List.map_append, List.map_map]
      simp only [List.range_one, List.map_cons, List.map_nil, List.singleton_append, add_zero, Nat.add_zero]
      congr 2
      exact List.map_congr_left fun x _ => by simp only [Function.comp]; omega
    unfold crossLoop
    rw [hsplit]
    refine foldlM_ub _ _ _ _ _ _ he ?_
    unfold crossStep readEntry writeAt
    rw [List.getElem?_eq_getElem hk1]
    simp only [Out.ok_bind]
    rcases hk5 with h | h | h
    · rw [List.getElem?_eq_none (by omega)]; rfl
    · by_cases h2 : k < p2.length
      · rw [List.getElem?_eq_getElem h2]
        simp only [Out.ok_bind]
        rw [if_neg (by omega)]; rfl
      · rw [List.getElem?_eq_none (by omega)]; rfl
    · by_cases h2 : k < p2.length
      · rw [List.getElem?_eq_getElem h2]
        simp only [Out.ok_bind]
        by_cases h3 : k < d1.length
        · rw [if_pos h3, Out.ok_bind, if_neg (by omega)]; rfl
        · rw [if_neg h3]; rfl
      · rw [List.getElem?_eq_none (by omega)]; rfl

/-- Parents of one length, children resized by `resize`: the result does not depend on what the children
contained or on what `resize` leaves in them. -/
theorem crossX_loop (f g : Nat → α → α → α) (rs : Nat → List α → List α)
    (hrs : ∀ n c, (rs n c).length = n) (p1 p2 c1 c2 : List α) (h : p1.length = p2.length) :
    crossX rs (crossLoop f g) p1 p2 c1 c2 =
      .ok ((List.zip p1 p2).mapIdx (fun i ab => f i ab.1 ab.2),
        (List.zip p1 p2).mapIdx (fun i ab => g i ab.1 ab.2)) := by
  unfold crossX
  rcases crossLoop_iff f g p1 p2 (rs p1.length c1) (rs p2.length c2) with ⟨-, hc⟩ | ⟨-, d1, d2, he, hl1, hl2, hw, hr⟩
  · exact absurd ⟨h.le, by rw [hrs], by rw [hrs]; exact h.le⟩ hc
  · rw [he]
    congr 2
    · apply List.ext_getElem?
      intro i
      by_cases hi : i < p1.length
      · have hi2 : i < p2.length := by omega
        rw [(hw i p1[i] p2[i] (List.getElem?_eq_getElem _) (List.getElem?_eq_getElem _)).1]
        have : (List.zip p1 p2)[i]? = some (p1[i], p2[i]) := by
          rw [List.getElem?_zip_eq_some]
          exact ⟨List.getElem?_eq_getElem hi, List.getElem?_eq_getElem hi2⟩
        simp [List.getElem?_mapIdx, this]
      · rw [List.getElem?_eq_none (by rw [hl1, hrs]; omega), List.getElem?_eq_none (by simp; omega)]
    · apply List.ext_getElem?
      intro i
      by_cases hi : i < p1.length
      · have hi2 : i < p2.length := by omega
        rw [(hw i p1[i] p2[i] (List.getElem?_eq_getElem _) (List.getElem?_eq_getElem _)).2]
        have : (List.zip p1 p2)[i]? = some (p1[i], p2[i]) := by
          rw [List.getElem?_zip_eq_some]
          exact ⟨List.getElem?_eq_getElem hi, List.getElem?_eq_getElem hi2⟩
        simp [List.getElem?_mapIdx, this]
      · rw [List.getElem?_eq_none (by rw [hl2, hrs]; omega), List.getElem?_eq_none (by simp; omega)]

end Loop

theorem mapIdx_zip_const {α : Type} (f : α → α → α) (p1 p2 : List α) :
    (List.zip p1 p2).mapIdx (fun _ ab => f ab.1 ab.2) = List.zipWith f p1 p2 := by
  apply List.ext_getElem?
  intro i
  simp only [List.getElem?_mapIdx, List.getElem?_zipWith, List.zip_eq_zipWith]
  cases p1[i]? <;> cases p2[i]? <;> simp

/-- **C118** (dynamic size).  `cFunXd`, `cFunSwapXs` and `cFunRandXs` of two parents of one size: whatever
the two children contained and had as size before, and whatever `resize` leaves in them, the children
afterwards have the parents' size and exactly the entries the operator computes — for std containers and
for Eigen vectors. -/
theorem cross_dynamic {α κ : Type} [Field α] [LinearOrder κ] (rs : Nat → List α → List α)
    (hrs : ∀ n c, (rs n c).length = n) (p1 p2 c1 c2 : List α) (h : p1.length = p2.length) :
    (∀ r : α, crossX rs (cFunNdStd r) p1 p2 c1 c2 = cFunNd r p1 p2 ∧
      crossX rs (cFunNdEigen r) p1 p2 c1 c2 = cFunNd r p1 p2) ∧
    (∀ idx, crossX rs (cFunSwapNsInto idx) p1 p2 c1 c2 = cFunSwapNs p1 p2 idx) ∧
    (∀ (r : κ) (u w : Nat → κ), crossX rs (cFunRandNsInto r u w) p1 p2 c1 c2 = cFunRandNs r u w p1 p2) := by
  refine ⟨fun r => ⟨?_, ?_⟩, fun idx => ?_, fun r u w => ?_⟩
  · have := crossX_loop (fun _ a b => r * a + (1 - r) * b) (fun _ a b => r * b + (1 - r) * a) rs hrs p1 p2 c1 c2 h
    unfold cFunNd
    rw [if_pos h.le]
    refine this.trans ?_
    rw [mapIdx_zip_const (fun a b => r * a + (1 - r) * b), mapIdx_zip_const (fun a b => r * b + (1 - r) * a)]
  · unfold crossX cFunNdEigen cFunNd
    rw [if_pos h, if_pos h.le, List.zipWith_comm (as := p1)]
    congr 2
    rw [List.zipWith_comm]
  · refine (crossX_loop _ _ rs hrs p1 p2 c1 c2 h).trans ?_
    unfold cFunSwapNs
    rw [if_pos h.le]
  · refine (crossX_loop _ _ rs hrs p1 p2 c1 c2 h).trans ?_
    unfold cFunRandNs
    rw [if_pos h.le]

example : crossX (fun n _ => List.replicate n (7 : ℚ)) (cFunNdStd (1 / 5)) [0, 10] [5, 0] [] [1, 1, 1] =
    .ok ([4, 2], [1, 8]) := by decide +kernel

/-- **C118** (fixed size).  The same for the fixed-size operators on children that already have the
parents' size (`std::array`, fixed Eigen vectors). -/
theorem cross_fixed {α κ : Type} [Field α] [LinearOrder κ] (p1 p2 c1 c2 : List α)
    (h : p1.length = p2.length) (h1 : c1.length = p1.length) (h2 : c2.length = p1.length) :
    (∀ r : α, cFunNdStd r p1 p2 c1 c2 = cFunNd r p1 p2 ∧ cFunNdEigen r p1 p2 c1 c2 = cFunNd r p1 p2) ∧
    (∀ idx, cFunSwapNsInto idx p1 p2 c1 c2 = cFunSwapNs p1 p2 idx) ∧
    (∀ (r : κ) (u w : Nat → κ), cFunRandNsInto r u w p1 p2 c1 c2 = cFunRandNs r u w p1 p2) := by
  have hrs : ∀ n c, ((fun n (c : List α) => if c.length = n then c else List.replicate n 0) n c).length = n := by
    intro n c
    simp only
    split
    · assumption
    · simp
  have e1 : (fun n (c : List α) => if c.length = n then c else List.replicate n 0) p1.length c1 = c1 := if_pos h1
  have e2 : (fun n (c : List α) => if c.length = n then c else List.replicate n 0) p2.length c2 = c2 :=
    if_pos (h2.trans h)
  have := cross_dynamic (κ := κ) _ hrs p1 p2 c1 c2 h
  unfold crossX at this
  rw [e1, e2] at this
  exact this

example : cFunSwapNsInto 1 [1, 2, 3] [4, 5, 6] [0, 0, 0] [0, 0, 0] = .ok ([1, 5, 6], [4, 2, 3]) := by decide +kernel

/-- Exactly when the entry-wise operators are defined: the second parent and both children must be at
least as long as the first parent.  So the fixed-size operators on default-constructed (empty) dynamic
children, which is what `GABase::crossover` passes, are undefined as soon as the parents are not empty;
only `cFunNd` on Eigen vectors resizes by itself. -/
theorem cross_fixed_defined_iff {α κ : Type} [Field α] [LinearOrder κ] (p1 p2 c1 c2 : List α) :
    (∀ r : α, cFunNdStd r p1 p2 c1 c2 ≠ .ub ↔
      p1.length ≤ p2.length ∧ p1.length ≤ c1.length ∧ p1.length ≤ c2.length) ∧
    (∀ idx, cFunSwapNsInto idx p1 p2 c1 c2 ≠ .ub ↔
      p1.length ≤ p2.length ∧ p1.length ≤ c1.length ∧ p1.length ≤ c2.length) ∧
    (∀ (r : κ) (u w : Nat → κ), cFunRandNsInto r u w p1 p2 c1 c2 ≠ .ub ↔
      p1.length ≤ p2.length ∧ p1.length ≤ c1.length ∧ p1.length ≤ c2.length) ∧
    (∀ r : α, cFunNdEigen r p1 p2 c1 c2 ≠ .ub ↔ p1.length = p2.length) := by
  have key : ∀ f g : Nat → α → α → α, crossLoop f g p1 p2 c1 c2 ≠ .ub ↔
      p1.length ≤ p2.length ∧ p1.length ≤ c1.length ∧ p1.length ≤ c2.length := by
    intro f g
    rcases crossLoop_iff f g p1 p2 c1 c2 with ⟨h1, h2⟩ | ⟨h1, d1, d2, h2, -⟩
    · simp [h1, h2]
    · rw [h2]; simp [h1]
  refine ⟨fun r => key _ _, fun idx => key _ _, fun r u w => key _ _, fun r => ?_⟩
  unfold cFunNdEigen
  split
  · simp [*]
  · simp [*]

example : cFunNdStd (1 / 5 : ℚ) [0, 10] [5, 0] [] [] = .ub ∧
    cFunNdEigen (1 / 5 : ℚ) [0, 10] [5, 0] [] [] = .ok ([4, 2], [1, 8]) := by decide +kernel

/-- **C118** (parents of different sizes).  The dynamic operators size the children after their own
parent.  With a longer first parent they are undefined; with a longer second parent they are defined, but
the surplus entries of the second child are whatever `resize` left there: they come from neither
parent. -/
theorem cross_dynamic_unequal {α : Type} (rs : Nat → List α → List α) (hrs : ∀ n c, (rs n c).length = n)
    (idx : Nat) (p1 p2 c1 c2 : List α) :
    (p2.length < p1.length → crossX rs (cFunSwapNsInto idx) p1 p2 c1 c2 = .ub) ∧
    (p1.length ≤ p2.length → ∃ d1 d2, crossX rs (cFunSwapNsInto idx) p1 p2 c1 c2 = .ok (d1, d2) ∧
      d1.length = p1.length ∧ d2.length = p2.length ∧
      ∀ i, p1.length ≤ i → d2[i]? = (rs p2.length c2)[i]?) := by
  unfold crossX cFunSwapNsInto
  have hA := hrs p1.length c1
  have hB := hrs p2.length c2
  rcases crossLoop_iff (fun i a b => if i < idx then a else b) (fun i a b => if i < idx then b else a) p1 p2
    (rs p1.length c1) (rs p2.length c2) with ⟨h1, h2⟩ | ⟨h1, d1, d2, h2, hl1, hl2, -, hr⟩
  · refine ⟨fun _ => h1, fun h => absurd ⟨h, by omega, by omega⟩ h2⟩
  · refine ⟨fun h => absurd h1.1 (by omega), fun h => ⟨d1, d2, h2, by omega, by omega, fun i hi => (hr i hi).2⟩⟩

example : crossX (fun n _ => List.replicate n (-99 : Int)) (cFunSwapNsInto 1) [1, 2] [4, 5, 6] [] [] =
    .ok ([1, 5], [4, 2, -99]) := by decide +kernel

/-! ## Initialization without a box -/

/-- **C118** (`iFunNd`, exact arithmetic).  The size is kept and every entry is in `[min, max)`; if the
two template arguments are given in the wrong order (nothing checks it) every entry is in `(max, min]`. -/
theorem iFunNd_range {α : Type} [Field α] [LinearOrder α] [IsStrictOrderedRing α] (mn mx : α)
    (u : Nat → α) (hu : ∀ i, 0 ≤ u i ∧ u i < 1) (p : List α) :
    (iFunNd mn mx u p).length = p.length ∧
    ∀ (i : Nat) x, (iFunNd mn mx u p)[i]? = some x →
      (mn < mx → mn ≤ x ∧ x < mx) ∧ (mx < mn → mx < x ∧ x ≤ mn) ∧ (mn = mx → x = mn) := by
  refine ⟨by simp [iFunNd], ?_⟩
  intro i x hx
  unfold iFunNd at hx
  rw [List.getElem?_mapIdx] at hx
  cases hp : p[i]? with
  | none => rw [hp] at hx; simp at hx
  | some y =>
    rw [hp] at hx
    simp only [Option.map_some, Option.some.injEq] at hx
    subst hx
    obtain ⟨h0, h1⟩ := hu i
    unfold randDRange
    refine ⟨fun h => ⟨?_, ?_⟩, fun h => ⟨?_, ?_⟩, fun h => ?_⟩
    · nlinarith [mul_nonneg (sub_nonneg.2 h.le) h0]
    · nlinarith [mul_pos (_root_.sub_pos.2 h) (_root_.sub_pos.2 h1)]
    · nlinarith [mul_pos (_root_.sub_pos.2 h) (_root_.sub_pos.2 h1)]
    · nlinarith [mul_nonneg (sub_nonneg.2 h.le) h0]
    · rw [h, sub_self, zero_mul, zero_add]

example : iFunNd (0 : ℚ) 1 (fun i => i / 4) [9, 9, 9] = [0, 1 / 4, 1 / 2] ∧
    iFunNd (1 : ℚ) 0 (fun i => i / 4) [9, 9, 9] = [1, 3 / 4, 1 / 2] := by decide +kernel

/-- **C118** (every point can be drawn).  Every vector with entries in `[min, max)` is the result of some
draws. -/
theorem iFunNd_reaches {α : Type} [Field α] [LinearOrder α] [IsStrictOrderedRing α] (mn mx : α)
    (p v : List α) (hl : v.length = p.length) (hlt : mn < mx) (hv : ∀ x ∈ v, mn ≤ x ∧ x < mx) :
    ∃ u : Nat → α, (∀ i, 0 ≤ u i ∧ u i < 1) ∧ iFunNd mn mx u p = v := by
  have hd : 0 < mx - mn := _root_.sub_pos.2 hlt
  refine ⟨fun i => (v.getD i mn - mn) / (mx - mn), ?_, ?_⟩
  · intro i
    have : mn ≤ v.getD i mn ∧ v.getD i mn < mx := by
      rw [List.getD_eq_getElem?_getD]
      cases h : v[i]? with
      | none => exact ⟨le_rfl, hlt⟩
      | some x => exact hv x (List.mem_of_getElem? h)
    exact ⟨div_nonneg (by linarith) hd.le, by rw [div_lt_one hd]; linarith⟩
  · apply List.ext_getElem?
    intro i
    unfold iFunNd randDRange
    rw [List.getElem?_mapIdx]
    by_cases hi : i < p.length
    · have hi2 : i < v.length := by omega
      rw [List.getElem?_eq_getElem hi, List.getElem?_eq_getElem hi2]
      simp only [Option.map_some, List.getD_eq_getElem?_getD, List.getElem?_eq_getElem hi2, Option.getD_some]
      rw [mul_div_cancel₀ _ hd.ne']
      simp
    · rw [List.getElem?_eq_none (by omega), List.getElem?_eq_none (by omega)]; rfl

/-- **C118** (`iFunNd` in IEEE arithmetic).  For finite `min ≤ max` whose difference does not overflow and
every draw in `[0,1)`, every entry is a finite number in the closed range. -/
theorem iFunNd_ieee (F : Fmt) (hF : F.Good) (mn mx : Fl) (u : Nat → Fl) (hmn : mn.Finite F)
    (hmx : mx.Finite F) (hle : mn.le mx = true) (hov : (mx.sub F mn).Finite F)
    (hu : ∀ i, (u i).Finite F ∧ (Fl.ofNat F 0).le (u i) = true ∧ (u i).lt (Fl.ofNat F 1) = true)
    (p : List Fl) :
    (iFunNdFl F mn mx u p).length = p.length ∧
    ∀ (i : Nat) x, (iFunNdFl F mn mx u p)[i]? = some x → x.Finite F ∧ mn.le x = true ∧ x.le mx = true := by
  refine ⟨by simp [iFunNdFl], ?_⟩
  intro i x hx
  unfold iFunNdFl at hx
  rw [List.getElem?_mapIdx] at hx
  cases hp : p[i]? with
  | none => rw [hp] at hx; simp at hx
  | some y =>
    rw [hp] at hx
    simp only [Option.map_some, Option.some.injEq] at hx
    subst hx
    obtain ⟨h1, h2, h3⟩ := hu i
    exact randD_ieee_in_range F hF (u i) mn mx h1 hmn hmx h2 h3 hle hov

/-- A default-constructed dynamic vector stays empty: without a box nothing gives it a size. -/
theorem iFunNd_empty {α : Type} [Field α] (mn mx : α) (u : Nat → α) : iFunNd mn mx u [] = [] := rfl

/-! ## C119: the crossover ratio -/

section Ratio
variable {α : Type} [Field α] [LinearOrder α] [IsStrictOrderedRing α]

/-- **C119** (distances, exact arithmetic).  In every coordinate the first child is at distance
`(1 - r) * |p1 - p2|` from the first parent and `r * |p1 - p2|` from the second; the second child the
other way round. -/
theorem cFunNd_distance (r : α) (h0 : 0 ≤ r) (h1 : r ≤ 1) (p1 p2 c1 c2 : List α)
    (h : cFunNd r p1 p2 = .ok (c1, c2)) (i : Nat) (a b x y : α) (ha : p1[i]? = some a)
    (hb : p2[i]? = some b) (hx : c1[i]? = some x) (hy : c2[i]? = some y) :
    |x - a| = (1 - r) * |a - b| ∧ |x - b| = r * |a - b| ∧
    |y - b| = (1 - r) * |a - b| ∧ |y - a| = r * |a - b| := by
  unfold cFunNd at h
  split at h
  · have h := Out.ok.inj h
    have e1 := (Prod.mk.inj h).1
    have e2 := (Prod.mk.inj h).2
    rw [← e1, List.getElem?_zipWith, ha, hb] at hx
    rw [← e2, List.getElem?_zipWith, ha, hb] at hy
    have hx := Option.some.inj hx
    have hy := Option.some.inj hy
    subst hx; subst hy
    have hr : 0 ≤ 1 - r := sub_nonneg.2 h1
    refine ⟨?_, ?_, ?_, ?_⟩
    · rw [show r * a + (1 - r) * b - a = -((1 - r) * (a - b)) by ring, abs_neg, abs_mul, abs_of_nonneg hr]
    · rw [show r * a + (1 - r) * b - b = r * (a - b) by ring, abs_mul, abs_of_nonneg h0]
    · rw [show r * b + (1 - r) * a - b = (1 - r) * (a - b) by ring, abs_mul, abs_of_nonneg hr]
    · rw [show r * b + (1 - r) * a - a = -(r * (a - b)) by ring, abs_neg, abs_mul, abs_of_nonneg h0]
  · cases h

/-- The documentation says "the less `r` is, the more similar `c1` and `p1` are".  It is the other way
round: for every pair of parents that differ in a coordinate, a smaller ratio gives a first child that is
strictly further from the first parent there. -/
theorem cFunNd_ratio_reversed (r s : α) (h0 : 0 ≤ r) (hrs : r < s) (h1 : s ≤ 1) (p1 p2 c1 c2 d1 d2 : List α)
    (hc : cFunNd r p1 p2 = .ok (c1, c2)) (hd : cFunNd s p1 p2 = .ok (d1, d2)) (i : Nat) (a b x y : α)
    (ha : p1[i]? = some a) (hb : p2[i]? = some b) (hx : c1[i]? = some x) (hy : d1[i]? = some y)
    (hab : a ≠ b) : |y - a| < |x - a| := by
  have len : ∀ (t : α) (e1 e2 : List α), cFunNd t p1 p2 = .ok (e1, e2) → ∃ z, e2[i]? = some z := by
    intro t e1 e2 he
    unfold cFunNd at he
    split at he
    · have he := (Prod.mk.inj (Out.ok.inj he)).2
      rw [← he, List.getElem?_zipWith, ha, hb]
      exact ⟨_, rfl⟩
    · cases he
  obtain ⟨z, hz⟩ := len r c1 c2 hc
  obtain ⟨w, hw⟩ := len s d1 d2 hd
  rw [(cFunNd_distance r h0 (hrs.le.trans h1) p1 p2 c1 c2 hc i a b x z ha hb hx hz).1,
    (cFunNd_distance s (h0.trans hrs.le) h1 p1 p2 d1 d2 hd i a b y w ha hb hy hw).1]
  exact mul_lt_mul_of_pos_right (by linarith) (abs_pos.2 (sub_ne_zero.2 hab))

end Ratio

/-- With the default ratio 1/5 the first child is nearer to the second parent. -/
example : cFunNd (1 / 5 : ℚ) [0] [5] = .ok ([4], [1]) ∧ cFunNd (4 / 5 : ℚ) [0] [5] = .ok ([1], [4]) := by
  decide +kernel

end Heu
