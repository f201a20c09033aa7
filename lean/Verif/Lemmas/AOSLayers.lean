import Verif.Spec.AOS
import Mathlib.Tactic.Linarith
import Mathlib.Tactic.Ring
import Mathlib.Algebra.Order.Floor.Semiring
import Mathlib.Algebra.Order.Field.Basic
import Mathlib.Algebra.BigOperators.Group.List.Basic
import Mathlib.Algebra.Order.BigOperators.Group.List

/-! # Layers of electrons: helper lemmas -/

set_option linter.unusedSectionVars false
set_option linter.unusedSimpArgs false
set_option linter.unusedVariables false

namespace Heu
open Spec

/-! ### when the filling loop leaves the range -/

theorem fillLayers_ub_or_ok (limits : List Nat) (els : List Addr) (counted cur : Nat)
    (layers : List (List Addr)) :
    (∃ L, fillLayers limits els counted cur layers = .ok L) ∨
      fillLayers limits els counted cur layers = .ub := by
  induction els generalizing counted cur layers with
  | nil => exact Or.inl ⟨_, rfl⟩
  | cons e els ih =>
    simp only [fillLayers]
    cases limits[cur]? with
    | none => exact Or.inr rfl
    | some lim =>
      dsimp only
      generalize (if lim ≤ counted then cur + 1 else cur) = cur'
      by_cases h : cur' < layers.length
      · rw [if_pos h]; exact ih _ _ _
      · rw [if_neg h]; exact Or.inr rfl

/-- The loop stays in range iff some layer `j ≥ cur` leaves enough room. -/
theorem fillLayers_ok_iff (limits : List Nat) (els : List Addr) (counted cur : Nat)
    (layers : List (List Addr)) (hl : layers.length = limits.length) (hc : cur < limits.length)
    (hne : els ≠ []) :
    (∃ L, fillLayers limits els counted cur layers = .ok L) ↔
      counted + els.length ≤ counted + (limits.length - 1 - cur) ∨
      ∃ j lim, cur ≤ j ∧ limits[j]? = some lim ∧
        counted + els.length ≤ lim + (limits.length - 1 - j) := by
  induction els generalizing counted cur layers with
  | nil => exact absurd rfl hne
  | cons e els ih =>
    simp only [fillLayers]
    have hget : limits[cur]? = some limits[cur] := List.getElem?_eq_getElem hc
    rw [hget]
    dsimp only
    obtain ⟨lim0, hlim0⟩ : ∃ x, x = limits[cur] := ⟨_, rfl⟩
    rw [← hlim0] at hget ⊢
    by_cases hinc : lim0 ≤ counted
    · rw [if_pos hinc]
      by_cases hr : cur + 1 < limits.length
      · rw [if_pos (by omega)]
        by_cases he : els = []
        · subst he
          simp only [fillLayers, List.length_cons, List.length_nil]
          constructor
          · intro _; left; omega
          · intro _; exact ⟨_, rfl⟩
        · rw [ih (counted + 1) (cur + 1) _ (by simp [hl]) hr he]
          simp only [List.length_cons]
          constructor
          · rintro (h | ⟨j, lim, h1, h2, h3⟩)
            · left; omega
            · exact Or.inr ⟨j, lim, by omega, h2, by omega⟩
          · rintro (h | ⟨j, lim, h1, h2, h3⟩)
            · left; omega
            · rcases Nat.eq_or_lt_of_le h1 with rfl | h1
              · rw [hget] at h2; cases h2; left; omega
              · exact Or.inr ⟨j, lim, by omega, h2, by omega⟩
      · rw [if_neg (by omega)]
        constructor
        · rintro ⟨L, h⟩; cases h
        · rintro (h | ⟨j, lim, h1, h2, h3⟩)
          · simp only [List.length_cons] at h; omega
          · have hj : j < limits.length := by
              by_contra hj
              rw [List.getElem?_eq_none (by omega)] at h2; cases h2
            have : j = cur := by omega
            subst this
            rw [hget] at h2; cases h2
            simp only [List.length_cons] at h3; omega
    · rw [if_neg hinc, if_pos (by omega)]
      by_cases he : els = []
      · subst he
        simp only [fillLayers, List.length_cons, List.length_nil]
        constructor
        · intro _; right; exact ⟨cur, lim0, le_rfl, hget, by omega⟩
        · intro _; exact ⟨_, rfl⟩
      · rw [ih (counted + 1) cur _ (by simp [hl]) hc he]
        simp only [List.length_cons]
        constructor
        · rintro (h | ⟨j, lim, h1, h2, h3⟩)
          · right; exact ⟨cur, lim0, le_rfl, hget, by omega⟩
          · exact Or.inr ⟨j, lim, h1, h2, by omega⟩
        · rintro (h | ⟨j, lim, h1, h2, h3⟩)
          · left; omega
          · exact Or.inr ⟨j, lim, h1, h2, by omega⟩

/-! ### what the layers contain -/

theorem fillLayers_shape (limits : List Nat) (els : List Addr) (counted cur : Nat)
    (pre : List (List Addr)) (last : List Addr) (r : Nat) (hp : pre.length = cur)
    (hpre : ∀ p ∈ pre, p ≠ []) (hlast : last ≠ []) (L : List (List Addr))
    (h : fillLayers limits els counted cur (pre ++ last :: List.replicate r []) = .ok L) :
    ∃ parts r', L = parts ++ List.replicate r' [] ∧ parts ≠ [] ∧ (∀ p ∈ parts, p ≠ []) ∧
      parts.flatten = pre.flatten ++ last ++ els ∧ parts.length + r' = cur + 1 + r := by
  induction els generalizing counted cur pre last r with
  | nil =>
    simp only [fillLayers, Out.ok.injEq] at h
    subst h
    refine ⟨pre ++ [last], r, by simp, by simp, ?_, by simp, by simp [hp]⟩
    intro p hpm
    rcases List.mem_append.1 hpm with h | h
    · exact hpre p h
    · rw [List.mem_singleton.1 h]; exact hlast
  | cons e els ih =>
    simp only [fillLayers] at h
    cases hg : limits[cur]? with
    | none => rw [hg] at h; cases h
    | some lim =>
      rw [hg] at h
      dsimp only at h
      by_cases hinc : lim ≤ counted
      · rw [if_pos hinc] at h
        by_cases hr : cur + 1 < (pre ++ last :: List.replicate r ([] : List Addr)).length
        · rw [if_pos hr] at h
          obtain ⟨r', rfl⟩ : ∃ r', r = r' + 1 := by
            simp [hp] at hr; exact ⟨r - 1, by omega⟩
          have hmod : (pre ++ last :: List.replicate (r' + 1) ([] : List Addr)).modify (cur + 1)
              (· ++ [e]) = (pre ++ [last]) ++ [e] :: List.replicate r' [] := by
            subst hp
            rw [List.replicate_succ]
            rw [List.modify_eq_set_getElem?, List.getElem?_append_right (by omega)]
            simp
          rw [hmod] at h
          obtain ⟨parts, r'', h1, h2, h3, h4, h5⟩ := ih (counted + 1) (cur + 1) (pre ++ [last]) [e] r'
            (by simp [hp]) (by
              intro p hpm
              rcases List.mem_append.1 hpm with h | h
              · exact hpre p h
              · rw [List.mem_singleton.1 h]; exact hlast) (by simp) h
          exact ⟨parts, r'', h1, h2, h3, by rw [h4]; simp, by omega⟩
        · rw [if_neg hr] at h; cases h
      · rw [if_neg hinc] at h
        rw [if_pos (by simp [hp])] at h
        have hmod : (pre ++ last :: List.replicate r ([] : List Addr)).modify cur (· ++ [e])
            = pre ++ (last ++ [e]) :: List.replicate r [] := by
          subst hp
          rw [List.modify_eq_set_getElem?, List.getElem?_append_right (by omega)]
          simp
        rw [hmod] at h
        obtain ⟨parts, r'', h1, h2, h3, h4, h5⟩ := ih (counted + 1) cur pre (last ++ [e]) r hp hpre
          (by simp) h
        exact ⟨parts, r'', h1, h2, h3, by rw [h4]; simp, by omega⟩

theorem popEmptyLayers_parts (parts : List (List Addr)) (r : Nat) (hne : parts ≠ [])
    (hall : ∀ p ∈ parts, p ≠ []) :
    popEmptyLayers (parts ++ List.replicate r []) = .ok parts := by
  have h : (parts ++ List.replicate r ([] : List Addr)).reverse.dropWhile (·.isEmpty) = parts.reverse := by
    rw [List.reverse_append, List.reverse_replicate, List.dropWhile_append]
    have h1 : (List.replicate r ([] : List Addr)).dropWhile (·.isEmpty) = [] := by
      induction r with
      | zero => rfl
      | succ r ih => rw [List.replicate_succ, List.dropWhile_cons_of_pos (by rfl), ih]
    rw [h1]
    simp only [List.isEmpty_nil, if_true]
    obtain ⟨x, hx⟩ : ∃ x, parts.reverse.head? = some x := by
      cases hh : parts.reverse with
      | nil => exact absurd (List.reverse_eq_nil_iff.1 hh) hne
      | cons a l => exact ⟨a, rfl⟩
    cases hh : parts.reverse with
    | nil => rfl
    | cons a l =>
      rw [List.dropWhile_cons_of_neg]
      have : a ∈ parts := by rw [← List.mem_reverse, hh]; simp
      have := hall a this
      simpa using this
  unfold popEmptyLayers
  rw [h]
  cases hh : parts.reverse with
  | nil => exact absurd (List.reverse_eq_nil_iff.1 hh) hne
  | cons a l =>
    show Out.ok (a :: l).reverse = _
    rw [← hh, List.reverse_reverse]

/-- All of `makeLayers`, when the first layer is meant to have an electron. -/
theorem makeLayers_spec (limits : List Nat) (els : List Addr) (hne : els ≠ [])
    (hfirst : ∃ l0, limits[0]? = some l0 ∧ 0 < l0) :
    (makeLayers limits els = .ub ↔
      ∀ j lim, limits[j]? = some lim → lim + (limits.length - 1 - j) < els.length) ∧
    (makeLayers limits els ≠ .ub → ∃ L, makeLayers limits els = .ok L ∧ ConsecutiveParts L els ∧
      0 < L.length ∧ L.length ≤ limits.length) := by
  obtain ⟨l0, hl0, hpos⟩ := hfirst
  have hk : 0 < limits.length := by
    by_contra h; rw [List.getElem?_eq_none (by omega)] at hl0; cases hl0
  have hiff := fillLayers_ok_iff limits els 0 0 (limits.map fun _ => []) (by simp) hk hne
  have hok : ∀ L, fillLayers limits els 0 0 (limits.map fun _ => []) = .ok L →
      ∃ P, popEmptyLayers L = .ok P ∧ ConsecutiveParts P els ∧ 0 < P.length ∧
        P.length ≤ limits.length := by
    intro L hL
    cases els with
    | nil => exact absurd rfl hne
    | cons e els =>
      simp only [fillLayers, hl0] at hL
      rw [if_neg (show ¬ l0 ≤ 0 by omega), if_pos (by simpa using hk)] at hL
      have : (limits.map fun _ => ([] : List Addr)).modify 0 (· ++ [e]) =
          [] ++ [e] :: List.replicate (limits.length - 1) [] := by
        cases limits with
        | nil => simp at hk
        | cons a l => simp
      rw [this] at hL
      obtain ⟨parts, r', h1, h2, h3, h4, h5⟩ := fillLayers_shape limits els 1 0 [] [e] _ rfl (by simp)
        (by simp) L hL
      rw [h1, popEmptyLayers_parts parts r' h2 h3]
      refine ⟨parts, rfl, ⟨by rw [h4]; simp, h3⟩, List.length_pos_of_ne_nil h2, by omega⟩
  have hcond : ¬ (0 + els.length ≤ 0 + (limits.length - 1 - 0) ∨
      ∃ j lim, 0 ≤ j ∧ limits[j]? = some lim ∧ 0 + els.length ≤ lim + (limits.length - 1 - j)) ↔
      ∀ j lim, limits[j]? = some lim → lim + (limits.length - 1 - j) < els.length := by
    constructor
    · intro h j lim hj
      by_contra hc
      exact h (Or.inr ⟨j, lim, by omega, hj, by omega⟩)
    · rintro h (h1 | ⟨j, lim, -, hj, h2⟩)
      · have := h 0 l0 hl0; omega
      · have := h j lim hj; omega
  rcases fillLayers_ub_or_ok limits els 0 0 (limits.map fun _ => []) with ⟨L, hL⟩ | hub
  · obtain ⟨P, hP, h1, h2, h3⟩ := hok L hL
    have hm : makeLayers limits els = .ok P := by
      unfold makeLayers; rw [hL]; exact hP
    refine ⟨?_, fun _ => ⟨P, hm, h1, h2, h3⟩⟩
    rw [hm, ← hcond]
    constructor
    · intro h; cases h
    · intro h; exact absurd (hiff.1 ⟨L, hL⟩) h
  · have hm : makeLayers limits els = .ub := by
      unfold makeLayers; rw [hub]; rfl
    refine ⟨?_, fun h => absurd hm h⟩
    rw [← hcond]
    constructor
    · intro _ h
      obtain ⟨L, hL⟩ := hiff.2 h
      rw [hub] at hL; cases hL
    · intro _; exact hm

/-! ### the plan -/

theorem cumulate_length (acc : Nat) (cs : List Nat) : (cumulate acc cs).length = cs.length := by
  induction cs generalizing acc with
  | nil => rfl
  | cons c cs ih => simp [cumulate, ih]

theorem cumulate_getElem? (acc : Nat) (cs : List Nat) (j : Nat) :
    (cumulate acc cs)[j]? = if j < cs.length then some (acc + (cs.take (j + 1)).sum) else none := by
  induction cs generalizing acc j with
  | nil => simp [cumulate]
  | cons c cs ih =>
    cases j with
    | zero => simp [cumulate]
    | succ j =>
      simp only [cumulate, List.getElem?_cons_succ, ih, List.length_cons, List.take_succ_cons,
        List.sum_cons]
      by_cases h : j < cs.length
      · rw [if_pos h, if_pos (by omega)]; congr 1; omega
      · rw [if_neg h, if_neg (by omega)]

theorem layerLimits_length (n : Nat) (cs : List Nat) : (layerLimits n cs).length = cs.length := by
  simp [layerLimits, cumulate_length]

theorem layerLimits_getElem? (n : Nat) (cs : List Nat) (j : Nat) :
    (layerLimits n cs)[j]? = if j < cs.length then some (planned n cs j) else none := by
  unfold layerLimits planned
  rw [List.getElem?_map, cumulate_getElem?]
  by_cases h : j < cs.length
  · rw [if_pos h, if_pos h]; simp
  · rw [if_neg h, if_neg h]; rfl

theorem plan_spec (n : Nat) (cs : List Nat) (els : List Addr) (hn : els.length = n) (h0 : 0 < n)
    (hc : ∃ c0, cs[0]? = some c0 ∧ 0 < c0) :
    (makeLayers (layerLimits n cs) els = .ub ↔ PlanTooSmall n cs) ∧
    (¬ PlanTooSmall n cs → ∃ L, makeLayers (layerLimits n cs) els = .ok L ∧ ConsecutiveParts L els ∧
      0 < L.length ∧ L.length ≤ cs.length) := by
  obtain ⟨c0, hc0, hpos⟩ := hc
  have hk : 0 < cs.length := by
    by_contra h; rw [List.getElem?_eq_none (by omega)] at hc0; cases hc0
  have hne : els ≠ [] := by intro h; subst h; simp at hn; omega
  obtain ⟨h1, h2⟩ := makeLayers_spec (layerLimits n cs) els hne
    ⟨planned n cs 0, by rw [layerLimits_getElem?, if_pos hk], by
      unfold planned
      cases cs with
      | nil => simp at hk
      | cons c cs => simp at hc0 ⊢; subst hc0; omega⟩
  have he : (∀ (j lim : Nat), (layerLimits n cs)[j]? = some lim →
      lim + ((layerLimits n cs).length - 1 - j) < els.length) ↔ PlanTooSmall n cs := by
    rw [layerLimits_length, hn]
    constructor
    · intro h j hj
      exact h j _ (by rw [layerLimits_getElem?, if_pos hj])
    · intro h j lim hl
      rw [layerLimits_getElem?] at hl
      by_cases hj : j < cs.length
      · rw [if_pos hj] at hl; cases hl; exact h j hj
      · rw [if_neg hj] at hl; cases hl
  rw [he] at h1
  rw [layerLimits_length] at h2
  exact ⟨h1, fun h => h2 fun hu => h (h1.1 hu)⟩

end Heu
