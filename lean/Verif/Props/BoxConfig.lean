import Verif.Spec.BoxConfig
import Verif.Props.Settings
import Verif.Props.Box

/-!
# C117: setting up boxes
-/

set_option linter.unusedVariables false
set_option linter.unusedSectionVars false
set_option linter.unusedSimpArgs false

namespace Heu
open Spec

section square
variable {α : Type} [Field α] [LinearOrder α] [IsStrictOrderedRing α]

theorem sqBoxCall_ok_iff (s : SqBoxObj α) (c : SqBoxCall α) :
    (∃ t, sqBoxCall s c = .ok t) ↔ AllowedSqCall c := by
  cases c <;> simp only [sqBoxCall, AllowedSqCall]
  case setDimensions r c => split_ifs <;> simp <;> omega
  case setRange mn mx => split_ifs <;> simp <;> first | assumption | (apply le_of_not_gt; assumption)
  case setDelta d => split_ifs <;> simp <;> first | assumption | (apply le_of_not_gt; assumption)
  all_goals simp

theorem sqBoxCall_changes (s t : SqBoxObj α) (c : SqBoxCall α) (h : sqBoxCall s c = .ok t) :
    t.shape = (giveShape c).getD s.shape ∧ t.mn = (giveMin c).getD s.mn ∧ t.mx = (giveMax c).getD s.mx ∧
      t.delta = (giveDelta c).getD s.delta := by
  cases c <;> simp only [sqBoxCall] at h <;> (try split_ifs at h) <;> cases h <;>
    exact ⟨rfl, rfl, rfl, rfl⟩

theorem sqFold_spec (cs : List (SqBoxCall α)) (s : SqBoxObj α) :
    ((∃ t, cs.foldlM sqBoxCall s = .ok t) ↔ ∀ c ∈ cs, AllowedSqCall c) ∧
    ∀ t, cs.foldlM sqBoxCall s = .ok t →
      t.shape = lastSet giveShape cs s.shape ∧ t.mn = lastSet giveMin cs s.mn ∧
      t.mx = lastSet giveMax cs s.mx ∧ t.delta = lastSet giveDelta cs s.delta := by
  induction cs generalizing s with
  | nil =>
    refine ⟨⟨fun _ c hc => by simp at hc, fun _ => ⟨s, rfl⟩⟩, ?_⟩
    intro t h; cases h
    exact ⟨rfl, rfl, rfl, rfl⟩
  | cons c cs ih =>
    rw [List.foldlM_cons]
    refine ⟨⟨?_, ?_⟩, ?_⟩
    · rintro ⟨t, h⟩
      rw [Out.bind_eq_ok] at h
      obtain ⟨a, ha, h⟩ := h
      intro d hd
      rcases List.mem_cons.1 hd with rfl | hd
      · exact (sqBoxCall_ok_iff s d).1 ⟨a, ha⟩
      · exact (ih a).1.1 ⟨t, h⟩ d hd
    · intro h
      obtain ⟨a, ha⟩ := (sqBoxCall_ok_iff s c).2 (h c (by simp))
      obtain ⟨t, ht⟩ := (ih a).1.2 fun d hd => h d (by simp [hd])
      exact ⟨t, by rw [ha]; exact ht⟩
    · intro t h
      rw [Out.bind_eq_ok] at h
      obtain ⟨a, ha, h⟩ := h
      obtain ⟨a1, a2, a3, a4⟩ := sqBoxCall_changes s a c ha
      have := (ih a).2 t h
      rw [a1, a2, a3, a4] at this
      simpa only [lastSet_cons] using this

/-- **C117** (square boxes).  A history of calls is accepted exactly if all sizes and step widths are positive
and every range has `min < max`. -/
theorem square_setup_accepted (cs : List (SqBoxCall α)) :
    (∃ t, sqBoxSession cs = .ok t) ↔ ∀ c ∈ cs, AllowedSqCall c :=
  (sqFold_spec cs _).1

/-- **C117** (square boxes).  Each attribute is what was given last for it, and indeterminate if nothing was. -/
theorem square_setup (cs : List (SqBoxCall α)) (t : SqBoxObj α) (h : sqBoxSession cs = .ok t) :
    t.shape = lastSet giveShape cs none ∧ t.mn = lastSet giveMin cs none ∧
      t.mx = lastSet giveMax cs none ∧ t.delta = lastSet giveDelta cs none :=
  (sqFold_spec cs _).2 t h

/-- What the setters guarantee of every attribute that was set. -/
theorem square_setup_valid (cs : List (SqBoxCall α)) (t : SqBoxObj α) (h : sqBoxSession cs = .ok t) :
    (∀ p, t.shape = some p → 0 < p.1 ∧ 0 < p.2) ∧
    (SqOnlySetters cs → (∀ d, t.delta = some d → 0 < d) ∧ (t.mn = none ↔ t.mx = none) ∧
      ∀ a b, t.mn = some a → t.mx = some b → a < b) := by
  have key : ∀ (cs : List (SqBoxCall α)) (s : SqBoxObj α),
      ((∀ p, s.shape = some p → 0 < p.1 ∧ 0 < p.2)) →
      cs.foldlM sqBoxCall s = .ok t → (∀ p, t.shape = some p → 0 < p.1 ∧ 0 < p.2) := by
    intro cs
    induction cs with
    | nil => intro s hs h; cases h; exact hs
    | cons c cs ih =>
      intro s hs h
      rw [List.foldlM_cons, Out.bind_eq_ok] at h
      obtain ⟨a, ha, h⟩ := h
      refine ih a ?_ h
      cases c <;> simp only [sqBoxCall] at ha <;> (try split_ifs at ha) <;> cases ha <;> try exact hs
      rename_i h1 h2
      intro p hp; cases hp; exact ⟨h1, h2⟩
  have key2 : ∀ (cs : List (SqBoxCall α)) (s : SqBoxObj α), SqOnlySetters cs →
      ((∀ d, s.delta = some d → 0 < d) ∧ (s.mn = none ↔ s.mx = none) ∧
        ∀ a b, s.mn = some a → s.mx = some b → a < b) →
      cs.foldlM sqBoxCall s = .ok t → (∀ d, t.delta = some d → 0 < d) ∧ (t.mn = none ↔ t.mx = none) ∧
        ∀ a b, t.mn = some a → t.mx = some b → a < b := by
    intro cs
    induction cs with
    | nil => intro s _ hs h; cases h; exact hs
    | cons c cs ih =>
      intro s hcs hs h
      rw [List.foldlM_cons, Out.bind_eq_ok] at h
      obtain ⟨a, ha, h⟩ := h
      refine ih a (fun d hd => hcs d (by simp [hd])) ?_ h
      have hc := hcs c (by simp)
      cases c with
      | setDimensions r c => simp only [sqBoxCall] at ha; split_ifs at ha; cases ha; exact hs
      | setRange a b =>
        simp only [sqBoxCall] at ha; split_ifs at ha with hab; cases ha
        refine ⟨hs.1, by simp, ?_⟩
        intro x y hx hy; cases hx; cases hy; exact hab
      | setDelta d =>
        simp only [sqBoxCall] at ha; split_ifs at ha with hd; cases ha
        exact ⟨fun x hx => by cases hx; exact hd, hs.2⟩
      | writeMin x => exact absurd rfl (hc x).1
      | writeMax x => exact absurd rfl (hc x).2.1
      | writeDelta x => exact absurd rfl (hc x).2.2
  exact ⟨key cs _ (by simp [SqBoxObj.new]) h,
    fun hcs => key2 cs _ hcs ⟨by simp [SqBoxObj.new], by simp [SqBoxObj.new], by simp [SqBoxObj.new]⟩ h⟩

theorem intProduct_ok_iff (r c n : Int) : intProduct r c = .ok n ↔
    n = r * c ∧ -2 ^ 31 ≤ r * c ∧ r * c ≤ 2 ^ 31 - 1 := by
  simp only [intProduct, IntT.arith, IntT.lo, IntT.hi]
  norm_num
  split_ifs with h
  · constructor
    · intro h'; cases h'; exact ⟨rfl, h.1, h.2⟩
    · rintro ⟨rfl, -⟩; rfl
  · constructor
    · intro h'; cases h'
    · rintro ⟨-, h1, h2⟩; exact absurd ⟨h1, h2⟩ h

theorem readMember_ok {β : Type} (o : Option β) (x : β) : readMember o = .ok x ↔ o = some x := by
  cases o <;> simp [readMember]

/-- **C117** (square boxes, use).  After any accepted history, `initialize` succeeds exactly if the size and
both bounds were set at least once and the number of entries fits an `int`. -/
theorem square_initialize_ok_iff (cs : List (SqBoxCall α)) (t : SqBoxObj α) (h : sqBoxSession cs = .ok t)
    (u : Nat → α) :
    (∃ v, t.initialize u = .ok v) ↔
      ∃ r c a b, lastSet giveShape cs none = some (r, c) ∧ lastSet giveMin cs none = some a ∧
        lastSet giveMax cs none = some b ∧ r * c ≤ 2 ^ 31 - 1 := by
  obtain ⟨h1, h2, h3, -⟩ := square_setup cs t h
  have hv := (square_setup_valid cs t h).1
  rw [← h1, ← h2, ← h3]
  unfold SqBoxObj.initialize
  cases hs : t.shape with
  | none => simp [readMember]
  | some p =>
    obtain ⟨r, c⟩ := p
    have hp := hv _ hs
    simp only [readMember, Out.ok_bind]
    rw [if_pos hp]
    constructor
    · rintro ⟨v, hv⟩
      rw [Out.bind_eq_ok] at hv
      obtain ⟨n, hn, hv⟩ := hv
      rw [Out.bind_eq_ok] at hv
      obtain ⟨a, ha, hv⟩ := hv
      rw [Out.bind_eq_ok] at hv
      obtain ⟨b, hb, hv⟩ := hv
      refine ⟨r, c, a, b, rfl, ?_, ?_, ((intProduct_ok_iff _ _ _).1 hn).2.2⟩
      · exact (readMember_ok _ _).1 ha
      · exact (readMember_ok _ _).1 hb
    · rintro ⟨r', c', a, b, hrc, ha, hb, hle⟩
      cases hrc
      have hpos : 0 < r * c := Int.mul_pos hp.1 hp.2
      refine ⟨initializeReal (squareBox (r * c).toNat a b) u, ?_⟩
      rw [(intProduct_ok_iff r c (r * c)).2 ⟨rfl, by linarith, hle⟩, ha, hb]
      rfl

/-- **C117** (square boxes, use).  If only the setters were used, then `initialize`, `applyConstraint` and
`applyDelta` all work with the last size, range and step width: the initial point is in the box, any point is
confined to it, and `applyDelta` keeps a point in the box and changes one entry by at most the step width. -/
theorem square_setup_use (cs : List (SqBoxCall α)) (hcs : SqOnlySetters cs) (t : SqBoxObj α)
    (h : sqBoxSession cs = .ok t) (r c : Int) (a b d : α)
    (hr : lastSet giveShape cs none = some (r, c)) (ha : lastSet giveMin cs none = some a)
    (hb : lastSet giveMax cs none = some b) (hd : lastSet giveDelta cs none = some d)
    (hfit : r * c ≤ 2 ^ 31 - 1) :
    (∀ u : Nat → α, (∀ i, 0 ≤ u i ∧ u i < 1) → ∃ v, t.initialize u = .ok v ∧
      InBox (squareBox (r * c).toNat a b) v) ∧
    (∀ v : List α, v.length = (r * c).toNat → ∃ w, t.applyConstraint v = .ok w ∧
      InBox (squareBox (r * c).toNat a b) w) ∧
    (∀ (v : List α) (idx : Nat) (u : α), InBox (squareBox (r * c).toNat a b) v → idx < (r * c).toNat →
      0 ≤ u → u < 1 → ∃ w x y, t.applyDelta v idx u = .ok w ∧ InBox (squareBox (r * c).toNat a b) w ∧
        SameExcept v w idx ∧ v[idx]? = some x ∧ w[idx]? = some y ∧ |y - x| ≤ d) := by
  obtain ⟨h1, h2, h3, h4⟩ := square_setup cs t h
  obtain ⟨hv, hv2⟩ := square_setup_valid cs t h
  rw [hr] at h1; rw [ha] at h2; rw [hb] at h3; rw [hd] at h4
  obtain ⟨hd0, -, hab⟩ := hv2 hcs
  have hab := hab a b h2 h3
  have hd0 := hd0 d h4
  have hp := hv _ h1
  have hpos : 0 < r * c := Int.mul_pos hp.1 hp.2
  have hprod : intProduct r c = .ok (r * c) := (intProduct_ok_iff r c (r * c)).2 ⟨rfl, by linarith, hfit⟩
  have hne : NonEmptyBox (squareBox (r * c).toNat a b) := fun i _ => hab.le
  refine ⟨?_, ?_, ?_⟩
  · intro u hu
    refine ⟨_, ?_, initialize_real_in_box (squareBox (r * c).toNat a b) u hu hne⟩
    unfold SqBoxObj.initialize
    rw [h1, h2, h3]
    simp only [readMember, Out.ok_bind]
    rw [if_pos hp, hprod]
    rfl
  · intro v hv
    obtain ⟨w, hw, hin⟩ := applyConstraint_in_box (squareBox (r * c).toNat a b) hne v hv
    refine ⟨w, ?_, hin⟩
    unfold SqBoxObj.applyConstraint SqBoxObj.dimensions
    rw [h1, h2, h3]
    simp only [readMember, Out.ok_bind, hprod]
    exact hw
  · intro v idx u hv hi hu0 hu1
    obtain ⟨w, x, y, hw, hin, hse, hx, hy, hle⟩ :=
      applyDelta_cont (squareBox (r * c).toNat a b) (fun _ => d) v hv idx hi u hu0 hu1
    refine ⟨w, x, y, ?_, hin, hse, hx, hy, by rwa [abs_of_pos hd0] at hle⟩
    unfold SqBoxObj.applyDelta SqBoxObj.dimensions
    rw [h1, h2, h3, h4]
    simp only [readMember, Out.ok_bind, hprod]
    exact hw

end square

/-- A typical set-up: a 2×3 matrix box `[-1, 4]` with step width 1/2, after some changes of mind. -/
def demoSqCalls : List (SqBoxCall ℚ) :=
  [.setDimensions 7 1, .setRange 0 1, .setDelta 3, .setRange (-1) 4, .setDimensions 2 3, .setDelta (1 / 2)]

example : sqBoxSession demoSqCalls = .ok ⟨some (2, 3), some (-1), some 4, some (1 / 2)⟩ ∧
    SqOnlySetters demoSqCalls ∧ lastSet giveShape demoSqCalls none = some (2, 3) := by
  refine ⟨by decide +kernel, ?_, rfl⟩
  intro c hc x
  simp only [demoSqCalls, List.mem_cons, List.not_mem_nil, or_false] at hc
  rcases hc with rfl | rfl | rfl | rfl | rfl | rfl <;> simp

/-- Through the references `min()` and `max()` the range can be made empty; nothing checks it, and the initial
point is not below the upper bound. -/
theorem square_reference_unchecked :
    ∃ t : SqBoxObj ℚ, sqBoxSession [.setDimensions 1 1, .setRange 0 1, .writeMin 5] = .ok t ∧
      t.initialize (fun _ => 0) = .ok [5] ∧ t.mx = some 1 :=
  ⟨⟨some (1, 1), some 5, some 1, none⟩, by decide +kernel, by decide +kernel, rfl⟩

/-- A step width must have been set: otherwise `applyDelta` reads an indeterminate value. -/
theorem square_delta_needed :
    ∃ t : SqBoxObj ℚ, sqBoxSession [.setDimensions 1 1, .setRange 0 1] = .ok t ∧
      t.applyDelta [1 / 2] 0 0 = .ub :=
  ⟨⟨some (1, 1), some 0, some 1, none⟩, by decide +kernel, by decide +kernel⟩

/-- Sizes whose product exceeds the largest `int` are accepted by `setDimensions`; every use is then
undefined. -/
theorem square_int_overflow :
    ∃ t : SqBoxObj ℚ, sqBoxSession [.setDimensions 65536 32768, .setRange 0 1] = .ok t ∧
      t.dimensions = .ub ∧ ∀ u, t.initialize u = .ub :=
  ⟨⟨some (65536, 32768), some 0, some 1, none⟩, by decide +kernel, by decide +kernel, fun u => rfl⟩

/-! ## Rectangular boxes -/

section rect
variable {α : Type} [Field α] [LinearOrder α] [IsStrictOrderedRing α]

theorem rectBoxCall_ok_iff (s : RectBoxObj α) (c : RectBoxCall α) :
    (∃ t, rectBoxCall s c = .ok t) ↔ AllowedRectCall c := by
  cases c <;> simp only [rectBoxCall, AllowedRectCall]
  case setDimensions r c j1 j2 j3 => split_ifs <;> simp <;> omega
  case setRange mn mx => split_ifs <;> simp <;> assumption
  case setDelta d =>
    split_ifs with h
    · exact ⟨fun _ => h, fun _ => ⟨_, rfl⟩⟩
    · exact ⟨fun ⟨t, h'⟩ => by simp at h', fun h' => absurd h' h⟩
  all_goals simp

theorem rectFold_ok_iff (cs : List (RectBoxCall α)) (s : RectBoxObj α) :
    (∃ t, cs.foldlM rectBoxCall s = .ok t) ↔ ∀ c ∈ cs, AllowedRectCall c := by
  induction cs generalizing s with
  | nil => exact ⟨fun _ c hc => by simp at hc, fun _ => ⟨s, rfl⟩⟩
  | cons c cs ih =>
    rw [List.foldlM_cons]
    refine ⟨?_, ?_⟩
    · rintro ⟨t, h⟩
      rw [Out.bind_eq_ok] at h
      obtain ⟨a, ha, h⟩ := h
      intro d hd
      rcases List.mem_cons.1 hd with rfl | hd
      · exact (rectBoxCall_ok_iff s d).1 ⟨a, ha⟩
      · exact (ih a).1 ⟨t, h⟩ d hd
    · intro h
      obtain ⟨a, ha⟩ := (rectBoxCall_ok_iff s c).2 (h c (by simp))
      obtain ⟨t, ht⟩ := (ih a).2 fun d hd => h d (by simp [hd])
      exact ⟨t, by rw [ha]; exact ht⟩

/-- **C117** (rectangular boxes).  A history is accepted exactly if sizes are positive, the two bounds of every
`setRange` have the same number of entries, and step widths are positive. -/
theorem rect_setup_accepted (cs : List (RectBoxCall α)) :
    (∃ t, rectBoxSession cs = .ok t) ↔ ∀ c ∈ cs, AllowedRectCall c :=
  rectFold_ok_iff cs _

theorem rectFold_append (cs ds : List (RectBoxCall α)) (s t : RectBoxObj α)
    (h : (cs ++ ds).foldlM rectBoxCall s = .ok t) :
    ∃ m, cs.foldlM rectBoxCall s = .ok m ∧ ds.foldlM rectBoxCall m = .ok t := by
  rw [List.foldlM_append, Out.bind_eq_ok] at h
  exact h

theorem rectFold_delta_only (ds : List (RectBoxCall α)) (hd : ∀ c ∈ ds, DeltaOnly c) (s t : RectBoxObj α)
    (h : ds.foldlM rectBoxCall s = .ok t) : t.mn = s.mn ∧ t.mx = s.mx := by
  induction ds generalizing s with
  | nil => cases h; exact ⟨rfl, rfl⟩
  | cons c cs ih =>
    rw [List.foldlM_cons, Out.bind_eq_ok] at h
    obtain ⟨a, ha, h⟩ := h
    have := ih (fun d hd' => hd d (by simp [hd'])) a h
    have hc := hd c (by simp)
    cases c <;> simp only [DeltaOnly] at hc <;> simp only [rectBoxCall] at ha <;>
      (try split_ifs at ha) <;> cases ha <;> exact this

theorem rectFold_range_only (ds : List (RectBoxCall α)) (hd : ∀ c ∈ ds, RangeOnly c) (s t : RectBoxObj α)
    (h : ds.foldlM rectBoxCall s = .ok t) : t.delta = s.delta := by
  induction ds generalizing s with
  | nil => cases h; rfl
  | cons c cs ih =>
    rw [List.foldlM_cons, Out.bind_eq_ok] at h
    obtain ⟨a, ha, h⟩ := h
    have := ih (fun d hd' => hd d (by simp [hd'])) a h
    have hc := hd c (by simp)
    cases c <;> simp only [RangeOnly] at hc <;> simp only [rectBoxCall] at ha <;>
      (try split_ifs at ha) <;> cases ha <;> exact this

/-- **C117** (rectangular boxes).  The bounds are those of the last `setRange` if after it only step widths
were set. -/
theorem rect_setup_range (cs ds : List (RectBoxCall α)) (mn mx : Shaped α) (hd : ∀ c ∈ ds, DeltaOnly c)
    (t : RectBoxObj α) (h : rectBoxSession (cs ++ .setRange mn mx :: ds) = .ok t) :
    t.mn = mn ∧ t.mx = mx := by
  obtain ⟨m, -, h⟩ := rectFold_append cs _ _ t h
  rw [List.foldlM_cons, Out.bind_eq_ok] at h
  obtain ⟨a, ha, h⟩ := h
  have := rectFold_delta_only ds hd a t h
  simp only [rectBoxCall] at ha
  split_ifs at ha
  cases ha
  exact this

/-- **C117** (rectangular boxes).  The step widths are those of the last `setDelta` if after it only the range
was set. -/
theorem rect_setup_delta (cs ds : List (RectBoxCall α)) (d : Shaped α) (hd : ∀ c ∈ ds, RangeOnly c)
    (t : RectBoxObj α) (h : rectBoxSession (cs ++ .setDelta d :: ds) = .ok t) : t.delta = d := by
  obtain ⟨m, -, h⟩ := rectFold_append cs _ _ t h
  rw [List.foldlM_cons, Out.bind_eq_ok] at h
  obtain ⟨a, ha, h⟩ := h
  have := rectFold_range_only ds hd a t h
  simp only [rectBoxCall] at ha
  split_ifs at ha
  cases ha
  exact this

/-- **C117** (rectangular boxes).  After `setDimensions(r, c)`, whatever was done before, bounds and step widths
have that shape; entries of a size that changed are indeterminate, others are kept. -/
theorem rect_setDimensions (cs : List (RectBoxCall α)) (r c : Int) (j1 j2 j3 : Nat → α) (t : RectBoxObj α)
    (h : rectBoxSession (cs ++ [.setDimensions r c j1 j2 j3]) = .ok t) :
    ∃ m, rectBoxSession cs = .ok m ∧
      (t.mn.rows, t.mn.cols) = (r.toNat, c.toNat) ∧ (t.mx.rows, t.mx.cols) = (r.toNat, c.toNat) ∧
      (t.delta.rows, t.delta.cols) = (r.toNat, c.toNat) ∧
      t.mn.data.length = r.toNat * c.toNat ∧ t.mx.data.length = r.toNat * c.toNat ∧
      t.delta.data.length = r.toNat * c.toNat ∧
      (m.mn.data.length = r.toNat * c.toNat → t.mn.data = m.mn.data) ∧
      (m.mx.data.length = r.toNat * c.toNat → t.mx.data = m.mx.data) ∧
      (m.delta.data.length = r.toNat * c.toNat → t.delta.data = m.delta.data) := by
  obtain ⟨m, hm, h⟩ := rectFold_append cs _ _ t h
  refine ⟨m, hm, ?_⟩
  rw [List.foldlM_cons, Out.bind_eq_ok] at h
  obtain ⟨a, ha, h⟩ := h
  cases h
  simp only [rectBoxCall] at ha
  split_ifs at ha
  cases ha
  have key : ∀ (m : Shaped α) (j : Nat → α), ((m.resize r.toNat c.toNat j).rows,
      (m.resize r.toNat c.toNat j).cols) = (r.toNat, c.toNat) ∧
      (m.resize r.toNat c.toNat j).data.length = r.toNat * c.toNat ∧
      (m.data.length = r.toNat * c.toNat → (m.resize r.toNat c.toNat j).data = m.data) := by
    intro m j
    unfold Shaped.resize
    split_ifs with h
    · exact ⟨rfl, h, fun _ => rfl⟩
    · exact ⟨rfl, by simp, fun h' => absurd h' h⟩
  exact ⟨(key _ j1).1, (key _ j2).1, (key _ j3).1, (key _ j1).2.1, (key _ j2).2.1, (key _ j3).2.1,
    (key _ j1).2.2, (key _ j2).2.2, (key _ j3).2.2⟩

/-- **C117** (rectangular boxes).  If only `setRange`, `setDimensions` and `setDelta` are used, lower and upper
bound always have the same number of entries. -/
theorem rect_sizes_agree (cs : List (RectBoxCall α)) (hcs : RectOnlySetters cs) (t : RectBoxObj α)
    (h : rectBoxSession cs = .ok t) : t.mn.data.length = t.mx.data.length := by
  have key : ∀ (cs : List (RectBoxCall α)) (s : RectBoxObj α), RectOnlySetters cs →
      s.mn.data.length = s.mx.data.length → cs.foldlM rectBoxCall s = .ok t →
      t.mn.data.length = t.mx.data.length := by
    intro cs
    induction cs with
    | nil => intro s _ hs h; cases h; exact hs
    | cons c cs ih =>
      intro s hcs hs h
      rw [List.foldlM_cons, Out.bind_eq_ok] at h
      obtain ⟨a, ha, h⟩ := h
      refine ih a (fun d hd => hcs d (by simp [hd])) ?_ h
      have hc := hcs c (by simp)
      cases c with
      | setDimensions r c j1 j2 j3 =>
        simp only [rectBoxCall] at ha; split_ifs at ha; cases ha
        simp only [Shaped.resize]
        split_ifs <;> simp_all
      | setRange a b => simp only [rectBoxCall] at ha; split_ifs at ha with hab; cases ha; exact hab
      | setDelta d => simp only [rectBoxCall] at ha; split_ifs at ha with hd; cases ha; exact hs
      | writeMin x => exact absurd rfl (hc x).1
      | writeMax x => exact absurd rfl (hc x).2.1
      | writeDelta x => exact absurd rfl (hc x).2.2
  exact key cs _ hcs rfl h

/-- **C117** (rectangular boxes, use).  With consistent shapes `initialize` succeeds exactly if lower and upper
bound have the same shape. -/
theorem rect_initialize_ok_iff (s : RectBoxObj α) (h1 : Shaped.WF s.mn) (h2 : Shaped.WF s.mx) (u : Nat → α) :
    (∃ v, s.initialize u = .ok v) ↔ s.mn.rows = s.mx.rows ∧ s.mn.cols = s.mx.cols := by
  unfold RectBoxObj.initialize
  by_cases hr : s.mn.rows = s.mx.rows
  · by_cases hc : s.mn.cols = s.mx.cols
    · have : s.mn.data.length ≤ s.mx.data.length := by
        rw [h1, h2, hr, hc]
      simp [hr, hc, this]
    · simp [hr, hc]
  · simp [hr]

/-- **C117** (rectangular boxes, use).  For bounds of the same shape, `applyDelta` is defined for every draw of
the index exactly if there are at least as many step widths as dimensions. -/
theorem rect_applyDelta_ok_iff (s : RectBoxObj α) (hs : s.mn.data.length = s.mx.data.length)
    (hr : s.mn.rows = s.mx.rows) (v : List α) (hv : v.length = s.mn.data.length) (u : α) :
    (∀ idx, idx < s.mn.data.length → ∃ w, s.applyDelta v idx u = .ok w) ↔
      s.mn.data.length ≤ s.delta.data.length := by
  have hdim : s.dimensions = .ok s.mn.data.length := by
    unfold RectBoxObj.dimensions; rw [if_pos hs, if_pos hr]
  constructor
  · intro h
    by_contra hlt
    rw [not_le] at hlt
    obtain ⟨w, hw⟩ := h s.delta.data.length hlt
    unfold RectBoxObj.applyDelta at hw
    rw [hdim, Out.ok_bind] at hw
    have : s.delta.data[s.delta.data.length]? = none := by simp
    rw [this] at hw
    cases hw
  · intro h idx hi
    unfold RectBoxObj.applyDelta
    rw [hdim, Out.ok_bind, List.getElem?_eq_getElem (by omega)]
    simp only
    unfold applyDeltaCont
    rw [if_pos (by rw [hv]; rfl), List.getElem?_eq_getElem (by omega)]
    exact ⟨_, rfl⟩

/-- **C117** (rectangular boxes, proper use).  If the last range has `min ≤ max` entry by entry and equal shapes,
and step widths of the same size were set with `setDelta` afterwards, all operations work in that box. -/
theorem rect_setup_use (cs : List (RectBoxCall α)) (mn mx d : Shaped α) (t : RectBoxObj α)
    (h : rectBoxSession (cs ++ [.setRange mn mx, .setDelta d]) = .ok t)
    (hrows : mn.rows = mx.rows) (hcols : mn.cols = mx.cols) (hd : mn.data.length ≤ d.data.length)
    (hle : ∀ i, ∀ h1 : i < mn.data.length, ∀ h2 : i < mx.data.length, mn.data[i] ≤ mx.data[i]) :
    (∀ u : Nat → α, (∀ i, 0 ≤ u i ∧ u i < 1) → ∃ v, t.initialize u = .ok ⟨mn.rows, mn.cols, v⟩ ∧
      InBox (t.bounds 0) v) ∧
    (∀ v : List α, v.length = mn.data.length → ∃ w, t.applyConstraint v = .ok w ∧ InBox (t.bounds 0) w) ∧
    (∀ (v : List α) (idx : Nat) (u : α), InBox (t.bounds 0) v → ∀ hi : idx < mn.data.length,
      0 ≤ u → u < 1 → ∃ w x y, t.applyDelta v idx u = .ok w ∧ InBox (t.bounds 0) w ∧
        SameExcept v w idx ∧ v[idx]? = some x ∧ w[idx]? = some y ∧ |y - x| ≤ d.data[idx]) ∧
    (∀ i, ∀ h1 : i < mn.data.length, ∀ h2 : i < mx.data.length,
      (t.bounds 0).min i = mn.data[i] ∧ (t.bounds 0).max i = mx.data[i]) ∧
    (t.bounds 0).dim = mn.data.length := by
  have hds : t.delta = d := by
    have := rect_setup_delta (cs ++ [.setRange mn mx]) [] d (by simp) t (by simpa using h)
    exact this
  obtain ⟨hmn, hmx⟩ := rect_setup_range cs [.setDelta d] mn mx (by simp [DeltaOnly]) t h
  have hal := (rect_setup_accepted _).1 ⟨t, h⟩
  have hlen : mn.data.length = mx.data.length := hal (.setRange mn mx) (by simp)
  have hpos : ∀ x ∈ d.data, 0 < x := hal (.setDelta d) (by simp)
  have hb : ∀ i, ∀ h1 : i < mn.data.length, ∀ h2 : i < mx.data.length,
      (t.bounds 0).min i = mn.data[i] ∧ (t.bounds 0).max i = mx.data[i] := by
    intro i h1 h2
    unfold RectBoxObj.bounds
    rw [hmn, hmx]
    simp [h1, h2]
  have hdimb : (t.bounds 0).dim = mn.data.length := by
    unfold RectBoxObj.bounds; rw [hmn]
  have hne : NonEmptyBox (t.bounds 0) := by
    intro i hi
    rw [hdimb] at hi
    obtain ⟨e1, e2⟩ := hb i hi (by omega)
    rw [e1, e2]
    exact hle i hi (by omega)
  have hdim : t.dimensions = .ok mn.data.length := by
    unfold RectBoxObj.dimensions; rw [hmn, hmx, if_pos hlen, if_pos hrows]
  refine ⟨?_, ?_, ?_, hb, hdimb⟩
  · intro u hu
    refine ⟨_, ?_, initialize_real_in_box (t.bounds 0) u hu hne⟩
    unfold RectBoxObj.initialize
    rw [hmn, hmx, if_pos hrows, if_pos hcols, if_pos hlen.le]
  · intro v hv
    obtain ⟨w, hw, hin⟩ := applyConstraint_in_box (t.bounds 0) hne v (by rw [hdimb]; exact hv)
    exact ⟨w, by unfold RectBoxObj.applyConstraint; rw [hdim, Out.ok_bind]; exact hw, hin⟩
  · intro v idx u hv hi hu0 hu1
    obtain ⟨w, x, y, hw, hin, hse, hx, hy, hle⟩ :=
      applyDelta_cont (t.bounds 0) (fun _ => d.data[idx]) v hv idx (by rw [hdimb]; exact hi) u hu0 hu1
    refine ⟨w, x, y, ?_, hin, hse, hx, hy, ?_⟩
    · unfold RectBoxObj.applyDelta
      rw [hdim, Out.ok_bind, hds, List.getElem?_eq_getElem (by omega)]
      exact hw
    · rwa [abs_of_pos (hpos _ (List.getElem_mem _))] at hle

/-- **C117** (`delta(r, c)`).  For matrices stored column by column (Eigen's default) `delta(r, c)` is the entry
`(r, c)` of the step widths, if these have the shape of the bounds. -/
theorem rect_deltaAt (s : RectBoxObj α) (hr : s.mn.rows = s.mx.rows) (hc : s.mn.cols = s.mx.cols)
    (hdr : s.delta.rows = s.mn.rows) (hdc : s.delta.cols = s.mn.cols) (hwf : Shaped.WF s.delta) (r c : Nat)
    (h1 : r < s.mn.rows) (h2 : c < s.mn.cols) :
    ∃ x, s.deltaAt r c = .ok x ∧ s.delta.entry false r c = some x := by
  have hlt : r + c * s.mn.rows < s.delta.data.length := by
    rw [hwf, hdr, hdc]
    calc r + c * s.mn.rows < s.mn.rows + c * s.mn.rows := by omega
      _ = (c + 1) * s.mn.rows := by ring
      _ ≤ s.mn.cols * s.mn.rows := Nat.mul_le_mul_right _ h2
      _ = s.mn.rows * s.mn.cols := Nat.mul_comm _ _
  refine ⟨s.delta.data[r + c * s.mn.rows], ?_, ?_⟩
  · unfold RectBoxObj.deltaAt
    rw [if_pos ⟨hr, hc⟩, if_pos ⟨h1, h2⟩, List.getElem?_eq_getElem hlt]
    rfl
  · unfold Shaped.entry
    rw [if_pos ⟨by omega, by omega⟩, hdr]
    simp only [Bool.false_eq_true, if_false]
    rw [List.getElem?_eq_getElem hlt]

end rect

/-- For matrices stored row by row it is another entry. -/
theorem rect_deltaAt_row_major :
    let d : Shaped ℚ := ⟨2, 3, [1, 2, 3, 4, 5, 6]⟩
    (⟨⟨2, 3, []⟩, ⟨2, 3, []⟩, d⟩ : RectBoxObj ℚ).deltaAt 0 1 = .ok 3 ∧ d.entry true 0 1 = some 2 := by
  decide +kernel

/-- **C117** (rectangular boxes, before any set-up).  A box nothing was set on is consistent but empty: its
dimension is 0, `initialize` gives an empty variable, and every `applyDelta` is undefined. -/
theorem rect_unset :
    ∃ t : RectBoxObj ℚ, rectBoxSession [] = .ok t ∧ t.dimensions = .ok 0 ∧
      (∀ u, t.initialize u = .ok ⟨0, 0, []⟩) ∧ (∀ v idx u, t.applyDelta v idx u = .ub) ∧
      ∀ r c, t.deltaAt r c = .ub :=
  ⟨_, rfl, rfl, fun _ => rfl, fun _ _ _ => rfl, fun _ _ => rfl⟩

/-- The sizes of the bounds are compared by `setRange`, not their shapes: a 2×3 lower and a 3×2 upper bound are
accepted, and every later use is undefined. -/
theorem rect_shapes_unchecked :
    ∃ t : RectBoxObj ℚ, rectBoxSession
        [.setRange ⟨2, 3, [0, 0, 0, 0, 0, 0]⟩ ⟨3, 2, [1, 1, 1, 1, 1, 1]⟩] = .ok t ∧
      t.dimensions = .ub ∧ (∀ u, t.initialize u = .ub) ∧ ∀ v, t.applyConstraint v = .ub :=
  ⟨_, rfl, rfl, fun _ => rfl, fun _ => rfl⟩

/-- `setRange` does not size the step widths: without `setDelta` (or `setDimensions`) every `applyDelta` reads
outside the empty `delta`. -/
theorem rect_delta_needed :
    ∃ t : RectBoxObj ℚ, rectBoxSession [.setRange ⟨2, 1, [0, 0]⟩ ⟨2, 1, [1, 1]⟩] = .ok t ∧
      ∀ v idx u, t.applyDelta v idx u = .ub :=
  ⟨⟨⟨2, 1, [0, 0]⟩, ⟨2, 1, [1, 1]⟩, ⟨0, 0, []⟩⟩, rfl, fun _ _ _ => rfl⟩

/-- `setDimensions` discards a range of another size: the bounds are whatever the memory holds, possibly with
`min > max`. -/
theorem rect_setDimensions_discards :
    ∃ t : RectBoxObj ℚ, rectBoxSession
        [.setRange ⟨1, 1, [0]⟩ ⟨1, 1, [1]⟩, .setDimensions 1 2 (fun _ => 7) (fun _ => 3) (fun _ => 0)] = .ok t ∧
      t.mn.data = [7, 7] ∧ t.mx.data = [3, 3] :=
  ⟨⟨⟨1, 2, [7, 7]⟩, ⟨1, 2, [3, 3]⟩, ⟨1, 2, [0, 0]⟩⟩, by decide +kernel, rfl, rfl⟩

example : ∃ t : RectBoxObj ℚ, rectBoxSession ([.setDimensions 4 4 (fun _ => 7) (fun _ => 3) (fun _ => 0)] ++
      [.setRange ⟨2, 1, [0, -1]⟩ ⟨2, 1, [1, 5]⟩, .setDelta ⟨2, 1, [1 / 2, 1]⟩]) = .ok t ∧
    t.applyDelta [1 / 2, 4] 1 (3 / 4) = .ok [1 / 2, 9 / 2] :=
  ⟨⟨⟨2, 1, [0, -1]⟩, ⟨2, 1, [1, 5]⟩, ⟨2, 1, [1 / 2, 1]⟩⟩, by decide +kernel, by decide +kernel⟩

/-! ## Gaussian boxes -/

section gauss
variable {α : Type} [Field α] [LinearOrder α] [IsStrictOrderedRing α]

theorem gaussBoxCall_ok_iff (s : GaussBoxObj α) (c : GaussBoxCall α) :
    (∃ t, gaussBoxCall s c = .ok t) ↔ AllowedGaussCall c := by
  cases c <;> simp only [gaussBoxCall, AllowedGaussCall]
  case setDimensions r c => split_ifs <;> simp <;> omega
  case setSigma x => split_ifs <;> simp <;> first | assumption | (apply le_of_not_gt; assumption)
  case setDelta d => split_ifs <;> simp <;> first | assumption | (apply le_of_not_gt; assumption)
  all_goals simp

theorem gaussBoxCall_changes (s t : GaussBoxObj α) (c : GaussBoxCall α) (h : gaussBoxCall s c = .ok t) :
    t.shape = (giveGShape c).getD s.shape ∧ t.mu = (giveMu c).getD s.mu ∧
      t.sigma = (giveSigma c).getD s.sigma ∧ t.delta = (giveGDelta c).getD s.delta := by
  cases c <;> simp only [gaussBoxCall] at h <;> (try split_ifs at h) <;> cases h <;>
    exact ⟨rfl, rfl, rfl, rfl⟩

theorem gaussFold_spec (cs : List (GaussBoxCall α)) (s : GaussBoxObj α) :
    ((∃ t, cs.foldlM gaussBoxCall s = .ok t) ↔ ∀ c ∈ cs, AllowedGaussCall c) ∧
    ∀ t, cs.foldlM gaussBoxCall s = .ok t →
      t.shape = lastSet giveGShape cs s.shape ∧ t.mu = lastSet giveMu cs s.mu ∧
      t.sigma = lastSet giveSigma cs s.sigma ∧ t.delta = lastSet giveGDelta cs s.delta := by
  induction cs generalizing s with
  | nil =>
    refine ⟨⟨fun _ c hc => by simp at hc, fun _ => ⟨s, rfl⟩⟩, ?_⟩
    intro t h; cases h
    exact ⟨rfl, rfl, rfl, rfl⟩
  | cons c cs ih =>
    rw [List.foldlM_cons]
    refine ⟨⟨?_, ?_⟩, ?_⟩
    · rintro ⟨t, h⟩
      rw [Out.bind_eq_ok] at h
      obtain ⟨a, ha, h⟩ := h
      intro d hd
      rcases List.mem_cons.1 hd with rfl | hd
      · exact (gaussBoxCall_ok_iff s d).1 ⟨a, ha⟩
      · exact (ih a).1.1 ⟨t, h⟩ d hd
    · intro h
      obtain ⟨a, ha⟩ := (gaussBoxCall_ok_iff s c).2 (h c (by simp))
      obtain ⟨t, ht⟩ := (ih a).1.2 fun d hd => h d (by simp [hd])
      exact ⟨t, by rw [ha]; exact ht⟩
    · intro t h
      rw [Out.bind_eq_ok] at h
      obtain ⟨a, ha, h⟩ := h
      obtain ⟨a1, a2, a3, a4⟩ := gaussBoxCall_changes s a c ha
      have := (ih a).2 t h
      rw [a1, a2, a3, a4] at this
      simpa only [lastSet_cons] using this

/-- **C117** (Gaussian boxes).  A history is accepted exactly if sizes, deviations and step widths are positive;
then each attribute is what was given last. -/
theorem gauss_setup (cs : List (GaussBoxCall α)) :
    ((∃ t, gaussBoxSession cs = .ok t) ↔ ∀ c ∈ cs, AllowedGaussCall c) ∧
    ∀ t, gaussBoxSession cs = .ok t →
      t.shape = lastSet giveGShape cs none ∧ t.mu = lastSet giveMu cs none ∧
      t.sigma = lastSet giveSigma cs none ∧ t.delta = lastSet giveGDelta cs none :=
  gaussFold_spec cs _

/-- **C117** (Gaussian boxes, use).  With size, mean, deviation and step width set: `initialize` gives a point of
that dimension whose entries are the standard normal draws scaled by the last deviation and shifted by the last
mean; `applyConstraint` changes nothing; `applyDelta` changes one entry by at most the step width. -/
theorem gauss_setup_use (cs : List (GaussBoxCall α)) (t : GaussBoxObj α) (h : gaussBoxSession cs = .ok t)
    (r c : Int) (m sg d : α) (hr : lastSet giveGShape cs none = some (r, c)) (hrp : 0 < r ∧ 0 < c)
    (hm : lastSet giveMu cs none = some m) (hs : lastSet giveSigma cs none = some sg)
    (hd : lastSet giveGDelta cs none = some d) (hfit : r * c ≤ 2 ^ 31 - 1) :
    (∀ z : Nat → α, ∃ v, t.initialize z = .ok v ∧ v.length = (r * c).toNat ∧
      ∀ i, ∀ hi : i < v.length, v[i] = z i * sg + m) ∧
    (∀ v, t.applyConstraint v = .ok v) ∧
    (∀ (v : List α) (idx : Nat) (u : α), v.length = (r * c).toNat → idx < (r * c).toNat → 0 ≤ u → u < 1 →
      ∃ w x y, t.applyDelta v idx u = .ok w ∧ SameExcept v w idx ∧ v[idx]? = some x ∧ w[idx]? = some y ∧
        |y - x| ≤ |d|) := by
  obtain ⟨h1, h2, h3, h4⟩ := (gauss_setup cs).2 t h
  rw [hr] at h1; rw [hm] at h2; rw [hs] at h3; rw [hd] at h4
  have hpos : 0 < r * c := Int.mul_pos hrp.1 hrp.2
  have hprod : intProduct r c = .ok (r * c) := (intProduct_ok_iff r c (r * c)).2 ⟨rfl, by linarith, hfit⟩
  refine ⟨?_, fun v => rfl, ?_⟩
  · intro z
    refine ⟨(List.range (r * c).toNat).map fun i => normDScaled (z i) m sg, ?_, by simp, ?_⟩
    · unfold GaussBoxObj.initialize
      rw [h1, h2, h3]
      simp only [readMember, Out.ok_bind]
      rw [if_pos hrp, hprod]
      rfl
    · intro i hi
      simp [normDScaled]
  · intro v idx u hv hi hu0 hu1
    obtain ⟨w, x, y, hw, hse, hx, hy, hle⟩ := applyDelta_gauss d v idx (hv ▸ hi) u hu0 hu1
    rw [hv] at hw
    refine ⟨w, x, y, ?_, hse, hx, hy, hle⟩
    unfold GaussBoxObj.applyDelta
    rw [h1, h4]
    simp only [readMember, Out.ok_bind, hprod]
    exact hw

end gauss

example : gaussBoxSession (α := ℚ) [.setDimensions 2 1, .setSigma 3, .setMu 1, .setSigma 2, .setDelta 1] =
    .ok ⟨some (2, 1), some 1, some 2, some 1⟩ ∧
    (⟨some (2, 1), some 1, some 2, some 1⟩ : GaussBoxObj ℚ).initialize (fun i => i) = .ok [1, 3] := by
  constructor <;> decide +kernel

end Heu
