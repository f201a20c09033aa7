import Verif.Props.TestFunsSO
import Mathlib.Analysis.SpecialFunctions.Trigonometric.Inverse

/-!
# C56, C74, C75, C76: the DTLZ problems
-/

set_option linter.unusedVariables false

namespace Heu
open Spec TestFuns

/-- The result of a run that returned. -/
def Out.toOption {α : Type} : Out α → Option α
  | .ok a => some a
  | _ => none

/-- The objective vector the loop shared by `DTLZ1` to `DTLZ6` builds. -/
def front (s c : ℝ → ℝ) : ℝ → List ℝ → List ℝ
  | p, [] => [p]
  | p, a :: as => front s c (p * c a) as ++ [p * s a]

theorem objLoop_eq (s c : ℝ → ℝ) (t : List ℝ) (p : ℝ) (f : List ℝ) (hM : 1 ≤ f.length)
    (ht : f.length - 1 ≤ t.length) :
    objLoop s c t f.length p f = .ok (front s c p (t.take (f.length - 1))) := by
  obtain ⟨M, hMe⟩ : ∃ M, M = f.length := ⟨_, rfl⟩
  rw [← hMe] at hM ht ⊢
  have gen : ∀ n, n + 1 ≤ M → ∀ (p : ℝ) (f : List ℝ), f.length = M →
      (forDown (fun objIdx (st : ℝ × List ℝ) => do
        let a ← rd t (M - 1 - objIdx)
        let f' ← wr st.2 objIdx (st.1 * s a)
        return (st.1 * c a, f')) n (p, f) >>= fun pf => wr pf.2 0 pf.1) =
      .ok (front s c p ((t.drop (M - 1 - n)).take n) ++ f.drop (n + 1)) := by
    intro n
    induction n with
    | zero =>
      intro _ p f hf
      have : 0 < f.length := by omega
      simp only [forDown, Out.ok_bind, wr, if_pos this, List.take_zero, front]
      cases f with
      | nil => simp at this
      | cons a as => simp
    | succ n ih =>
      intro hn p f hf
      have hr : M - 1 - (n + 1) < t.length := by omega
      have hw : n + 1 < f.length := by omega
      have hstep : forDown (fun objIdx (st : ℝ × List ℝ) => do
          let a ← rd t (M - 1 - objIdx)
          let f' ← wr st.2 objIdx (st.1 * s a)
          return (st.1 * c a, f')) (n + 1) (p, f) =
        forDown (fun objIdx (st : ℝ × List ℝ) => do
          let a ← rd t (M - 1 - objIdx)
          let f' ← wr st.2 objIdx (st.1 * s a)
          return (st.1 * c a, f')) n (p * c t[M - 1 - (n + 1)],
            f.set (n + 1) (p * s t[M - 1 - (n + 1)])) := by
        conv_lhs => rw [forDown]
        simp only [rd_ok hr, Out.ok_bind, wr, if_pos hw, Out.pure_eq]
        rfl
      rw [hstep, ih (by omega) _ _ (by simpa using hf)]
      congr 1
      have hd : t.drop (M - 1 - (n + 1)) = t[M - 1 - (n + 1)] :: t.drop (M - 1 - n) := by
        rw [List.drop_eq_getElem_cons hr]
        congr 2
        omega
      rw [hd, List.take_succ_cons, front, List.append_assoc]
      congr 1
      rw [List.drop_eq_getElem_cons (by simpa using hw), List.drop_set_of_lt (by omega)]
      simp
  have := gen (M - 1) (by omega) p f hMe.symm
  unfold objLoop
  have e : (M - 1) + 1 = M := by omega
  have hz : f.drop M = [] := by rw [hMe, List.drop_length]
  rw [e, Nat.sub_self, List.drop_zero, hz, List.append_nil] at this
  exact this

theorem front_length (s c : ℝ → ℝ) (p : ℝ) (as : List ℝ) :
    (front s c p as).length = as.length + 1 := by
  induction as generalizing p with
  | nil => rfl
  | cons a as ih => simp [front, ih]

theorem front_scale (s c : ℝ → ℝ) (k p : ℝ) (as : List ℝ) :
    front s c (k * p) as = (front s c p as).map (k * ·) := by
  induction as generalizing p with
  | nil => rfl
  | cons a as ih => simp only [front, List.map_append, List.map_cons, List.map_nil]; rw [← ih]; ring_nf

theorem front_sum (s c : ℝ → ℝ) (p : ℝ) (as : List ℝ) (h : ∀ a, s a + c a = 1) :
    (front s c p as).sum = p := by
  induction as generalizing p with
  | nil => simp [front]
  | cons a as ih =>
    simp only [front, List.sum_append, List.sum_cons, List.sum_nil, ih]
    rw [add_zero, ← mul_add, add_comm, h, mul_one]

theorem front_sq (s c : ℝ → ℝ) (p : ℝ) (as : List ℝ) (h : ∀ a, s a ^ 2 + c a ^ 2 = 1) :
    ((front s c p as).map (· ^ 2)).sum = p ^ 2 := by
  induction as generalizing p with
  | nil => simp [front]
  | cons a as ih =>
    simp only [front, List.map_append, List.sum_append, List.map_cons, List.map_nil, List.sum_cons,
      List.sum_nil, ih]
    have := h a
    nlinarith

theorem front_nonneg (s c : ℝ → ℝ) (p : ℝ) (as : List ℝ) (hp : 0 ≤ p)
    (hs : ∀ a ∈ as, 0 ≤ s a) (hc : ∀ a ∈ as, 0 ≤ c a) : ∀ y ∈ front s c p as, 0 ≤ y := by
  induction as generalizing p with
  | nil => simpa [front] using hp
  | cons a as ih =>
    intro y hy
    simp only [front, List.mem_append, List.mem_singleton] at hy
    rcases hy with hy | rfl
    · exact ih _ (mul_nonneg hp (hc a (by simp))) (fun b hb => hs b (by simp [hb]))
        (fun b hb => hc b (by simp [hb])) y hy
    · exact mul_nonneg hp (hs a (by simp))

/-! ### The two terms `g` -/

theorem foldl_const_add (h : ℝ → ℝ) (l : List ℝ) (a : ℝ) :
    l.foldl (fun g t => g + h t) a = a + (l.map h).sum := foldl_add_map h l a

theorem gMulti_eq (v : Vec) (x : List ℝ) (M : Nat) (h1 : 1 ≤ M) (h2 : M ≤ x.length) :
    gMulti v x M = 100 * ((x.drop (M - 1)).map fun t =>
      (t - 0.5) ^ 2 + (1 - Real.cos (20 * Real.pi * (t - 0.5)))).sum := by
  have key : ∀ l : List ℝ, (l.map fun t : ℝ =>
      (t - 0.5) ^ 2 + (1 - Real.cos (20 * Real.pi * (t - 0.5)))).sum =
      (l.length : ℝ) + (l.map fun t : ℝ => (t - 0.5) ^ 2 - Real.cos (20 * Real.pi * (t - 0.5))).sum := by
    intro l
    induction l with
    | nil => simp
    | cons a l ih => simp only [List.map_cons, List.sum_cons, List.length_cons, ih]; push_cast; ring
  cases v with
  | eigen => simp only [gMulti, xM, key]
  | std =>
    simp only [gMulti, xM]
    rw [foldl_add_map (fun t => 100 * ((t - 0.5) * (t - 0.5) - Real.cos (20 * Real.pi * (t - 0.5)))),
      key]
    have hl : ((x.drop (M - 1)).length : ℝ) = (x.length : ℝ) - M + 1 := by
      rw [List.length_drop, Nat.cast_sub (by omega), Nat.cast_sub h1]
      push_cast; ring
    have hsum : ∀ l : List ℝ, (l.map fun t : ℝ => 100 * ((t - 0.5) * (t - 0.5) -
        Real.cos (20 * Real.pi * (t - 0.5)))).sum =
        100 * (l.map fun t : ℝ => (t - 0.5) ^ 2 - Real.cos (20 * Real.pi * (t - 0.5))).sum := by
      intro l
      induction l with
      | nil => simp
      | cons a l ih =>
        simp only [List.map_cons, List.sum_cons]
        rw [ih, mul_add, pow_two]
    rw [hl, hsum, ← mul_add]

theorem gMulti_nonneg (v : Vec) (x : List ℝ) (M : Nat) (h1 : 1 ≤ M) (h2 : M ≤ x.length) :
    0 ≤ gMulti v x M ∧ (gMulti v x M = 0 ↔ ∀ t ∈ x.drop (M - 1), t = 1 / 2) := by
  have hn : ∀ t ∈ x.drop (M - 1), 0 ≤ (t - 0.5) ^ 2 + (1 - Real.cos (20 * Real.pi * (t - 0.5))) :=
    fun t _ => by
      have := Real.cos_le_one (20 * Real.pi * (t - 0.5)); nlinarith [sq_nonneg (t - 0.5)]
  rw [gMulti_eq v x M h1 h2]
  refine ⟨mul_nonneg (by norm_num) (sum_map_nonneg _ _ hn), fun h t ht => ?_, fun h => ?_⟩
  · have := sum_map_eq_zero _ _ hn (by linarith) t ht
    have h1 := Real.cos_le_one (20 * Real.pi * (t - 0.5))
    have : (t - 0.5) ^ 2 = 0 := by nlinarith [sq_nonneg (t - 0.5)]
    have := pow_eq_zero_iff two_ne_zero |>.mp this
    norm_num at this ⊢
    linarith
  · rw [List.map_congr_left (g := fun _ => (0 : ℝ)) (fun t ht => by rw [h t ht]; norm_num)]
    simp

theorem gSphere_eq (v : Vec) (x : List ℝ) (M : Nat) :
    gSphere v x M = ((x.drop (M - 1)).map fun t => (t - 0.5) ^ 2).sum := by
  cases v with
  | eigen => rfl
  | std =>
    simp only [gSphere, xM]
    rw [foldl_add_map (fun t => square (t - 0.5)), zero_add]
    simp only [square, pow_two]

theorem gSphere_nonneg (v : Vec) (x : List ℝ) (M : Nat) :
    0 ≤ gSphere v x M ∧ (gSphere v x M = 0 ↔ ∀ t ∈ x.drop (M - 1), t = 1 / 2) := by
  have hn : ∀ t ∈ x.drop (M - 1), 0 ≤ (t - 0.5) ^ 2 := fun t _ => sq_nonneg _
  rw [gSphere_eq v x M]
  refine ⟨sum_map_nonneg _ _ hn, fun h t ht => ?_, fun h => ?_⟩
  · have := sum_map_eq_zero _ _ hn h t ht
    have := pow_eq_zero_iff two_ne_zero |>.mp this
    norm_num at this ⊢
    linarith
  · rw [List.map_congr_left (g := fun _ => (0 : ℝ)) (fun t ht => by rw [h t ht]; norm_num)]
    simp

theorem assertSize_ok {x f : List ℝ} (h : f.length ≤ x.length) : assertSize x f = .ok () := by
  unfold assertSize
  rw [if_pos (by omega)]

/-! ### Dominance and sums -/

theorem dom_sum {a b : List ℝ} (h : DominatesL a b) : a.sum < b.sum := by
  obtain ⟨h, hne⟩ := h
  induction h with
  | nil => exact absurd rfl hne
  | @cons x y xs ys hxy hxs ih =>
    simp only [List.sum_cons]
    by_cases hx : xs = ys
    · subst hx
      have : x ≠ y := fun e => hne (by rw [e])
      have := lt_of_le_of_ne hxy this
      linarith
    · have := ih hx; linarith

theorem forall2_sq {a b : List ℝ} (h : List.Forall₂ (· ≤ ·) a b) (ha : ∀ y ∈ a, 0 ≤ y) :
    List.Forall₂ (· ≤ ·) (a.map (· ^ 2)) (b.map (· ^ 2)) := by
  induction h with
  | nil => simp
  | @cons x y xs ys hxy hxs ih =>
    have := ha x (by simp)
    simp only [List.map_cons, List.forall₂_cons]
    exact ⟨by nlinarith, ih fun y hy => ha y (by simp [hy])⟩

theorem dom_sq {a b : List ℝ} (h : DominatesL a b) (ha : ∀ y ∈ a, 0 ≤ y) :
    (a.map (· ^ 2)).sum < (b.map (· ^ 2)).sum := by
  refine dom_sum ⟨forall2_sq h.1 ha, fun e => h.2 ?_⟩
  have hle := h.1
  clear h
  induction hle with
  | nil => rfl
  | @cons x y xs ys hxy hxs ih =>
    simp only [List.map_cons, List.cons.injEq] at e
    have hx := ha x (by simp)
    rw [ih (fun y hy => ha y (by simp [hy])) e.2]
    congr 1
    nlinarith [sq_nonneg (x - y)]

theorem scale_dom {r : List ℝ} {k : ℝ} (hr : ∀ y ∈ r, 0 ≤ y) (hk : 1 < k) (hpos : ∃ y ∈ r, y ≠ 0) :
    DominatesL r (r.map (k * ·)) := by
  constructor
  · clear hpos
    induction r with
    | nil => simp
    | cons a r ih =>
      have := hr a (by simp)
      simp only [List.map_cons, List.forall₂_cons]
      exact ⟨by nlinarith, ih fun y hy => hr y (by simp [hy])⟩
  · intro e
    obtain ⟨y, hy, hy0⟩ := hpos
    obtain ⟨i, hi, rfl⟩ := List.mem_iff_getElem.mp hy
    have h1 := congrArg (fun l => l[i]?) e
    simp only [List.getElem?_map, List.getElem?_eq_getElem hi, Option.map_some, Option.some.injEq] at h1
    have : (k - 1) * r[i] = 0 := by linarith
    rcases mul_eq_zero.mp this with h | h
    · linarith
    · exact hy0 h

/-! ### C56: DTLZ1 to DTLZ4 -/

/-- The vector that has the first `M - 1` entries of `x` and `1/2` behind them. -/
theorem pull_cube {n : Nat} {x : List ℝ} (M : Nat) (hx : UnitCube n x) :
    UnitCube n (x.take (M - 1) ++ (x.drop (M - 1)).map fun _ => (1 / 2 : ℝ)) := by
  refine ⟨?_, fun t ht => ?_⟩
  · rw [List.length_append, List.length_map, List.length_take, List.length_drop, ← hx.1]; omega
  · rw [List.mem_append] at ht
    rcases ht with ht | ht
    · exact hx.2 t (List.mem_of_mem_take ht)
    · rw [List.mem_map] at ht
      obtain ⟨_, _, rfl⟩ := ht
      norm_num

/-- Generic form of the Pareto set: an evaluation that is a scaled front whose size (`measure`) is
monotone, and whose scale is smallest exactly when the tail is `1/2`. -/
theorem pareto_generic (ev : List ℝ → Option (List ℝ)) (s c : ℝ → ℝ) (M n : Nat) (hM : 1 ≤ M)
    (hn : M ≤ n) (P : List ℝ → ℝ) (p0 : ℝ) (hp0 : 0 < p0)
    (hev : ∀ x, UnitCube n x → ev x = some (front s c (P x) (x.take (M - 1))))
    (hP : ∀ x, UnitCube n x → p0 ≤ P x ∧ (P x = p0 ↔ ∀ t ∈ x.drop (M - 1), t = 1 / 2))
    (hs : ∀ a, 0 ≤ a → a ≤ 1 → 0 ≤ s a) (hc : ∀ a, 0 ≤ a → a ≤ 1 → 0 ≤ c a)
    (size : List ℝ → ℝ) (q : ℝ → ℝ) (hq : ∀ a b, p0 ≤ a → q a < q b → 0 ≤ b → a < b)
    (hsize : ∀ p as, size (front s c p as) = q p)
    (hdom : ∀ a b, (∀ y ∈ a, 0 ≤ y) → DominatesL a b → size a < size b)
    (x : List ℝ) (hx : UnitCube n x) :
    ParetoOptimal ev (UnitCube n) x ↔ ∀ t ∈ x.drop (M - 1), t = 1 / 2 := by
  have hpos : ∀ x, UnitCube n x → ∀ y ∈ front s c (P x) (x.take (M - 1)), 0 ≤ y := fun x hx =>
    front_nonneg s c _ _ (le_trans hp0.le (hP x hx).1)
      (fun a ha => hs a (hx.2 a (List.mem_of_mem_take ha)).1 (hx.2 a (List.mem_of_mem_take ha)).2)
      (fun a ha => hc a (hx.2 a (List.mem_of_mem_take ha)).1 (hx.2 a (List.mem_of_mem_take ha)).2)
  constructor
  · rintro ⟨_, r, hr, hno⟩
    rw [hev x hx] at hr
    obtain rfl := Option.some.inj hr
    rw [← (hP x hx).2]
    by_contra hne
    have hlt : p0 < P x := lt_of_le_of_ne (hP x hx).1 (Ne.symm hne)
    have hx' := pull_cube M hx
    have hlen : M - 1 ≤ x.length := by rw [hx.1]; omega
    have htake : (x.take (M - 1) ++ (x.drop (M - 1)).map fun _ => (1 / 2 : ℝ)).take (M - 1) =
        x.take (M - 1) := by
      rw [List.take_append_of_le_length (by simp; omega), List.take_take, Nat.min_self]
    have hdrop : (x.take (M - 1) ++ (x.drop (M - 1)).map fun _ => (1 / 2 : ℝ)).drop (M - 1) =
        (x.drop (M - 1)).map fun _ => (1 / 2 : ℝ) := by
      rw [List.drop_append_of_le_length (by simp; omega), List.drop_take, Nat.sub_self,
        List.take_zero, List.nil_append]
    have hP' : P (x.take (M - 1) ++ (x.drop (M - 1)).map fun _ => (1 / 2 : ℝ)) = p0 := by
      rw [(hP _ hx').2, hdrop]
      intro t ht
      rw [List.mem_map] at ht
      obtain ⟨_, _, rfl⟩ := ht
      rfl
    refine hno ⟨_, _, hx', hev _ hx', ?_⟩
    have hnn := hpos _ hx'
    rw [hP', htake] at hnn ⊢
    have hk : P x = (P x / p0) * p0 := by field_simp
    rw [hk, front_scale]
    refine scale_dom hnn (by rw [lt_div_iff₀ hp0]; linarith) ?_
    by_contra hz
    push Not at hz
    have h1 := hsize p0 (x.take (M - 1))
    have h2 := hsize (2 * p0) (x.take (M - 1))
    have hall : ∀ k : ℝ, (front s c p0 (x.take (M - 1))).map (k * ·) = front s c p0 (x.take (M - 1)) := by
      intro k
      conv_rhs => rw [← List.map_id (front s c p0 (x.take (M - 1)))]
      exact List.map_congr_left fun y hy => by simp [hz y hy]
    -- the front of a positive scale is not the zero vector
    have hz' : ∀ (as : List ℝ) (p : ℝ), (∀ y ∈ front s c p as, y = 0) → size (front s c p as) =
        size (front s c 0 as) := by
      intro as p h
      have : front s c p as = front s c 0 as := by
        have e : (0 : ℝ) = 0 * p := by ring
        rw [e, front_scale]
        conv_lhs => rw [← List.map_id (front s c p as)]
        exact List.map_congr_left fun y hy => by simp [h y hy]
      rw [this]
    have h3 := hz' _ _ hz
    rw [hsize, hsize] at h3
    have hpp := hpos _ hx'
    -- dominance between the zero vector and a scaled copy would contradict `hq`
    have hPx := hsize (P x) (x.take (M - 1))
    rw [hk, front_scale, hall, hsize] at hPx
    have hcontra : ∀ y ∈ front s c p0 (x.take (M - 1)), 0 ≤ y := hnn
    rw [← hk] at hPx
    -- `q p0 = q (P x)` although `p0 < P x`; use strictness through `hdom` on unit vectors
    have hlast : size (p0 :: []) < size (P x :: []) := by
      refine hdom _ _ (by simpa using hp0.le) ⟨by simpa using hlt.le, fun e => ?_⟩
      simp at e
      linarith
    have f1 := hsize p0 []
    have f2 := hsize (P x) []
    simp only [front] at f1 f2
    rw [f1, f2, hPx] at hlast
    exact lt_irrefl _ hlast
  · intro h
    refine ⟨hx, _, hev x hx, ?_⟩
    rintro ⟨x', r', hx', hr', hd⟩
    rw [hev x' hx'] at hr'
    obtain rfl := Option.some.inj hr'
    have h1 := hdom _ _ (hpos x' hx') hd
    rw [hsize, hsize] at h1
    have h2 := hq _ _ (hP x' hx').1 h1 (le_trans hp0.le (hP x hx).1)
    rw [(hP x hx).2.mpr h] at h2
    exact absurd (hP x' hx').1 (not_le.mpr h2)

theorem lin_pos : (∀ a : ℝ, 0 ≤ a → a ≤ 1 → 0 ≤ 1 - a) ∧ (∀ a : ℝ, 0 ≤ a → a ≤ 1 → 0 ≤ a) :=
  ⟨fun a _ h => by linarith, fun a h _ => h⟩

theorem quarter_sin {a : ℝ} (h0 : 0 ≤ a) (h1 : a ≤ 1) : 0 ≤ Real.sin (Real.pi / 2 * a) := by
  have := Real.pi_pos
  exact Real.sin_nonneg_of_nonneg_of_le_pi (by positivity) (by nlinarith)

theorem quarter_cos {a : ℝ} (h0 : 0 ≤ a) (h1 : a ≤ 1) : 0 ≤ Real.cos (Real.pi / 2 * a) := by
  have := Real.pi_pos
  exact Real.cos_nonneg_of_mem_Icc ⟨by nlinarith, by nlinarith⟩

theorem dtlz1_eq (v : Vec) {x f : List ℝ} (hM : 1 ≤ f.length) (hN : f.length ≤ x.length) :
    dtlz1 v x f = .ok (front (fun t => 1 - t) (fun t => t) (0.5 * (1 + gMulti v x f.length))
      (x.take (f.length - 1))) := by
  unfold dtlz1
  rw [assertSize_ok hN, Out.ok_bind, objLoop_eq _ _ _ _ _ hM (by omega)]

/-- C56 (DTLZ1): for every vector with at least as many variables as objectives, of either kind and
whatever the result vector held before, the objectives sum to at least 1/2, and to exactly 1/2 iff
every distance variable (the last `N - M + 1`) is 1/2; in the unit cube no objective is negative. -/
theorem dtlz1_front (v : Vec) (x f : List ℝ) (hM : 1 ≤ f.length) (hN : f.length ≤ x.length) :
    ∃ r, dtlz1 v x f = .ok r ∧ r.length = f.length ∧ 1 / 2 ≤ r.sum ∧
      (r.sum = 1 / 2 ↔ ∀ t ∈ x.drop (f.length - 1), t = 1 / 2) ∧
      ((∀ t ∈ x, 0 ≤ t ∧ t ≤ 1) → ∀ y ∈ r, 0 ≤ y) := by
  have hg := gMulti_nonneg v x f.length hM hN
  refine ⟨_, dtlz1_eq v hM hN, ?_, ?_, ?_, fun h => ?_⟩
  · rw [front_length, List.length_take]; omega
  · rw [front_sum _ _ _ _ fun a => by ring]; norm_num; linarith [hg.1]
  · rw [front_sum _ _ _ _ fun a => by ring, ← hg.2]
    constructor <;> intro h <;> norm_num at h ⊢ <;> linarith
  · exact front_nonneg _ _ _ _ (by norm_num; linarith [hg.1])
      (fun a ha => by have := h a (List.mem_of_mem_take ha); linarith [this.2])
      (fun a ha => (h a (List.mem_of_mem_take ha)).1)

/-- C56 (DTLZ1): the Pareto-optimal points of the unit cube are exactly those whose distance
variables are all 1/2. -/
theorem dtlz1_pareto (v : Vec) (f x : List ℝ) (n : Nat) (hM : 1 ≤ f.length) (hn : f.length ≤ n)
    (hx : UnitCube n x) :
    ParetoOptimal (fun y => (dtlz1 v y f).toOption) (UnitCube n) x ↔
      ∀ t ∈ x.drop (f.length - 1), t = 1 / 2 := by
  refine pareto_generic _ (fun t => 1 - t) (fun t => t) f.length n hM hn
    (fun x => 0.5 * (1 + gMulti v x f.length)) 0.5 (by norm_num) ?_ ?_ lin_pos.1 lin_pos.2
    List.sum id (fun a b _ h _ => h) (fun p as => front_sum _ _ _ _ fun a => by ring)
    (fun a b _ h => dom_sum h) x hx
  · intro x hx
    rw [dtlz1_eq v hM (by rw [hx.1]; exact hn)]
    rfl
  · intro x hx
    have hg := gMulti_nonneg v x f.length hM (by rw [hx.1]; exact hn)
    refine ⟨by norm_num; linarith [hg.1], ?_⟩
    rw [← hg.2]
    constructor <;> intro h <;> norm_num at h ⊢ <;> linarith

/-- Every non-negative vector summing to `p` is a linear front. -/
theorem front_lin_surj (r : List ℝ) (p : ℝ) (hr : r ≠ []) (h0 : ∀ y ∈ r, 0 ≤ y) (hs : r.sum = p) :
    ∃ as : List ℝ, as.length + 1 = r.length ∧ (∀ a ∈ as, 0 ≤ a ∧ a ≤ 1) ∧
      front (fun t => 1 - t) (fun t => t) p as = r := by
  induction r using List.reverseRecOn generalizing p with
  | nil => exact absurd rfl hr
  | append_singleton r y ih =>
    by_cases hr' : r = []
    · subst hr'
      refine ⟨[], by simp, by simp, ?_⟩
      simp at hs
      simp [front, hs]
    · rw [List.sum_append, List.sum_singleton] at hs
      have hy : 0 ≤ y := h0 y (by simp)
      have hrs : 0 ≤ r.sum := List.sum_nonneg fun z hz => h0 z (by simp [hz])
      obtain ⟨as, hl, ha, hf⟩ := ih r.sum hr' (fun z hz => h0 z (by simp [hz])) rfl
      rcases eq_or_lt_of_le (show 0 ≤ p by linarith) with hp | hp
      · have : y = 0 := by linarith
        have h2 : r.sum = 0 := by linarith
        refine ⟨0 :: as, by simp [hl], ?_, ?_⟩
        · intro a h; rcases List.mem_cons.mp h with rfl | h
          · norm_num
          · exact ha a h
        · rw [front, ← hp]
          simp only [zero_mul]
          rw [← h2, hf, h2, this]
      · refine ⟨(1 - y / p) :: as, by simp [hl], ?_, ?_⟩
        · intro a h; rcases List.mem_cons.mp h with rfl | h
          · have : y / p ≤ 1 := by rw [div_le_one hp]; linarith
            have : 0 ≤ y / p := by positivity
            constructor <;> linarith
          · exact ha a h
        · rw [front]
          have e1 : p * (1 - y / p) = r.sum := by field_simp; linarith
          have e2 : p * (1 - (1 - y / p)) = y := by field_simp; ring
          rw [e1, e2, hf]

/-- C56 (DTLZ1): every point of the front (non-negative, sum 1/2) is the value of some point of the
unit cube. -/
theorem dtlz1_front_attained (v : Vec) (f r : List ℝ) (n : Nat) (hM : 1 ≤ f.length)
    (hn : f.length ≤ n) (hr : r.length = f.length) (h0 : ∀ y ∈ r, 0 ≤ y) (hs : r.sum = 1 / 2) :
    ∃ x, UnitCube n x ∧ dtlz1 v x f = .ok r := by
  obtain ⟨as, hl, ha, hf⟩ := front_lin_surj r (1 / 2) (by rintro rfl; simp at hr; omega) h0 hs
  have hxl : (as ++ List.replicate (n - as.length) (1 / 2 : ℝ)).length = n := by
    rw [List.length_append, List.length_replicate]; omega
  have hal : f.length - 1 = as.length := by omega
  refine ⟨as ++ List.replicate (n - as.length) (1 / 2), ⟨hxl, ?_⟩, ?_⟩
  · intro t ht
    rw [List.mem_append] at ht
    rcases ht with ht | ht
    · exact ha t ht
    · rw [List.eq_of_mem_replicate ht]; norm_num
  · rw [dtlz1_eq v hM (by rw [hxl]; exact hn)]
    have hg := (gMulti_nonneg v (as ++ List.replicate (n - as.length) (1 / 2 : ℝ)) f.length hM
      (by rw [hxl]; exact hn)).2.mpr (by
        intro t ht
        rw [hal, List.drop_left] at ht
        exact List.eq_of_mem_replicate ht)
    rw [hg, hal, List.take_left, ← hf]
    norm_num

theorem dtlz2_eq (v : Vec) {x f : List ℝ} (hM : 1 ≤ f.length) (hN : f.length ≤ x.length) :
    dtlz2 v x f = .ok (front (fun t => Real.sin (Real.pi / 2 * t)) (fun t => Real.cos (Real.pi / 2 * t))
      (1 + gSphere v x f.length) (x.take (f.length - 1))) := by
  unfold dtlz2
  rw [assertSize_ok hN, Out.ok_bind, objLoop_eq _ _ _ _ _ hM (by omega)]

theorem dtlz3_eq (v : Vec) {x f : List ℝ} (hM : 1 ≤ f.length) (hN : f.length ≤ x.length) :
    dtlz3 v x f = .ok (front (fun t => Real.sin (Real.pi / 2 * t)) (fun t => Real.cos (Real.pi / 2 * t))
      (1 + gMulti v x f.length) (x.take (f.length - 1))) := by
  unfold dtlz3
  rw [assertSize_ok hN, Out.ok_bind, objLoop_eq _ _ _ _ _ hM (by omega)]

theorem dtlz4_eq (k : Nat) (v : Vec) {x f : List ℝ} (hM : 1 ≤ f.length) (hN : f.length ≤ x.length) :
    dtlz4 k v x f = .ok (front (fun t => Real.sin (Real.pi / 2 * t ^ k))
      (fun t => Real.cos (Real.pi / 2 * t ^ k))
      (1 + gSphere v x f.length) (x.take (f.length - 1))) := by
  unfold dtlz4
  rw [assertSize_ok hN, Out.ok_bind, objLoop_eq _ _ _ _ _ hM (by omega)]

/-- The spherical problems `DTLZ2`, `DTLZ3` and `DTLZ4<k>`. -/
inductive Spherical where
  | two
  | three
  | four (k : Nat)

/-- The code of a spherical problem. -/
noncomputable def Spherical.eval : Spherical → Vec → List ℝ → List ℝ → Out (List ℝ)
  | .two => dtlz2
  | .three => dtlz3
  | .four k => dtlz4 k

/-- Both shapes of `g`. -/
noncomputable def Spherical.g : Spherical → Vec → List ℝ → Nat → ℝ
  | .three => gMulti
  | _ => gSphere

/-- The power applied to the position variables. -/
def Spherical.pow : Spherical → Nat
  | .four k => k
  | _ => 1

theorem spherical_eq (P : Spherical) (v : Vec) {x f : List ℝ} (hM : 1 ≤ f.length)
    (hN : f.length ≤ x.length) :
    P.eval v x f = .ok (front (fun t => Real.sin (Real.pi / 2 * t ^ P.pow))
      (fun t => Real.cos (Real.pi / 2 * t ^ P.pow)) (1 + P.g v x f.length)
      (x.take (f.length - 1))) := by
  cases P with
  | two => simpa [Spherical.eval, Spherical.g, Spherical.pow] using dtlz2_eq v hM hN
  | three => simpa [Spherical.eval, Spherical.g, Spherical.pow] using dtlz3_eq v hM hN
  | four k => exact dtlz4_eq k v hM hN

theorem spherical_g (P : Spherical) (v : Vec) (x : List ℝ) (M : Nat) (h1 : 1 ≤ M)
    (h2 : M ≤ x.length) :
    0 ≤ P.g v x M ∧ (P.g v x M = 0 ↔ ∀ t ∈ x.drop (M - 1), t = 1 / 2) := by
  cases P with
  | two => exact gSphere_nonneg v x M
  | three => exact gMulti_nonneg v x M h1 h2
  | four k => exact gSphere_nonneg v x M

theorem pow_unit {a : ℝ} (k : Nat) (h0 : 0 ≤ a) (h1 : a ≤ 1) : 0 ≤ a ^ k ∧ a ^ k ≤ 1 :=
  ⟨pow_nonneg h0 k, pow_le_one₀ h0 h1⟩

/-- C56 (DTLZ2, DTLZ3, DTLZ4): the squared objectives sum to at least 1, and to exactly 1 iff every
distance variable is 1/2; in the unit cube no objective is negative. -/
theorem spherical_front (P : Spherical) (v : Vec) (x f : List ℝ) (hM : 1 ≤ f.length)
    (hN : f.length ≤ x.length) :
    ∃ r, P.eval v x f = .ok r ∧ r.length = f.length ∧ 1 ≤ (r.map (· ^ 2)).sum ∧
      ((r.map (· ^ 2)).sum = 1 ↔ ∀ t ∈ x.drop (f.length - 1), t = 1 / 2) ∧
      ((∀ t ∈ x, 0 ≤ t ∧ t ≤ 1) → ∀ y ∈ r, 0 ≤ y) := by
  have hg := spherical_g P v x f.length hM hN
  have hsq := front_sq (fun t => Real.sin (Real.pi / 2 * t ^ P.pow))
      (fun t => Real.cos (Real.pi / 2 * t ^ P.pow)) (1 + P.g v x f.length)
      (x.take (f.length - 1)) (fun a => Real.sin_sq_add_cos_sq _)
  refine ⟨_, spherical_eq P v hM hN, ?_, ?_, ?_, fun h => ?_⟩
  · rw [front_length, List.length_take]; omega
  · rw [hsq]; nlinarith [hg.1]
  · rw [hsq, ← hg.2]
    constructor
    · intro h; nlinarith [hg.1]
    · intro h; rw [h]; norm_num
  · refine front_nonneg _ _ _ _ (by linarith [hg.1]) (fun a ha => ?_) (fun a ha => ?_)
    · have := h a (List.mem_of_mem_take ha)
      have := pow_unit P.pow this.1 this.2
      exact quarter_sin this.1 this.2
    · have := h a (List.mem_of_mem_take ha)
      have := pow_unit P.pow this.1 this.2
      exact quarter_cos this.1 this.2

/-- C56: the Pareto-optimal points of the spherical problems in the unit cube are exactly those
whose distance variables are all 1/2. -/
theorem spherical_pareto (P : Spherical) (v : Vec) (f x : List ℝ) (n : Nat) (hM : 1 ≤ f.length)
    (hn : f.length ≤ n) (hx : UnitCube n x) :
    ParetoOptimal (fun y => (P.eval v y f).toOption) (UnitCube n) x ↔
      ∀ t ∈ x.drop (f.length - 1), t = 1 / 2 := by
  refine pareto_generic _ (fun t => Real.sin (Real.pi / 2 * t ^ P.pow))
    (fun t => Real.cos (Real.pi / 2 * t ^ P.pow)) f.length n hM hn
    (fun x => 1 + P.g v x f.length) 1 (by norm_num) ?_ ?_
    (fun a h0 h1 => quarter_sin (pow_unit _ h0 h1).1 (pow_unit _ h0 h1).2)
    (fun a h0 h1 => quarter_cos (pow_unit _ h0 h1).1 (pow_unit _ h0 h1).2)
    (fun r => (r.map (· ^ 2)).sum) (· ^ 2) (fun a b h1 h h2 => ?_)
    (fun p as => front_sq _ _ _ _ fun a => Real.sin_sq_add_cos_sq _)
    (fun a b h0 h => dom_sq h h0) x hx
  · intro x hx
    rw [spherical_eq P v hM (by rw [hx.1]; exact hn)]
    rfl
  · intro x hx
    have hg := spherical_g P v x f.length hM (by rw [hx.1]; exact hn)
    refine ⟨by linarith [hg.1], ?_⟩
    rw [← hg.2]
    constructor <;> intro h <;> linarith
  · have h' : a ^ 2 < b ^ 2 := h
    nlinarith

/-- Non-vacuity: three objectives, five variables; a Pareto-optimal point and one that is not. -/
example : UnitCube 5 [0.3, 0.9, 1/2, 1/2, 1/2] ∧
    ParetoOptimal (fun y => (dtlz1 .std y [7, 7, 7]).toOption) (UnitCube 5) [0.3, 0.9, 1/2, 1/2, 1/2] ∧
    ¬ ParetoOptimal (fun y => (dtlz1 .eigen y [7, 7, 7]).toOption) (UnitCube 5) [0.3, 0.9, 1/2, 0, 1/2] ∧
    ParetoOptimal (fun y => (dtlz3 .eigen y [7, 7, 7]).toOption) (UnitCube 5) [0.3, 0.9, 1/2, 1/2, 1/2] := by
  have h1 : UnitCube 5 [0.3, 0.9, 1/2, 1/2, 1/2] := by
    refine ⟨rfl, ?_⟩
    intro t ht
    simp only [List.mem_cons, List.not_mem_nil, or_false] at ht
    rcases ht with rfl | rfl | rfl | rfl | rfl <;> norm_num
  have h2 : UnitCube 5 [0.3, 0.9, 1/2, 0, 1/2] := by
    refine ⟨rfl, ?_⟩
    intro t ht
    simp only [List.mem_cons, List.not_mem_nil, or_false] at ht
    rcases ht with rfl | rfl | rfl | rfl | rfl <;> norm_num
  refine ⟨h1, (dtlz1_pareto .std [7, 7, 7] _ 5 (by simp) (by simp) h1).2 (by simp), ?_,
    (spherical_pareto .three .eigen [7, 7, 7] _ 5 (by simp) (by simp) h1).2 (by simp)⟩
  rw [dtlz1_pareto .eigen [7, 7, 7] _ 5 (by simp) (by simp) h2]
  simp

end Heu
