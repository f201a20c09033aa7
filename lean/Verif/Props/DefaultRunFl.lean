import Verif.Lemmas.DefaultRunFl

/-!
# C147: runs with the library's operators for real variables, in floating-point arithmetic

Initialisation and mutation never leave the box.  The exchange crossovers neither.  The arithmetic crossover may leave
it by rounding, generation after generation: a margin that grows with their number bounds all candidates of a run.
-/

set_option linter.unusedSectionVars false
set_option linter.unusedVariables false
set_option linter.unusedSimpArgs false

namespace Heu
open Spec

variable {F : Fmt}

theorem number_le_of_le {x y : Dbl F} (hx : x.val.Finite F) (hy : y.val.Finite F) (hle : x ≤ y) :
    Fl.number F x.val ≤ Fl.number F y.val := by
  obtain ⟨s, n, hx, -⟩ := hx
  obtain ⟨t, m, hy, -⟩ := hy
  rw [dbl_le_def, hx, hy] at hle
  rw [hx, hy, number_fin, number_fin]
  simp only [Fl.le, decide_eq_true_eq] at hle
  exact div_le_div_of_nonneg_right (by exact_mod_cast hle) (by positivity)

theorem le_of_number_le {x y : Dbl F} (hx : x.val.Finite F) (hy : y.val.Finite F)
    (hle : Fl.number F x.val ≤ Fl.number F y.val) : x ≤ y := by
  obtain ⟨s, n, hx, -⟩ := hx
  obtain ⟨t, m, hy, -⟩ := hy
  rw [hx, hy, number_fin, number_fin, div_le_div_iff_of_pos_right (by positivity)] at hle
  rw [dbl_le_def, hx, hy]
  simp only [Fl.le, decide_eq_true_eq]
  exact_mod_cast hle

/-! ## The margin -/

theorem boxSize_nonneg (b : Box (Dbl F)) (i : Nat) : 0 ≤ boxSize b i := le_trans (abs_nonneg _) (le_max_left _ _)

theorem flEta_eq (F : Fmt) : flEta F = 1 / 2 ^ (F.mb + 1) * (2 ^ (F.mb + 1) / 2 ^ (F.one + 1)) := by
  unfold flEta
  have : (2 : ℚ) ^ (F.mb + 1) ≠ 0 := by positivity
  field_simp

theorem drift_zero (b : Box (Dbl F)) (i : Nat) : drift b 0 i = 0 := by simp [drift]

theorem drift_succ (b : Box (Dbl F)) (g i : Nat) :
    drift b (g + 1) i = drift b g i + (4 * flEps F * (boxSize b i + drift b g i) + 4 * flEta F) := by
  rw [flEta_eq]
  unfold drift flEps
  rw [pow_succ]
  ring

theorem drift_nonneg (b : Box (Dbl F)) (g i : Nat) : 0 ≤ drift b g i := by
  unfold drift
  have h : (1 : ℚ) ≤ (1 + 4 / 2 ^ (F.mb + 1)) ^ g := one_le_pow₀ (le_add_of_nonneg_right (by positivity))
  exact mul_nonneg (by linarith) (add_nonneg (boxSize_nonneg b i) (by positivity))

theorem drift_le_succ (b : Box (Dbl F)) (g i : Nat) : drift b g i ≤ drift b (g + 1) i := by
  rw [drift_succ]
  have h1 := drift_nonneg b g i
  have h2 := boxSize_nonneg b i
  have : 0 ≤ flEps F := by unfold flEps; positivity
  have : 0 ≤ flEta F := by unfold flEta; positivity
  have : 0 ≤ flEps F * (boxSize b i + drift b g i) := mul_nonneg ‹_› (by linarith)
  linarith

theorem drift_mono (b : Box (Dbl F)) {g g' : Nat} (h : g ≤ g') (i : Nat) : drift b g i ≤ drift b g' i :=
  monotone_nat_of_le_succ (f := fun g => drift b g i) (fun g => drift_le_succ b g i) h

/-- **C147**: the margin grows linearly as long as it is small: for at most `2^mb / 8` generations (`2^49` for `double`)
it is at most `8 ε · g` times the size of the box (plus twice the smallest normal number). -/
theorem drift_linear (b : Box (Dbl F)) (g i : Nat) (hg : 8 * g ≤ 2 ^ (F.mb + 1)) :
    drift b g i ≤ 8 * g / 2 ^ (F.mb + 1) * (boxSize b i + 2 ^ (F.mb + 1) / 2 ^ (F.one + 1)) := by
  have hx : (0 : ℚ) < 4 / 2 ^ (F.mb + 1) := by positivity
  have key : ∀ n : Nat, 2 * (n : ℚ) * (4 / 2 ^ (F.mb + 1)) ≤ 1 →
      (1 + 4 / 2 ^ (F.mb + 1) : ℚ) ^ n ≤ 1 + 2 * n * (4 / 2 ^ (F.mb + 1)) := by
    generalize (4 / 2 ^ (F.mb + 1) : ℚ) = x at hx
    intro n
    induction n with
    | zero => intro _; simp
    | succ n ih =>
      intro h
      push_cast at h ⊢
      have h1 : 2 * (n : ℚ) * x ≤ 1 := by nlinarith
      have := ih h1
      rw [pow_succ]
      have : (1 + x) ^ n * (1 + x) ≤ (1 + 2 * n * x) * (1 + x) := mul_le_mul_of_nonneg_right this (by linarith)
      nlinarith
  have hq : 2 * (g : ℚ) * (4 / 2 ^ (F.mb + 1)) ≤ 1 := by
    have : (8 * g : ℚ) ≤ 2 ^ (F.mb + 1) := by exact_mod_cast hg
    have h2 : (0 : ℚ) < 2 ^ (F.mb + 1) := by positivity
    rw [show 2 * (g : ℚ) * (4 / 2 ^ (F.mb + 1)) = 8 * g / 2 ^ (F.mb + 1) by ring, div_le_one h2]
    exact this
  have h := key g hq
  unfold drift
  refine mul_le_mul_of_nonneg_right ?_ (add_nonneg (boxSize_nonneg b i) (by positivity))
  calc _ ≤ 2 * (g : ℚ) * (4 / 2 ^ (F.mb + 1)) := by linarith
    _ = _ := by ring

/-! ## The operators -/

theorem nearBox_zero (b : Box (Dbl F)) (hb : SaneBox b) (v : List (Dbl F)) :
    NearBox b (fun _ => 0) v ↔ InBox b v ∧ ∀ x ∈ v, x.val.Finite F := by
  constructor
  · intro h
    refine ⟨⟨h.1, fun i hi => ?_⟩, ?_⟩
    · obtain ⟨f, lo, hi'⟩ := h.2 i hi
      obtain ⟨f1, f2, -⟩ := hb i (h.1 ▸ hi)
      exact ⟨le_of_number_le f1 f (by linarith), le_of_number_le f f2 (by linarith)⟩
    · intro x hx
      obtain ⟨i, hi, rfl⟩ := List.mem_iff_getElem.1 hx
      exact (h.2 i hi).1
  · rintro ⟨h, hf⟩
    refine ⟨h.1, fun i hi => ?_⟩
    have f := hf _ (List.getElem_mem hi)
    obtain ⟨f1, f2, -⟩ := hb i (h.1 ▸ hi)
    have := number_le_of_le f1 f (h.2 i hi).1
    have := number_le_of_le f f2 (h.2 i hi).2
    exact ⟨f, by linarith, by linarith⟩

theorem NearBox.mono' {b : Box (Dbl F)} {m m' : Nat → ℚ} (hm : ∀ i, m i ≤ m' i) {v : List (Dbl F)} (h : NearBox b m v) :
    NearBox b m' v :=
  ⟨h.1, fun i hi => ⟨(h.2 i hi).1, by have := (h.2 i hi).2.1; linarith [hm i], by have := (h.2 i hi).2.2; linarith [hm i]⟩⟩

/-- Entries of one of two points near the box. -/
theorem nearBox_exchange {b : Box (Dbl F)} {m : Nat → ℚ} {p q c : List (Dbl F)} (hp : NearBox b m p) (hq : NearBox b m q)
    (hc : c.length = p.length) (hi : ∀ i, i < p.length → c[i]? = p[i]? ∨ c[i]? = q[i]?) : NearBox b m c := by
  refine ⟨hc.trans hp.1, fun i h => ?_⟩
  have h1 : i < p.length := by omega
  have h2 : i < q.length := by have := hp.1; have := hq.1; omega
  rcases hi i h1 with he | he
  · rw [List.getElem?_eq_getElem h, List.getElem?_eq_getElem h1] at he
    rw [Option.some.inj he]; exact hp.2 i h1
  · rw [List.getElem?_eq_getElem h, List.getElem?_eq_getElem h2] at he
    rw [Option.some.inj he]; exact hq.2 i h2

theorem nearBox_abs {b : Box (Dbl F)} {m : Nat → ℚ} {v : List (Dbl F)} (h : NearBox b m v) (i : Nat) (hi : i < v.length) :
    |Fl.number F v[i].val| ≤ boxSize b i + m i := by
  obtain ⟨-, lo, up⟩ := h.2 i hi
  have h1 : |Fl.number F (b.min i).val| ≤ boxSize b i := le_max_left _ _
  have h2 : |Fl.number F (b.max i).val| ≤ boxSize b i := le_max_right _ _
  rw [abs_le] at h1 h2 ⊢
  constructor <;> linarith [h1.1, h2.2]

theorem nearBox_zip {b : Box (Dbl F)} {m : Nat → ℚ} {p q : List (Dbl F)} (hp : NearBox b m p) (hq : NearBox b m q)
    (f : Nat → Bool) : NearBox b m ((List.zip p q).mapIdx fun i ab => if f i then ab.1 else ab.2) := by
  have hlen : p.length = q.length := hp.1.trans hq.1.symm
  refine nearBox_exchange hp hq (by simp [hlen]) fun i hi => ?_
  have h2 : i < q.length := by omega
  have hz : (List.zip p q)[i]? = some (p[i], q[i]) := by simp [List.getElem?_zip_eq_some, hi, h2]
  rw [List.getElem?_mapIdx, hz]
  cases f i <;> simp [hi, h2]

/-- **C147**: the exchange crossovers do not enlarge any margin. -/
theorem realCx_exchange_near (b : Box (Dbl F)) (m : Nat → ℚ) (x : RealCx F) (hx : ∀ r, x ≠ .arith r)
    (p q : List (Dbl F)) (hp : NearBox b m p) (hq : NearBox b m q) :
    ∃ c d, x.run p q = .ok (c, d) ∧ NearBox b m c ∧ NearBox b m d := by
  have hlen : p.length = q.length := hp.1.trans hq.1.symm
  cases x with
  | arith r => exact absurd rfl (hx r)
  | swap idx =>
    have k1 := nearBox_zip hp hq fun i => decide (i < idx)
    have k2 := nearBox_zip hp hq fun i => !decide (i < idx)
    have e1 : (List.zip p q).mapIdx (fun i ab => if i < idx then ab.1 else ab.2) =
        (List.zip p q).mapIdx (fun i ab => if decide (i < idx) then ab.1 else ab.2) := by simp
    have e2 : (List.zip p q).mapIdx (fun i ab => if i < idx then ab.2 else ab.1) =
        (List.zip p q).mapIdx (fun i ab => if !decide (i < idx) then ab.1 else ab.2) := by
      congr 1; funext i ab; by_cases h : i < idx <;> simp [h]
    exact ⟨_, _, by simp only [RealCx.run, cFunSwapNs]; rw [if_pos hlen.le, e1, e2], k1, k2⟩
  | exchange r u w =>
    have k1 := nearBox_zip hp hq fun i => decide (u i < r)
    have k2 := nearBox_zip hp hq fun i => !decide (w i < r)
    have e1 : (List.zip p q).mapIdx (fun i ab => if u i < r then ab.1 else ab.2) =
        (List.zip p q).mapIdx (fun i ab => if decide (u i < r) then ab.1 else ab.2) := by simp
    have e2 : (List.zip p q).mapIdx (fun i ab => if w i < r then ab.2 else ab.1) =
        (List.zip p q).mapIdx (fun i ab => if !decide (w i < r) then ab.1 else ab.2) := by
      congr 1; funext i ab; by_cases h : w i < r <;> simp [h]
    exact ⟨_, _, by simp only [RealCx.run, cFunRandNs]; rw [if_pos hlen.le, e1, e2], k1, k2⟩

/-- **C147**, one crossover: parents at most `drift g` outside, children at most `drift (g + 1)`. -/
theorem realCx_near (hF : F.Good) (b : Box (Dbl F)) (g : Nat) (x : RealCx F)
    (hx : ∀ r, x = .arith r → r.val.Finite F ∧ 0 < Fl.number F r.val ∧ Fl.number F r.val < 1)
    (hov : ∀ i, i < b.dim → (boxSize b i + drift b g i) * 2 ^ F.one < 2 ^ (F.top - 1))
    (p q : List (Dbl F)) (hp : NearBox b (drift b g) p) (hq : NearBox b (drift b g) q) :
    ∃ c d, x.run p q = .ok (c, d) ∧ NearBox b (drift b (g + 1)) c ∧ NearBox b (drift b (g + 1)) d := by
  have hlen : p.length = q.length := hp.1.trans hq.1.symm
  have hstep : ∀ v, NearBox b (drift b g) v → NearBox b (drift b (g + 1)) v := fun v => NearBox.mono' (drift_le_succ b g)
  cases x with
  | arith r =>
    obtain ⟨hr, hr0, hr1⟩ := hx r rfl
    obtain ⟨c, d, h, hl1, hl2, hent⟩ := cFunNdFl_entries r p q hlen
    refine ⟨c, d, h, ?_, ?_⟩
    all_goals
      refine ⟨by first | exact hl1.trans hp.1 | exact hl2.trans hp.1, fun i hi => ?_⟩
      have h1 : i < p.length := by omega
      have h2 : i < q.length := by omega
      have h3 : i < c.length := by omega
      have h4 : i < d.length := by omega
      obtain ⟨e1, e2⟩ := hent i h1 h2 h3 h4
      have hd : i < b.dim := hp.1 ▸ h1
      have g1 := child_error hF r.val p[i].val q[i].val hr (hp.2 i h1).1 (hq.2 i h2).1 hr0 hr1 _ (nearBox_abs hp i h1)
        (nearBox_abs hq i h2) (hov i hd)
      have g2 := child_error hF r.val q[i].val p[i].val hr (hq.2 i h2).1 (hp.2 i h1).1 hr0 hr1 _ (nearBox_abs hq i h2)
        (nearBox_abs hp i h1) (hov i hd)
      obtain ⟨-, p1, p2⟩ := hp.2 i h1
      obtain ⟨-, q1, q2⟩ := hq.2 i h2
      rw [drift_succ]
      first | rw [e1] | rw [e2]
    · obtain ⟨⟨s, n, hs⟩, he⟩ := g1
      refine ⟨add_finite _ _ hs, ?_⟩
      rw [abs_le] at he
      revert he p1 p2 q1 q2 hr0 hr1
      generalize Fl.number F (cFunNdEntryFl F r.val p[i].val q[i].val) = z
      generalize 4 * flEps F * (boxSize b i + drift b g i) + 4 * flEta F = e
      generalize Fl.number F r.val = R
      generalize Fl.number F p[i].val = A
      generalize Fl.number F q[i].val = B
      intro hr0 hr1 p1 p2 q1 q2 he
      constructor <;> nlinarith [mul_nonneg hr0.le (sub_nonneg.2 p1), mul_nonneg hr0.le (sub_nonneg.2 p2),
        mul_nonneg (sub_nonneg.2 hr1.le) (sub_nonneg.2 q1), mul_nonneg (sub_nonneg.2 hr1.le) (sub_nonneg.2 q2)]
    · obtain ⟨⟨s, n, hs⟩, he⟩ := g2
      refine ⟨add_finite _ _ hs, ?_⟩
      rw [abs_le] at he
      revert he p1 p2 q1 q2 hr0 hr1
      generalize Fl.number F (cFunNdEntryFl F r.val q[i].val p[i].val) = z
      generalize 4 * flEps F * (boxSize b i + drift b g i) + 4 * flEta F = e
      generalize Fl.number F r.val = R
      generalize Fl.number F p[i].val = A
      generalize Fl.number F q[i].val = B
      intro hr0 hr1 p1 p2 q1 q2 he
      constructor <;> nlinarith [mul_nonneg hr0.le (sub_nonneg.2 q1), mul_nonneg hr0.le (sub_nonneg.2 q2),
        mul_nonneg (sub_nonneg.2 hr1.le) (sub_nonneg.2 p1), mul_nonneg (sub_nonneg.2 hr1.le) (sub_nonneg.2 p2)]
  | swap idx =>
    obtain ⟨c, d, h, h1, h2⟩ := realCx_exchange_near b (drift b g) (.swap idx) (fun r => nofun) p q hp hq
    exact ⟨c, d, h, hstep _ h1, hstep _ h2⟩
  | exchange r u w =>
    obtain ⟨c, d, h, h1, h2⟩ := realCx_exchange_near b (drift b g) (.exchange r u w) (fun r => nofun) p q hp hq
    exact ⟨c, d, h, hstep _ h1, hstep _ h2⟩

/-- **C147**, one mutation: the changed coordinate is in its range afterwards, wherever it was; so no margin grows. -/
theorem applyDelta_near (b : Box (Dbl F)) (hb : SaneBox b) (delta : Nat → Dbl F) (m : Nat → ℚ) (hm : ∀ i, 0 ≤ m i)
    (v : List (Dbl F)) (hv : NearBox b m v) (idx : Nat) (hidx : idx < b.dim) (r : Dbl F) (hr : r.val.Finite F)
    (hd : (delta idx).val.Finite F) :
    ∃ w, applyDeltaContFl F b delta v idx r = .ok w ∧ NearBox b m w ∧
      ∀ h : idx < w.length, b.min idx ≤ w[idx] ∧ w[idx] ≤ b.max idx := by
  have hi : idx < v.length := hv.1 ▸ hidx
  obtain ⟨f1, f2, hle, -⟩ := hb idx hidx
  have hn : (v[idx] + r * delta idx).val ≠ .nan :=
    fl_add_not_nan _ _ (hv.2 idx hi).1 (fl_mul_not_nan _ _ hr hd)
  have hcl := clamp_mem (b.min idx) (b.max idx) (v[idx] + r * delta idx) hle hn
  have hfin : (clampTo (b.min idx) (b.max idx) (v[idx] + r * delta idx)).val.Finite F := by
    rcases clamp_cases (b.min idx) (b.max idx) (v[idx] + r * delta idx) hle hn with ⟨h1, h2, he⟩ | ⟨-, he⟩ | ⟨-, he⟩
    · rw [he]
      obtain ⟨s, n, e1, -⟩ := f1
      obtain ⟨t, k, e2, -⟩ := f2
      rw [dbl_le_def, e1] at h1
      rw [dbl_le_def, e2] at h2
      cases hx : (v[idx] + r * delta idx).val with
      | nan => exact absurd hx hn
      | inf sg => rw [hx] at h1 h2; cases sg <;> simp [Fl.le] at h1 h2
      | fin sg a =>
        rw [← hx]
        exact add_finite _ _ (show (v[idx].val).add F (r * delta idx).val = _ from hx)
    · rw [he]; exact f2
    · rw [he]; exact f1
  refine ⟨_, by simp only [applyDeltaContFl]; rw [if_pos hv.1, List.getElem?_eq_getElem hi], ?_, ?_⟩
  · refine ⟨by rw [List.length_set]; exact hv.1, fun i h => ?_⟩
    rw [List.length_set] at h
    by_cases he : idx = i
    · subst he
      rw [List.getElem_set_self]
      have := number_le_of_le f1 hfin hcl.1
      have := number_le_of_le hfin f2 hcl.2
      exact ⟨hfin, by linarith [hm idx], by linarith [hm idx]⟩
    · rw [List.getElem_set_ne he]
      exact hv.2 i h
  · intro h
    rw [List.getElem_set_self]
    exact hcl

/-! ## Runs -/

section run
variable {κ Y ω τ R : Type}

theorem default_ini_near (hF : F.Good) (b : Box (Dbl F)) (hb : SaneBox b) (delta : Nat → Dbl F) (D : RealDraws F ω)
    (hD : LegalDraws b D) (fit : List (Dbl F) → Y → ω → Y × ω) (v : List (Dbl F)) (s : ω) :
    NearBox b (fun _ => 0) ((defaultRealFns F b delta D fit).ini v s).1 := by
  obtain ⟨hl, he⟩ := initialize_ieee_in_box_partial F hF ⟨b.dim, fun i => (b.min i).val, fun i => (b.max i).val⟩ (D.ini s).1
    (hD.ini s) (fun i hi => hb i hi)
  rw [nearBox_zero b hb]
  refine ⟨⟨by simpa [defaultRealFns] using hl, fun i hi => ?_⟩, fun x hx => ?_⟩
  · simp only [defaultRealFns, List.length_map] at hi
    obtain ⟨-, h1, h2⟩ := he i _ (List.getElem?_eq_getElem hi)
    simp only [defaultRealFns, List.getElem_map]
    exact ⟨h1, h2⟩
  · simp only [defaultRealFns, List.mem_map] at hx
    obtain ⟨y, hy, rfl⟩ := hx
    obtain ⟨i, hi⟩ := List.mem_iff_getElem?.1 hy
    exact (he i y hi).1

/-- The general form: a margin per generation. -/
theorem default_run_levels (b : Box (Dbl F)) (hb : SaneBox b) (delta : Nat → Dbl F)
    (hdelta : ∀ i, i < b.dim → (delta i).val.Finite F) (D : RealDraws F ω) (hF : F.Good) (hD : LegalDraws b D)
    (fit : List (Dbl F) → Y → ω → Y × ω) (h : GAHost κ (List (Dbl F)) Y ω τ R) (hh : FairHost h) [LE κ] [DecidableLE κ]
    (o : GALimits κ) (K : Nat) (blank : Gene (List (Dbl F)) Y) (old : Pop (Gene (List (Dbl F)) Y)) (hd : DistinctNodes old)
    (t : τ) (w : ω) (r : CallsResult (List (Dbl F)) Y (ω × List (UserCall (List (Dbl F)) Y)) τ R)
    (m : Nat → Nat → ℚ) (hm0 : ∀ g i, 0 ≤ m g i) (hmono : ∀ g i, m g i ≤ m (g + 1) i)
    (hcx : ∀ g s p q, g < r.generation → NearBox b (m g) p → NearBox b (m g) q →
      ∃ c d, (D.cx s).1.run p q = .ok (c, d) ∧ NearBox b (m (g + 1)) c ∧ NearBox b (m (g + 1)) d)
    (hr : callsRun (logged (defaultRealFns F b delta D fit)) (unaware h) o
      (initializeCalls (logged (defaultRealFns F b delta D fit)) K blank old (w, [])).1 t
      (initializeCalls (logged (defaultRealFns F b delta D fit)) K blank old (w, [])).2 = .ok r) :
    (∀ e ∈ r.world.2, (∀ v ∈ e.points, NearBox b (m r.generation) v) ∧ OperatorDefined b delta D e) ∧
      ∀ c ∈ r.pop, NearBox b (m r.generation) c.2.var := by
  obtain ⟨pop, w', is, hi, hini, -, hdp, hun, hva⟩ :=
    ga_init_calls (defaultRealFns F b delta D fit) K blank old hd w []
  have hk := logged_keeps (defaultRealFns F b delta D fit) h
  have hfrom : ∀ e ∈ r.world.2, FromUser (defaultRealFns F b delta D fit) e := by
    refine callsLoop_world hk o _ _ _ _ _ _ r hr ?_
    exact iniCalls_world hk _ _ (by simp)
  rw [hi] at hr
  obtain ⟨es, ks, hw, hks, hlog, hpop⟩ := ga_run_calls _ h hh o pop hdp t w' _ r hr
  rw [hw] at hfrom ⊢
  have hini' : ∀ e ∈ is, ∀ v ∈ e.points, NearBox b (m 0) v := by
    intro e he v hv
    have h1 := hini e he
    have h2 := hfrom e (by simp [he])
    cases e with
    | ini x a =>
      obtain ⟨s, rfl⟩ := h2
      simp only [UserCall.points, List.mem_singleton] at hv
      subst hv
      exact NearBox.mono' (hm0 0) (default_ini_near hF b hb delta D hD fit x s)
    | fit _ _ => cases h1
    | cross _ _ _ _ => cases h1
    | muta _ _ => cases h1
  have hlev := runLog_levels (fun g => NearBox b (m g)) (FromUser (defaultRealFns F b delta D fit))
    (OperatorDefined b delta D) r.generation (fun g v => NearBox.mono' (hmono g))
    (by
      rintro g p q c d hg ⟨s, hs⟩ hp hq
      obtain ⟨c', d', hrun, h1, h2⟩ := hcx g s p q hg hp hq
      simp only [defaultRealFns, hrun, Prod.mk.injEq] at hs
      obtain ⟨rfl, rfl⟩ := hs
      exact ⟨h1, h2, s, hrun⟩)
    (by
      rintro g v d hg ⟨s, hs⟩ hv
      obtain ⟨x, hrun, h1, -⟩ := applyDelta_near b hb delta (m g) (hm0 g) v hv _ (hD.idx s) _ (hD.step s)
        (hdelta _ (hD.idx s))
      simp only [defaultRealFns, hrun] at hs
      subst hs
      exact ⟨h1, s, hrun⟩)
    (fun _ _ => trivial) hlog 0 (by omega) (fun e he => hfrom e (by simp [he])) (by rw [hva]; simp)
    (by
      rw [hun]
      intro v hv
      obtain ⟨e, he, hv⟩ := mem_made.1 hv
      refine hini' e he v ?_
      have h1 := hini e he
      cases e with
      | ini x a => exact hv
      | fit _ _ => cases h1
      | cross _ _ _ _ => cases h1
      | muta _ _ => cases h1)
  rw [Nat.zero_add, hks] at hlev
  have hm : ∀ n i, m 0 i ≤ m n i := fun n i => monotone_nat_of_le_succ (f := fun g => m g i) (fun g => hmono g i) (Nat.zero_le n)
  refine ⟨fun e he => ?_, fun c hc => ?_⟩
  · rcases List.mem_append.1 he with he | he
    · refine ⟨fun v hv => NearBox.mono' (hm _) (hini' e (by simpa using he) v hv), ?_⟩
      have h1 := hini e (by simpa using he)
      cases e with
      | ini x a => trivial
      | fit _ _ => cases h1
      | cross _ _ _ _ => cases h1
      | muta _ _ => cases h1
    · exact hlev e he
  · obtain ⟨-, hv⟩ := hpop c hc
    rw [hva, List.nil_append] at hv
    obtain ⟨e, he, hv⟩ := List.mem_flatMap.1 hv
    refine (hlev e he).1 _ ?_
    cases e with
    | fit x y =>
      simp only [UserCall.valued, List.mem_singleton, Prod.mk.injEq] at hv
      simp [UserCall.points, hv.1]
    | ini _ _ => simp [UserCall.valued] at hv
    | cross _ _ _ _ => simp [UserCall.valued] at hv
    | muta _ _ => simp [UserCall.valued] at hv

/-- **C147.**  A run of any genetic solver (single- or multi-objective, any selection, any fitness function, with side
effects or not) with the library's initialiser, crossovers and mutation for a continuous box, in floating-point
arithmetic.  If the numbers stay below half the largest finite one, every call of an operator is defined, and every
candidate that is made or evaluated during the run, and everybody in the final population, has finite entries that
leave the box by at most `drift` after the number of generations that were run. -/
theorem default_ieee_run_near_box (hF : F.Good) (b : Box (Dbl F)) (hb : SaneBox b) (delta : Nat → Dbl F)
    (hdelta : ∀ i, i < b.dim → (delta i).val.Finite F) (D : RealDraws F ω) (hD : LegalDraws b D)
    (fit : List (Dbl F) → Y → ω → Y × ω) (h : GAHost κ (List (Dbl F)) Y ω τ R) (hh : FairHost h) [LE κ] [DecidableLE κ]
    (o : GALimits κ) (K : Nat) (blank : Gene (List (Dbl F)) Y) (old : Pop (Gene (List (Dbl F)) Y)) (hd : DistinctNodes old)
    (t : τ) (w : ω) (r : CallsResult (List (Dbl F)) Y (ω × List (UserCall (List (Dbl F)) Y)) τ R)
    (hov : ∀ i, i < b.dim → (boxSize b i + drift b r.generation i) * 2 ^ F.one < 2 ^ (F.top - 1))
    (hr : callsRun (logged (defaultRealFns F b delta D fit)) (unaware h) o
      (initializeCalls (logged (defaultRealFns F b delta D fit)) K blank old (w, [])).1 t
      (initializeCalls (logged (defaultRealFns F b delta D fit)) K blank old (w, [])).2 = .ok r) :
    (∀ e ∈ r.world.2, (∀ v ∈ e.points, NearBox b (drift b r.generation) v) ∧ OperatorDefined b delta D e) ∧
      ∀ c ∈ r.pop, NearBox b (drift b r.generation) c.2.var := by
  refine default_run_levels b hb delta hdelta D hF hD fit h hh o K blank old hd t w r (drift b) (drift_nonneg b)
    (drift_le_succ b) (fun g s p q hg hp hq => ?_) hr
  refine realCx_near hF b g _ (fun r' h' => hD.cx s r' h') (fun i hi => ?_) p q hp hq
  refine lt_of_le_of_lt (mul_le_mul_of_nonneg_right ?_ (by positivity)) (hov i hi)
  have := drift_mono b hg.le i
  linarith

/-- **C147.**  With the exchange crossovers only, every candidate of the run is in the box. -/
theorem exchange_ieee_run_in_box (hF : F.Good) (b : Box (Dbl F)) (hb : SaneBox b) (delta : Nat → Dbl F)
    (hdelta : ∀ i, i < b.dim → (delta i).val.Finite F) (D : RealDraws F ω) (hD : LegalDraws b D)
    (hex : ∀ s r, (D.cx s).1 ≠ .arith r)
    (fit : List (Dbl F) → Y → ω → Y × ω) (h : GAHost κ (List (Dbl F)) Y ω τ R) (hh : FairHost h) [LE κ] [DecidableLE κ]
    (o : GALimits κ) (K : Nat) (blank : Gene (List (Dbl F)) Y) (old : Pop (Gene (List (Dbl F)) Y)) (hd : DistinctNodes old)
    (t : τ) (w : ω) (r : CallsResult (List (Dbl F)) Y (ω × List (UserCall (List (Dbl F)) Y)) τ R)
    (hr : callsRun (logged (defaultRealFns F b delta D fit)) (unaware h) o
      (initializeCalls (logged (defaultRealFns F b delta D fit)) K blank old (w, [])).1 t
      (initializeCalls (logged (defaultRealFns F b delta D fit)) K blank old (w, [])).2 = .ok r) :
    (∀ e ∈ r.world.2, (∀ v ∈ e.points, InBox b v) ∧ OperatorDefined b delta D e) ∧ ∀ c ∈ r.pop, InBox b c.2.var := by
  obtain ⟨h1, h2⟩ := default_run_levels b hb delta hdelta D hF hD fit h hh o K blank old hd t w r (fun _ _ => 0)
    (fun _ _ => le_rfl) (fun _ _ => le_rfl)
    (fun g s p q hg hp hq => realCx_exchange_near b _ _ (hex s) p q hp hq) hr
  exact ⟨fun e he => ⟨fun v hv => ((nearBox_zero b hb v).1 ((h1 e he).1 v hv)).1, (h1 e he).2⟩,
    fun c hc => ((nearBox_zero b hb _).1 (h2 c hc)).1⟩

end run

/-! ## A run that leaves the box -/

/-- The box `[2, 3]` of `double`s. -/
def leaveBox : Box (Dbl binary64) := ⟨1, fun _ => Dbl.nat binary64 2, fun _ => Dbl.nat binary64 3⟩

/-- The largest draw below 1 for every initialisation, the ratio of `DivCode<1, 5>` for every crossover, a step up for
every mutation. -/
def leaveDraws : RealDraws binary64 Nat where
  ini s := (fun _ => .fin false (2 ^ binary64.one - 2 ^ (binary64.one - 53)), s + 1)
  cx s := (.arith (Dbl.nat binary64 1 / Dbl.nat binary64 5), s + 1)
  muta s := ((0, half 1), s + 1)

/-- The variable itself is to be maximised. -/
def leaveFns : UserFns (List (Dbl binary64)) ℚ Nat :=
  defaultRealFns binary64 leaveBox (fun _ => Dbl.nat binary64 1) leaveDraws
    fun v _ s => (((v.map fun x => Fl.number binary64 x.val).headD 0), s + 1)

/-- Three individuals, truncation selection. -/
def leaveHost : GAHost ℚ (List (Dbl binary64)) ℚ Nat (Addr × Nat) ℚ :=
  sogaHost .greaterBetter .Truncation 3 (fun _ => demoEnv _) (fun s => s + 1) (fun s => (0, s + 1)) (fun l s => (l, s)) id 0

/-- **C147**: the margin is needed.  A run of one generation on the box `[2, 3]`, with all hypotheses of the theorem met:
the reported best, and two of the three individuals of the final population, are above 3. -/
theorem default_ieee_run_leaves_box :
    (callsRun (logged leaveFns) (unaware leaveHost) ⟨1, 0, 1, 0⟩
      (initializeCalls (logged leaveFns) 3 ⟨[], 0, false⟩ [] (0, [])).1 (1, 0)
      (initializeCalls (logged leaveFns) 3 ⟨[], 0, false⟩ [] (0, [])).2).satisfies
    (fun r => r.generation == 1 && decide (3 < r.record.getLastD 0) && r.pop.length == 3 &&
      (r.pop.countP fun c => c.2.var.any fun x => decide (Dbl.nat binary64 3 < x)) == 2) = true := by
  decide +kernel

/-- The hypotheses of `default_ieee_run_near_box` hold for that run. -/
example : SaneBox leaveBox ∧ LegalDraws leaveBox leaveDraws ∧ FairHost leaveHost ∧
    (∀ i, i < leaveBox.dim → (boxSize leaveBox i + drift leaveBox 1 i) * 2 ^ binary64.one < 2 ^ (binary64.top - 1)) := by
  have e1 : (Dbl.nat binary64 3).val.sub binary64 (Dbl.nat binary64 2).val = (Dbl.nat binary64 1).val := by decide +kernel
  have hfifth : (Dbl.nat binary64 1 / Dbl.nat binary64 5).val = .fin false (7205759403792794 * 2 ^ 1019) := by
    decide +kernel
  refine ⟨fun i _ => ⟨nat_finite64 2 (by norm_num), nat_finite64 3 (by norm_num), ?_, ?_⟩, ⟨?_, ?_, ?_, ?_⟩, ?_, ?_⟩
  · show Dbl.nat binary64 2 ≤ Dbl.nat binary64 3
    decide +kernel
  · show ((Dbl.nat binary64 3).val.sub binary64 (Dbl.nat binary64 2).val).Finite binary64
    rw [e1]; exact nat_finite64 1 (by norm_num)
  · intro s i
    exact ⟨⟨false, _, rfl, ⟨2 ^ 53 - 1, binary64.one - 53, by decide +kernel, by decide +kernel⟩, by decide +kernel⟩,
      by show (Fl.ofNat binary64 0).le (.fin false (2 ^ binary64.one - 2 ^ (binary64.one - 53))) = true; decide +kernel,
      by show (Fl.fin false (2 ^ binary64.one - 2 ^ (binary64.one - 53))).lt (Fl.ofNat binary64 1) = true; decide +kernel⟩
  · intro s r hr
    obtain rfl : Dbl.nat binary64 1 / Dbl.nat binary64 5 = r := by
      simpa [leaveDraws] using hr
    rw [hfifth]
    refine ⟨⟨false, _, rfl, ⟨7205759403792794, 1019, by decide +kernel, by decide +kernel⟩, by decide +kernel⟩, ?_, ?_⟩ <;>
      decide +kernel
  · intro s; show 0 < 1; norm_num
  · intro s
    exact ⟨false, 2 ^ (binary64.one - 1), (by show (half 1).val = _; decide +kernel), ⟨1, binary64.one - 1, by decide +kernel, by decide +kernel⟩,
      by decide +kernel⟩
  · exact sogaHost_fair _ _ _ _ (fun _ => demoEnv_valid _) _ _ _ (fun _ _ => .refl _) _ (fun _ => .refl _) 0
  · intro i hi
    obtain rfl : i = 0 := by have : i < 1 := hi; omega
    decide +kernel

/-- For `double`: after `2^20` generations at most `2^-30` of the size of the box (plus a negligible constant). -/
example (b : Box (Dbl binary64)) (i : Nat) :
    drift b (2 ^ 20) i ≤ 1 / 2 ^ 30 * (boxSize b i + 2 ^ 53 / 2 ^ (binary64.one + 1)) := by
  have := drift_linear b (2 ^ 20) i (by decide)
  rw [show binary64.mb + 1 = 53 from rfl] at this
  refine this.trans (le_of_eq ?_)
  norm_num

end Heu
