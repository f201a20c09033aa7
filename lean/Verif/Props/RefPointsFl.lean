import Verif.Lemmas.RefPointsFl
import Verif.Props.RefPoints
import Verif.Props.NSGA3Fl

/-! # C124: the reference points NSGA-III really computes, in `double` arithmetic -/

set_option linter.unusedSectionVars false
set_option linter.unusedSimpArgs false

namespace Heu
open Spec

variable {F : Fmt} {d : Nat}

theorem two_flEps (F : Fmt) : 2 * flEps F = 1 / 2 ^ F.mb := by
  unfold flEps; rw [pow_succ]; field_simp

/-- Points near different lattice points are different, and none is the origin, if the error is small enough. -/
theorem nearLattice_distinct {m : Nat} {e k : ℚ} {p : Nat} {pts : List (Fin m → Fl)} (hp : 1 ≤ p)
    (he : 2 * e * p < k) (h : NearLattice F e k p pts) :
    pts.Nodup ∧ ∀ v ∈ pts, ∃ i, 0 < (v i).number F := by
  obtain ⟨cs, hnd, hmem, hall⟩ := h
  have hpq : (0 : ℚ) < p := by exact_mod_cast hp
  constructor
  · clear hmem
    induction hall with
    | nil => exact List.nodup_nil
    | @cons c v cs pts hcv hrest ih =>
      rw [List.nodup_cons] at hnd ⊢
      refine ⟨fun hv => ?_, ih hnd.2⟩
      obtain ⟨c', hc', hcv'⟩ : ∃ c' ∈ cs, NearPoint F e k p c' v := by
        clear ih hnd
        induction hrest with
        | nil => cases hv
        | cons h1 _ ih2 =>
          rcases List.mem_cons.1 hv with rfl | hv
          · exact ⟨_, List.mem_cons_self, h1⟩
          · obtain ⟨c', h2, h3⟩ := ih2 hv
            exact ⟨c', List.mem_cons_of_mem _ h2, h3⟩
      have hcc : c = c' := by
        funext i
        by_contra hne
        have h1 := (hcv i).2.2.2
        have h2 := (hcv' i).2.2.2
        have hdiff : (1 : ℚ) ≤ |(c i : ℚ) - c' i| := by
          have : (1 : ℤ) ≤ |(c i : ℤ) - c' i| := Int.one_le_abs (by omega)
          exact_mod_cast this
        have h3 : |k * ((c i : ℚ) / p) - k * (c' i / p)| ≤ 2 * e := by
          have := abs_sub_le (k * ((c i : ℚ) / p)) ((v i).number F) (k * (c' i / p))
          rw [abs_sub_comm (k * ((c i : ℚ) / p)) ((v i).number F)] at this
          linarith
        have hk0 : 0 < k := lt_of_le_of_lt (by have := (abs_nonneg _).trans h1; positivity) he
        have h4 : k * ((c i : ℚ) / p) - k * (c' i / p) = k / p * (c i - c' i) := by field_simp
        rw [h4, abs_mul, abs_of_pos (div_pos hk0 hpq)] at h3
        have h5 : k / p ≤ 2 * e := le_trans (le_mul_of_one_le_right (by positivity) hdiff) h3
        rw [div_le_iff₀ hpq] at h5
        linarith
      rw [hcc] at hnd
      exact hnd.1 hc'
  · intro v hv
    obtain ⟨c, hc, hcv⟩ : ∃ c ∈ cs, NearPoint F e k p c v := by
      clear hmem hnd
      induction hall with
      | nil => cases hv
      | cons h1 _ ih2 =>
        rcases List.mem_cons.1 hv with rfl | hv
        · exact ⟨_, List.mem_cons_self, h1⟩
        · obtain ⟨c', h2, h3⟩ := ih2 hv
          exact ⟨c', List.mem_cons_of_mem _ h2, h3⟩
    have hsum := (hmem c).1 hc
    obtain ⟨i, -, hi⟩ : ∃ i ∈ Finset.univ, c i ≠ 0 := by
      by_contra hcon
      push Not at hcon
      rw [Finset.sum_eq_zero hcon] at hsum
      omega
    refine ⟨i, ?_⟩
    have h1 := (hcv i).2.2.2
    have hk0 : 0 < k := lt_of_le_of_lt (by have := (abs_nonneg _).trans h1; positivity) he
    have h2 : k / p ≤ k * ((c i : ℚ) / p) := by
      have : (1 : ℚ) ≤ c i := by exact_mod_cast Nat.one_le_iff_ne_zero.2 hi
      calc k / p = k * (1 / p) := by field_simp
        _ ≤ k * (c i / p) := by gcongr
    have h3 : e < k / p := by
      rw [lt_div_iff₀ hpq]
      have : 0 ≤ e * p := by have := (abs_nonneg _).trans h1; positivity
      linarith
    have := (abs_le.1 h1).1
    linarith

theorem nearLattice_perm {m : Nat} {e k : ℚ} {p : Nat} {pts pts' : List (Fin m → Fl)}
    (h : NearLattice F e k p pts) (hp : pts'.Perm pts) : NearLattice F e k p pts' := by
  obtain ⟨cs, hnd, hmem, hall⟩ := h
  have : (Relation.Comp (List.Forall₂ (NearPoint F e k p)) List.Perm) cs pts' := ⟨pts, hall, hp.symm⟩
  rw [List.forall₂_comp_perm_eq_perm_comp_forall₂] at this
  obtain ⟨cs', hperm, hall'⟩ := this
  exact ⟨cs', hperm.nodup_iff.1 hnd, fun c => (hperm.mem_iff (a := c)).symm.trans (hmem c), hall'⟩

theorem priMakeRPFl_near (hF : F.Good) (p : Nat) (hp : 1 ≤ p) (junk : Fin (d + 1) → Fl) :
    NearLattice F (1 / 2 ^ F.mb) 1 p (priMakeRPFl F p 0 0 (junk, [])).2 ∧
      (priMakeRPFl F p 0 0 (junk, [])).2.length = (d + p).choose p := by
  obtain ⟨h1, h2, h3⟩ := rpNat_spec (d := d) p hp
  have hnat := rpGen_natural (d := d) (fun p => p) (fun a => p - a)
    (fun c => Fl.div F (Fl.ofNat F c) (Fl.ofNat F p))
    (fun a => Fl.sub F (Fl.ofNat F 1) (Fl.div F (Fl.ofNat F a) (Fl.ofNat F p)))
    (fun i c => if i = Fin.last d then Fl.sub F (Fl.ofNat F 1) (Fl.div F (Fl.ofNat F (p - c)) (Fl.ofNat F p))
      else Fl.div F (Fl.ofNat F c) (Fl.ofNat F p)) p
    (fun i hi c hc => by
      rw [if_neg]; intro e; rw [e] at hi; simp at hi)
    (fun a ha => by rw [if_pos rfl, Nat.sub_sub_self ha]) d 0 0 ((fun _ => 0), []) (junk, []) (by omega)
    (by omega) ⟨fun i hi => absurd hi (by omega), rfl⟩
  rw [← priMakeRPFl_gen F p d 0 0 _ (by omega)] at hnat
  have he := hnat.2
  change _ = (rpNat d p).map _ at he
  rw [he]
  refine ⟨⟨rpNat d p, h1, h3, ?_⟩, by rw [List.length_map, h2]⟩
  rw [List.forall₂_map_right_iff, List.forall₂_same]
  intro c hc i
  have hsum := (h3 c).1 hc
  have hle : c i ≤ p := by
    rw [← hsum]; exact Finset.single_le_sum (fun _ _ => Nat.zero_le _) (Finset.mem_univ i)
  rw [← two_flEps]
  by_cases hi : i = Fin.last d
  · have := near_last hF (p - c i) p hp (Nat.sub_le _ _) _ rfl
    rw [Nat.sub_sub_self hle] at this
    simpa only [if_pos hi] using this
  · have := near_coord hF (c i) p hp hle _ rfl
    simpa only [if_neg hi] using this

/-- **C124** (generation).  Whenever `computeReferencePointPoses` does not divide by zero, the `double`s it produces
are one point per lattice point, every coordinate a number between 0 and 1 at most `2^-52` (one unit in the last place
of 1) from the exact one; the points are all different and none is the origin (`findNearest` divides by the squared
norm). -/
theorem referencePoints_ieee (hF : F.Good) (p : Nat) (hp : 1 ≤ p) (hp2 : 4 * p ≤ 2 ^ F.mb) (junk : Fin (d + 1) → Fl)
    (pts : List (Fin (d + 1) → Fl)) (h : computeReferencePointPosesFl F junk p = .ok pts) :
    NearLattice F (1 / 2 ^ F.mb) 1 p pts ∧ pts.Nodup ∧ pts.length = (d + 1 + p - 1).choose p ∧
    ∀ v ∈ pts, ∃ i, 0 < (v i).number F := by
  have hpts : pts = (priMakeRPFl F p 0 0 (junk, [])).2 := by
    unfold computeReferencePointPosesFl at h
    split at h <;> simp_all
  obtain ⟨h1, h2⟩ := priMakeRPFl_near hF p hp junk
  rw [← hpts] at h1 h2
  obtain ⟨h3, h4⟩ := nearLattice_distinct hp (small_error hp2) h1
  exact ⟨h1, h3, by rw [h2]; congr 1; omega, h4⟩
where
  small_error {p : Nat} (hp2 : 4 * p ≤ 2 ^ F.mb) : 2 * (1 / 2 ^ F.mb : ℚ) * p < 1 := by
    have : (4 : ℚ) * p ≤ 2 ^ F.mb := by exact_mod_cast hp2
    have h2 : (0 : ℚ) < 2 ^ F.mb := by positivity
    rw [mul_one_div, div_mul_eq_mul_div, div_lt_one h2]
    linarith

/-- **C124** (single layer).  While `objectives + precision - 1 ≤ 20` the reference matrix has exactly
C(objectives+precision-1, precision) columns: one `double` point per lattice point, all different, none the origin. -/
theorem referencePoses_ieee (hF : F.Good) (p : Nat) (hp : 1 ≤ p) (hN : d + 1 + p - 1 ≤ 20) (junk : Fin (d + 1) → Fl)
    (shuffle : List (Fin (d + 1) → Fl) → List (Fin (d + 1) → Fl)) (hsh : ∀ l, (shuffle l).Perm l) :
    ∃ cols, makeReferencePosesFl F junk shuffle p = .ok cols ∧ NearLattice F (1 / 2 ^ F.mb) 1 p cols ∧ cols.Nodup ∧
      cols.length = (d + 1 + p - 1).choose p ∧ ∀ v ∈ cols, ∃ i, 0 < (v i).number F := by
  have hmb := hF.mb9
  have hp2 : 4 * p ≤ 2 ^ F.mb := by
    have : 2 ^ 9 ≤ 2 ^ F.mb := Nat.pow_le_pow_right (by norm_num) hmb
    omega
  have hc := nchooseK_eq_choose_partial (d + 1 + p - 1) p (by omega) hN
  have hcomp : computeReferencePointPosesFl F junk p = .ok (priMakeRPFl F p 0 0 (junk, [])).2 := by
    unfold computeReferencePointPosesFl; rw [hc]
  obtain ⟨h1, h2, h3, h4⟩ := referencePoints_ieee hF p hp hp2 junk _ hcomp
  generalize hP : (priMakeRPFl F p 0 0 (junk, [])).2 = pts at *
  have hperm := hsh pts
  refine ⟨shuffle pts, ?_, nearLattice_perm h1 hperm, hperm.nodup_iff.2 h2, by rw [hperm.length_eq, h3],
    fun v hv => h4 v (hperm.mem_iff.1 hv)⟩
  unfold makeReferencePosesFl
  rw [show p + (d + 1) - 1 = d + 1 + p - 1 by omega, hc, hcomp]
  simp only [Out.ok_bind]
  rw [copyColumns_eq _ _ (by rw [hperm.length_eq, h3]), List.take_of_length_le (by rw [hperm.length_eq, h3])]

/-- 3 objectives, precision 6 in binary64. -/
example : binary64.Good ∧ 1 ≤ 6 ∧ 2 + 1 + 6 - 1 ≤ 20 ∧ (2 + 1 + 6 - 1).choose 6 = 28 :=
  ⟨binary64_good, by decide, by decide, by decide⟩

/-- multiplication by the constant of the inner layer -/
theorem near_scale (hF : F.Good) {m : Nat} (p : Nat) (hp : 1 ≤ p) (c : Fin m → Nat) (hc : ∀ i, c i ≤ p)
    (v : Fin m → Fl) (h : NearPoint F (1 / 2 ^ F.mb) 1 p c v)
    (k : Fl) (hk : k.Finite F) (hk0 : 0 < k.number F) (hk1 : k.number F ≤ 1) :
    NearPoint F (2 / 2 ^ F.mb) (k.number F) p c fun i => Fl.mul F (v i) k := by
  intro i
  obtain ⟨⟨s, n, hv, hn1, hn2⟩, h0, h1, herr⟩ := h i
  obtain ⟨t, kn, rfl, hkn1, hkn2⟩ := hk
  have hU : (0 : ℚ) < 2 ^ F.one := by positivity
  have ht : t = false := by
    cases t with
    | false => rfl
    | true =>
      rw [number_abs] at hk0
      have : (0 : ℚ) ≤ (kn : ℚ) / 2 ^ F.one := by positivity
      simp at hk0; linarith
  subst ht
  have hnU : n ≤ 2 ^ F.one := by
    have := number_abs F s n
    rw [hv] at h0 h1
    cases s with
    | false =>
      rw [number_pos_eq, div_le_one hU] at h1
      exact_mod_cast h1
    | true =>
      rw [number_abs] at h0
      simp only [if_true] at h0
      have h2 : (0 : ℚ) ≤ (n : ℚ) / 2 ^ F.one := by positivity
      have h3 : (n : ℚ) / 2 ^ F.one = 0 := by linarith
      have : n = 0 := by
        rw [div_eq_zero_iff] at h3
        rcases h3 with h3 | h3
        · exact_mod_cast h3
        · exact absurd h3 hU.ne'
      rw [this]; exact Nat.zero_le _
  have hle : rndUnits F.mb (n * kn) (2 ^ F.one) ≤ kn :=
    rndUnits_le _ _ _ (by positivity) hkn1 (by rw [Nat.mul_comm]; exact Nat.mul_le_mul_left _ hnU)
  have hmul : Fl.mul F (v i) (.fin false kn) = .fin (xor s false) (rndUnits F.mb (n * kn) (2 ^ F.one)) := by
    rw [hv]
    simp only [Fl.mul]
    unfold Fl.mk
    rw [if_neg (by omega)]
  have herr2 := fl_mul_error F s false n kn (xor s false) (rndUnits F.mb (n * kn) (2 ^ F.one)) (hv ▸ hmul)
  have hx0 : 0 ≤ Fl.number F (v i) * Fl.number F (.fin false kn) := mul_nonneg h0 hk0.le
  rw [← hv, ← hmul, abs_of_nonneg hx0] at herr2
  have hr0 : 0 ≤ Fl.number F (Fl.mul F (v i) (.fin false kn)) := by
    rw [hmul]
    rw [hv] at h0
    cases s with
    | false => rw [Bool.xor_false, number_pos_eq]; positivity
    | true =>
      rw [number_abs] at h0
      simp only [if_true] at h0
      have h2 : (0 : ℚ) ≤ (n : ℚ) / 2 ^ F.one := by positivity
      have h3 : (n : ℚ) / 2 ^ F.one = 0 := by linarith
      have hn0 : n = 0 := by
        rw [div_eq_zero_iff] at h3
        rcases h3 with h3 | h3
        · exact_mod_cast h3
        · exact absurd h3 hU.ne'
      have : rndUnits F.mb (n * kn) (2 ^ F.one) = 0 := by
        have := rndUnits_le F.mb (n * kn) (2 ^ F.one) (n := 0) (by positivity) ⟨0, 0, by positivity, by simp⟩
          (by rw [hn0]; simp)
        omega
      rw [this, number_abs]; simp
  have hrk : Fl.number F (Fl.mul F (v i) (.fin false kn)) ≤ Fl.number F (.fin false kn) := by
    have h2 : |Fl.number F (Fl.mul F (v i) (.fin false kn))| ≤ Fl.number F (.fin false kn) := by
      rw [hmul, number_abs, abs_mul, number_pos_eq]
      have : |(if (xor s false) = true then (-1 : ℚ) else 1)| = 1 := by cases s <;> simp
      rw [this, one_mul, abs_of_nonneg (by positivity)]
      gcongr
    exact (le_abs_self _).trans h2
  refine ⟨⟨_, _, hmul, rep_rndUnits _ _ _ (by positivity), by omega⟩, hr0, hrk, ?_⟩
  have e1 := flEps_pos F
  have e2 := flEps_le hF
  have e3 := flEta_le hF
  have e4 : (2 : ℚ) / 2 ^ F.mb = 4 * flEps F := by rw [show (4 : ℚ) = 2 * 2 by norm_num, mul_assoc, two_flEps]; ring
  rw [← two_flEps] at herr
  rw [e4]
  show |Fl.number F (Fl.mul F (v i) (.fin false kn)) - _| ≤ _
  have hcp0 : (0 : ℚ) ≤ (c i : ℚ) / p := by positivity
  generalize Fl.number F (.fin false kn) = K at *
  generalize Fl.number F (v i) = x at *
  generalize Fl.number F (Fl.mul F (v i) (.fin false kn)) = r at *
  generalize (c i : ℚ) / p = q at *
  rw [one_mul] at herr
  have hxk : x * K ≤ 1 := mul_le_one₀ h1 hk0.le hk1
  have h5 : |x * K - K * q| ≤ 2 * flEps F := by
    rw [show x * K - K * q = K * (x - q) by ring, abs_mul, abs_of_pos hk0]
    exact (mul_le_of_le_one_left (abs_nonneg _) hk1).trans herr
  have h6 := abs_sub_le r (x * K) (K * q)
  nlinarith [mul_le_mul_of_nonneg_left hxk e1.le, mul_le_mul_of_nonneg_left e2 e1.le]

/-- **C124** (double layer).  The matrix consists of the inner lattice scaled by the constant and the outer lattice. -/
theorem referencePoses2_ieee (hF : F.Good) (inner outer : Nat) (hi : 1 ≤ inner) (ho : 1 ≤ outer)
    (hNi : d + 1 + inner - 1 ≤ 20) (hNo : d + 1 + outer - 1 ≤ 20) (junk : Fin (d + 1) → Fl)
    (k : Fl) (hk : k.Finite F) (hk0 : 0 < k.number F) (hk1 : k.number F ≤ 1) :
    ∃ ipts opts, makeReferencePoses2Fl F junk k inner outer = .ok (ipts ++ opts) ∧
      NearLattice F (2 / 2 ^ F.mb) (k.number F) inner ipts ∧ NearLattice F (1 / 2 ^ F.mb) 1 outer opts ∧
      ipts.length = (d + 1 + inner - 1).choose inner ∧ opts.length = (d + 1 + outer - 1).choose outer := by
  have hci := nchooseK_eq_choose_partial (d + 1 + inner - 1) inner (by omega) hNi
  have hco := nchooseK_eq_choose_partial (d + 1 + outer - 1) outer (by omega) hNo
  have hcompi : computeReferencePointPosesFl F junk inner = .ok (priMakeRPFl F inner 0 0 (junk, [])).2 := by
    unfold computeReferencePointPosesFl; rw [hci]
  have hcompo : computeReferencePointPosesFl F junk outer = .ok (priMakeRPFl F outer 0 0 (junk, [])).2 := by
    unfold computeReferencePointPosesFl; rw [hco]
  obtain ⟨h1, h2⟩ := priMakeRPFl_near hF inner hi junk
  obtain ⟨h1', h2'⟩ := priMakeRPFl_near hF outer ho junk
  have hli : d + inner = d + 1 + inner - 1 := by omega
  have hlo : d + outer = d + 1 + outer - 1 := by omega
  rw [hli] at h2
  rw [hlo] at h2'
  refine ⟨(priMakeRPFl F inner 0 0 (junk, [])).2.map (fun v r => Fl.mul F (v r) k), _, ?_, ?_, h1', ?_, h2'⟩
  · unfold makeReferencePoses2Fl
    rw [show inner + (d + 1) - 1 = d + 1 + inner - 1 by omega, hci,
      show outer + (d + 1) - 1 = d + 1 + outer - 1 by omega, hco, hcompi, hcompo]
    simp only [Out.ok_bind]
    have hb : ∀ p, d + 1 + p - 1 ≤ 20 → (d + 1 + p - 1).choose p ≤ 2 ^ 20 := by
      intro p hp
      calc (d + 1 + p - 1).choose p ≤ 2 ^ (d + 1 + p - 1) := Nat.choose_le_two_pow ..
        _ ≤ 2 ^ 20 := Nat.pow_le_pow_right (by norm_num) hp
    have hsum : ((d + 1 + inner - 1).choose inner + (d + 1 + outer - 1).choose outer) % 2 ^ 64 =
        (d + 1 + inner - 1).choose inner + (d + 1 + outer - 1).choose outer := by
      apply Nat.mod_eq_of_lt
      have := hb inner hNi; have := hb outer hNo
      norm_num at *; omega
    rw [hsum]
    have hlen : ((priMakeRPFl F inner 0 0 (junk, [])).2.map (fun v r => Fl.mul F (v r) k) ++
        (priMakeRPFl F outer 0 0 (junk, [])).2).length =
        (d + 1 + inner - 1).choose inner + (d + 1 + outer - 1).choose outer := by
      rw [List.length_append, List.length_map, h2, h2']
    rw [copyColumns_eq _ _ (by rw [hlen]), List.take_of_length_le (by rw [hlen])]
  · obtain ⟨cs, hnd, hmem, hall⟩ := h1
    refine ⟨cs, hnd, hmem, ?_⟩
    rw [List.forall₂_map_right_iff]
    have hcs : ∀ c ∈ cs, ∀ i, c i ≤ inner := by
      intro c hc i
      rw [← (hmem c).1 hc]; exact Finset.single_le_sum (fun _ _ => Nat.zero_le _) (Finset.mem_univ i)
    clear hnd hmem h2 hcompi
    generalize (priMakeRPFl F inner 0 0 (junk, [])).2 = pts at hall
    induction hall with
    | nil => exact .nil
    | cons h _ ih =>
      exact .cons (near_scale hF inner hi _ (hcs _ List.mem_cons_self) _ h k hk hk0 hk1)
        (ih fun c hc => hcs c (List.mem_cons_of_mem _ hc))
  · rw [List.length_map, h2]

/-- The constant in the code is a `double` with `2 k² = 1` up to one unit in the last place. -/
theorem invSqrt2_literal : invSqrt2Literal.Finite binary64 ∧ 0 < invSqrt2Literal.number binary64 ∧
    invSqrt2Literal.number binary64 ≤ 1 ∧
    |2 * invSqrt2Literal.number binary64 ^ 2 - 1| ≤ 1 / 2 ^ 52 := by
  have hone : binary64.one = 53 + (binary64.one - 53) := by decide
  have hnum : invSqrt2Literal.number binary64 = 6369051672525773 / 2 ^ 53 := by
    unfold invSqrt2Literal
    rw [number_pos_eq]
    have h2 : (2 : ℚ) ^ binary64.one = 2 ^ 53 * 2 ^ (binary64.one - 53) := by rw [← pow_add, ← hone]
    rw [h2]
    push_cast
    have : (2 : ℚ) ^ (binary64.one - 53) ≠ 0 := by positivity
    field_simp
  refine ⟨⟨false, _, rfl, ⟨6369051672525773, _, ?_, rfl⟩, ?_⟩, ?_, ?_, ?_⟩
  · show 6369051672525773 < 2 ^ (52 + 1)
    norm_num
  · have h1 : 6369051672525773 * 2 ^ (binary64.one - 53) < 2 ^ 53 * 2 ^ (binary64.one - 53) :=
      Nat.mul_lt_mul_of_pos_right (by norm_num) (by positivity)
    rw [← pow_add] at h1
    exact h1.trans_le (Nat.pow_le_pow_right (by norm_num) (by decide))
  · rw [hnum]; norm_num
  · rw [hnum]; norm_num
  · rw [hnum, abs_le]; norm_num

/-- **C124**: `setReferencePointPrecision(0)` is accepted by the single-layer solver and gives a single reference
point all of whose coordinates are NaN (`0.0 / 0`), with two or more objectives. -/
theorem referencePoses_precision_zero (hd : 1 ≤ d) (hd2 : d ≤ 20) (junk : Fin (d + 1) → Fl)
    (shuffle : List (Fin (d + 1) → Fl) → List (Fin (d + 1) → Fl)) (hsh : ∀ l, (shuffle l).Perm l) :
    makeReferencePosesFl F junk shuffle 0 = .ok [fun _ => .nan] := by
  have hnan : Fl.div F (Fl.ofNat F 0) (Fl.ofNat F 0) = .nan := by simp [Fl.ofNat, Fl.div]
  have key : ∀ k cur (st : (Fin (d + 1) → Fl) × List (Fin (d + 1) → Fl)), cur + k = d →
      (∀ i : Fin (d + 1), i.val < cur → st.1 i = .nan) →
      (priMakeRPFl F 0 cur 0 st).2 = st.2 ++ [fun _ => .nan] := by
    intro k
    induction k with
    | zero =>
      intro cur st hc h
      obtain rfl : cur = d := by omega
      rw [priMakeRPFl, dif_pos (by omega)]
      simp only [hnan]
      congr 2
      funext i
      by_cases hi : i = Fin.last cur
      · subst hi; rw [Function.update_self]; rfl
      · rw [Function.update_of_ne hi]
        apply h
        have : i.val ≠ cur := fun h' => hi (Fin.ext (by simpa using h'))
        omega
    | succ k ih =>
      intro cur st hc h
      rw [priMakeRPFl, dif_neg (by omega)]
      simp only [Nat.sub_zero, Nat.zero_add, List.range_one, List.foldl_cons, List.foldl_nil, hnan, Nat.add_zero]
      rw [ih (cur + 1) _ (by omega)]
      intro i hi
      by_cases e : i = ⟨cur, by omega⟩
      · rw [e]; simp only [Function.update_self]
      · simp only [Function.update_of_ne e]
        apply h
        have : i.val ≠ cur := fun h' => e (Fin.ext h')
        omega
  have hc := nchooseK_eq_choose_partial d 0 (by omega) hd2
  rw [Nat.choose_zero_right] at hc
  unfold makeReferencePosesFl computeReferencePointPosesFl
  rw [show 0 + (d + 1) - 1 = d by omega, show d + 1 + 0 - 1 = d by omega, hc]
  simp only [Out.ok_bind]
  rw [key d 0 _ (by omega) (fun i hi => absurd hi (by omega))]
  have := hsh [fun _ => Fl.nan]
  rw [List.perm_singleton] at this
  simp only [List.nil_append, this]
  rfl

end Heu
