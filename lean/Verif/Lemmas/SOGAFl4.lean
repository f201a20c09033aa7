import Verif.Lemmas.SOGAFl3

/-! Single-objective selection on IEEE data: the methods that stop. -/

set_option linter.unusedSectionVars false
set_option linter.unusedSimpArgs false
set_option linter.unusedVariables false

namespace Heu
open Spec

variable {γ : Type} [DecidableEq γ] {F : Fmt} (o : FitnessOption) (fit : γ → Dbl F)

/-- The methods that turn a wheel over given weights. -/
theorem weightedFl_total {ds : Nat → RouletteDraw (Dbl F)} {fuel K k0 e : Nat} {s : SOState γ}
    {rMax : Dbl F} {es : List (Cell γ × Dbl F)} (hd : DistinctNodes s.pop)
    (hn : ∀ c ∈ s.pop, (fit c.2).val ≠ .nan) (hb : s.best ∈ s.pop.map (·.1)) (hK0 : 0 < K)
    (hf : K ≤ fuel) (hp : (es.map (·.1)).Perm s.pop)
    (hu : ∀ i, (ds i).u.IsFin) (hk : k0 + s.pop.length < 2 ^ (F.mb + 1))
    (ht : (k0 + s.pop.length) * 2 ^ e < 2 ^ F.top)
    (h1 : K < s.pop.length → Small F k0 e rMax.val)
    (hw : K < s.pop.length → ∀ x ∈ es, Small F 1 e x.2.val) :
    ∃ s', (deref s.pop s.best >>= fun old =>
      if s.pop.length ≤ K then keepAll o fit s (fit old)
      else selectByWeightsFl o fit ds fuel K s old rMax es) = .ok s' := by
  rcases deref_ok_or_ub s.pop s.best with ⟨old, hold⟩ | hub
  · rw [hold]; simp only [Out.ok_bind]
    split
    · obtain ⟨s', h, -⟩ := keepAll_fl o fit hd hn hold; exact ⟨s', h⟩
    · exact byWeightsFl_total o fit hd hn hold hK0 (by omega) hf hp hu hk ht (h1 (by omega)) (hw (by omega))
  · exact absurd hb (deref_ub.1 hub)

theorem pow_room {n e t : Nat} (hn : n < 2 ^ 31) (he : e + 32 ≤ t) : (n + n) * 2 ^ e < 2 ^ t := by
  calc (n + n) * 2 ^ e < 2 ^ 32 * 2 ^ e := Nat.mul_lt_mul_of_pos_right (by omega) (by positivity)
    _ = 2 ^ (e + 32) := by rw [← pow_add]; congr 1; omega
    _ ≤ 2 ^ t := Nat.pow_le_pow_right (by norm_num) he

theorem foldl_weights_small {e : Nat} {es : List (Cell γ × Dbl F)} (hw : ∀ x ∈ es, Small F 1 e x.2.val)
    (hk : es.length < 2 ^ (F.mb + 1)) (ht : es.length * 2 ^ e < 2 ^ F.top) :
    Small F es.length e (es.foldl (fun (a : Dbl F) p => a + p.2) 0).val := by
  have := sum_small es hw 0 (0 : Dbl F) ⟨false, 0, rfl, Nat.zero_le _⟩ (by simpa using hk) (by simpa using ht)
  simpa using this

theorem boltzmannFl_total {exp : Dbl F → Dbl F} {strength : Dbl F} {ds : Nat → RouletteDraw (Dbl F)}
    {fuel K e : Nat} {s : SOState γ} (hd : DistinctNodes s.pop)
    (hn : ∀ c ∈ s.pop, (fit c.2).val ≠ .nan) (hb : s.best ∈ s.pop.map (·.1)) (hK0 : 0 < K)
    (hf : K ≤ fuel) (hu : ∀ i, (ds i).u.IsFin) (hl : s.pop.length < 2 ^ 31) (hmb : 32 ≤ F.mb + 1)
    (he : e + 32 ≤ F.top) (hw : ∀ c ∈ s.pop, Small F 1 e (exp (strength * fit c.2)).val) :
    ∃ s', selectBoltzmannFl o fit exp strength ds fuel K s = .ok s' := by
  have h32 : 2 ^ 32 ≤ 2 ^ (F.mb + 1) := Nat.pow_le_pow_right (by norm_num) hmb
  have hr := pow_room hl he
  have hes : ∀ x ∈ s.pop.map (fun c => (c, exp (strength * fit c.2))), Small F 1 e x.2.val := by
    intro x hx
    obtain ⟨c, hc, rfl⟩ := List.mem_map.1 hx
    exact hw c hc
  refine weightedFl_total (e := e) (k0 := s.pop.length) o fit hd hn hb hK0 hf
    (es := s.pop.map fun c => (c, exp (strength * fit c.2))) ?_ hu (by omega) hr ?_ (fun _ => hes)
  · rw [List.map_map]; show (s.pop.map fun c => c).Perm _; simp
  · intro _
    have := foldl_weights_small hes (by rw [List.length_map]; omega)
      (by rw [List.length_map]; exact lt_of_le_of_lt (Nat.mul_le_mul_right _ (by omega)) hr)
    rwa [List.length_map] at this

/-- Every probability lies in `[0, 1]`. -/
theorem probabilitiesFl_nn {e : Nat} {pop : List (Cell γ)} (hs : ∀ c ∈ pop, Small F 1 e (fit c.2).val)
    (hl : pop.length < 2 ^ 31) (hmb : 32 ≤ F.mb + 1) (he : e + 34 ≤ F.top) (hot : F.one + 32 < F.top) :
    ∀ p ∈ probabilitiesFl o fit pop, ∃ n, Nn F n p.2.val ∧ n ≤ 2 ^ F.one := by
  have h32 : 2 ^ 32 ≤ 2 ^ (F.mb + 1) := Nat.pow_le_pow_right (by norm_num) hmb
  have hnn := shifted_nn o fit minFlSwapped_isMin hs
    (lt_of_lt_of_le (by norm_num) h32) (by
      calc 2 * 2 ^ e = 2 ^ (e + 1) := by rw [pow_succ]; omega
        _ < 2 ^ F.top := Nat.pow_lt_pow_right (by norm_num) (by omega))
  have hlen : (shiftedSpaceFl minFlSwapped o fit pop).2.length = pop.length := by
    rw [← List.length_map (f := (·.1)), shiftedSpaceFl_map]
  obtain ⟨R, hR, -, hge⟩ := sum_ge (e := e + 1) (shiftedSpaceFl minFlSwapped o fit pop).2 hnn 0 0 (0 : Dbl F)
    ⟨false, rfl, by simp, rep_zero _⟩ (Nat.zero_le _) (by rw [hlen]; omega)
    (by rw [hlen, Nat.zero_add]
        exact lt_of_le_of_lt (Nat.mul_le_mul_right _ (by omega)) (pow_room hl (by omega)))
  have hsum : (shiftedSpaceFl minFlSwapped o fit pop).1 =
      (shiftedSpaceFl minFlSwapped o fit pop).2.foldl (fun s p => s + p.2) 0 := rfl
  rw [← hsum] at hR
  intro p hp
  unfold probabilitiesFl at hp
  simp only at hp
  split at hp
  · obtain ⟨q, hq, rfl⟩ := List.mem_map.1 hp
    have hpos : 0 < pop.length := by rw [← hlen]; exact List.length_pos_of_mem hq
    simp only
    rw [Dbl.div_val, nat_val, nat_val]
    have hrep : ∀ k, k < 2 ^ 31 → Rep F.mb (k * 2 ^ F.one) := fun k hk => ⟨k, F.one, by omega, rfl⟩
    exact nn_div (n := 1 * 2 ^ F.one) (m := pop.length * 2 ^ F.one) ⟨false, rfl, by simp, hrep 1 (by norm_num)⟩
      ⟨false, rfl, by simp, hrep _ hl⟩ (by positivity) (Nat.mul_le_mul_right _ hpos) (by omega)
  · next hnot =>
    obtain ⟨q, hq, rfl⟩ := List.mem_map.1 hp
    obtain ⟨n, hn, -⟩ := hnn q hq
    have hRpos : 0 < R := by
      rcases Nat.eq_zero_or_pos R with h0 | h0
      · exfalso
        apply hnot
        obtain ⟨t, ht, -⟩ := hR
        rw [Dbl.le_def, ht, Dbl.zero_val, fl_le_fin, h0]
        cases t <;> simp [Fl.units]
      · exact h0
    exact nn_div hn hR hRpos (hge q hq n hn) (by omega)

theorem probabilitiesFl_map (pop : List (Cell γ)) : (probabilitiesFl o fit pop).map (·.1) = pop := by
  unfold probabilitiesFl
  simp only
  split <;> rw [map_fst_map, shiftedSpaceFl_map]

theorem probabilityFl_total {big : Dbl F} {pow : Dbl F → Nat → Dbl F} {ds : Nat → RouletteDraw (Dbl F)}
    {fuel K e b : Nat} {s : SOState γ} (hd : DistinctNodes s.pop) (hb : s.best ∈ s.pop.map (·.1))
    (hK0 : 0 < K) (hf : K ≤ fuel) (hu : ∀ i, (ds i).u.IsFin) (hl : s.pop.length < 2 ^ 31)
    (hmb : 32 ≤ F.mb + 1) (hs : ∀ c ∈ s.pop, Small F 1 e (fit c.2).val) (he : e + 34 ≤ F.top)
    (hbig : Small F 1 (F.one + b) big.val) (hbt : F.one + b + 32 < F.top)
    (hpow : ∀ (x : Dbl F) k, Unit01 x → Unit01 (pow x k)) :
    ∃ s', selectProbabilityFl o fit big pow ds fuel K s = .ok s' := by
  have h32 : 2 ^ 32 ≤ 2 ^ (F.mb + 1) := Nat.pow_le_pow_right (by norm_num) hmb
  have hr := pow_room (e := F.one + b) (t := F.top) hl (by omega)
  have hes : ∀ x ∈ (probabilitiesFl o fit s.pop).map (fun p =>
      (p.1, big * pow p.2 K * pow (Dbl.nat F 1 - p.2) (s.pop.length - K))), Small F 1 (F.one + b) x.2.val := by
    intro x hx
    obtain ⟨p, hp, rfl⟩ := List.mem_map.1 hx
    obtain ⟨n, hn, hn'⟩ := probabilitiesFl_nn o fit hs hl hmb he (by omega) p hp
    obtain ⟨m, hm, hm'⟩ := one_sub_unit01 hn hn' (by omega)
    have p1 := unit01_small (hpow _ K (nn_unit01 hn hn'))
    have p2 := unit01_small (hpow _ (s.pop.length - K) (nn_unit01 hm hm'))
    have q1 : Small F 1 (F.one + b) (big * pow p.2 K).val := by
      have := hbig.mul p1 (by omega) (by omega)
      rwa [show F.one + b + F.one - F.one = F.one + b by omega] at this
    have q2 := q1.mul p2 (by omega) (by omega)
    rwa [show F.one + b + F.one - F.one = F.one + b by omega] at q2
  have hlen : ((probabilitiesFl o fit s.pop).map (fun p =>
      (p.1, big * pow p.2 K * pow (Dbl.nat F 1 - p.2) (s.pop.length - K)))).length = s.pop.length := by
    rw [List.length_map, ← List.length_map (f := (·.1)), probabilitiesFl_map]
  refine weightedFl_total (e := F.one + b) (k0 := s.pop.length) o fit hd
    (fun c hc => (Small.isFin (hs c hc)).ne_nan) hb hK0 hf
    (es := (probabilitiesFl o fit s.pop).map fun p =>
      (p.1, big * pow p.2 K * pow (Dbl.nat F 1 - p.2) (s.pop.length - K))) ?_ hu (by omega) hr ?_ (fun _ => hes)
  · rw [map_fst_map, probabilitiesFl_map]
  · intro _
    have := foldl_weights_small hes (by rw [hlen]; omega)
      (by rw [hlen]; exact lt_of_le_of_lt (Nat.mul_le_mul_right _ (by omega)) hr)
    rwa [hlen] at this

theorem nat_small {k e : Nat} (h : k ≤ 2 ^ e) : Small F 1 (F.one + e) (Dbl.nat F k).val :=
  ⟨false, _, rfl, by rw [Nat.one_mul, pow_add, Nat.mul_comm]; exact Nat.mul_le_mul_left _ h⟩

theorem small_two {e : Nat} {x : Fl} (h : Small F (1 + 1) e x) : Small F 1 (e + 1) x := by
  obtain ⟨s, n, h1, h2⟩ := h
  exact ⟨s, n, h1, by rw [pow_succ]; omega⟩

theorem div_nat_small {x : Dbl F} {e k : Nat} (h : Small F 1 e x.val) (hk : 0 < k) (ht : e < F.top) :
    Small F 1 e (x / Dbl.nat F k).val := by
  have := h.div (c := F.one) (t := false) (m := k * 2 ^ F.one)
    (by simpa using Nat.mul_le_mul_right (2 ^ F.one) hk) (by omega) (by omega)
  rwa [Nat.add_sub_cancel] at this

theorem linearWeightFl_small {worst best : Dbl F} {n idx : Nat} (hw : Small F 1 F.one worst.val)
    (hb : Small F 1 F.one best.val) (hn : 2 ≤ n) (hl : n < 2 ^ 31) (hmb : 32 ≤ F.mb + 1)
    (ht : F.one + 66 ≤ F.top) : Small F 1 (F.one + 64) (linearWeightFl worst best n idx).val := by
  have h32 : 2 ^ 32 ≤ 2 ^ (F.mb + 1) := Nat.pow_le_pow_right (by norm_num) hmb
  have h2 : 1 + 1 < 2 ^ (F.mb + 1) := lt_of_lt_of_le (by norm_num) h32
  have hroom : ∀ e, e + 1 < F.top → (1 + 1) * 2 ^ e < 2 ^ F.top := fun e he => by
    calc (1 + 1) * 2 ^ e = 2 ^ (e + 1) := by rw [pow_succ]; omega
      _ < _ := Nat.pow_lt_pow_right (by norm_num) he
  have hwn : Small F 1 (F.one + 31) (worst * Dbl.nat F n).val := by
    have := hw.mul (nat_small (F := F) (e := 31) hl.le) (by omega) (by omega)
    rwa [show F.one + (F.one + 31) - F.one = F.one + 31 by omega] at this
  have hbn : Small F 1 (F.one + 31) (best * Dbl.nat F n).val := by
    have := hb.mul (nat_small (F := F) (e := 31) hl.le) (by omega) (by omega)
    rwa [show F.one + (F.one + 31) - F.one = F.one + 31 by omega] at this
  have hdiff : Small F 1 (F.one + 32) (best * Dbl.nat F n - worst * Dbl.nat F n).val :=
    small_two (hbn.sub hwn h2 (hroom _ (by omega)))
  have hmul : Small F 1 (F.one + 63)
      ((best * Dbl.nat F n - worst * Dbl.nat F n) * Dbl.nat F (n - idx - 1)).val := by
    have := hdiff.mul (nat_small (F := F) (e := 31) (k := n - idx - 1) (by omega)) (by omega) (by omega)
    rwa [show F.one + 32 + (F.one + 31) - F.one = F.one + 63 by omega] at this
  have hdiv := div_nat_small hmul (k := n - 1) (by omega) (by omega)
  have hsum : Small F 1 (F.one + 64) (worst * Dbl.nat F n +
      (best * Dbl.nat F n - worst * Dbl.nat F n) * Dbl.nat F (n - idx - 1) / Dbl.nat F (n - 1)).val :=
    small_two ((hwn.pow_mono (e' := F.one + 63) (by omega)).add hdiv h2 (hroom _ (by omega)))
  exact div_nat_small hsum (by omega) (by omega)

theorem linearRankFl_total {sort : Sorter (Cell γ)} {worst best : Dbl F} {ds : Nat → RouletteDraw (Dbl F)}
    {fuel K : Nat} {s : SOState γ} (hd : DistinctNodes s.pop)
    (hn : ∀ c ∈ s.pop, (fit c.2).val ≠ .nan) (hb : s.best ∈ s.pop.map (·.1)) (hK0 : 0 < K)
    (hf : K ≤ fuel) (hu : ∀ i, (ds i).u.IsFin) (hl : s.pop.length < 2 ^ 31) (hmb : 32 ≤ F.mb + 1)
    (ht : F.one + 96 ≤ F.top) (hw : Small F 1 F.one worst.val) (hbe : Small F 1 F.one best.val) :
    ∃ s', selectLinearRankFl o fit sort worst best ds fuel K s = .ok s' := by
  have h32 : 2 ^ 32 ≤ 2 ^ (F.mb + 1) := Nat.pow_le_pow_right (by norm_num) hmb
  unfold selectLinearRankFl
  rw [sortRange_fl o fit sort hn]
  simp only [Out.ok_bind]
  by_cases h0 : s.pop.length = 0
  · rw [List.length_eq_zero_iff.1 h0] at hb; simp at hb
  refine weightedFl_total (e := F.one + 64) (k0 := 1) o fit hd hn hb hK0 hf ?_ hu (by omega)
    (lt_of_le_of_lt (Nat.mul_le_mul_right _ (by omega : 1 + s.pop.length ≤ s.pop.length + s.pop.length))
      (pow_room hl (by omega))) (fun _ => ?_) (fun hlt => ?_)
  · rw [zipIdx_map_fst]; exact (rangeSorter sort s.pop).perm _ _
  · exact (nat_small (F := F) (e := 0) (k := 1) (by norm_num)).pow_mono (by omega)
  · intro x hx
    obtain ⟨p, -, rfl⟩ := List.mem_map.1 hx
    exact linearWeightFl_small hw hbe (by omega) hl hmb (by omega)

/-- A weight of ExponentialRank is at most `2^(mb+1)`. -/
theorem exponentialWeightFl_small (hgood : F.Good) {base : Dbl F} {pow : Dbl F → Nat → Dbl F} {n idx b : Nat}
    (hb : base.val = .fin false b) (hrep : Rep F.mb b) (hb1 : b < 2 ^ F.one)
    (hpow : ∀ k, Unit01 (pow base k)) (hpn : pow base n ≤ base) (hot : F.one + F.mb + 2 < F.top) :
    Small F 1 (F.one + (F.mb + 1)) (exponentialWeightFl base pow n idx).val := by
  have hmb := hgood.mb9
  have hone : F.mb + 1 ≤ F.one := by
    have := hgood.wide; unfold Fmt.one; omega
  -- numerator
  have hnum : Small F 1 F.one (base - Dbl.nat F 1).val := by
    rw [Dbl.sub_val, hb, nat_val]
    simp only [Fl.sub, Fl.neg, Fl.add]
    split
    · exact ⟨_, 0, rfl, Nat.zero_le _⟩
    · have e : (Fl.units false b + Fl.units (!false) (1 * 2 ^ F.one)).natAbs = 2 ^ F.one - b := by
        have h1 : Fl.units false b = b := by simp [Fl.units]
        have h2 : Fl.units (!false) (1 * 2 ^ F.one) = -((2 ^ F.one : Nat) : ℤ) := by simp [Fl.units]
        rw [h1, h2]; omega
      have hr : rndUnits F.mb (2 ^ F.one - b) 1 ≤ 2 ^ F.one :=
        rndUnits_le _ _ _ one_pos (rep_pow _ _) (by omega)
      have ht : 2 ^ F.one < 2 ^ F.top := Nat.pow_lt_pow_right (by norm_num) (by omega)
      rw [e]
      refine ⟨decide (Fl.units false b + Fl.units (!false) (1 * 2 ^ F.one) < 0), _, ?_, by simpa using hr⟩
      unfold Fl.mk
      rw [if_neg (by omega)]
  -- denominator
  obtain ⟨s, q, hq, hqb, hsq⟩ : ∃ s q, (pow base n).val = .fin s q ∧ q ≤ b ∧ (s = true → q = 0) := by
    obtain ⟨s, q, h1, -⟩ := unit01_small (hpow n)
    have h2 := hpn
    have h3 := (hpow n).1
    rw [Dbl.le_def, h1, hb, fl_le_fin] at h2
    rw [Dbl.le_def, h1, Dbl.zero_val, fl_le_fin] at h3
    refine ⟨s, q, h1, ?_, ?_⟩
    · cases s <;> simp [Fl.units] at h2 h3 <;> omega
    · intro hs; subst hs; simp [Fl.units] at h3; exact h3
  have hden : ∃ t m, (pow base n - Dbl.nat F 1).val = .fin t m ∧ 2 ^ (F.one - (F.mb + 1)) ≤ m := by
    rw [Dbl.sub_val, hq, nat_val]
    simp only [Fl.sub, Fl.neg, Fl.add]
    have h1 : Fl.units s q = q := units_of_nn hsq
    have h2 : Fl.units (!false) (1 * 2 ^ F.one) = -((2 ^ F.one : Nat) : ℤ) := by simp [Fl.units]
    rw [h1, h2]
    have hne : ¬ ((q : ℤ) + -((2 ^ F.one : Nat) : ℤ) = 0) := by omega
    rw [if_neg hne]
    have e : ((q : ℤ) + -((2 ^ F.one : Nat) : ℤ)).natAbs = 2 ^ F.one - q := by omega
    rw [e]
    have hgap := rep_lt_pow hrep hone hb1
    have hlow : 2 ^ (F.one - (F.mb + 1)) ≤ rndUnits F.mb (2 ^ F.one - q) 1 :=
      le_rndUnits _ _ _ one_pos (rep_pow _ _) (by omega)
    have hr : rndUnits F.mb (2 ^ F.one - q) 1 ≤ 2 ^ F.one :=
      rndUnits_le _ _ _ one_pos (rep_pow _ _) (by omega)
    have ht : 2 ^ F.one < 2 ^ F.top := Nat.pow_lt_pow_right (by norm_num) (by omega)
    refine ⟨decide ((q : ℤ) + -((2 ^ F.one : Nat) : ℤ) < 0), _, ?_, hlow⟩
    unfold Fl.mk
    rw [if_neg (by omega)]
  obtain ⟨t, m, hm, hlow⟩ := hden
  have hdiv : Small F 1 (F.one + (F.mb + 1)) ((base - Dbl.nat F 1) / (pow base n - Dbl.nat F 1)).val := by
    rw [Dbl.div_val, hm]
    have := hnum.div (t := t) hlow (by omega) (by omega)
    rwa [show F.one + F.one - (F.one - (F.mb + 1)) = F.one + (F.mb + 1) by omega] at this
  have := hdiv.mul (unit01_small (hpow idx)) (by omega) (by omega)
  rwa [show F.one + (F.mb + 1) + F.one - F.one = F.one + (F.mb + 1) by omega] at this

theorem exponentialRankFl_total (hgood : F.Good) {sort : Sorter (Cell γ)} {base : Dbl F}
    {pow : Dbl F → Nat → Dbl F} {ds : Nat → RouletteDraw (Dbl F)} {fuel K b : Nat} {s : SOState γ}
    (hd : DistinctNodes s.pop) (hn : ∀ c ∈ s.pop, (fit c.2).val ≠ .nan) (hb : s.best ∈ s.pop.map (·.1))
    (hK0 : 0 < K) (hf : K ≤ fuel) (hu : ∀ i, (ds i).u.IsFin) (hl : s.pop.length < 2 ^ 31)
    (hmb : 32 ≤ F.mb + 1) (ht : F.one + F.mb + 34 ≤ F.top) (hba : base.val = .fin false b)
    (hrep : Rep F.mb b) (hb1 : b < 2 ^ F.one) (hpow : ∀ k, Unit01 (pow base k))
    (hpn : ∀ k, 0 < k → pow base k ≤ base) :
    ∃ s', selectExponentialRankFl o fit sort base pow ds fuel K s = .ok s' := by
  have h32 : 2 ^ 32 ≤ 2 ^ (F.mb + 1) := Nat.pow_le_pow_right (by norm_num) hmb
  unfold selectExponentialRankFl
  rw [sortRange_fl o fit sort hn]
  simp only [Out.ok_bind]
  by_cases h0 : s.pop.length = 0
  · rw [List.length_eq_zero_iff.1 h0] at hb; simp at hb
  refine weightedFl_total (e := F.one + (F.mb + 1)) (k0 := 1) o fit hd hn hb hK0 hf ?_ hu (by omega)
    (lt_of_le_of_lt (Nat.mul_le_mul_right _ (by omega : 1 + s.pop.length ≤ s.pop.length + s.pop.length))
      (pow_room hl (by omega))) (fun _ => ?_) (fun hlt => ?_)
  · rw [zipIdx_map_fst]; exact (rangeSorter sort s.pop).perm _ _
  · exact (nat_small (F := F) (e := 0) (k := 1) (by norm_num)).pow_mono (by omega)
  · intro x hx
    obtain ⟨p, -, rfl⟩ := List.mem_map.1 hx
    exact exponentialWeightFl_small hgood hba hrep hb1 hpow (hpn _ (by omega)) (by omega)

theorem rouletteFl_total {ds : Nat → RouletteDraw (Dbl F)} {fuel K e : Nat} {s : SOState γ}
    (hd : DistinctNodes s.pop) (hb : s.best ∈ s.pop.map (·.1)) (hK0 : 0 < K) (hf : K ≤ fuel)
    (hu : ∀ i, (ds i).u.IsFin) (hl : s.pop.length < 2 ^ 31) (hmb : 32 ≤ F.mb + 1) (he : e + 34 ≤ F.top)
    (hs : ∀ c ∈ s.pop, Small F 1 e (fit c.2).val)
    (hhit : ∀ it, ∃ j, j ≤ s.pop.length - K ∧ (ds it).hit j = true) :
    ∃ s', selectRouletteFl o fit ds fuel K s = .ok s' := by
  have h32 : 2 ^ 32 ≤ 2 ^ (F.mb + 1) := Nat.pow_le_pow_right (by norm_num) hmb
  have hn : ∀ c ∈ s.pop, (fit c.2).val ≠ .nan := fun c hc => (Small.isFin (hs c hc)).ne_nan
  unfold selectRouletteFl
  rcases deref_ok_or_ub s.pop s.best with ⟨old, hold⟩ | hub
  swap
  · exact absurd hb (deref_ub.1 hub)
  rw [hold]; simp only [Out.ok_bind]
  split
  · obtain ⟨s', h, -⟩ := keepAll_fl o fit hd hn hold; exact ⟨s', h⟩
  next hlt =>
  have hr := pow_room (e := e + 1) (t := F.top) hl (by omega)
  have hnn := shifted_nn o fit minFl_isMin hs (lt_of_lt_of_le (by norm_num) h32) (by
      calc 2 * 2 ^ e = 2 ^ (e + 1) := by rw [pow_succ]; omega
        _ < 2 ^ F.top := Nat.pow_lt_pow_right (by norm_num) (by omega))
  have hw : ∀ x ∈ (shiftedSpaceFl minFl o fit s.pop).2, Small F 1 (e + 1) x.2.val := fun x hx => by
    obtain ⟨n, h1, h2⟩ := hnn x hx; exact nn_small h1 h2
  have hp := shiftedSpaceFl_map o fit minFl s.pop
  have hlen : (shiftedSpaceFl minFl o fit s.pop).2.length = s.pop.length := by
    rw [← List.length_map (f := (·.1)), hp]
  have hsum : Small F s.pop.length (e + 1) (shiftedSpaceFl minFl o fit s.pop).1.val := by
    have := foldl_weights_small hw (by rw [hlen]; omega)
      (by rw [hlen]; exact lt_of_le_of_lt (Nat.mul_le_mul_right _ (by omega)) hr)
    rw [hlen] at this; exact this
  obtain ⟨N, hN⟩ : ∃ N, N = s.pop.length := ⟨_, rfl⟩
  have hstep : ∀ (it : Nat) (st : Dbl F × List (Cell γ × Dbl F)), s.pop.length - K < st.2.length →
      (Small F (N + it) (e + 1) st.1.val ∧ (∀ x ∈ st.2, Small F 1 (e + 1) x.2.val) ∧ it + st.2.length ≤ N) →
      ∃ st', (if st.1 > 0 then rouletteStep (ds it).u st else .ok (st.1, randomPass (ds it).hit 0 st.2)) = .ok st' ∧
        st'.2.Sublist st.2 ∧ st'.2.length + 1 = st.2.length ∧
        (Small F (N + (it + 1)) (e + 1) st'.1.val ∧ (∀ x ∈ st'.2, Small F 1 (e + 1) x.2.val) ∧
          it + 1 + st'.2.length ≤ N) := by
    rintro it st hgt ⟨i1, i2, i3⟩
    have hne : st.2 ≠ [] := by rintro h; simp [h] at hgt
    have hmul : ∀ j, j ≤ N + N → j * 2 ^ (e + 1) < 2 ^ F.top := fun j hj =>
      lt_of_le_of_lt (Nat.mul_le_mul_right _ hj) (hN ▸ hr)
    split
    · have h0 : Small F (N + it + 0) (e + 1) (st.1 - 0 : Dbl F).val :=
        i1.sub ⟨false, 0, rfl, Nat.zero_le _⟩ (by omega) (hmul _ (by omega))
      obtain ⟨st', s1, s2, s3, x, hx, s4⟩ := rouletteStep_fl hne (hu it) i1.isFin h0.isFin
        (fun x hx => (i2 x hx).isFin)
      refine ⟨st', s1, s2, s3, ?_, fun y hy => i2 y (s2.subset hy), by omega⟩
      rw [s4]
      exact i1.sub (i2 x hx) (by omega) (hmul _ (by omega))
    · obtain ⟨r1, -, r3⟩ := randomPass_spec (ds it).hit 0 st.2
      obtain ⟨j, hj, hj'⟩ := hhit it
      have r3' := r3 ⟨j, by omega, by simpa using hj'⟩
      exact ⟨_, rfl, r1, r3', i1.mono (by omega), fun y hy => i2 y (r1.subset hy), by simp only; omega⟩
  obtain ⟨E, hE, e1, e2, -⟩ := elimLoop_inv (m := s.pop.length - K) _ hstep fuel 0
    (shiftedSpaceFl minFl o fit s.pop) ⟨by rw [hN]; exact hsum, hw, by omega⟩ (by omega)
  have := e2 (by omega)
  obtain ⟨s', h, -⟩ := finish_fl o fit hd hn hold (sub_of_perm (by rw [hp]) e1) (by omega)
  refine ⟨s', ?_⟩
  rw [hE]; exact h

theorem montecarloFl_total {shuffle : List (Cell γ) → List (Cell γ)} (hsh : ∀ l, (shuffle l).Perm l)
    {K : Nat} {s : SOState γ} (hd : DistinctNodes s.pop) (hn : ∀ c ∈ s.pop, (fit c.2).val ≠ .nan)
    (hb : s.best ∈ s.pop.map (·.1)) (hK0 : 0 < K) :
    ∃ s', selectMonteCarlo o fit shuffle K s = .ok s' := by
  unfold selectMonteCarlo
  rcases deref_ok_or_ub s.pop s.best with ⟨old, hold⟩ | hub
  swap
  · exact absurd hb (deref_ub.1 hub)
  rw [hold]; simp only [Out.ok_bind]
  split
  · obtain ⟨s', h, -⟩ := keepAll_fl o fit hd hn hold; exact ⟨s', h⟩
  · have he : ((((shuffle s.pop).take (s.pop.length - K)).map fun c => (c, (0 : Dbl F))).map (·.1)) =
        (shuffle s.pop).take (s.pop.length - K) := by rw [List.map_map]; exact List.map_id _
    obtain ⟨s', h, -⟩ := finish_fl o fit hd hn hold (by
      rw [he]; exact (List.take_sublist _ _).subperm.trans (hsh _).subperm)
      (by rw [List.length_map, List.length_take, (hsh _).length_eq]; omega)
    exact ⟨s', h⟩

/-- A draw of `randD()`: a double in `[0, 1)`. -/
def Draw01 (x : Dbl F) : Prop := ∃ n, x.val = .fin false n ∧ n < 2 ^ F.one

theorem susEqualPass_fl {β : Type} {K n : Nat} (hKn : K ≤ n) (hn : n < 2 ^ 31) (hmb : 32 ≤ F.mb + 1)
    (ht : F.one + 32 < F.top) {u : Nat → Dbl F} (hu : ∀ i, Draw01 (u i)) (es : List (β × Dbl F)) :
    susEqualPass (Dbl.nat F K) (Dbl.nat F n) u es = [] := by
  have h32 : 2 ^ 32 ≤ 2 ^ (F.mb + 1) := Nat.pow_le_pow_right (by norm_num) hmb
  unfold susEqualPass
  rw [List.map_eq_nil_iff, List.filter_eq_nil_iff]
  intro p _
  obtain ⟨m, hm, hm'⟩ := hu p.2
  have hle : u p.2 * Dbl.nat F K ≤ Dbl.nat F n := by
    rw [Dbl.le_def, Dbl.mul_val, hm, nat_val, nat_val]
    have hr : rndUnits F.mb (m * (K * 2 ^ F.one)) (2 ^ F.one) ≤ K * 2 ^ F.one := by
      refine rndUnits_le _ _ _ (by positivity) ⟨K, F.one, by omega, rfl⟩ ?_
      rw [Nat.mul_comm]; exact Nat.mul_le_mul_left _ hm'.le
    have hK : K * 2 ^ F.one < 2 ^ F.top := by
      calc K * 2 ^ F.one ≤ (n + n) * 2 ^ F.one := Nat.mul_le_mul_right _ (by omega)
        _ < _ := pow_room hn (by omega)
    simp only [Fl.mul, Fl.mk]
    rw [if_neg (by omega), fl_le_fin]
    simp only [Bool.xor_self, Fl.units]
    simp only [Bool.false_eq_true, if_false]
    have : K * 2 ^ F.one ≤ n * 2 ^ F.one := Nat.mul_le_mul_right _ hKn
    exact_mod_cast hr.trans this
  simp [hle]

theorem susFl_total {u0 : Dbl F} {u : Nat → Dbl F} {K : Nat} {s : SOState γ} (hd : DistinctNodes s.pop)
    (hn : ∀ c ∈ s.pop, (fit c.2).val ≠ .nan) (hb : s.best ∈ s.pop.map (·.1)) (hK0 : 0 < K)
    (hl : s.pop.length < 2 ^ 31) (hmb : 32 ≤ F.mb + 1) (ht : F.one + 32 < F.top) (hu : ∀ i, Draw01 (u i)) :
    ∃ s', selectSUSFl o fit u0 u K s = .ok s' ∧ min K s.pop.length ≤ s'.pop.length := by
  unfold selectSUSFl
  rcases deref_ok_or_ub s.pop s.best with ⟨old, hold⟩ | hub
  swap
  · exact absurd hb (deref_ub.1 hub)
  rw [hold]; simp only [Out.ok_bind]
  have hp := shiftedSpaceFl_map o fit minFl s.pop
  split
  · obtain ⟨s', h, -, h3⟩ := keepAll_fl o fit hd hn hold; exact ⟨s', h, by rw [h3]; omega⟩
  · split
    · rw [susEqualPass_fl (by omega) hl hmb ht hu]
      obtain ⟨s', h, -, h3, h4⟩ := finish_fl o fit hd hn hold (E := []) (by simp) (by simp; omega)
      exact ⟨s', h, by simp at h4; omega⟩
    · obtain ⟨E, hE⟩ : ∃ E, E = ((susPass ((shiftedSpaceFl minFl o fit s.pop).1 / Dbl.nat F K)
        (((shiftedSpaceFl minFl o fit s.pop).1 / Dbl.nat F K - 0) * u0 + 0)
        (shiftedSpaceFl minFl o fit s.pop).2).take (s.pop.length - K)) := ⟨_, rfl⟩
      rw [← hE]
      have hlen : E.length ≤ s.pop.length - K := by rw [hE]; exact List.length_take_le _ _
      obtain ⟨s', h, -, h3, h4⟩ := finish_fl o fit hd hn hold (E := E) (sub_of_perm
        (es := (shiftedSpaceFl minFl o fit s.pop).2) (by rw [hp])
        (by rw [hE]; exact (List.take_sublist _ _).trans (susPass_sublist _ _ _))) (by omega)
      exact ⟨s', h, by omega⟩

end Heu
