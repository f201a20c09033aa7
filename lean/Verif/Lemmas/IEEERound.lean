import Verif.Lemmas.Encode

set_option linter.unusedSimpArgs false
set_option linter.unusedVariables false

/-!
# Order properties of IEEE rounding
-/

namespace Heu

theorem rndHE_bounds (a b : Nat) : a / b ≤ rndHE a b ∧ rndHE a b ≤ a / b + 1 := by
  unfold rndHE
  simp only
  split
  · omega
  · split
    · omega
    · split <;> omega

theorem rndHE_le_of_le (a b N : Nat) (hb : 0 < b) (h : a ≤ N * b) : rndHE a b ≤ N := by
  have h1 : a / b ≤ N := by
    rw [Nat.div_le_iff_le_mul_add_pred hb]
    rw [Nat.mul_comm b N]; omega
  rcases Nat.lt_or_eq_of_le h1 with h2 | h2
  · have := (rndHE_bounds a b).2; omega
  · have hdm := Nat.div_add_mod a b
    rw [h2, Nat.mul_comm b N] at hdm
    have hr : a % b = 0 := by omega
    unfold rndHE
    simp only [hr, h2]
    simp [hb]

theorem rndHE_err (a b : Nat) (hb : 0 < b) :
    2 * (rndHE a b * b) ≤ 2 * a + b ∧ 2 * a ≤ 2 * (rndHE a b * b) + b := by
  have hdm := Nat.div_add_mod a b
  rw [Nat.mul_comm] at hdm
  have hr := Nat.mod_lt a hb
  have e : (a / b + 1) * b = a / b * b + b := by ring
  unfold rndHE
  simp only
  split
  · omega
  · split
    · rw [e]; omega
    · split
      · omega
      · rw [e]; omega

section
variable (mb a b : Nat)

theorem rndUnits_def : rndUnits mb a b =
    rndHE a (b * 2 ^ (Nat.log2 (a / b) - mb)) * 2 ^ (Nat.log2 (a / b) - mb) := rfl

/-- Representable numbers below the exact value stay below the rounded one. -/
theorem le_rndUnits (hb : 0 < b) {n : Nat} (hn : Rep mb n) (h : n * b ≤ a) : n ≤ rndUnits mb a b := by
  rw [rndUnits_def]
  obtain ⟨s, hs⟩ : ∃ s, s = Nat.log2 (a / b) - mb := ⟨_, rfl⟩
  obtain ⟨A, hA⟩ : ∃ A, A = a / b := ⟨_, rfl⟩
  rw [← hs]
  have hnA : n ≤ A := by rw [hA]; exact (Nat.le_div_iff_mul_le hb).2 h
  have hlow : A / 2 ^ s ≤ rndHE a (b * 2 ^ s) := by
    have := (rndHE_bounds a (b * 2 ^ s)).1
    rwa [← Nat.div_div_eq_div_mul, ← hA] at this
  refine le_trans ?_ (Nat.mul_le_mul_right (2 ^ s) hlow)
  obtain ⟨m, k, hm, rfl⟩ := hn
  rcases Nat.le_total s k with hk | hk
  · obtain ⟨t, rfl⟩ := Nat.exists_eq_add_of_le hk
    have e : m * 2 ^ (s + t) = m * 2 ^ t * 2 ^ s := by rw [pow_add]; ring
    rw [e] at hnA ⊢
    exact Nat.mul_le_mul_right _ ((Nat.le_div_iff_mul_le (by positivity)).2 hnA)
  · rcases Nat.eq_zero_or_pos s with h0 | h0
    · have hk0 : k = 0 := by omega
      subst h0; subst hk0; simpa using hnA
    · have hlog : Nat.log2 A = mb + s := by rw [← hA] at hs; omega
      have hA0 : A ≠ 0 := by
        intro h; rw [h] at hlog; simp at hlog; omega
      have hAge : 2 ^ (mb + s) ≤ A := by rw [← hlog]; exact Nat.log2_self_le hA0
      have hq : 2 ^ mb ≤ A / 2 ^ s := by
        rw [Nat.le_div_iff_mul_le (by positivity), ← pow_add]; exact hAge
      rcases Nat.lt_or_eq_of_le hk with hk' | hk'
      · calc m * 2 ^ k ≤ 2 ^ (mb + 1) * 2 ^ k := Nat.mul_le_mul_right _ hm.le
          _ = 2 ^ (mb + (k + 1)) := by rw [← pow_add]; congr 1; omega
          _ ≤ 2 ^ (mb + s) := Nat.pow_le_pow_right (by norm_num) (by omega)
          _ = 2 ^ mb * 2 ^ s := pow_add _ _ _
          _ ≤ _ := Nat.mul_le_mul_right _ hq
      · subst hk'
        exact Nat.mul_le_mul_right _ ((Nat.le_div_iff_mul_le (by positivity)).2 hnA)

/-- Representable numbers above the exact value stay above the rounded one. -/
theorem rndUnits_le (hb : 0 < b) {n : Nat} (hn : Rep mb n) (h : a ≤ n * b) : rndUnits mb a b ≤ n := by
  rw [rndUnits_def]
  obtain ⟨s, hs⟩ : ∃ s, s = Nat.log2 (a / b) - mb := ⟨_, rfl⟩
  obtain ⟨A, hA⟩ : ∃ A, A = a / b := ⟨_, rfl⟩
  rw [← hs]
  obtain ⟨m, k, hm, rfl⟩ := hn
  have hAn : A ≤ m * 2 ^ k := by
    rw [hA]; exact Nat.div_le_of_le_mul (by rw [Nat.mul_comm b]; exact h)
  rcases Nat.le_total s k with hk | hk
  · obtain ⟨t, rfl⟩ := Nat.exists_eq_add_of_le hk
    have e : m * 2 ^ (s + t) = m * 2 ^ t * 2 ^ s := by rw [pow_add]; ring
    rw [e] at h ⊢
    refine Nat.mul_le_mul_right _ (rndHE_le_of_le _ _ _ (by positivity) ?_)
    calc a ≤ _ := h
      _ = _ := by ring
  · rcases Nat.lt_or_eq_of_le hk with hk' | hk'
    · exfalso
      have hlog : Nat.log2 A = mb + s := by rw [← hA] at hs; omega
      have hA0 : A ≠ 0 := by
        intro h; rw [h] at hlog; simp at hlog; omega
      have hAge : 2 ^ (mb + s) ≤ A := by rw [← hlog]; exact Nat.log2_self_le hA0
      have : m * 2 ^ k < 2 ^ (mb + s) :=
        calc m * 2 ^ k < 2 ^ (mb + 1) * 2 ^ k := Nat.mul_lt_mul_of_pos_right hm (by positivity)
          _ = 2 ^ (mb + (k + 1)) := by rw [← pow_add]; congr 1; omega
          _ ≤ 2 ^ (mb + s) := Nat.pow_le_pow_right (by norm_num) (by omega)
      omega
    · subst hk'
      refine Nat.mul_le_mul_right _ (rndHE_le_of_le _ _ _ (by positivity) ?_)
      calc a ≤ _ := h
        _ = _ := by ring

/-- The result of rounding is representable. -/
theorem rep_rndUnits (hb : 0 < b) : Rep mb (rndUnits mb a b) := by
  rw [rndUnits_def]
  obtain ⟨s, hs⟩ : ∃ s, s = Nat.log2 (a / b) - mb := ⟨_, rfl⟩
  obtain ⟨A, hA⟩ : ∃ A, A = a / b := ⟨_, rfl⟩
  rw [← hs]
  have hup := (rndHE_bounds a (b * 2 ^ s)).2
  rw [← Nat.div_div_eq_div_mul, ← hA] at hup
  have hq : A / 2 ^ s < 2 ^ (mb + 1) := by
    rw [Nat.div_lt_iff_lt_mul (by positivity), ← pow_add]
    calc A < 2 ^ (A.log2 + 1) := Nat.lt_log2_self
      _ ≤ _ := Nat.pow_le_pow_right (by norm_num) (by rw [hA] at *; omega)
  rcases Nat.lt_or_eq_of_le (show rndHE a (b * 2 ^ s) ≤ 2 ^ (mb + 1) by omega) with h | h
  · exact ⟨_, s, h, rfl⟩
  · exact ⟨1, mb + 1 + s, Nat.one_lt_two_pow (by omega), by rw [h, one_mul, ← pow_add]⟩

end

theorem rndUnits_rep {mb n b : Nat} (hb : 0 < b) (h : Rep mb n) : rndUnits mb (n * b) b = n := by
  obtain ⟨m, k, hm, rfl⟩ := h
  exact rndUnits_exact mb m k b hm hb

theorem rndUnits_rep1 {mb n : Nat} (h : Rep mb n) : rndUnits mb n 1 = n := by
  have := rndUnits_rep one_pos h
  simpa using this

/-- Rounding is monotone. -/
theorem rndUnits_mono (mb a a' b : Nat) (hb : 0 < b) (h : a ≤ a') :
    rndUnits mb a b ≤ rndUnits mb a' b := by
  by_contra hcon
  rw [not_le] at hcon
  -- the larger of the two rounded values lies above a', hence above a
  have h1 : a' < rndUnits mb a b * b ∨ rndUnits mb a b * b ≤ a' := by omega
  rcases h1 with h1 | h1
  · -- s of a is at most s of a'; compare within one step
    have hA : a / b ≤ a' / b := Nat.div_le_div_right h
    obtain ⟨s, hs⟩ : ∃ s, s = Nat.log2 (a / b) - mb := ⟨_, rfl⟩
    obtain ⟨s', hs'⟩ : ∃ s, s = Nat.log2 (a' / b) - mb := ⟨_, rfl⟩
    have hlog : Nat.log2 (a / b) ≤ Nat.log2 (a' / b) := by
      rcases Nat.eq_zero_or_pos (a / b) with h0 | h0
      · rw [h0]; simp
      · rw [Nat.le_log2 (by omega)]
        exact le_trans (Nat.log2_self_le (by omega)) hA
    have hss : s ≤ s' := by omega
    rcases Nat.lt_or_eq_of_le hss with hlt | heq
    · -- then 2^(mb+s') is representable and lies between
      have hrep : Rep mb (2 ^ (mb + s')) := ⟨1, mb + s', Nat.one_lt_two_pow (by omega), by simp⟩
      have ha'0 : a' / b ≠ 0 := by
        intro h0; rw [h0] at hs'; simp at hs'; omega
      have e1 : 2 ^ (mb + s') ≤ a' / b := by
        have : mb + s' = Nat.log2 (a' / b) := by omega
        rw [this]; exact Nat.log2_self_le ha'0
      have e2 : a / b < 2 ^ (mb + s') := by
        calc a / b < 2 ^ (Nat.log2 (a / b) + 1) := Nat.lt_log2_self
          _ ≤ _ := Nat.pow_le_pow_right (by norm_num) (by omega)
      have e3 : a ≤ 2 ^ (mb + s') * b := by
        rw [Nat.div_lt_iff_lt_mul hb] at e2; omega
      have q1 := rndUnits_le mb a b hb hrep e3
      have q2 := le_rndUnits mb a' b hb hrep ((Nat.le_div_iff_mul_le hb).1 e1)
      omega
    · rw [rndUnits_def, rndUnits_def, ← hs, ← hs', ← heq] at hcon
      have hlt := Nat.lt_of_mul_lt_mul_right hcon
      -- rndHE is monotone
      have hm : rndHE a (b * 2 ^ s) ≤ rndHE a' (b * 2 ^ s) := by
        obtain ⟨c, hc⟩ : ∃ c, c = b * 2 ^ s := ⟨_, rfl⟩
        have hcpos : 0 < c := by rw [hc]; positivity
        rw [← hc]
        have hd : a / c ≤ a' / c := Nat.div_le_div_right h
        rcases Nat.lt_or_eq_of_le hd with hd | hd
        · have := (rndHE_bounds a c).2
          have := (rndHE_bounds a' c).1
          omega
        · have m1 := Nat.div_add_mod a c
          have m2 := Nat.div_add_mod a' c
          rw [hd] at m1
          have hr : a % c ≤ a' % c := by omega
          unfold rndHE
          simp only [hd]
          (repeat' split) <;> omega
      omega
  · have := le_rndUnits mb a' b hb (rep_rndUnits mb a b hb) h1
    omega

/-- The draw bound: a representable number below `2^t` is at most `2^t - 2^(t-mb-1)`. -/
theorem rep_lt_pow {mb n t : Nat} (h : Rep mb n) (ht : mb + 1 ≤ t) (hn : n < 2 ^ t) :
    n + 2 ^ (t - (mb + 1)) ≤ 2 ^ t := by
  obtain ⟨c, rfl⟩ := Nat.exists_eq_add_of_le ht
  rw [Nat.add_sub_cancel_left]
  obtain ⟨m, k, hm, rfl⟩ := h
  rcases Nat.le_total c k with hk | hk
  · obtain ⟨e, rfl⟩ := Nat.exists_eq_add_of_le hk
    have e1 : m * 2 ^ (c + e) = m * 2 ^ e * 2 ^ c := by rw [pow_add]; ring
    rw [e1, pow_add] at hn ⊢
    have := Nat.lt_of_mul_lt_mul_right hn
    calc m * 2 ^ e * 2 ^ c + 2 ^ c = (m * 2 ^ e + 1) * 2 ^ c := by ring
      _ ≤ _ := Nat.mul_le_mul_right _ this
  · have hkc : 2 ^ k ≤ 2 ^ c := Nat.pow_le_pow_right (by norm_num) hk
    calc m * 2 ^ k + 2 ^ c ≤ m * 2 ^ c + 2 ^ c := by
            have := Nat.mul_le_mul_left m hkc; omega
      _ = (m + 1) * 2 ^ c := by ring
      _ ≤ 2 ^ (mb + 1) * 2 ^ c := Nat.mul_le_mul_right _ hm
      _ = _ := (pow_add _ _ _).symm

/-- The heart of the matter: `round(round(D) * u) ≤ D` for a draw `u = w / 2^t < 1`. -/
theorem rnd_scaled_le (mb D w t : Nat) (ht : mb + 1 ≤ t) (hw : Rep mb w) (hw1 : w < 2 ^ t) :
    rndUnits mb (rndUnits mb D 1 * w) (2 ^ t) ≤ D := by
  obtain ⟨d, hd⟩ : ∃ d, d = rndUnits mb D 1 := ⟨_, rfl⟩
  have hdrep : Rep mb d := hd ▸ rep_rndUnits mb D 1 one_pos
  rw [← hd]
  have hxd : rndUnits mb (d * w) (2 ^ t) ≤ d :=
    rndUnits_le mb _ _ (by positivity) hdrep (Nat.mul_le_mul_left d hw1.le)
  rcases le_or_gt d D with hdD | hdD
  · exact hxd.trans hdD
  -- rounded up
  obtain ⟨s, hs⟩ : ∃ s, s = Nat.log2 D - mb := ⟨_, rfl⟩
  have hdef : d = rndHE D (2 ^ s) * 2 ^ s := by
    rw [hd, rndUnits_def, Nat.div_one, ← hs, one_mul]
  obtain ⟨Q, hQ⟩ : ∃ Q, Q = rndHE D (2 ^ s) := ⟨_, rfl⟩
  rw [← hQ] at hdef
  have hs1 : 1 ≤ s := by
    by_contra h0
    have h0 : s = 0 := by omega
    have : Rep mb D := by
      refine ⟨D, 0, ?_, by simp⟩
      calc D < 2 ^ (D.log2 + 1) := Nat.lt_log2_self
        _ ≤ _ := Nat.pow_le_pow_right (by norm_num) (by omega)
    rw [hd, rndUnits_rep1 this] at hdD
    omega
  have hD0 : D ≠ 0 := by intro h; rw [h] at hs; simp at hs; omega
  have hlog : D.log2 = mb + s := by omega
  have hDge : 2 ^ (mb + s) ≤ D := by rw [← hlog]; exact Nat.log2_self_le hD0
  have herr := (rndHE_err D (2 ^ s) (by positivity)).1
  rw [← hQ, ← hdef] at herr
  -- Q > 2^mb, Q ≤ 2^(mb+1)
  have hQgt : 2 ^ mb < Q := by
    have : 2 ^ mb * 2 ^ s < Q * 2 ^ s := by rw [← pow_add, ← hdef]; omega
    exact Nat.lt_of_mul_lt_mul_right this
  have hQle : Q ≤ 2 ^ (mb + 1) := by
    have hb := (rndHE_bounds D (2 ^ s)).2
    rw [← hQ] at hb
    have : D / 2 ^ s < 2 ^ (mb + 1) := by
      rw [Nat.div_lt_iff_lt_mul (by positivity), ← pow_add]
      calc D < 2 ^ (D.log2 + 1) := Nat.lt_log2_self
        _ = _ := by congr 1; omega
    omega
  have hpred : (Q - 1) * 2 ^ s ≤ D := by
    have : (Q - 1) * 2 ^ s + 2 ^ s = d := by
      rw [hdef]
      conv_rhs => rw [show Q = (Q - 1) + 1 by omega]
      ring
    have h2 : (2 : Nat) ^ s ≤ 2 ^ s := le_rfl
    omega
  refine le_trans ?_ hpred
  -- y = d*w/2^t < (Q-1)*2^s + 2^(s-1)
  obtain ⟨c, rfl⟩ := Nat.exists_eq_add_of_le ht
  have hwb := rep_lt_pow hw ht hw1
  rw [Nat.add_sub_cancel_left] at hwb
  obtain ⟨r, rfl⟩ : ∃ r, s = r + 1 := ⟨s - 1, by omega⟩
  have hy : d * w < ((Q - 1) * 2 ^ (r + 1) + 2 ^ r) * 2 ^ (mb + 1 + c) := by
    have e1 : (Q - 1) * 2 ^ (r + 1) + 2 ^ r + 2 ^ r = d := by
      rw [hdef]
      conv_rhs => rw [show Q = (Q - 1) + 1 by omega]
      rw [pow_succ]; ring
    have e2 : d * w + d * 2 ^ c ≤ d * 2 ^ (mb + 1 + c) := by
      rw [← mul_add]; exact Nat.mul_le_mul_left _ hwb
    have e3 : 2 ^ r * 2 ^ (mb + 1 + c) < d * 2 ^ c := by
      rw [hdef]
      calc 2 ^ r * 2 ^ (mb + 1 + c) = 2 ^ mb * 2 ^ (r + 1) * 2 ^ c := by
            simp only [pow_add, pow_one]; ring
        _ < Q * 2 ^ (r + 1) * 2 ^ c := by
            apply Nat.mul_lt_mul_of_pos_right _ (by positivity)
            exact Nat.mul_lt_mul_of_pos_right hQgt (by positivity)
    have e4 : ((Q - 1) * 2 ^ (r + 1) + 2 ^ r) * 2 ^ (mb + 1 + c) + 2 ^ r * 2 ^ (mb + 1 + c) =
        d * 2 ^ (mb + 1 + c) := by rw [← add_mul, e1]
    omega
  have hrepP : Rep mb ((Q - 1) * 2 ^ (r + 1)) := ⟨Q - 1, r + 1, by omega, rfl⟩
  rcases le_or_gt (d * w) ((Q - 1) * 2 ^ (r + 1) * 2 ^ (mb + 1 + c)) with hle | hgt
  · exact rndUnits_le mb _ _ (by positivity) hrepP hle
  · obtain ⟨B, hB⟩ : ∃ B, B = 2 ^ (mb + 1 + c) := ⟨_, rfl⟩
    obtain ⟨Y, hY⟩ : ∃ Y, Y = d * w := ⟨_, rfl⟩
    have hBpos : 0 < B := by rw [hB]; positivity
    rw [← hB, ← hY] at hy hgt ⊢
    have hA1 : (Q - 1) * 2 ^ (r + 1) ≤ Y / B := (Nat.le_div_iff_mul_le hBpos).2 hgt.le
    have hA2 : Y / B < (Q - 1) * 2 ^ (r + 1) + 2 ^ r := (Nat.div_lt_iff_lt_mul hBpos).2 hy
    have hlogY : Nat.log2 (Y / B) = mb + (r + 1) := by
      have l1 : 2 ^ (mb + (r + 1)) ≤ Y / B := by
        refine le_trans ?_ hA1
        rw [pow_add]
        exact Nat.mul_le_mul_right _ (by omega)
      have l2 : Y / B < 2 ^ (mb + (r + 1) + 1) := by
        refine lt_of_lt_of_le hA2 ?_
        have : (Q - 1) * 2 ^ (r + 1) + 2 ^ (r + 1) ≤ 2 ^ (mb + (r + 1) + 1) := by
          calc (Q - 1) * 2 ^ (r + 1) + 2 ^ (r + 1) = (Q - 1 + 1) * 2 ^ (r + 1) := by ring
            _ ≤ 2 ^ (mb + 1) * 2 ^ (r + 1) := Nat.mul_le_mul_right _ (by omega)
            _ = _ := by rw [← pow_add]; congr 1; omega
        have h3 : 2 ^ r ≤ 2 ^ (r + 1) := Nat.pow_le_pow_right (by norm_num) (by omega)
        omega
      have hpos : Y / B ≠ 0 := by
        have : 0 < 2 ^ (mb + (r + 1)) := by positivity
        omega
      have a1 := (Nat.le_log2 hpos).2 l1
      have a2 := (Nat.log2_lt hpos).2 l2
      omega
    rw [rndUnits_def, hlogY, Nat.add_sub_cancel_left]
    refine Nat.mul_le_mul_right _ ?_
    -- quotient Q - 1, remainder less than half
    have hq : Y / (B * 2 ^ (r + 1)) = Q - 1 := by
      rw [Nat.div_eq_iff (by positivity)]
      have e5 : (Q - 1) * 2 ^ (r + 1) * B = (Q - 1) * (B * 2 ^ (r + 1)) := by ring
      have e6 : ((Q - 1) * 2 ^ (r + 1) + 2 ^ r) * B = (Q - 1) * (B * 2 ^ (r + 1)) + 2 ^ r * B := by ring
      have e7 : B * 2 ^ (r + 1) = 2 ^ r * B + 2 ^ r * B := by rw [pow_succ]; ring
      have e8 : 0 < 2 ^ r * B := by positivity
      rw [e5] at hgt
      rw [e6] at hy
      omega
    have hmod : 2 * (Y % (B * 2 ^ (r + 1))) < B * 2 ^ (r + 1) := by
      have hdm := Nat.div_add_mod Y (B * 2 ^ (r + 1))
      rw [hq] at hdm
      have e6 : ((Q - 1) * 2 ^ (r + 1) + 2 ^ r) * B = B * 2 ^ (r + 1) * (Q - 1) + 2 ^ r * B := by ring
      have e7 : B * 2 ^ (r + 1) = 2 ^ r * B + 2 ^ r * B := by rw [pow_succ]; ring
      rw [e6] at hy
      omega
    unfold rndHE
    simp only [hq]
    rw [if_pos hmod]

/-! ## Signed results -/

/-- Adding two finite data whose exact sum lies between two finite data gives a finite datum between
them: rounding does not leave an interval with representable ends. -/
theorem add_between {F : Fmt} {s1 s2 sl su : Bool} {n1 n2 nl nu : Nat} (hl : Rep F.mb nl)
    (hu : Rep F.mb nu) (hlt : nl < 2 ^ F.top) (hut : nu < 2 ^ F.top)
    (h1 : Fl.units sl nl ≤ Fl.units s1 n1 + Fl.units s2 n2)
    (h2 : Fl.units s1 n1 + Fl.units s2 n2 ≤ Fl.units su nu) :
    ∃ s n, Fl.add F (.fin s1 n1) (.fin s2 n2) = .fin s n ∧ Rep F.mb n ∧ n < 2 ^ F.top ∧
      Fl.units sl nl ≤ Fl.units s n ∧ Fl.units s n ≤ Fl.units su nu := by
  obtain ⟨z, hz⟩ : ∃ z, z = Fl.units s1 n1 + Fl.units s2 n2 := ⟨_, rfl⟩
  rw [← hz] at h1 h2
  have hcase : Fl.add F (.fin s1 n1) (.fin s2 n2) = if z = 0 then .fin (s1 && s2) 0
      else Fl.mk F (decide (z < 0)) (rndUnits F.mb z.natAbs 1) := by
    rw [hz]; rfl
  rw [hcase]
  have hu0 : ∀ s : Bool, Fl.units s 0 = 0 := by intro s; cases s <;> rfl
  by_cases h0 : z = 0
  · rw [if_pos h0]
    exact ⟨_, 0, rfl, ⟨0, 0, by positivity, by simp⟩, by positivity, by rw [hu0]; omega,
      by rw [hu0]; omega⟩
  rw [if_neg h0]
  have hrep := rep_rndUnits F.mb z.natAbs 1 one_pos
  rcases lt_or_gt_of_ne h0 with hneg | hpos
  · -- negative: lower bound is negative
    have hsl : sl = true := by
      cases sl
      · simp only [Fl.units, Bool.false_eq_true, if_false] at h1; omega
      · rfl
    subst hsl
    simp only [Fl.units, if_true] at h1
    have q1 : rndUnits F.mb z.natAbs 1 ≤ nl := rndUnits_le _ _ _ one_pos hl (by omega)
    refine ⟨true, rndUnits F.mb z.natAbs 1, ?_, hrep, by omega, ?_, ?_⟩
    · rw [mk_ok (by omega)]; simp [hneg]
    · simp only [Fl.units, if_true]; omega
    · cases su
      · simp only [Fl.units, Bool.false_eq_true, if_false, if_true] at h2 ⊢; omega
      · simp only [Fl.units, if_true] at h2 ⊢
        have q2 : nu ≤ rndUnits F.mb z.natAbs 1 := le_rndUnits _ _ _ one_pos hu (by omega)
        omega
  · have hsu : su = false := by
      cases su
      · rfl
      · simp only [Fl.units, if_true] at h2; omega
    subst hsu
    simp only [Fl.units, Bool.false_eq_true, if_false] at h2
    have q1 : rndUnits F.mb z.natAbs 1 ≤ nu := rndUnits_le _ _ _ one_pos hu (by omega)
    refine ⟨false, rndUnits F.mb z.natAbs 1, ?_, hrep, by omega, ?_, ?_⟩
    · rw [mk_ok (by omega)]; simp; omega
    · cases sl
      · simp only [Fl.units, Bool.false_eq_true, if_false] at h1 ⊢
        have q2 : nl ≤ rndUnits F.mb z.natAbs 1 := le_rndUnits _ _ _ one_pos hl (by omega)
        omega
      · simp only [Fl.units, Bool.false_eq_true, if_false, if_true] at h1 ⊢; omega
    · simp only [Fl.units, Bool.false_eq_true, if_false]; omega

end Heu
