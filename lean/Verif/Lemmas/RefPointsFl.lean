import Verif.Model.RefPointsFl
import Verif.Spec.RefPointsFl
import Verif.Lemmas.RefPoints
import Verif.Lemmas.FlErr
import Verif.Lemmas.Encode3

/-! # Reference points in `double` arithmetic: lemmas -/

set_option linter.unusedSectionVars false
set_option linter.unusedSimpArgs false
set_option linter.unusedVariables false

namespace Heu
open Spec

section gen
variable {β γ : Type} {d : Nat}

/-- The recursion with arbitrary coordinate functions. -/
def rpGen (q l : Nat → β) (precision curDim accum : Nat) (st : (Fin (d + 1) → β) × List (Fin (d + 1) → β)) :
    (Fin (d + 1) → β) × List (Fin (d + 1) → β) :=
  if h : curDim + 1 ≥ d + 1 then
    let rec' := Function.update st.1 (Fin.last d) (l accum)
    (rec', st.2 ++ [rec'])
  else
    (List.range (precision + 1 - accum)).foldl
      (fun st p => rpGen q l precision (curDim + 1) (accum + p) (Function.update st.1 ⟨curDim, by omega⟩ (q p), st.2)) st
termination_by d - curDim
decreasing_by omega

/-- coordinates below `cur` and the points made so far correspond under `φ` -/
def RPRel (φ : Fin (d + 1) → β → γ) (cur : Nat) (st : (Fin (d + 1) → β) × List (Fin (d + 1) → β))
    (st' : (Fin (d + 1) → γ) × List (Fin (d + 1) → γ)) : Prop :=
  (∀ i : Fin (d + 1), i.val < cur → st'.1 i = φ i (st.1 i)) ∧ st'.2 = st.2.map fun v i => φ i (v i)

theorem rpGen_natural (q l : Nat → β) (q' l' : Nat → γ) (φ : Fin (d + 1) → β → γ) (precision : Nat)
    (hq : ∀ i : Fin (d + 1), i.val < d → ∀ p ≤ precision, φ i (q p) = q' p)
    (hl : ∀ a ≤ precision, φ (Fin.last d) (l a) = l' a) (k : Nat) :
    ∀ cur accum st st', cur + k = d → accum ≤ precision → RPRel φ cur st st' →
      RPRel φ cur (rpGen q l precision cur accum st) (rpGen q' l' precision cur accum st') := by
  induction k with
  | zero =>
    intro cur accum st st' hcur hacc h
    obtain rfl : cur = d := by omega
    rw [rpGen, rpGen, dif_pos (by omega), dif_pos (by omega)]
    have hne : ∀ i : Fin (cur + 1), i.val < cur → i ≠ Fin.last cur := by
      intro i hi e; rw [e] at hi; simp at hi
    have hup : Function.update st'.1 (Fin.last cur) (l' accum) =
        fun i => φ i (Function.update st.1 (Fin.last cur) (l accum) i) := by
      funext i
      by_cases hi : i = Fin.last cur
      · subst hi; simp [hl accum hacc]
      · rw [Function.update_of_ne hi, Function.update_of_ne hi]
        apply h.1
        have : i.val ≠ cur := fun h' => hi (Fin.ext (by simpa using h'))
        omega
    refine ⟨fun i hi => ?_, ?_⟩
    · simp only [hup]
    · simp only [h.2, hup, List.map_append, List.map_cons, List.map_nil]
  | succ k ih =>
    intro cur accum st st' hcur hacc h
    have hlt : cur < d + 1 := by omega
    rw [rpGen, rpGen, dif_neg (by omega), dif_neg (by omega)]
    have inner : ∀ n, n ≤ precision + 1 - accum → RPRel φ cur
        ((List.range n).foldl (fun st p => rpGen q l precision (cur + 1) (accum + p)
          (Function.update st.1 ⟨cur, hlt⟩ (q p), st.2)) st)
        ((List.range n).foldl (fun st p => rpGen q' l' precision (cur + 1) (accum + p)
          (Function.update st.1 ⟨cur, hlt⟩ (q' p), st.2)) st') := by
      intro n
      induction n with
      | zero => intro _; exact h
      | succ n ihn =>
        intro hn
        rw [List.range_succ, List.foldl_append, List.foldl_append]
        simp only [List.foldl_cons, List.foldl_nil]
        have hr := ihn (by omega)
        generalize (List.range n).foldl _ st = s1 at hr ⊢
        generalize (List.range n).foldl _ st' = s2 at hr ⊢
        have := ih (cur + 1) (accum + n) (Function.update s1.1 ⟨cur, hlt⟩ (q n), s1.2)
          (Function.update s2.1 ⟨cur, hlt⟩ (q' n), s2.2) (by omega) (by omega) ⟨by
            intro i hi
            by_cases e : i = ⟨cur, hlt⟩
            · subst e; simp only [Function.update_self]
              exact (hq _ (by simp only; omega) n (by omega)).symm
            · simp only [Function.update_of_ne e]
              apply hr.1
              have : i.val ≠ cur := fun h' => e (Fin.ext h')
              omega, hr.2⟩
        exact ⟨fun i hi => this.1 i (by omega), this.2⟩
    exact inner _ le_rfl

theorem priMakeRP_gen {α : Type} [Field α] (precision k : Nat) :
    ∀ cur accum (st : (Fin (d + 1) → α) × List (Fin (d + 1) → α)), cur + k = d →
    priMakeRP precision cur accum st =
      rpGen (fun p => (p : α) / precision) (fun a => 1 - (a : α) / precision) precision cur accum st := by
  induction k with
  | zero => intro cur accum st h; rw [priMakeRP, rpGen, dif_pos (by omega), dif_pos (by omega)]
  | succ k ih =>
    intro cur accum st h
    rw [priMakeRP, rpGen, dif_neg (by omega), dif_neg (by omega)]
    congr 1
    funext st p
    exact ih _ _ _ (by omega)

theorem priMakeRPFl_gen (F : Fmt) (precision k : Nat) :
    ∀ cur accum (st : (Fin (d + 1) → Fl) × List (Fin (d + 1) → Fl)), cur + k = d →
    priMakeRPFl F precision cur accum st =
      rpGen (fun p => Fl.div F (Fl.ofNat F p) (Fl.ofNat F precision))
        (fun a => Fl.sub F (Fl.ofNat F 1) (Fl.div F (Fl.ofNat F a) (Fl.ofNat F precision))) precision cur accum st := by
  induction k with
  | zero => intro cur accum st h; rw [priMakeRPFl, rpGen, dif_pos (by omega), dif_pos (by omega)]
  | succ k ih =>
    intro cur accum st h
    rw [priMakeRPFl, rpGen, dif_neg (by omega), dif_neg (by omega)]
    congr 1
    funext st p
    exact ih _ _ _ (by omega)

/-- the numerators -/
def rpNat (d precision : Nat) : List (Fin (d + 1) → Nat) :=
  (rpGen (fun p => p) (fun a => precision - a) precision 0 0 ((fun _ => 0), [])).2

theorem rpNat_spec (precision : Nat) (hp : 1 ≤ precision) :
    (rpNat d precision).Nodup ∧ (rpNat d precision).length = (d + precision).choose precision ∧
    ∀ c, c ∈ rpNat d precision ↔ ∑ i, c i = precision := by
  have hp0 : (precision : ℚ) ≠ 0 := Nat.cast_ne_zero.2 (by omega)
  have hnat := rpGen_natural (d := d) (fun p => p) (fun a => precision - a) (fun p => (p : ℚ) / precision)
    (fun a => 1 - (a : ℚ) / precision) (fun _ c => (c : ℚ) / precision) precision (fun _ _ _ _ => rfl)
    (fun a ha => by rw [Nat.cast_sub ha]; field_simp) d 0 0 ((fun _ => 0), []) ((fun _ => 0), []) (by omega)
    (by omega) ⟨fun i hi => absurd hi (by omega), rfl⟩
  rw [← priMakeRP_gen precision d 0 0 _ (by omega)] at hnat
  obtain ⟨h1, h2, h3⟩ := computeRP_spec (α := ℚ) hp (fun _ : Fin (d + 1) => (0 : ℚ))
  have he := hnat.2
  rw [he] at h1 h2 h3
  refine ⟨List.Nodup.of_map _ h1, by rw [List.length_map] at h2; exact h2, fun c => ?_⟩
  have inj : Function.Injective (fun (v : Fin (d + 1) → Nat) i => (v i : ℚ) / precision) := by
    intro a b h
    funext i
    have := congrFun h i
    simp only at this
    rw [div_left_inj' hp0] at this
    exact_mod_cast this
  have := h3 (fun i => (c i : ℚ) / precision)
  rw [List.mem_map_of_injective inj] at this
  refine Iff.trans this ⟨?_, fun h => ⟨c, h, rfl⟩⟩
  rintro ⟨c', hs, e⟩
  rw [inj e]; exact hs

end gen

section num
variable {F : Fmt}

theorem repPow (mb k : Nat) : Rep mb (2 ^ k) := ⟨1, k, Nat.one_lt_two_pow (by omega), (one_mul _).symm⟩

theorem flEta_le (hF : F.Good) : flEta F ≤ flEps F * flEps F := by
  have h1 := hF.wide
  unfold flEta flEps
  rw [div_mul_div_comm, one_mul, ← pow_add]
  refine one_div_le_one_div_of_le (by positivity) (pow_le_pow_right₀ (by norm_num) ?_)
  simp only [Fmt.one]; omega

theorem flEps_pos (F : Fmt) : 0 < flEps F := by unfold flEps; positivity

theorem flEps_le (hF : F.Good) : flEps F ≤ 1 / 16 := by
  have := hF.mb9
  unfold flEps
  have : (2 : ℚ) ^ 4 ≤ 2 ^ (F.mb + 1) := pow_le_pow_right₀ (by norm_num) (by omega)
  rw [div_le_div_iff₀ (by positivity) (by norm_num)]
  norm_num at this ⊢; exact this

theorem one_lt_top (hF : F.Good) : F.one < F.top := by
  have h1 := hF.wide
  have h2 := hF.pow_eb
  simp only [Fmt.one, Fmt.top]; omega

/-- `double(c) / p` -/
theorem quot_fl (hF : F.Good) (c p : Nat) (hp : 1 ≤ p) (h : c ≤ p) :
    ∃ n, Fl.div F (Fl.ofNat F c) (Fl.ofNat F p) = .fin false n ∧ Rep F.mb n ∧ n ≤ 2 ^ F.one ∧
      |Fl.number F (.fin false n) - (c : ℚ) / p| ≤ flEps F * (c / p) + flEta F := by
  have hU : 0 < 2 ^ F.one := by positivity
  have hr : rndUnits F.mb (c * 2 ^ F.one) p ≤ 2 ^ F.one :=
    rndUnits_le _ _ _ hp (repPow _ _) (by rw [Nat.mul_comm]; exact Nat.mul_le_mul_left _ h)
  refine ⟨rndUnits F.mb (c * 2 ^ F.one) p, ?_, rep_rndUnits _ _ _ hp, hr, ?_⟩
  · unfold Fl.ofNat
    simp only [Fl.div]
    rw [if_neg (by positivity), rndUnits_scale _ _ _ _ hU]
    unfold Fl.mk
    rw [if_neg (by have : 2 ^ F.one < 2 ^ F.top := Nat.pow_lt_pow_right (by norm_num) (one_lt_top hF); omega)]
    rfl
  · have := number_rnd_error F ((c : ℚ) / p) false (c * 2 ^ F.one) p hp (by
      push_cast
      have : (2 : ℚ) ^ F.one ≠ 0 := by positivity
      simp only [Bool.false_eq_true, if_false, one_mul]
      field_simp)
    rw [abs_of_nonneg (by positivity : (0 : ℚ) ≤ (c : ℚ) / p)] at this
    exact this

theorem number_pos_eq (n : Nat) : Fl.number F (.fin false n) = (n : ℚ) / 2 ^ F.one := by
  rw [number_abs]; simp

theorem number_unit {n : Nat} (h : n ≤ 2 ^ F.one) :
    0 ≤ Fl.number F (.fin false n) ∧ Fl.number F (.fin false n) ≤ 1 := by
  rw [number_pos_eq]
  refine ⟨by positivity, ?_⟩
  rw [div_le_one (by positivity)]
  exact_mod_cast h

/-- the coordinates before the last -/
theorem near_coord (hF : F.Good) (c p : Nat) (hp : 1 ≤ p) (h : c ≤ p) (x : Fl)
    (hx : x = Fl.div F (Fl.ofNat F c) (Fl.ofNat F p)) :
    x.Finite F ∧ 0 ≤ x.number F ∧ x.number F ≤ 1 ∧ |x.number F - 1 * (c / p)| ≤ 2 * flEps F := by
  obtain ⟨n, h1, h2, h3, h4⟩ := quot_fl hF c p hp h
  rw [hx, h1]
  obtain ⟨h5, h6⟩ := number_unit h3
  refine ⟨⟨false, n, rfl, h2, ?_⟩, h5, h6, ?_⟩
  · exact lt_of_le_of_lt h3 (Nat.pow_lt_pow_right (by norm_num) (one_lt_top hF))
  · rw [one_mul]
    have hcp : (c : ℚ) / p ≤ 1 := by
      rw [div_le_one (by exact_mod_cast hp)]; exact_mod_cast h
    have e1 := flEps_pos F
    have e2 := flEps_le hF
    have e3 := flEta_le hF
    nlinarith [mul_le_mul_of_nonneg_left hcp e1.le]

/-- the last coordinate -/
theorem near_last (hF : F.Good) (a p : Nat) (hp : 1 ≤ p) (h : a ≤ p) (x : Fl)
    (hx : x = Fl.sub F (Fl.ofNat F 1) (Fl.div F (Fl.ofNat F a) (Fl.ofNat F p))) :
    x.Finite F ∧ 0 ≤ x.number F ∧ x.number F ≤ 1 ∧ |x.number F - 1 * (((p - a : Nat) : ℚ) / p)| ≤ 2 * flEps F := by
  obtain ⟨n, h1, h2, h3, h4⟩ := quot_fl hF a p hp h
  rw [h1] at hx
  have htop : 2 ^ F.one < 2 ^ F.top := Nat.pow_lt_pow_right (by norm_num) (one_lt_top hF)
  have hz : Fl.units false (1 * 2 ^ F.one) + Fl.units (!false) n = ((2 ^ F.one - n : Nat) : ℤ) := by
    simp only [Fl.units, Bool.not_false, if_true, Bool.false_eq_true, if_false, one_mul]
    push_cast [Nat.cast_sub h3]; ring
  obtain ⟨k, hk, hrep, hkU⟩ : ∃ k, x = .fin false k ∧ Rep F.mb k ∧ k ≤ 2 ^ F.one := by
    rw [hx]
    unfold Fl.sub Fl.ofNat Fl.neg
    simp only [Fl.add]
    rw [hz]
    by_cases h0 : 2 ^ F.one - n = 0
    · exact ⟨0, by simp [h0], ⟨0, 0, by positivity, by simp⟩, Nat.zero_le _⟩
    · have hle : rndUnits F.mb (2 ^ F.one - n) 1 ≤ 2 ^ F.one :=
        rndUnits_le _ _ _ one_pos (repPow _ _) (by omega)
      refine ⟨rndUnits F.mb (2 ^ F.one - n) 1, ?_, rep_rndUnits _ _ _ one_pos, hle⟩
      rw [if_neg (by exact_mod_cast h0)]
      have hneg : ¬ (((2 ^ F.one - n : Nat) : ℤ) < 0) := not_lt.2 (Int.natCast_nonneg _)
      simp only [Int.natAbs_natCast, decide_eq_false hneg]
      unfold Fl.mk
      rw [if_neg (by omega)]
  have herr : |x.number F - (1 - Fl.number F (.fin false n))| ≤
      flEps F * |1 - Fl.number F (.fin false n)| + flEta F := by
    have hadd : Fl.add F (.fin false (1 * 2 ^ F.one)) (.fin true n) = .fin false k := by
      rw [← hk, hx]; rfl
    have := fl_add_error F _ _ _ _ _ _ hadd
    have h1' : Fl.number F (.fin false (1 * 2 ^ F.one)) = 1 := by
      rw [number_pos_eq]; push_cast; rw [one_mul, div_self (by positivity)]
    have h2' : Fl.number F (.fin true n) = - Fl.number F (.fin false n) := by
      rw [number_abs, number_pos_eq]; simp
    rw [h1', h2', ← sub_eq_add_neg, ← hk] at this
    exact this
  obtain ⟨h5, h6⟩ := number_unit h3
  have h7 := number_unit hkU
  rw [hk] at herr ⊢
  refine ⟨⟨false, k, rfl, hrep, by omega⟩, h7.1, h7.2, ?_⟩
  have hpq : (p : ℚ) ≠ 0 := by exact_mod_cast (by omega : p ≠ 0)
  have hap0 : (0 : ℚ) ≤ (a : ℚ) / p := by positivity
  have hval : ((p - a : Nat) : ℚ) / p = 1 - a / p := by
    rw [Nat.cast_sub h]; field_simp
  rw [one_mul, hval]
  rw [abs_of_nonneg (by linarith : (0 : ℚ) ≤ 1 - Fl.number F (.fin false n))] at herr
  have e1 := flEps_pos F
  have e2 := flEps_le hF
  have e3 := flEta_le hF
  generalize Fl.number F (.fin false n) = q at *
  generalize Fl.number F (.fin false k) = r at *
  generalize (a : ℚ) / p = t at *
  generalize flEps F = ε at *
  generalize flEta F = η at *
  rw [abs_le] at h4 herr ⊢
  constructor
  · nlinarith [mul_le_mul_of_nonneg_left h6 e1.le, mul_le_mul_of_nonneg_left h5 e1.le,
      mul_le_mul_of_nonneg_left e2 e1.le]
  · nlinarith [mul_le_mul_of_nonneg_left h6 e1.le, mul_le_mul_of_nonneg_left h5 e1.le,
      mul_le_mul_of_nonneg_left e2 e1.le]

end num

end Heu
