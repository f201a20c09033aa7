import Verif.Model.RefPoints
import Verif.Lemmas.NSGA
import Mathlib.Algebra.BigOperators.Fin
import Mathlib.Algebra.BigOperators.Intervals
import Mathlib.Tactic.FieldSimp
import Mathlib.Tactic.Ring

/-! # Reference points: helper lemmas -/

set_option linter.unusedSectionVars false
set_option linter.unusedSimpArgs false

namespace Heu

theorem sum_choose_diag (k N : Nat) :
    ∑ p ∈ Finset.range (N + 1), (k + (N - p)).choose (N - p) = (k + 1 + N).choose N := by
  rw [← Finset.sum_range_reflect]
  have : ∀ M, ∑ j ∈ Finset.range (M + 1), (k + j).choose j = (k + 1 + M).choose M := by
    intro M
    induction M with
    | zero => simp
    | succ M ih =>
      rw [Finset.sum_range_succ, ih]
      have : k + 1 + (M + 1) = (k + 1 + M) + 1 := by omega
      rw [this, Nat.choose_succ_succ, show k + (M + 1) = k + 1 + M by omega]
  rw [← this N]
  apply Finset.sum_congr rfl
  intro j hj
  have := Finset.mem_range.1 hj
  have e : N - (N + 1 - 1 - j) = j := by omega
  rw [e]

variable {α : Type} [Field α] [CharZero α] {d : Nat}

/-- `v` continues the prefix `pre` (below `cur`) by lattice coordinates of total weight `w` -/
def RPMem (precision cur w : Nat) (pre v : Fin (d + 1) → α) : Prop :=
  (∀ i : Fin (d + 1), i.val < cur → v i = pre i) ∧
  ∃ c : Fin (d + 1) → Nat, (∀ i : Fin (d + 1), i.val < cur → c i = 0) ∧
    (∀ i : Fin (d + 1), cur ≤ i.val → v i = (c i : α) / (precision : α)) ∧ ∑ i, c i = w

theorem priMakeRP_spec {precision : Nat} (hp : 1 ≤ precision) (k : Nat) :
    ∀ cur accum (st : (Fin (d + 1) → α) × List (Fin (d + 1) → α)), cur + k = d →
      accum ≤ precision →
      ∃ L, (priMakeRP precision cur accum st).2 = st.2 ++ L ∧
        (∀ i : Fin (d + 1), i.val < cur → (priMakeRP precision cur accum st).1 i = st.1 i) ∧
        L.Nodup ∧ L.length = (k + (precision - accum)).choose (precision - accum) ∧
        ∀ v, v ∈ L ↔ RPMem precision cur (precision - accum) st.1 v := by
  have hp0 : (precision : α) ≠ 0 := Nat.cast_ne_zero.2 (by omega)
  induction k with
  | zero =>
    intro cur accum st hcur hacc
    obtain rfl : cur = d := by omega
    have hval : (1 : α) - (accum : α) / (precision : α) =
        ((precision - accum : ℕ) : α) / (precision : α) := by
      rw [Nat.cast_sub hacc]; field_simp
    refine ⟨[Function.update st.1 (Fin.last cur) (1 - (accum : α) / (precision : α))], ?_, ?_, ?_, ?_, ?_⟩
    · rw [priMakeRP, dif_pos (by omega)]
    · intro i hi
      rw [priMakeRP, dif_pos (by omega)]
      simp only
      rw [Function.update_of_ne]
      intro h; rw [h] at hi; simp at hi
    · simp
    · simp
    · intro v
      rw [List.mem_singleton]
      constructor
      · rintro rfl
        refine ⟨?_, Function.update (fun _ => 0) (Fin.last cur) (precision - accum), ?_, ?_, ?_⟩
        · intro i hi
          rw [Function.update_of_ne]
          intro h; rw [h] at hi; simp at hi
        · intro i hi
          rw [Function.update_of_ne]
          intro h; rw [h] at hi; simp at hi
        · intro i hi
          have : i = Fin.last cur := Fin.ext (by simp; omega)
          subst this
          simp only [Function.update_self, hval]
        · rw [Finset.sum_update_of_mem (Finset.mem_univ _)]
          simp
      · rintro ⟨h1, c, h2, h3, h4⟩
        funext i
        by_cases hi : i = Fin.last cur
        · subst hi
          rw [Function.update_self, h3 _ (by simp), hval]
          congr 2
          rw [Fin.sum_univ_castSucc, Finset.sum_eq_zero] at h4
          · simpa using h4
          · intro i _; exact h2 _ (by simp)
        · rw [Function.update_of_ne hi]
          apply h1
          have : i.val ≠ cur := fun h => hi (Fin.ext (by simpa using h))
          omega
  | succ k ih =>
    intro cur accum st hcur hacc
    have hlt : cur < d + 1 := by omega
    -- the loop
    have inner : ∀ n, n ≤ precision + 1 - accum →
        ∀ res, res = (List.range n).foldl
          (fun st p => priMakeRP precision (cur + 1) (accum + p)
            (Function.update st.1 (⟨cur, hlt⟩ : Fin (d + 1)) ((p : α) / (precision : α)), st.2)) st →
        ∃ L, res.2 = st.2 ++ L ∧ (∀ i : Fin (d + 1), i.val < cur → res.1 i = st.1 i) ∧
          L.Nodup ∧ L.length = ∑ p ∈ Finset.range n, (k + (precision - accum - p)).choose (precision - accum - p) ∧
          ∀ v, v ∈ L ↔ ∃ p < n, v ⟨cur, hlt⟩ = (p : α) / (precision : α) ∧
            RPMem precision (cur + 1) (precision - accum - p)
              (Function.update st.1 (⟨cur, hlt⟩ : Fin (d + 1)) ((p : α) / (precision : α))) v := by
      intro n
      induction n with
      | zero =>
        rintro - res rfl
        exact ⟨[], by simp, by simp, by simp, by simp, by simp⟩
      | succ n ihn =>
        intro hn res hres
        rw [List.range_succ, List.foldl_append, List.foldl_cons, List.foldl_nil] at hres
        generalize hmid : (List.range n).foldl
          (fun st p => priMakeRP precision (cur + 1) (accum + p)
            (Function.update st.1 (⟨cur, hlt⟩ : Fin (d + 1)) ((p : α) / (precision : α)), st.2)) st = mid at hres
        obtain ⟨L, hL1, hL2, hL3, hL4, hL5⟩ := ihn (by omega) mid hmid.symm
        obtain ⟨L', hL1', hL2', hL3', hL4', hL5'⟩ := ih (cur + 1) (accum + n)
          (Function.update mid.1 (⟨cur, hlt⟩ : Fin (d + 1)) ((n : α) / (precision : α)), mid.2)
          (by omega) (by omega)
        rw [← hres] at hL1' hL2'
        dsimp only at hL1' hL2' hL5'
        have hpre : ∀ i : Fin (d + 1), i.val < cur + 1 →
            Function.update mid.1 (⟨cur, hlt⟩ : Fin (d + 1)) ((n : α) / (precision : α)) i =
            Function.update st.1 (⟨cur, hlt⟩ : Fin (d + 1)) ((n : α) / (precision : α)) i := by
          intro i hi
          by_cases h : i = ⟨cur, hlt⟩
          · subst h; simp
          · rw [Function.update_of_ne h, Function.update_of_ne h]
            apply hL2
            have : i.val ≠ cur := fun h' => h (Fin.ext h')
            omega
        have hmem' : ∀ v, v ∈ L' ↔ RPMem precision (cur + 1) (precision - accum - n)
              (Function.update st.1 (⟨cur, hlt⟩ : Fin (d + 1)) ((n : α) / (precision : α))) v := by
          intro v
          rw [hL5' v]
          unfold RPMem
          rw [show precision - (accum + n) = precision - accum - n by omega]
          refine and_congr_left' (forall_congr' fun i => forall_congr' fun hi => ?_)
          rw [hpre i hi]
        refine ⟨L ++ L', ?_, ?_, ?_, ?_, ?_⟩
        · rw [hL1', hL1, List.append_assoc]
        · intro i hi
          rw [hL2' i (by omega), hpre i (by omega), Function.update_of_ne]
          intro h; rw [h] at hi; simp at hi
        · refine List.nodup_append.2 ⟨hL3, hL3', ?_⟩
          rintro v hv v' hv' rfl
          obtain ⟨p, hpn, hvp, -⟩ := (hL5 v).1 hv
          have h2 := ((hmem' v).1 hv').1 ⟨cur, hlt⟩ (by simp)
          rw [Function.update_self, hvp, div_left_inj' hp0, Nat.cast_inj] at h2
          omega
        · rw [List.length_append, hL4, hL4', Finset.sum_range_succ]
          rw [show precision - (accum + n) = precision - accum - n by omega]
        · intro v
          rw [List.mem_append, hL5, hmem']
          constructor
          · rintro (⟨p, h1, h2⟩ | h)
            · exact ⟨p, by omega, h2⟩
            · refine ⟨n, by omega, ?_, h⟩
              rw [h.1 ⟨cur, hlt⟩ (by simp), Function.update_self]
          · rintro ⟨p, h1, h2, h3⟩
            by_cases hpn : p = n
            · subst hpn; exact Or.inr h3
            · exact Or.inl ⟨p, by omega, h2, h3⟩
    obtain ⟨L, h1, h2, h3, h4, h5⟩ := inner (precision + 1 - accum) le_rfl _ rfl
    have hunf : priMakeRP precision cur accum st = (List.range (precision + 1 - accum)).foldl
          (fun st p => priMakeRP precision (cur + 1) (accum + p)
            (Function.update st.1 (⟨cur, hlt⟩ : Fin (d + 1)) ((p : α) / (precision : α)), st.2)) st := by
      rw [priMakeRP, dif_neg (by omega)]
    refine ⟨L, by rw [hunf]; exact h1, by rw [hunf]; exact h2, h3, ?_, ?_⟩
    · rw [h4, show precision + 1 - accum = (precision - accum) + 1 by omega, sum_choose_diag]
    · intro v
      rw [h5]
      constructor
      · rintro ⟨p, hpn, hvp, hpre, c, hc1, hc2, hc3⟩
        refine ⟨?_, Function.update c ⟨cur, hlt⟩ p, ?_, ?_, ?_⟩
        · intro i hi
          rw [hpre i (by omega), Function.update_of_ne]
          intro h; rw [h] at hi; simp at hi
        · intro i hi
          rw [Function.update_of_ne]
          · exact hc1 i (by omega)
          · intro h; rw [h] at hi; simp at hi
        · intro i hi
          by_cases h : i = ⟨cur, hlt⟩
          · subst h; rw [Function.update_self, hvp]
          · rw [Function.update_of_ne h]
            apply hc2
            have : i.val ≠ cur := fun h' => h (Fin.ext h')
            omega
        · rw [Finset.sum_update_of_mem (Finset.mem_univ _), ← Finset.erase_eq]
          have := Finset.add_sum_erase Finset.univ c (Finset.mem_univ ⟨cur, hlt⟩)
          rw [hc1 ⟨cur, hlt⟩ (by simp), hc3] at this
          omega
      · rintro ⟨hpre, c, hc1, hc2, hc3⟩
        have hle : c ⟨cur, hlt⟩ ≤ ∑ i, c i :=
          Finset.single_le_sum (fun _ _ => Nat.zero_le _) (Finset.mem_univ _)
        refine ⟨c ⟨cur, hlt⟩, by omega, hc2 _ le_rfl, ?_, Function.update c ⟨cur, hlt⟩ 0, ?_, ?_, ?_⟩
        · intro i hi
          by_cases h : i = ⟨cur, hlt⟩
          · subst h; rw [Function.update_self, hc2 _ le_rfl]
          · rw [Function.update_of_ne h]
            apply hpre
            have : i.val ≠ cur := fun h' => h (Fin.ext h')
            omega
        · intro i hi
          by_cases h : i = ⟨cur, hlt⟩
          · subst h; rw [Function.update_self]
          · rw [Function.update_of_ne h]
            apply hc1
            have : i.val ≠ cur := fun h' => h (Fin.ext h')
            omega
        · intro i hi
          rw [Function.update_of_ne]
          · exact hc2 i (by omega)
          · intro h; rw [h] at hi; simp at hi
        · rw [Finset.sum_update_of_mem (Finset.mem_univ _), ← Finset.erase_eq]
          have := Finset.add_sum_erase Finset.univ c (Finset.mem_univ ⟨cur, hlt⟩)
          omega

theorem copyColumns_eq {β : Type} (src : List β) (n : Nat) (h : n ≤ src.length) :
    copyColumns src n = .ok (src.take n) := by
  induction n with
  | zero => simp [copyColumns]
  | succ n ih =>
    rw [copyColumns, ih (by omega)]
    have : src[n]? = some src[n] := List.getElem?_eq_getElem (by omega)
    simp only [Out.ok_bind, this]
    rw [List.take_succ_eq_append_getElem (by omega)]

theorem copyColumns_length {β : Type} (src : List β) (n : Nat) (l : List β)
    (h : copyColumns src n = .ok l) : l.length = n := by
  induction n generalizing l with
  | zero => simp [copyColumns] at h; simp [← h]
  | succ n ih =>
    rw [copyColumns, Out.bind_eq_ok] at h
    obtain ⟨a, h1, h2⟩ := h
    split at h2
    · simp only [Out.ok.injEq] at h2
      rw [← h2, List.length_append, ih a h1]; rfl
    · simp at h2

/-- the whole list of reference points -/
theorem computeRP_spec {precision : Nat} (hp : 1 ≤ precision) (junk : Fin (d + 1) → α) :
    (priMakeRP precision 0 0 (junk, [])).2.Nodup ∧
    (priMakeRP precision 0 0 (junk, [])).2.length = (d + precision).choose precision ∧
    ∀ v, v ∈ (priMakeRP precision 0 0 (junk, [])).2 ↔
      ∃ c : Fin (d + 1) → Nat, ∑ i, c i = precision ∧ v = fun i => (c i : α) / (precision : α) := by
  obtain ⟨L, h1, -, h3, h4, h5⟩ := priMakeRP_spec hp d 0 0 (junk, ([] : List (Fin (d + 1) → α)))
    (by omega) (by omega)
  rw [h1]
  refine ⟨by simpa using h3, by simpa using h4, ?_⟩
  intro v
  simp only [List.nil_append, h5, RPMem]
  constructor
  · rintro ⟨-, c, -, hc, hs⟩
    exact ⟨c, by simpa using hs, funext fun i => hc i (Nat.zero_le _)⟩
  · rintro ⟨c, hs, rfl⟩
    exact ⟨fun i hi => absurd hi (by omega), c, fun i hi => absurd hi (by omega), fun i _ => rfl,
      by simpa using hs⟩

end Heu
