import Verif.Lemmas.NSGA2Select
import Verif.Lemmas.IEEERound
import Verif.Spec.NSGA2Fl
import Mathlib.Tactic.Linarith
import Mathlib.Tactic.Positivity

/-! NSGA-II on IEEE data. -/

set_option linter.unusedSectionVars false
set_option linter.unusedSimpArgs false
set_option linter.unusedVariables false

namespace Heu

variable {G : Type} [DecidableEq G] {m : Nat}

/-! ### comparisons -/

theorem number_units (F : Fmt) (s : Bool) (n : Nat) :
    Fl.number F (.fin s n) = (Fl.units s n : ℚ) * (2 : ℚ) ^ (-(F.one : ℤ)) := by
  cases s <;> simp [Fl.number, Fl.units]

theorem fl_lt_iff (F : Fmt) (x y : Fl) : Fl.lt x y = true ↔
    x ≠ .nan ∧ y ≠ .nan ∧ Spec.extended F x < Spec.extended F y := by
  have h2 : (0 : ℚ) < (2 : ℚ) ^ (-(F.one : ℤ)) := zpow_pos (by norm_num) _
  cases x with
  | nan => simp [Fl.lt]
  | inf s =>
    cases y with
    | nan => simp [Fl.lt]
    | inf t => cases s <;> cases t <;> simp [Fl.lt, Spec.extended]
    | fin t k => cases s <;> simp [Fl.lt, Spec.extended]
  | fin s n =>
    cases y with
    | nan => simp [Fl.lt]
    | inf t =>
      cases t
      · simp only [Fl.lt, Spec.extended, WithBot.coe_lt_coe, WithTop.coe_lt_top]; simp
      · simp [Fl.lt, Spec.extended]
    | fin t k =>
      simp only [Fl.lt, Spec.extended, decide_eq_true_eq, ne_eq, reduceCtorEq, not_false_eq_true, true_and,
        WithBot.coe_lt_coe, WithTop.coe_lt_coe, number_units]
      rw [mul_lt_mul_iff_of_pos_right h2]
      norm_cast

theorem fl_le_iff (F : Fmt) (x y : Fl) : Fl.le x y = true ↔
    x ≠ .nan ∧ y ≠ .nan ∧ Spec.extended F x ≤ Spec.extended F y := by
  have h2 : (0 : ℚ) < (2 : ℚ) ^ (-(F.one : ℤ)) := zpow_pos (by norm_num) _
  cases x with
  | nan => simp [Fl.le]
  | inf s =>
    cases y with
    | nan => simp [Fl.le]
    | inf t => cases s <;> cases t <;> simp [Fl.le, Spec.extended]
    | fin t k => cases s <;> simp [Fl.le, Spec.extended]
  | fin s n =>
    cases y with
    | nan => simp [Fl.le]
    | inf t => cases t <;> simp [Fl.le, Spec.extended]
    | fin t k =>
      simp only [Fl.le, Spec.extended, decide_eq_true_eq, ne_eq, reduceCtorEq, not_false_eq_true, true_and,
        WithBot.coe_le_coe, WithTop.coe_le_coe, number_units]
      rw [mul_le_mul_iff_of_pos_right h2]
      norm_cast

theorem dominateFl_iff (F : Fmt) (o : FitnessOption) (A B : Fin m → Fl) :
    isStrongDominateFl o A B = true ↔ Spec.DominatesFl F o A B := by
  cases o <;>
  · simp only [isStrongDominateFl, Spec.DominatesFl, Spec.Dominates, Spec.Better, Bool.and_eq_true,
      List.all_eq_true, List.any_eq_true, List.mem_finRange, true_and, forall_const, fl_le_iff F,
      fl_lt_iff F, not_lt]
    constructor
    · rintro ⟨h1, i, h2⟩
      exact ⟨fun i => by have := h1 i; tauto, fun i => (h1 i).2.2, i, h2.2.2⟩
    · rintro ⟨h1, h2, i, h3⟩
      exact ⟨fun i => by have := h1 i; have := h2 i; tauto, i, by have := h1 i; tauto⟩

/-- The test of the code as a relation on individuals. -/
abbrev domFl (o : FitnessOption) (fit : G → Fin m → Fl) : G → G → Bool :=
  fun a b => isStrongDominateFl o (fit a) (fit b)

theorem dominatesFl_irrefl (F : Fmt) (o : FitnessOption) (A : Fin m → Fl) : ¬ Spec.DominatesFl F o A A := by
  rintro ⟨_, h⟩
  have := (isStrongDominate_iff o _ _).2 h
  rw [dominate_irrefl] at this
  exact Bool.noConfusion this

theorem dominatesFl_trans (F : Fmt) (o : FitnessOption) (A B C : Fin m → Fl)
    (h1 : Spec.DominatesFl F o A B) (h2 : Spec.DominatesFl F o B C) : Spec.DominatesFl F o A C :=
  ⟨fun i => ⟨(h1.1 i).1, (h2.1 i).2⟩, (isStrongDominate_iff o _ _).1
    (dominate_trans o _ _ _ ((isStrongDominate_iff o _ _).2 h1.2) ((isStrongDominate_iff o _ _).2 h2.2))⟩

theorem domFl_irrefl (o : FitnessOption) (fit : G → Fin m → Fl) (a : G) : domFl o fit a a = false := by
  by_contra h
  exact dominatesFl_irrefl binary64 o _ ((dominateFl_iff binary64 o _ _).1 (by simpa using h))

theorem domFl_trans (o : FitnessOption) (fit : G → Fin m → Fl) (a b c : G)
    (h1 : domFl o fit a b = true) (h2 : domFl o fit b c = true) : domFl o fit a c = true :=
  (dominateFl_iff binary64 o _ _).2 (dominatesFl_trans binary64 o _ _ _ ((dominateFl_iff binary64 o _ _).1 h1)
    ((dominateFl_iff binary64 o _ _).1 h2))

/-! ### `std::sort` on a range -/

theorem onRange_of_mem {lt : G → G → Bool} {l : List G} {a b : G} (ha : a ∈ l) (hb : b ∈ l) :
    onRange lt l a b = lt a b := by simp [onRange, ha, hb]

theorem sortRange_ok (sort : Sorter G) {lt : G → G → Bool} {l : List G} (h : StrictWeakOn lt l) :
    ∃ l', sortRange sort lt l = .ok l' ∧ l'.Perm l ∧ l'.Pairwise (fun a b => lt b a = false) := by
  refine ⟨sort.run (onRange lt l) l, by simp [sortRange, h], sort.perm _ _, ?_⟩
  have hs := sort.sorted (onRange lt l) l
    (by intro a; by_cases ha : a ∈ l
        · rw [onRange_of_mem ha ha]; exact h.1 a ha
        · simp [onRange, ha])
    (by intro a b c h1 h2
        by_cases ha : a ∈ l
        · by_cases hb : b ∈ l
          · by_cases hc : c ∈ l
            · rw [onRange_of_mem ha hb] at h1; rw [onRange_of_mem hb hc] at h2; rw [onRange_of_mem ha hc]
              exact h.2.1 a ha b hb c hc h1 h2
            · simp [onRange, ha, hc]
          · simp [onRange, hb] at h2
        · simp [onRange, ha] at h1)
    (by intro a b c h1 h2
        by_cases ha : a ∈ l
        · by_cases hb : b ∈ l
          · by_cases hc : c ∈ l
            · rw [onRange_of_mem ha hb] at h1; rw [onRange_of_mem hb hc] at h2; rw [onRange_of_mem ha hc]
              exact h.2.2 a ha b hb c hc h1 h2
            · simp [onRange, hb, hc] at h2
          · simp [onRange, ha, hb] at h1
        · simp [onRange, ha])
  have hmem : ∀ x ∈ sort.run (onRange lt l) l, x ∈ l := fun x hx => (sort.perm _ _).mem_iff.1 hx
  refine (List.pairwise_iff_forall_sublist.2 fun {a b} hab => ?_)
  have h1 := (List.pairwise_iff_forall_sublist.1 hs) hab
  have ha := hmem a (hab.subset (by simp))
  have hb := hmem b (hab.subset (by simp))
  rwa [onRange_of_mem hb ha] at h1

theorem sortRange_inv (sort : Sorter G) {lt : G → G → Bool} {l l' : List G}
    (h : sortRange sort lt l = .ok l') : StrictWeakOn lt l ∧ l'.Perm l ∧ l'.Pairwise (fun a b => lt b a = false) := by
  by_cases hs : StrictWeakOn lt l
  · obtain ⟨l'', h1, h2, h3⟩ := sortRange_ok sort hs
    rw [h] at h1; cases h1
    exact ⟨hs, h2, h3⟩
  · simp [sortRange, hs] at h

theorem strictWeakOn_perm {lt : G → G → Bool} {l l' : List G} (hp : l'.Perm l) :
    StrictWeakOn lt l' ↔ StrictWeakOn lt l := by
  unfold StrictWeakOn
  simp only [hp.mem_iff]

theorem strictWeakOn_sub {lt : G → G → Bool} {l l' : List G} (hs : ∀ g ∈ l', g ∈ l) (h : StrictWeakOn lt l) :
    StrictWeakOn lt l' :=
  ⟨fun a ha => h.1 a (hs a ha), fun a ha b hb c hc => h.2.1 a (hs a ha) b (hs b hb) c (hs c hc),
    fun a ha b hb c hc => h.2.2 a (hs a ha) b (hs b hb) c (hs c hc)⟩

/-- Without NaN the comparison of a field is a strict weak order. -/
theorem strictWeakOn_lt (f : G → Fl) (l : List G) (h : ∀ g ∈ l, f g ≠ .nan) :
    StrictWeakOn (fun a b => Fl.lt (f a) (f b)) l := by
  have key : ∀ a ∈ l, ∀ b ∈ l, (Fl.lt (f a) (f b) = true ↔
      Spec.extended binary64 (f a) < Spec.extended binary64 (f b)) := fun a ha b hb => by
    rw [fl_lt_iff binary64]; simp [h a ha, h b hb]
  have key' : ∀ a ∈ l, ∀ b ∈ l, (Fl.lt (f a) (f b) = false ↔
      Spec.extended binary64 (f b) ≤ Spec.extended binary64 (f a)) := fun a ha b hb => by
    rw [← Bool.not_eq_true, key a ha b hb, not_lt]
  refine ⟨fun a ha => (key' a ha a ha).2 le_rfl, fun a ha b hb c hc h1 h2 => ?_, fun a ha b hb c hc h1 h2 => ?_⟩
  · rw [key _ ‹_› _ ‹_›] at *; exact lt_trans h1 h2
  · rw [key' _ ‹_› _ ‹_›] at *; exact le_trans h2 h1

theorem strictWeakOn_gt (f : G → Fl) (l : List G) (h : ∀ g ∈ l, f g ≠ .nan) :
    StrictWeakOn (fun a b => Fl.lt (f b) (f a)) l := by
  obtain ⟨h1, h2, h3⟩ := strictWeakOn_lt f l h
  exact ⟨h1, fun a ha b hb c hc e1 e2 => h2 c hc b hb a ha e2 e1,
    fun a ha b hb c hc e1 e2 => h3 c hc b hb a ha e2 e1⟩

/-- With a NaN and two different numbers it is not. -/
theorem not_strictWeakOn_nan (f : G → Fl) (l : List G) {a b c : G} (ha : a ∈ l) (hb : b ∈ l) (hc : c ∈ l)
    (hn : f b = .nan) (hlt : Fl.lt (f a) (f c) = true) :
    ¬ StrictWeakOn (fun a b => Fl.lt (f a) (f b)) l := by
  intro h
  have := h.2.2 a ha b hb c hc (by simp only [hn]; cases f a <;> rfl) (by simp only [hn]; rfl)
  simp only [hlt] at this
  exact Bool.noConfusion this

/-! ### layers for an arbitrary strict partial order -/

section dom
variable {dom : G → G → Bool} (irr : ∀ a, dom a a = false)
  (tr : ∀ a b c, dom a b = true → dom b c = true → dom a c = true)
include irr

theorem numD_eq_zero_iff (pop : List G) (x : G) :
    calculateDominatedNum dom pop x = 0 ↔ ∀ y ∈ pop, dom y x = false := by
  rw [calculateDominatedNum_eq' irr, List.countP_eq_zero]
  simp

theorem dominatorCountD (pop : List G) (x : G) (n : Nat) :
    (∃ ds : List G, ds.Sublist pop ∧ (∀ y ∈ ds, dom y x = true) ∧ ds.length = n ∧
      ∀ ds' : List G, ds'.Sublist pop → (∀ y ∈ ds', dom y x = true) → ds'.length ≤ n) ↔
      n = calculateDominatedNum dom pop x := by
  have hself : ∃ ds : List G, ds.Sublist pop ∧ (∀ y ∈ ds, dom y x = true) ∧
      ds.length = calculateDominatedNum dom pop x := by
    refine ⟨pop.filter (fun er => dom er x), List.filter_sublist, ?_, ?_⟩
    · intro y hy
      rw [List.mem_filter] at hy
      exact hy.2
    · rw [calculateDominatedNum_eq' irr, List.countP_eq_length_filter]
  have hmax : ∀ ds' : List G, ds'.Sublist pop → (∀ y ∈ ds', dom y x = true) →
      ds'.length ≤ calculateDominatedNum dom pop x := by
    intro ds' hs hd
    rw [calculateDominatedNum_eq' irr]
    calc ds'.length = ds'.countP (fun er => dom er x) := by
          rw [eq_comm, List.countP_eq_length]
          intro y hy; exact hd y hy
      _ ≤ pop.countP (fun er => dom er x) := hs.countP_le
  constructor
  · rintro ⟨ds, hs, hd, hl, hm⟩
    obtain ⟨ds', hs', hd', hl'⟩ := hself
    have h1 := hmax ds hs hd
    have h2 := hm ds' hs' hd'
    omega
  · rintro rfl
    obtain ⟨ds, hs, hd, hl⟩ := hself
    exact ⟨ds, hs, hd, hl, hmax⟩

include tr

theorem numD_lt (pop : List G) {x y : G} (hx : x ∈ pop) (h : dom x y = true) :
    calculateDominatedNum dom pop x < calculateDominatedNum dom pop y := by
  rw [calculateDominatedNum_eq' irr, calculateDominatedNum_eq' irr]
  exact countP_lt_of_dom irr tr hx h

theorem exists_numD_zero (pop : List G) (hne : pop ≠ []) :
    ∃ x ∈ pop, calculateDominatedNum dom pop x = 0 := by
  obtain ⟨a, ha⟩ := List.exists_mem_of_ne_nil pop hne
  have : ∀ n, ∀ x ∈ pop, calculateDominatedNum dom pop x = n →
      ∃ y ∈ pop, calculateDominatedNum dom pop y = 0 := by
    intro n
    induction n using Nat.strongRecOn with
    | _ n ih =>
      intro x hx hn
      by_cases h0 : n = 0
      · exact ⟨x, hx, by omega⟩
      · have : ¬ ∀ y ∈ pop, dom y x = false := by
          rw [← numD_eq_zero_iff irr]; omega
        push Not at this
        obtain ⟨y, hy, hd⟩ := this
        exact ih _ (by rw [← hn]; exact numD_lt irr tr pop hy (by simpa using hd)) y hy rfl
  exact this _ a ha rfl

theorem layers_factsD (sortD : Sorter G) (pop : List G) (hne : pop ≠ []) :
    ∃ front ls, divideLayers sortD (calculateDominatedNum dom pop) pop = front :: ls ∧
      LayersOK (calculateDominatedNum dom pop)
        (sortD.run (fun a b => decide (calculateDominatedNum dom pop a
          < calculateDominatedNum dom pop b)) pop) (front :: ls) ∧
      ∀ x ∈ pop, x ∈ front ↔ calculateDominatedNum dom pop x = 0 := by
  set num := calculateDominatedNum dom pop with hnum
  have hok := divideLayers_ok sortD num pop
  have hperm := sortD.perm (fun a b => decide (num a < num b)) pop
  cases hl : divideLayers sortD num pop with
  | nil =>
    rw [hl] at hok
    have := hok.flat
    rw [← this] at hperm
    simp at hperm
    exact absurd hperm hne
  | cons front ls =>
    rw [hl] at hok
    refine ⟨front, ls, rfl, hok, ?_⟩
    obtain ⟨y, hy, hy0⟩ := exists_numD_zero irr tr pop hne
    have hmem : ∀ x, x ∈ pop ↔ x ∈ front ∨ x ∈ ls.flatten := by
      intro x
      rw [← hperm.mem_iff, ← hok.flat, List.flatten_cons, List.mem_append]
    have hlt : ∀ a ∈ front, ∀ b ∈ ls.flatten, num a < num b := by
      intro a ha b hb
      obtain ⟨l, hl, hbl⟩ := List.mem_flatten.1 hb
      exact (List.pairwise_cons.1 hok.incr).1 l hl a ha b hbl
    have hyf : y ∈ front := by
      rcases (hmem y).1 hy with h | h
      · exact h
      · obtain ⟨a, ha⟩ := List.exists_mem_of_ne_nil front (hok.nonempty front (by simp))
        have := hlt a ha y h
        rw [hnum] at this; omega
    intro x hx
    constructor
    · intro h
      have := hok.const front (by simp) x h y hyf
      rw [hnum] at this ⊢; rw [this, hy0]
    · intro h
      rcases (hmem x).1 hx with h' | h'
      · exact h'
      · have := hlt y hyf x h'
        rw [hnum] at this h; omega

/-- Everything a user can observe of a layered selection, for any dominance relation. -/
structure SelectOKD (dom : G → G → Bool) (K : Nat) (pop : List G) (r : SelectResult G) : Prop where
  size : r.population.length = K
  sublist : r.population.Sublist pop
  closed : ∀ s ∈ r.population, ∀ x ∈ pop, dom x s = true → x ∈ r.population
  ranked : ∀ s ∈ r.population, ∀ e ∈ pop, e ∉ r.population →
    calculateDominatedNum dom pop s ≤ calculateDominatedNum dom pop e
  pf_sub : ∀ g ∈ r.pf, g ∈ r.population
  pf_nd : ∀ g ∈ r.pf, ∀ y ∈ pop, dom y g = false
  pf_eq : ∀ nd : List G, nd.Nodup → (∀ g, g ∈ nd ↔ g ∈ pop ∧ ∀ y ∈ pop, dom y g = false) →
      (nd.length ≤ K → r.pf = nd.toFinset) ∧ (K < nd.length → r.pf = r.population.toFinset)

theorem selectOKD_of_cut (K : Nat) (pop : List G) (hnd : pop.Nodup) (front : List G) (layers : List (List G))
    (selected : Finset G)
    (hfront : ∀ x ∈ pop, x ∈ front ↔ calculateDominatedNum dom pop x = 0)
    (h : CutOK (calculateDominatedNum dom pop) pop K front layers selected) :
    SelectOKD dom K pop
      { population := pop.filter (fun g => decide (g ∈ selected))
        pf := if front.length ≤ K then front.toFinset else selected } := by
  obtain ⟨sp, hperm, hok⟩ := h.ok
  obtain ⟨ls, hf⟩ := h.front_eq
  have hmem : ∀ g, g ∈ pop.filter (fun g => decide (g ∈ selected)) ↔ g ∈ selected := by
    intro g
    rw [List.mem_filter, decide_eq_true_eq]
    exact ⟨fun h => h.2, fun h' => ⟨h.sub g h', h'⟩⟩
  have hfnd : front.Nodup := by
    have : (front :: ls).flatten.Nodup := by
      rw [← hf, hok.flat]; exact hperm.nodup_iff.2 hnd
    rw [List.flatten_cons] at this
    exact (List.nodup_append.1 this).1
  have hfpop : ∀ g ∈ front, g ∈ pop := by
    intro g hg
    rw [← hperm.mem_iff, ← hok.flat, hf, List.flatten_cons]
    exact List.mem_append_left _ hg
  have hfront' : ∀ x ∈ pop, x ∈ front ↔ ∀ y ∈ pop, dom y x = false := by
    intro x hx; rw [hfront x hx, numD_eq_zero_iff irr]
  constructor
  · dsimp only; rw [length_filter_mem pop hnd selected h.sub, h.card]
  · exact List.filter_sublist
  · intro s hs x hx hd
    dsimp only at *
    rw [hmem] at *
    exact h.closed hs hx (numD_lt irr tr pop hx hd)
  · intro s hs e he hne
    dsimp only at *
    rw [hmem] at *
    by_contra hlt
    exact hne (h.closed hs he (by omega))
  · intro g hg
    dsimp only at *
    rw [hmem]
    split at hg
    · rename_i hle
      exact h.front_sub hle g (by simpa using hg)
    · exact hg
  · intro g hg
    dsimp only at hg
    split at hg
    · have hg : g ∈ front := by simpa using hg
      exact (hfront' g (hfpop g hg)).1 hg
    · rename_i hle
      exact (hfront' g (h.sub g hg)).1 (h.sub_front (by omega) g hg)
  · intro nd hnodup hall
    have hset : nd.toFinset = front.toFinset := by
      ext x
      simp only [List.mem_toFinset]
      rw [hall]
      exact ⟨fun hx => (hfront' x hx.1).2 hx.2, fun hx => ⟨hfpop x hx, (hfront' x (hfpop x hx)).1 hx⟩⟩
    have hlen : nd.length = front.length := by
      rw [← List.toFinset_card_of_nodup hnodup, ← List.toFinset_card_of_nodup hfnd, hset]
    dsimp only
    constructor
    · intro hK
      rw [if_pos (by omega), hset]
    · intro hK
      rw [if_neg (by omega)]
      ext x
      rw [List.mem_toFinset, hmem]

end dom

/-! ### crowding -/

section crowd
variable {F : Fmt}

theorem addInteriorFl_notMem (fit : G → Fin m → Fl) (obj : Fin m) (scale : Fl) (l : List G) :
    ∀ (cong : G → Fl) (x : G), x ∉ l.tail → addInteriorFl F fit obj scale l cong x = cong x := by
  induction l with
  | nil => intro cong x _; simp [addInteriorFl]
  | cons a l ih =>
    intro cong x hx
    match l, ih, hx with
    | [], _, _ => simp [addInteriorFl]
    | [b], _, _ => simp [addInteriorFl]
    | b :: c :: rest, ih, hx =>
      simp only [List.tail_cons, List.mem_cons, not_or] at hx
      rw [addInteriorFl, ih _ x (by simp only [List.tail_cons, List.mem_cons, not_or]; exact hx.2)]
      rw [Function.update_of_ne hx.1]

theorem addInteriorFl_last (fit : G → Fin m → Fl) (obj : Fin m) (scale : Fl) (l : List G) :
    ∀ (cong : G → Fl) (x : G), l.Nodup → l.getLast? = some x →
      addInteriorFl F fit obj scale l cong x = cong x := by
  induction l with
  | nil => intro cong x _ h; simp at h
  | cons a l ih =>
    intro cong x hnd hx
    match l, ih, hnd, hx with
    | [], _, _, _ => simp [addInteriorFl]
    | [b], _, _, _ => simp [addInteriorFl]
    | b :: c :: rest, ih, hnd, hx =>
      rw [List.getLast?_cons_cons] at hx
      have hnd' := (List.nodup_cons.1 hnd).2
      rw [addInteriorFl, ih _ x hnd' hx, Function.update_of_ne]
      rintro rfl
      rw [List.getLast?_cons_cons] at hx
      have := List.mem_of_getLast? hx
      exact (List.nodup_cons.1 hnd').1 this

theorem addInteriorFl_at (fit : G → Fin m → Fl) (obj : Fin m) (scale : Fl) (i : Nat) :
    ∀ (l : List G) (cong : G → Fl) (p g q : G), l.Nodup → l[i]? = some p → l[i + 1]? = some g →
      l[i + 2]? = some q →
      addInteriorFl F fit obj scale l cong g =
        (cong g).add F (((Fl.sub F (fit p obj) (fit q obj)).abs).div F scale) := by
  induction i with
  | zero =>
    intro l cong p g q hnd hp hg hq
    match l, hnd, hp, hg, hq with
    | a :: b :: c :: rest, hnd, hp, hg, hq =>
      simp at hp hg hq
      subst hp hg hq
      rw [addInteriorFl, addInteriorFl_notMem _ _ _ _ _ _ (by
        simpa using (List.nodup_cons.1 (List.nodup_cons.1 hnd).2).1), Function.update_self]
  | succ i ih =>
    intro l cong p g q hnd hp hg hq
    match l, hnd, hp, hg, hq with
    | [a], hnd, hp, hg, hq => simp at hp
    | [a, b], hnd, hp, hg, hq => simp at hg
    | a :: b :: c :: rest, hnd, hp, hg, hq =>
      rw [List.getElem?_cons_succ] at hp hg hq
      have hnd' := (List.nodup_cons.1 hnd).2
      rw [addInteriorFl, ih _ _ p g q hnd' hp hg hq, Function.update_of_ne]
      rintro rfl
      have h0 : (g :: c :: rest)[0]? = some g := rfl
      exact (List.nodup_iff_getElem?_ne_getElem?.1 hnd') 0 (i + 1) (by omega)
        (by
          have := (List.getElem?_eq_some_iff.1 hg).1
          exact this) (by rw [h0, hg])

theorem congestionStepFl_inv {sort : Sorter G} {fit : G → Fin m → Fl} {eps : Fl} {sp sp' : List G}
    {cong cong' : G → Fl} {obj : Fin m} (hnd : sp.Nodup)
    (h : congestionStepFl F sort fit eps (sp, cong) obj = .ok (sp', cong')) :
    sp'.Perm sp ∧ sp'.Pairwise (fun a b => Fl.lt (fit b obj) (fit a obj) = false) ∧
      ∀ g, Spec.CongestionStepFl F (fun x => fit x obj) eps sp' g (cong g) (cong' g) := by
  unfold congestionStepFl at h
  obtain ⟨l, hl, h⟩ := Out.bind_eq_ok.1 h
  obtain ⟨-, hp, hs⟩ := sortRange_inv sort hl
  dsimp only at hp
  split at h
  · rename_i fr bk hfr hbk
    cases h
    refine ⟨hp, hs, fun g => ?_⟩
    have hnd' : sp'.Nodup := hp.nodup_iff.2 hnd
    constructor
    · rintro (hg | hg)
      · have e1 : g = fr := Option.some.inj (hg.symm.trans hfr)
        rw [addInteriorFl_notMem]
        · by_cases e : bk = g
          · subst e; simp
          · rw [Function.update_of_ne (Ne.symm e), e1]; simp
        · cases sp' with
          | nil => simp
          | cons a t =>
            simp at hg; subst hg
            simpa using (List.nodup_cons.1 hnd').1
      · rw [addInteriorFl_last _ _ _ _ _ _ hnd' hg]
        have e1 : g = bk := Option.some.inj (hg.symm.trans hbk)
        rw [e1]; simp
    · intro i p q a z h1 h2 h3 h4 h5
      obtain rfl : fr = a := Option.some.inj (hfr.symm.trans h4)
      obtain rfl : bk = z := Option.some.inj (hbk.symm.trans h5)
      rw [addInteriorFl_at _ _ _ i sp' _ p g q hnd' h1 h2 h3]
      have l2 := (List.getElem?_eq_some_iff.1 h2).1
      have l3 := (List.getElem?_eq_some_iff.1 h3).1
      have n1 : g ≠ fr := by
        rintro rfl
        exact (List.nodup_iff_getElem?_ne_getElem?.1 hnd') 0 (i + 1) (by omega) l2
          (by rw [h2, ← List.head?_eq_getElem?, h4])
      have n2 : g ≠ bk := by
        rintro rfl
        rw [List.getLast?_eq_getElem?] at h5
        exact (List.nodup_iff_getElem?_ne_getElem?.1 hnd') (i + 1) (sp'.length - 1) (by omega) (by omega)
          (by rw [h2, h5])
      rw [Function.update_of_ne n2, Function.update_of_ne n1]
  · cases h

theorem congestionFoldFl_inv {sorts : Fin m → Sorter G} {fit : G → Fin m → Fl} {eps : Fl} (pop : List G)
    (hnd : pop.Nodup) (js : List (Fin m)) :
    ∀ {sp sp' : List G} {cong cong' : G → Fl}, sp.Perm pop →
      js.foldlM (fun s obj => congestionStepFl F (sorts obj) fit eps s obj) (sp, cong) = .ok (sp', cong') →
      sp'.Perm pop ∧ Spec.CrowdingSteps F fit eps pop js cong cong' := by
  induction js with
  | nil =>
    intro sp sp' cong cong' hp h
    cases h
    exact ⟨hp, .nil _⟩
  | cons j js ih =>
    intro sp sp' cong cong' hp h
    rw [List.foldlM_cons] at h
    obtain ⟨⟨sp1, c1⟩, h1, h2⟩ := Out.bind_eq_ok.1 h
    obtain ⟨p1, s1, k1⟩ := congestionStepFl_inv (hp.nodup_iff.2 hnd) h1
    obtain ⟨p2, k2⟩ := ih (p1.trans hp) h2
    exact ⟨p2, .cons j js sp1 _ c1 _ (p1.trans hp) s1 (fun g _ => k1 g) k2⟩

/-- A non-negative datum, possibly infinite. -/
def NonNegFl (x : Fl) : Prop := x = .inf false ∨ ∃ n, x = .fin false n

theorem NonNegFl.ne_nan {x : Fl} (h : NonNegFl x) : x ≠ .nan := by
  rcases h with rfl | ⟨n, rfl⟩ <;> simp

theorem nonNeg_mk (n : Nat) : NonNegFl (Fl.mk F false n) := by
  unfold Fl.mk NonNegFl
  split
  · left; rfl
  · right; exact ⟨n, rfl⟩

theorem add_posFl (n k : Nat) : (Fl.fin false n).add F (.fin false k) =
    if n + k = 0 then .fin false 0 else Fl.mk F false (rndUnits F.mb (n + k) 1) := by
  have hu : ∀ x : Nat, Fl.units false x = (x : ℤ) := fun x => by simp [Fl.units]
  simp only [Fl.add, hu]
  by_cases h : n + k = 0
  · rw [if_pos (by omega), if_pos h]; rfl
  · rw [if_neg (by omega), if_neg h]
    have h1 : decide ((n : ℤ) + k < 0) = false := by simp; omega
    have h2 : ((n : ℤ) + k).natAbs = n + k := by omega
    rw [h1, h2]

theorem nonNeg_add {x y : Fl} (hx : NonNegFl x) (hy : NonNegFl y) : NonNegFl (x.add F y) := by
  rcases hx with rfl | ⟨n, rfl⟩ <;> rcases hy with rfl | ⟨k, rfl⟩
  · left; simp [Fl.add]
  · left; simp [Fl.add]
  · left; simp [Fl.add]
  · rw [add_posFl]
    split
    · right; exact ⟨0, rfl⟩
    · exact nonNeg_mk _

theorem nonNeg_ratio {d e : Nat} (he : 0 < e) (n : Nat) :
    NonNegFl ((Fl.fin false n).div F ((Fl.fin false d).add F (.fin false e))) := by
  have h2 : 1 ≤ rndUnits F.mb (d + e) 1 :=
    le_rndUnits F.mb (d + e) 1 (n := 1) (by norm_num) ⟨1, 0, Nat.one_lt_two_pow (by omega), by simp⟩ (by omega)
  rw [add_posFl, if_neg (by omega)]
  unfold Fl.mk
  split
  · right; exact ⟨0, by simp [Fl.div]⟩
  · simp only [Fl.div]
    rw [if_neg (by omega)]
    exact nonNeg_mk _

/-- No crowding value is NaN when the differences of fitness values do not overflow. -/
theorem crowding_nonNeg {fit : G → Fin m → Fl} {e : Nat} (he : 0 < e) {pop : List G}
    (hd : ∀ a ∈ pop, ∀ b ∈ pop, ∀ j, ∃ s n, Fl.sub F (fit a j) (fit b j) = .fin s n)
    {js : List (Fin m)} {c c' : G → Fl} (h : Spec.CrowdingSteps F fit (.fin false e) pop js c c') :
    (∀ g ∈ pop, NonNegFl (c g)) → ∀ g ∈ pop, NonNegFl (c' g) := by
  induction h with
  | nil c => exact id
  | cons j js arr c c' c'' hp hs hst _ ih =>
    intro hc
    refine ih fun g hg => ?_
    have hg' : g ∈ arr := hp.mem_iff.2 hg
    obtain ⟨k, hk, hgk⟩ := List.getElem_of_mem hg'
    have hgk' : arr[k]? = some g := by rw [List.getElem?_eq_getElem hk, hgk]
    by_cases h0 : k = 0
    · subst h0
      rw [(hst g hg).ends (Or.inl (by rw [List.head?_eq_getElem?]; exact hgk'))]
      left; rfl
    · by_cases h1 : k + 1 < arr.length
      · have hne : arr ≠ [] := List.ne_nil_of_mem hg'
        have ha : arr.head? = some (arr.head hne) := List.head?_eq_some_head hne
        have hz : arr.getLast? = some (arr.getLast hne) := List.getLast?_eq_some_getLast hne
        obtain ⟨k, rfl⟩ : ∃ i, k = i + 1 := ⟨k - 1, by omega⟩
        have hp1 : arr[k]? = some arr[k] := List.getElem?_eq_getElem _
        have hp2 : arr[k + 2]? = some arr[k + 2] := List.getElem?_eq_getElem _
        rw [(hst g hg).inner k _ _ _ _ hp1 hgk' hp2 ha hz]
        refine nonNeg_add (hc g hg) ?_
        obtain ⟨s1, n1, e1⟩ := hd arr[k] (hp.mem_iff.1 (List.getElem_mem _)) arr[k + 2]
          (hp.mem_iff.1 (List.getElem_mem _)) j
        obtain ⟨s2, n2, e2⟩ := hd (arr.head hne) (hp.mem_iff.1 (List.head_mem hne)) (arr.getLast hne)
          (hp.mem_iff.1 (List.getLast_mem hne)) j
        rw [e1, e2]
        exact nonNeg_ratio he n1
      · rw [(hst g hg).ends (Or.inr (by
          rw [List.getLast?_eq_getElem?]
          rw [← hgk']; congr 1; omega))]
        left; rfl

theorem congestionStepFl_ok (sort : Sorter G) (fit : G → Fin m → Fl) (eps : Fl) (sp : List G)
    (cong : G → Fl) (obj : Fin m) (hne : sp ≠ []) (hn : ∀ g ∈ sp, fit g obj ≠ .nan) :
    ∃ r, congestionStepFl F sort fit eps (sp, cong) obj = .ok r := by
  obtain ⟨sp', h1, hp, -⟩ := sortRange_ok sort (strictWeakOn_lt (fun g => fit g obj) sp hn)
  have hne' : sp' ≠ [] := by
    rintro rfl; exact hne (List.Perm.nil_eq hp).symm
  unfold congestionStepFl
  simp only [h1, Out.ok_bind, List.head?_eq_some_head hne', List.getLast?_eq_some_getLast hne']
  exact ⟨_, rfl⟩

theorem congestionFoldFl_ok (sorts : Fin m → Sorter G) (fit : G → Fin m → Fl) (eps : Fl) (pop : List G)
    (hne : pop ≠ []) (hnd : pop.Nodup) (hn : ∀ g ∈ pop, ∀ j, fit g j ≠ .nan) (js : List (Fin m)) :
    ∀ (sp : List G) (cong : G → Fl), sp.Perm pop →
      ∃ r, js.foldlM (fun s obj => congestionStepFl F (sorts obj) fit eps s obj) (sp, cong) = .ok r := by
  induction js with
  | nil => intro sp cong hp; exact ⟨_, rfl⟩
  | cons j js ih =>
    intro sp cong hp
    have hne' : sp ≠ [] := by
      rintro rfl; exact hne (List.Perm.nil_eq hp).symm
    obtain ⟨⟨sp1, c1⟩, h1⟩ := congestionStepFl_ok (F := F) (sorts j) fit eps sp cong j hne'
      (fun g hg => hn g (hp.mem_iff.1 hg) j)
    obtain ⟨p1, -, -⟩ := congestionStepFl_inv (hp.nodup_iff.2 hnd) h1
    obtain ⟨r, hr⟩ := ih sp1 c1 (p1.trans hp)
    exact ⟨r, by rw [List.foldlM_cons, h1]; exact hr⟩

/-- A NaN among different numbers in one objective makes the crowding computation undefined. -/
theorem congestionFoldFl_ub (sorts : Fin m → Sorter G) (fit : G → Fin m → Fl) (eps : Fl) (pop : List G)
    (hnd : pop.Nodup) (obj : Fin m) {a b c : G} (ha : a ∈ pop) (hb : b ∈ pop) (hc : c ∈ pop)
    (hn : fit b obj = .nan) (hlt : Fl.lt (fit a obj) (fit c obj) = true) (js : List (Fin m)) :
    ∀ (sp : List G) (cong : G → Fl), sp.Perm pop → obj ∈ js →
      js.foldlM (fun s obj => congestionStepFl F (sorts obj) fit eps s obj) (sp, cong) = .ub := by
  induction js with
  | nil => intro sp cong hp h; simp at h
  | cons j js ih =>
    intro sp cong hp h
    have hub : ∀ (sp : List G) (cong : G → Fl), sp.Perm pop →
        congestionStepFl F (sorts obj) fit eps (sp, cong) obj = .ub := by
      intro sp cong hp
      unfold congestionStepFl
      have := not_strictWeakOn_nan (fun g => fit g obj) sp (hp.mem_iff.2 ha) (hp.mem_iff.2 hb)
        (hp.mem_iff.2 hc) hn hlt
      simp only [sortRange, this, if_false]
      rfl
    rw [List.foldlM_cons]
    by_cases hj : obj = j
    · subst hj
      rw [hub sp cong hp]; rfl
    · have hjs : obj ∈ js := by simpa [hj] using h
      cases hst : congestionStepFl F (sorts j) fit eps (sp, cong) j with
      | ok r =>
        obtain ⟨sp1, c1⟩ := r
        obtain ⟨p1, -, -⟩ := congestionStepFl_inv (hp.nodup_iff.2 hnd) hst
        exact ih sp1 c1 (p1.trans hp) hjs
      | ub => rfl
      | timeout =>
        exfalso
        unfold congestionStepFl sortRange at hst
        split at hst
        · simp only [Out.ok_bind] at hst
          split at hst <;> cases hst
        · cases hst

end crowd

end Heu
