import Verif.Lemmas.NSGA
import Verif.Props.Pareto
import Verif.Spec.Selection

/-! Helper lemmas for the congestion computation and NSGA-II selection. -/

set_option linter.unusedSectionVars false
set_option linter.unusedSimpArgs false

namespace Heu

variable {α : Type} {G : Type} [DecidableEq G] {m : Nat}

section congestion
variable [Field α] [LinearOrder α]

/-- Sum of interior contributions of `x` in a list. -/
def innerTerm (fit : G → Fin m → α) (obj : Fin m) (scale : α) : List G → G → WithTop α
  | a :: b :: c :: rest, x =>
    (if x = b then ((|fit a obj - fit c obj| / scale : α) : WithTop α) else 0)
      + innerTerm fit obj scale (b :: c :: rest) x
  | _, _ => 0

theorem addInterior_eq (fit : G → Fin m → α) (obj : Fin m) (scale : α) (l : List G) :
    ∀ (cong : G → WithTop α) (x : G),
    addInterior fit obj scale l cong x = cong x + innerTerm fit obj scale l x := by
  induction l with
  | nil => intro cong x; simp [addInterior, innerTerm]
  | cons a l ih =>
    intro cong x
    match l, ih with
    | [], _ => simp [addInterior, innerTerm]
    | [b], _ => simp [addInterior, innerTerm]
    | b :: c :: rest, ih =>
      rw [addInterior, ih, innerTerm, ← add_assoc]
      congr 1
      by_cases h : x = b
      · subst h; simp
      · simp [h]

theorem innerTerm_notMem (fit : G → Fin m → α) (obj : Fin m) (scale : α) (l : List G) (x : G) :
    x ∉ l.tail → innerTerm fit obj scale l x = 0 := by
  induction l with
  | nil => intro _; simp [innerTerm]
  | cons a l ih =>
    intro h
    match l, ih, h with
    | [], _, _ => simp [innerTerm]
    | [b], _, _ => simp [innerTerm]
    | b :: c :: rest, ih, h =>
      rw [innerTerm, ih]
      · have : x ≠ b := by rintro rfl; simp at h
        simp [this]
      · intro h'; apply h; simp at h' ⊢; right; exact h'

theorem innerTerm_at (fit : G → Fin m → α) (obj : Fin m) (scale : α) (i : Nat) :
    ∀ (l : List G) (p g q : G), l.Nodup → l[i]? = some p → l[i + 1]? = some g → l[i + 2]? = some q →
    innerTerm fit obj scale l g = ((|fit p obj - fit q obj| / scale : α) : WithTop α) := by
  induction i with
  | zero =>
    intro l p g q hnd hp hg hq
    match l, hnd, hp, hg, hq with
    | a :: b :: c :: rest, hnd, hp, hg, hq =>
      simp at hp hg hq
      subst hp hg hq
      rw [innerTerm, innerTerm_notMem]
      · simp
      · simp only [List.nodup_cons] at hnd
        simpa using hnd.2.1
  | succ i ih =>
    intro l p g q hnd hp hg hq
    match l, hnd, hp, hg, hq with
    | a :: b :: c :: rest, hnd, hp, hg, hq =>
      rw [List.getElem?_cons_succ] at hp hg hq
      rw [List.nodup_cons] at hnd
      rw [innerTerm, ih _ p g q hnd.2 hp hg hq]
      have hgm : g ≠ b := by
        rintro rfl
        rw [List.getElem?_cons_succ] at hg
        have := List.mem_of_getElem? hg
        rw [List.nodup_cons] at hnd
        exact hnd.2.1 this
      simp [hgm]
    | [a], _, hp, hg, hq => simp at hp
    | [a, b], _, hp, hg, hq => simp at hg

theorem congestionStep_spec (sort : Sorter G) (fit : G → Fin m → α) (eps : α) (sp : List G)
    (cong : G → WithTop α) (obj : Fin m) (hne : sp ≠ []) (hnd : sp.Nodup) :
    ∃ (sp' : List G) (t : G → WithTop α) (cong' : G → WithTop α),
      congestionStep sort fit eps (sp, cong) obj = .ok (sp', cong') ∧
      sp'.Perm sp ∧ sp'.Pairwise (fun a b => fit a obj ≤ fit b obj) ∧
      (∀ g, Spec.IsCongestionTerm (fun x => fit x obj) eps sp' g (t g)) ∧
      ∀ g, cong' g = cong g + t g := by
  have hperm := sort.perm (fun a b => decide (fit a obj < fit b obj)) sp
  have hsorted := sort.sorted (fun a b => decide (fit a obj < fit b obj)) sp (by simp)
    (by intro a b c; simp; exact lt_trans) (by intro a b c; simp; exact fun h₁ h₂ => le_trans h₂ h₁)
  generalize hs : sort.run (fun a b => decide (fit a obj < fit b obj)) sp = sp' at hperm hsorted
  have hne' : sp' ≠ [] := by
    rintro rfl
    exact hne (List.Perm.nil_eq hperm).symm
  have hnd' : sp'.Nodup := hperm.nodup_iff.2 hnd
  obtain ⟨fr, hfr⟩ : ∃ fr, sp'.head? = some fr := by
    cases sp' with
    | nil => exact absurd rfl hne'
    | cons a l => exact ⟨a, rfl⟩
  obtain ⟨bk, hbk⟩ : ∃ bk, sp'.getLast? = some bk := by
    rw [List.getLast?_eq_some_getLast hne']; exact ⟨_, rfl⟩
  refine ⟨sp', fun g => (if g = fr ∨ g = bk then ⊤ else 0) +
      innerTerm fit obj (|fit fr obj - fit bk obj| + eps) sp' g,
      addInterior fit obj (|fit fr obj - fit bk obj| + eps) sp'
        (Function.update (Function.update cong fr ⊤) bk ⊤), ?_, hperm, ?_, ?_, ?_⟩
  · simp [congestionStep, hs, hfr, hbk]
  · exact hsorted.imp (by intro a b h; simpa using h)
  · intro g
    constructor
    · rintro (h | h)
      · have : g = fr := by rw [hfr] at h; simpa using h.symm
        simp [this]
      · have : g = bk := by rw [hbk] at h; simpa using h.symm
        simp [this]
    · intro i p q a z hp hg hq ha hz
      have e1 : a = fr := by rw [hfr] at ha; simpa using ha.symm
      have e2 : z = bk := by rw [hbk] at hz; simpa using hz.symm
      subst e1 e2
      beta_reduce
      rw [innerTerm_at fit obj _ i sp' p g q hnd' hp hg hq]
      have n1 : g ≠ a := by
        rintro rfl
        have h0 : sp'[0]? = some g := by rw [← List.head?_eq_getElem?]; exact hfr
        have := (List.nodup_iff_getElem?_ne_getElem?.1 hnd') 0 (i + 1) (by omega)
          ((List.getElem?_eq_some_iff.1 hg).1)
        exact this (by rw [h0, hg])
      have n2 : g ≠ z := by
        rintro rfl
        have hl : sp'[sp'.length - 1]? = some g := by
          rw [← List.getLast?_eq_getElem?]; exact hbk
        have hlen := (List.getElem?_eq_some_iff.1 hq).1
        have := (List.nodup_iff_getElem?_ne_getElem?.1 hnd') (i + 1) (sp'.length - 1) (by omega)
          (by omega)
        exact this (by rw [hl, hg])
      simp [n1, n2]
  · intro g
    rw [addInterior_eq, ← add_assoc]
    congr 1
    by_cases h1 : g = bk
    · subst h1; simp
    · by_cases h2 : g = fr
      · subst h2; simp [h1]
      · simp [h1, h2]

theorem congestionFold_spec (sorts : Fin m → Sorter G) (fit : G → Fin m → α) (eps : α)
    (js : List (Fin m)) :
    ∀ (sp : List G) (cong : G → WithTop α), sp ≠ [] → sp.Nodup → js.Nodup →
    ∃ (arr : Fin m → List G) (t : Fin m → G → WithTop α) (sp' : List G) (cong' : G → WithTop α),
      js.foldlM (fun s obj => congestionStep (sorts obj) fit eps s obj) (sp, cong)
        = .ok (sp', cong') ∧
      sp'.Perm sp ∧
      (∀ j ∈ js, (arr j).Perm sp ∧ (arr j).Pairwise (fun a b => fit a j ≤ fit b j) ∧
        ∀ g, Spec.IsCongestionTerm (fun x => fit x j) eps (arr j) g (t j g)) ∧
      ∀ g, cong' g = cong g + (js.map fun j => t j g).sum := by
  induction js with
  | nil =>
    intro sp cong _ _ _
    exact ⟨fun _ => [], fun _ _ => 0, sp, cong, by simp, List.Perm.refl _, by simp, by simp⟩
  | cons j js ih =>
    intro sp cong hne hnd hjs
    obtain ⟨sp₁, t₁, c₁, he, hp, hs, ht, hc⟩ :=
      congestionStep_spec (sorts j) fit eps sp cong j hne hnd
    rw [List.nodup_cons] at hjs
    have hne₁ : sp₁ ≠ [] := by rintro rfl; exact hne (List.Perm.nil_eq hp).symm
    obtain ⟨arr, t, sp', cong', he', hp', ha', hc'⟩ := ih sp₁ c₁ hne₁ (hp.nodup_iff.2 hnd) hjs.2
    have hnj : ∀ i ∈ js, i ≠ j := by rintro i hi rfl; exact hjs.1 hi
    refine ⟨Function.update arr j sp₁, Function.update t j t₁, sp', cong', ?_, hp'.trans hp, ?_, ?_⟩
    · rw [List.foldlM_cons, he]; exact he'
    · intro i hi
      rcases List.mem_cons.1 hi with rfl | hi
      · simpa using ⟨hp, hs, ht⟩
      · rw [Function.update_of_ne (hnj i hi), Function.update_of_ne (hnj i hi)]
        exact ⟨(ha' i hi).1.trans hp, (ha' i hi).2.1, (ha' i hi).2.2⟩
    · intro g
      rw [hc', hc, List.map_cons, List.sum_cons, Function.update_self, add_assoc]
      congr 3
      apply List.map_congr_left
      intro i hi
      rw [Function.update_of_ne (hnj i hi)]

theorem congestionAll_spec (sorts : Fin m → Sorter G) (fit : G → Fin m → α) (eps : α)
    (sp : List G) (hne : sp ≠ []) (hnd : sp.Nodup) :
    ∃ sp' cong, congestionAll sorts fit eps sp = .ok (sp', cong) ∧ sp'.Perm sp ∧
      Spec.IsCongestion fit eps sp cong := by
  obtain ⟨arr, t, sp', cong, he, hp, ha, hc⟩ :=
    congestionFold_spec sorts fit eps (List.finRange m) sp (fun _ => 0) hne hnd (List.nodup_finRange m)
  refine ⟨sp', cong, he, hp, arr, t, ?_, ?_, ?_⟩
  · intro j; exact ⟨(ha j (by simp)).1, (ha j (by simp)).2.1⟩
  · intro j g _; exact (ha j (by simp)).2.2 g
  · intro g _
    rw [hc, Fin.sum_univ_def]; simp

end congestion

/-! ### shared structure of both selections -/

section dom
variable [LinearOrder α]

/-- The dominance test used by the selections. -/
abbrev domB (o : FitnessOption) (fit : G → Fin m → α) : G → G → Bool :=
  fun a b => isStrongDominate o (fit a) (fit b)

theorem domB_irrefl (o : FitnessOption) (fit : G → Fin m → α) (a : G) : domB o fit a a = false :=
  dominate_irrefl o _

theorem domB_trans (o : FitnessOption) (fit : G → Fin m → α) (a b c : G)
    (h₁ : domB o fit a b = true) (h₂ : domB o fit b c = true) : domB o fit a c = true :=
  dominate_trans o _ _ _ h₁ h₂

theorem domNum_lt (o : FitnessOption) (fit : G → Fin m → α) (pop : List G) {x y : G}
    (hx : x ∈ pop) (h : Spec.Dominates o (fit x) (fit y)) :
    calculateDominatedNum (domB o fit) pop x < calculateDominatedNum (domB o fit) pop y := by
  rw [calculateDominatedNum_eq' (domB_irrefl o fit), calculateDominatedNum_eq' (domB_irrefl o fit)]
  exact countP_lt_of_dom (domB_irrefl o fit) (domB_trans o fit) hx
    ((isStrongDominate_iff o _ _).2 h)

theorem domNum_eq_zero_iff (o : FitnessOption) (fit : G → Fin m → α) (pop : List G) (x : G) :
    calculateDominatedNum (domB o fit) pop x = 0 ↔ Spec.NonDominated o fit pop x := by
  rw [calculateDominatedNum_eq' (domB_irrefl o fit), List.countP_eq_zero]
  constructor
  · intro h y hy hd
    exact h y hy ((isStrongDominate_iff o _ _).2 hd)
  · intro h y hy hd
    exact h y hy ((isStrongDominate_iff o _ _).1 hd)

/-- A non-empty population has a non-dominated member. -/
theorem exists_domNum_zero (o : FitnessOption) (fit : G → Fin m → α) (pop : List G)
    (hne : pop ≠ []) : ∃ x ∈ pop, calculateDominatedNum (domB o fit) pop x = 0 := by
  obtain ⟨a, ha⟩ := List.exists_mem_of_ne_nil pop hne
  have : ∀ n, ∀ x ∈ pop, calculateDominatedNum (domB o fit) pop x = n →
      ∃ y ∈ pop, calculateDominatedNum (domB o fit) pop y = 0 := by
    intro n
    induction n using Nat.strongRecOn with
    | _ n ih =>
      intro x hx hn
      by_cases h0 : n = 0
      · exact ⟨x, hx, by omega⟩
      · have : ¬ Spec.NonDominated o fit pop x := by
          rw [← domNum_eq_zero_iff]; omega
        unfold Spec.NonDominated at this
        push Not at this
        obtain ⟨y, hy, hd⟩ := this
        exact ih _ (by rw [← hn]; exact domNum_lt o fit pop hy hd) y hy rfl
  exact this _ a ha rfl

/-- What the layers of a population look like. -/
theorem layers_facts (o : FitnessOption) (fit : G → Fin m → α) (sortD : Sorter G) (pop : List G)
    (hne : pop ≠ []) :
    ∃ front ls, divideLayers sortD (calculateDominatedNum (domB o fit) pop) pop = front :: ls ∧
      LayersOK (calculateDominatedNum (domB o fit) pop)
        (sortD.run (fun a b => decide (calculateDominatedNum (domB o fit) pop a
          < calculateDominatedNum (domB o fit) pop b)) pop) (front :: ls) ∧
      ∀ x ∈ pop, x ∈ front ↔ calculateDominatedNum (domB o fit) pop x = 0 := by
  set num := calculateDominatedNum (domB o fit) pop with hnum
  have hok := divideLayers_ok sortD num pop
  have hperm := sortD.perm (fun a b => decide (num a < num b)) pop
  cases hl : divideLayers sortD num pop with
  | nil =>
    rw [hl] at hok
    have := hok.flat
    rw [← this] at hperm
    simp at hperm
    exact absurd hperm hne
  | cons front ls =>
    rw [hl] at hok
    refine ⟨front, ls, rfl, hok, ?_⟩
    obtain ⟨y, hy, hy0⟩ := exists_domNum_zero o fit pop hne
    have hmem : ∀ x, x ∈ pop ↔ x ∈ front ∨ x ∈ ls.flatten := by
      intro x
      rw [← hperm.mem_iff, ← hok.flat, List.flatten_cons, List.mem_append]
    have hlt : ∀ a ∈ front, ∀ b ∈ ls.flatten, num a < num b := by
      intro a ha b hb
      obtain ⟨l, hl, hbl⟩ := List.mem_flatten.1 hb
      exact (List.pairwise_cons.1 hok.incr).1 l hl a ha b hbl
    have hyf : y ∈ front := by
      rcases (hmem y).1 hy with h | h
      · exact h
      · obtain ⟨a, ha⟩ := List.exists_mem_of_ne_nil front (hok.nonempty front (by simp))
        have := hlt a ha y h
        rw [hnum] at this; omega
    intro x hx
    constructor
    · intro h
      have := hok.const front (by simp) x h y hyf
      rw [hnum] at this ⊢; rw [this, hy0]
    · intro h
      rcases (hmem x).1 hx with h' | h'
      · exact h'
      · have := hlt y hyf x h'
        rw [hnum] at this h; omega

end dom

end Heu
