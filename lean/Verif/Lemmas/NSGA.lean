import Verif.Model.NSGA
import Mathlib.Data.List.Perm.Basic
import Mathlib.Data.List.Perm.Subperm

/-! Helper lemmas for the NSGA models. -/

set_option linter.unusedSectionVars false
set_option linter.unusedSimpArgs false

namespace Heu

variable {G : Type} [DecidableEq G]

/-! ### Out / do-notation -/

/-! ### dominated counts -/

theorem calculateDominatedNum_eq (dom : G → G → Bool) (pop : List G) (ed : G) :
    calculateDominatedNum dom pop ed = pop.countP (fun er => decide (er ≠ ed) && dom er ed) := by
  have key : ∀ (l : List G) (n : Nat),
      l.foldl (fun n er => if er = ed then n else n + (if dom er ed then 1 else 0)) n
        = n + l.countP (fun er => decide (er ≠ ed) && dom er ed) := by
    intro l
    induction l with
    | nil => simp
    | cons a l ih =>
      intro n
      rw [List.foldl_cons, ih, List.countP_cons]
      by_cases h : a = ed
      · simp [h]
      · by_cases h2 : dom a ed = true
        · simp [h, h2]; omega
        · simp [h, h2]
  simpa [calculateDominatedNum] using key pop 0

/-- Along a strict partial order the number of dominators strictly grows. -/
theorem countP_lt_of_dom {dom : G → G → Bool}
    (irr : ∀ a, dom a a = false) (tr : ∀ a b c, dom a b = true → dom b c = true → dom a c = true)
    {pop : List G} {x y : G} (hx : x ∈ pop) (h : dom x y = true) :
    pop.countP (fun er => dom er x) < pop.countP (fun er => dom er y) := by
  have hle : ∀ l : List G, l.countP (fun er => dom er x) ≤ l.countP (fun er => dom er y) := by
    intro l
    exact List.countP_mono_left (fun a _ ha => tr _ _ _ ha h)
  induction pop with
  | nil => simp at hx
  | cons a l ih =>
    rw [List.countP_cons, List.countP_cons]
    rcases List.mem_cons.1 hx with rfl | hx
    · have := hle l
      simp [irr, h]; omega
    · have := ih hx
      by_cases h1 : dom a x = true
      · have h2 := tr _ _ _ h1 h
        simp [h1, h2, this]
      · have e : (if dom a x = true then 1 else 0) = 0 := by simp [h1]
        rw [e]; omega

theorem calculateDominatedNum_eq' {dom : G → G → Bool} (irr : ∀ a, dom a a = false)
    (pop : List G) (ed : G) :
    calculateDominatedNum dom pop ed = pop.countP (fun er => dom er ed) := by
  rw [calculateDominatedNum_eq]
  apply List.countP_congr
  intro a _
  by_cases h : a = ed
  · subst h; simp [irr]
  · simp [h]

/-! ### layers -/

theorem emplaceBackLast_append (ls : List (List G)) (l : List G) (i : G) :
    emplaceBackLast (ls ++ [l]) i = ls ++ [l ++ [i]] := by
  induction ls with
  | nil => simp [emplaceBackLast]
  | cons a ls ih =>
    cases ls with
    | nil => simp [emplaceBackLast]
    | cons b ls => simpa [emplaceBackLast] using ih

/-- What a list of layers of `pre` has to satisfy. -/
structure LayersOK (num : G → Nat) (pre : List G) (ls : List (List G)) : Prop where
  flat : ls.flatten = pre
  nonempty : ∀ l ∈ ls, l ≠ []
  const : ∀ l ∈ ls, ∀ a ∈ l, ∀ b ∈ l, num a = num b
  incr : ls.Pairwise (fun l₁ l₂ => ∀ a ∈ l₁, ∀ b ∈ l₂, num a < num b)

theorem divideLayers_fold (num : G → Nat) (l : List G) :
    ∀ (pre : List G) (cur : Option Nat) (ls : List (List G)),
    LayersOK num pre ls →
    (cur = none → ls = []) →
    (∀ n, cur = some n → ∃ init last, ls = init ++ [last] ∧ (∀ g ∈ last, num g = n) ∧
      ∀ g ∈ pre, num g ≤ n) →
    l.Pairwise (fun a b => num a ≤ num b) →
    (∀ a ∈ pre, ∀ b ∈ l, num a ≤ num b) →
    LayersOK num (pre ++ l) (l.foldl (divideLayersStep num) (cur, ls)).2 := by
  induction l with
  | nil => intro pre cur ls h _ _ _ _; simpa using h
  | cons i l ih =>
    intro pre cur ls h hnone hsome hpw hpre
    rw [List.foldl_cons]
    have happ : pre ++ i :: l = (pre ++ [i]) ++ l := by simp
    rw [happ]
    rw [List.pairwise_cons] at hpw
    have hpre' : ∀ a ∈ pre ++ [i], ∀ b ∈ l, num a ≤ num b := by
      intro a ha b hb
      rcases List.mem_append.1 ha with ha | ha
      · exact hpre a ha b (List.mem_cons_of_mem _ hb)
      · simp at ha; subst ha; exact hpw.1 b hb
    by_cases hc : cur = some (num i)
    · -- same layer
      obtain ⟨init, last, hls, hlast, hle⟩ := hsome _ hc
      have hst : divideLayersStep num (cur, ls) i = (cur, init ++ [last ++ [i]]) := by
        simp [divideLayersStep, hc, hls, emplaceBackLast_append]
      rw [hst]
      subst hls
      have hne : last ≠ [] := h.nonempty last (by simp)
      apply ih (pre ++ [i]) cur
      · constructor
        · rw [← h.flat]; simp
        · intro l hl
          rcases List.mem_append.1 hl with hl | hl
          · exact h.nonempty l (by simp [hl])
          · simp at hl; subst hl; simp
        · intro l hl a ha b hb
          rcases List.mem_append.1 hl with hl | hl
          · exact h.const l (by simp [hl]) a ha b hb
          · simp at hl; subst hl
            have f : ∀ g ∈ last ++ [i], num g = num i := by
              intro g hg
              rcases List.mem_append.1 hg with hg | hg
              · exact hlast g hg
              · simp at hg; rw [hg]
            rw [f a ha, f b hb]
        · have hp := List.pairwise_append.1 h.incr
          apply List.pairwise_append.2
          refine ⟨hp.1, by simp, ?_⟩
          intro l₁ h₁ l₂ h₂ a ha b hb
          simp at h₂; subst h₂
          obtain ⟨c, hc'⟩ := List.exists_mem_of_ne_nil last hne
          have h3 := hp.2.2 l₁ h₁ last (by simp) a ha c hc'
          rcases List.mem_append.1 hb with hb | hb
          · exact hp.2.2 l₁ h₁ last (by simp) a ha b hb
          · simp at hb; subst hb; rw [hlast c hc'] at h3; exact h3
      · intro h0; rw [hc] at h0; exact absurd h0 (by simp)
      · intro n hn
        rw [hc] at hn
        have hn : num i = n := by simpa using hn
        refine ⟨init, last ++ [i], rfl, ?_, ?_⟩
        · intro g hg
          rcases List.mem_append.1 hg with hg | hg
          · rw [hlast g hg, hn]
          · simp at hg; rw [hg, hn]
        · intro g hg
          rcases List.mem_append.1 hg with hg | hg
          · rw [← hn]; exact hle g hg
          · simp at hg; rw [hg, hn]
      · exact hpw.2
      · exact hpre'
    · -- new layer
      have hst : divideLayersStep num (cur, ls) i = (some (num i), ls ++ [[i]]) := by
        simp [divideLayersStep, hc, emplaceBackLast_append]
      rw [hst]
      have hlt : ∀ g ∈ pre, num g < num i := by
        intro g hg
        have h1 := hpre g hg i (by simp)
        cases hcur : cur with
        | none =>
          have := hnone hcur
          rw [← h.flat, this] at hg
          simp at hg
        | some n =>
          obtain ⟨init, last, hls, hlast, hle⟩ := hsome n hcur
          have hne : last ≠ [] := h.nonempty last (by simp [hls])
          obtain ⟨c, hc'⟩ := List.exists_mem_of_ne_nil last hne
          have hcp : c ∈ pre := by
            rw [← h.flat, hls]; simp [hc']
          have h2 := hpre c hcp i (by simp)
          have h3 := hlast c hc'
          have h4 : n ≠ num i := by
            intro e; apply hc; rw [hcur, e]
          have h5 := hle g hg
          omega
      apply ih (pre ++ [i]) (some (num i))
      · constructor
        · rw [← h.flat]; simp
        · intro l hl
          rcases List.mem_append.1 hl with hl | hl
          · exact h.nonempty l hl
          · simp at hl; subst hl; simp
        · intro l hl a ha b hb
          rcases List.mem_append.1 hl with hl | hl
          · exact h.const l hl a ha b hb
          · simp at hl; subst hl; simp at ha hb; rw [ha, hb]
        · apply List.pairwise_append.2
          refine ⟨h.incr, by simp, ?_⟩
          intro l₁ h₁ l₂ h₂ a ha b hb
          simp at h₂; subst h₂; simp at hb; subst hb
          exact hlt a (by rw [← h.flat]; exact List.mem_flatten.2 ⟨l₁, h₁, ha⟩)
      · simp
      · intro n hn
        have hn : num i = n := by simpa using hn
        refine ⟨ls, [i], rfl, ?_, ?_⟩
        · intro g hg; simp at hg; rw [hg, hn]
        · intro g hg
          rcases List.mem_append.1 hg with hg | hg
          · have := hlt g hg; omega
          · simp at hg; rw [hg, hn]
      · exact hpw.2
      · exact hpre'

theorem sorted_by_num (sort : Sorter G) (num : G → Nat) (l : List G) :
    (sort.run (fun a b => decide (num a < num b)) l).Pairwise (fun a b => num a ≤ num b) := by
  have := sort.sorted (fun a b => decide (num a < num b)) l (by simp)
    (by intro a b c; simp; omega) (by intro a b c; simp; omega)
  exact this.imp (by intro a b h; simpa using h)

theorem divideLayers_ok (sort : Sorter G) (num : G → Nat) (l : List G) :
    LayersOK num (sort.run (fun a b => decide (num a < num b)) l) (divideLayers sort num l) := by
  have := divideLayers_fold num (sort.run (fun a b => decide (num a < num b)) l) [] none []
    ⟨by simp, by simp, by simp, by simp⟩ (by simp) (by simp) (sorted_by_num sort num l) (by simp)
  simpa [divideLayers] using this

/-- Members of an earlier layer are exactly those with smaller counts. -/
theorem LayersOK.mem_taken {num : G → Nat} {pre : List G} {taken rest : List (List G)}
    (h : LayersOK num pre (taken ++ rest)) {x s : G} (hx : x ∈ pre)
    (hs : s ∈ taken.flatten ∨ ∃ Fl rest', rest = Fl :: rest' ∧ s ∈ Fl) (hlt : num x < num s) :
    x ∈ taken.flatten := by
  have hx' : x ∈ (taken ++ rest).flatten := by rw [h.flat]; exact hx
  rw [List.flatten_append, List.mem_append] at hx'
  rcases hx' with hx' | hx'
  · exact hx'
  · exfalso
    obtain ⟨lx, hlx, hxl⟩ := List.mem_flatten.1 hx'
    have hp := List.pairwise_append.1 h.incr
    rcases hs with hs | ⟨Fl, rest', rfl, hs⟩
    · obtain ⟨l, hl, hsl⟩ := List.mem_flatten.1 hs
      have := hp.2.2 l hl lx hlx s hsl x hxl
      omega
    · rcases List.mem_cons.1 hlx with rfl | hlx
      · have := h.const lx (by simp) x hxl s hs
        omega
      · have := (List.pairwise_cons.1 hp.2.1).1 lx hlx s hs x hxl
        omega

/-! ### taking layers -/

theorem takeLayers_spec (K : Nat) (layers : List (List G)) :
    ∀ (sel : Finset G),
    layers.flatten.Nodup → (∀ g ∈ layers.flatten, g ∉ sel) → sel.card ≤ K →
    K ≤ sel.card + layers.flatten.length →
    ∃ taken rest need,
      takeLayers K sel layers = .ok (sel ∪ taken.flatten.toFinset, need, rest) ∧
      layers = taken ++ rest ∧
      (sel ∪ taken.flatten.toFinset).card = sel.card + taken.flatten.length ∧
      (need = false → sel.card + taken.flatten.length = K) ∧
      (need = true → ∃ Fl rest', rest = Fl :: rest' ∧ sel.card + taken.flatten.length < K ∧
        K < sel.card + taken.flatten.length + Fl.length) := by
  induction layers with
  | nil =>
    intro sel _ _ h1 h2
    have : sel.card = K := by simp at h2; omega
    refine ⟨[], [], false, ?_, by simp, by simp, by simp [this], by simp⟩
    unfold takeLayers
    simp [this]
  | cons l ls ih =>
    intro sel hnd hdis h1 h2
    by_cases hK : sel.card = K
    · refine ⟨[], l :: ls, false, ?_, by simp, by simp, by simp [hK], by simp⟩
      unfold takeLayers
      simp [hK]
    · by_cases hbig : sel.card + l.length > K
      · refine ⟨[], l :: ls, true, ?_, by simp, by simp, by simp, ?_⟩
        · unfold takeLayers
          simp [hK, hbig]
        · intro _
          exact ⟨l, ls, rfl, by simp; omega, by simpa using hbig⟩
      · rw [List.flatten_cons, List.nodup_append] at hnd
        have hcard : (sel ∪ l.toFinset).card = sel.card + l.length := by
          rw [Finset.card_union_of_disjoint, List.toFinset_card_of_nodup hnd.1]
          rw [Finset.disjoint_left]
          intro a ha hb
          exact hdis a (by simp at hb ⊢; exact Or.inl hb) ha
        obtain ⟨taken, rest, need, he, hl, hc, hf, ht⟩ := ih (sel ∪ l.toFinset) hnd.2.1
          (by
            intro g hg hm
            rcases Finset.mem_union.1 hm with hm | hm
            · exact hdis g (by rw [List.flatten_cons]; exact List.mem_append_right _ hg) hm
            · exact hnd.2.2 g (by simpa using hm) g hg rfl)
          (by rw [hcard]; omega)
          (by rw [hcard]; rw [List.flatten_cons, List.length_append] at h2; omega)
        refine ⟨l :: taken, rest, need, ?_, by rw [hl]; rfl, ?_, ?_, ?_⟩
        · rw [takeLayers]
          simp only [hK, hbig, if_false]
          rw [he]
          congr 2
          ext x; simp [or_assoc]
        · have e : sel ∪ (l :: taken).flatten.toFinset
              = (sel ∪ l.toFinset) ∪ taken.flatten.toFinset := by ext x; simp [or_assoc]
          rw [e, hc, hcard, List.flatten_cons, List.length_append]; omega
        · intro h; have := hf h; rw [hcard] at this; rw [List.flatten_cons, List.length_append]; omega
        · intro h
          obtain ⟨Fl, rest', e, a, b⟩ := ht h
          rw [hcard] at a b
          refine ⟨Fl, rest', e, ?_, ?_⟩ <;> rw [List.flatten_cons, List.length_append] <;> omega

/-! ### filling from the cut layer -/

theorem fillFrom_spec (K : Nat) (l : List G) :
    ∀ (sel : Finset G), l.Nodup → (∀ g ∈ l, g ∉ sel) → sel.card ≤ K → K ≤ sel.card + l.length →
    ∃ pre post, l = pre ++ post ∧ fillFrom K sel l = .ok (sel ∪ pre.toFinset) ∧
      (sel ∪ pre.toFinset).card = K := by
  induction l with
  | nil =>
    intro sel _ _ h1 h2
    have : sel.card = K := by simp at h2; omega
    refine ⟨[], [], rfl, ?_, by simpa using this⟩
    unfold fillFrom; simp [this]
  | cons g l ih =>
    intro sel hnd hdis h1 h2
    by_cases hK : sel.card < K
    · have hg : g ∉ sel := hdis g (by simp)
      have hcard : (insert g sel).card = sel.card + 1 := Finset.card_insert_of_notMem hg
      rw [List.nodup_cons] at hnd
      obtain ⟨pre, post, hl, he, hc⟩ := ih (insert g sel) hnd.2
        (by
          intro x hx hm
          rcases Finset.mem_insert.1 hm with rfl | hm
          · exact hnd.1 hx
          · exact hdis x (by simp [hx]) hm)
        (by omega) (by rw [hcard]; simp at h2; omega)
      have e : sel ∪ (g :: pre).toFinset = insert g sel ∪ pre.toFinset := by
        ext x; simp [or_assoc, or_left_comm]
      refine ⟨g :: pre, post, by simp [hl], ?_, by rw [e, hc]⟩
      rw [fillFrom]; simp only [hK, if_true]; rw [he, e]
    · refine ⟨[], g :: l, rfl, ?_, by simp; omega⟩
      rw [fillFrom]; simp [hK]

/-! ### erasing -/

theorem eraseUnselected_eq (sel : Finset G) (space : List G) :
    ∀ pop : List G, pop.Nodup →
    eraseUnselected sel space pop = pop.filter (fun g => g ∈ sel ∨ g ∉ space) := by
  unfold eraseUnselected
  induction space with
  | nil => intro pop _; simp
  | cons i space ih =>
    intro pop hnd
    rw [List.foldl_cons]
    by_cases hi : i ∈ sel
    · simp only [hi, if_true]
      rw [ih pop hnd]
      apply List.filter_congr
      intro x hx
      by_cases hxs : x ∈ sel
      · simp [hxs]
      · have : x ≠ i := fun e => hxs (e ▸ hi)
        simp [hxs, this]
    · simp only [hi, if_false]
      rw [ih _ (hnd.erase i), List.Nodup.erase_eq_filter hnd, List.filter_filter]
      apply List.filter_congr
      intro x hx
      by_cases hxi : x = i
      · subst hxi; simp [hi]
      · simp [hxi]

end Heu
