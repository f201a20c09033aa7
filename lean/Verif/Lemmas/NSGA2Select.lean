import Verif.Lemmas.NSGA2

/-! The structure of a layered selection, shared by NSGA-II and NSGA-III. -/

set_option linter.unusedSectionVars false
set_option linter.unusedSimpArgs false

namespace Heu

variable {α : Type} {G : Type} [DecidableEq G] {m : Nat}

section
variable [LinearOrder α]

theorem dominatorCount_iff (o : FitnessOption) (fit : G → Fin m → α) (pop : List G) (x : G)
    (n : Nat) :
    Spec.DominatorCount o fit pop x n ↔ n = calculateDominatedNum (domB o fit) pop x := by
  have hself : ∃ ds : List G, ds.Sublist pop ∧ (∀ y ∈ ds, Spec.Dominates o (fit y) (fit x)) ∧
      ds.length = calculateDominatedNum (domB o fit) pop x := by
    refine ⟨pop.filter (fun er => domB o fit er x), List.filter_sublist, ?_, ?_⟩
    · intro y hy
      rw [List.mem_filter] at hy
      exact (isStrongDominate_iff o _ _).1 hy.2
    · rw [calculateDominatedNum_eq' (domB_irrefl o fit), List.countP_eq_length_filter]
  have hmax : ∀ ds' : List G, ds'.Sublist pop → (∀ y ∈ ds', Spec.Dominates o (fit y) (fit x)) →
      ds'.length ≤ calculateDominatedNum (domB o fit) pop x := by
    intro ds' hs hd
    rw [calculateDominatedNum_eq' (domB_irrefl o fit)]
    calc ds'.length = ds'.countP (fun er => domB o fit er x) := by
          rw [eq_comm, List.countP_eq_length]
          intro y hy; exact (isStrongDominate_iff o _ _).2 (hd y hy)
      _ ≤ pop.countP (fun er => domB o fit er x) := hs.countP_le
  constructor
  · rintro ⟨ds, hs, hd, hl, hm⟩
    obtain ⟨ds', hs', hd', hl'⟩ := hself
    have h1 := hmax ds hs hd
    have h2 := hm ds' hs' hd'
    omega
  · rintro rfl
    obtain ⟨ds, hs, hd, hl⟩ := hself
    exact ⟨ds, hs, hd, hl, hmax⟩

/-- Outcome of a layered selection: `selected` consists of whole layers plus part of the next. -/
structure CutOK (num : G → Nat) (pop : List G) (K : Nat) (front : List G) (layers : List (List G))
    (selected : Finset G) : Prop where
  cut : ∃ taken rest part, layers = taken ++ rest ∧
    selected = taken.flatten.toFinset ∪ part ∧
    ((part = ∅ ∧ taken.flatten.length = K) ∨
      ∃ Fl rest', rest = Fl :: rest' ∧ (∀ g ∈ part, g ∈ Fl) ∧ taken.flatten.length < K ∧
        K < taken.flatten.length + Fl.length)
  card : selected.card = K
  sub : ∀ g ∈ selected, g ∈ pop
  front_eq : ∃ ls, layers = front :: ls
  ok : ∃ sp : List G, sp.Perm pop ∧ LayersOK num sp layers

theorem CutOK.closed {num : G → Nat} {pop : List G} {K : Nat} {front : List G}
    {layers : List (List G)} {selected : Finset G} (h : CutOK num pop K front layers selected)
    {s x : G} (hs : s ∈ selected) (hx : x ∈ pop) (hlt : num x < num s) : x ∈ selected := by
  obtain ⟨taken, rest, part, hl, hsel, hcase⟩ := h.cut
  obtain ⟨sp, hperm, hok⟩ := h.ok
  rw [hl] at hok
  have : x ∈ taken.flatten := by
    apply hok.mem_taken (hperm.mem_iff.2 hx) (s := s) _ hlt
    rw [hsel, Finset.mem_union] at hs
    rcases hs with hs | hs
    · left; simpa using hs
    · rcases hcase with ⟨hp, _⟩ | ⟨Fl, rest', hr, hp, _⟩
      · simp [hp] at hs
      · right; exact ⟨Fl, rest', hr, hp s hs⟩
  rw [hsel, Finset.mem_union]; left; simpa using this

theorem CutOK.front_sub {num : G → Nat} {pop : List G} {K : Nat} {front : List G}
    {layers : List (List G)} {selected : Finset G} (h : CutOK num pop K front layers selected)
    (hle : front.length ≤ K) : ∀ g ∈ front, g ∈ selected := by
  obtain ⟨taken, rest, part, hl, hsel, hcase⟩ := h.cut
  obtain ⟨ls, hf⟩ := h.front_eq
  obtain ⟨sp, hperm, hok⟩ := h.ok
  have hne : front ≠ [] := hok.nonempty front (by simp [hf])
  have hpos : 0 < front.length := List.length_pos_iff.2 hne
  intro g hg
  cases taken with
  | nil =>
    exfalso
    rw [hf] at hl
    rcases hcase with ⟨_, hK⟩ | ⟨Fl, rest', hr, _, _, hK⟩
    · simp at hK; omega
    · rw [hr] at hl
      simp at hl hK
      rw [← hl.1] at hK; omega
  | cons a t =>
    rw [hf] at hl
    simp at hl
    rw [hsel, Finset.mem_union]; left
    rw [hl.1] at hg
    simp [hg]

theorem CutOK.sub_front {num : G → Nat} {pop : List G} {K : Nat} {front : List G}
    {layers : List (List G)} {selected : Finset G} (h : CutOK num pop K front layers selected)
    (hlt : K < front.length) : ∀ g ∈ selected, g ∈ front := by
  obtain ⟨taken, rest, part, hl, hsel, hcase⟩ := h.cut
  obtain ⟨ls, hf⟩ := h.front_eq
  intro g hg
  cases taken with
  | nil =>
    rw [hsel] at hg
    rw [hf] at hl
    rcases hcase with ⟨hp, _⟩ | ⟨Fl, rest', hr, hp, _, hK⟩
    · simp [hp] at hg
    · rw [hr] at hl
      simp at hl hg
      rw [hl.1]; exact hp g hg
  | cons a t =>
    exfalso
    rw [hf] at hl
    simp at hl
    rw [hl.1] at hlt
    have : (a :: t).flatten.length = a.length + t.flatten.length := by
      rw [List.flatten_cons, List.length_append]
    rcases hcase with ⟨_, hK⟩ | ⟨Fl, rest', hr, _, hK, _⟩ <;> omega

theorem length_filter_mem (pop : List G) (hnd : pop.Nodup) (sel : Finset G)
    (hsub : ∀ g ∈ sel, g ∈ pop) : (pop.filter (fun g => decide (g ∈ sel))).length = sel.card := by
  rw [← List.toFinset_card_of_nodup (hnd.filter _)]
  congr 1
  ext x
  simp only [List.mem_toFinset, List.mem_filter, decide_eq_true_eq]
  exact ⟨fun h => h.2, fun h => ⟨hsub x h, h⟩⟩

/-- Everything a user can observe of a layered selection. -/
structure SelectOK (o : FitnessOption) (K : Nat) (fit : G → Fin m → α) (pop : List G)
    (r : SelectResult G) : Prop where
  size : r.population.length = K
  sublist : r.population.Sublist pop
  closed : ∀ s ∈ r.population, ∀ x ∈ pop, Spec.Dominates o (fit x) (fit s) → x ∈ r.population
  ranked : ∀ s ∈ r.population, ∀ e ∈ pop, e ∉ r.population →
    calculateDominatedNum (domB o fit) pop s ≤ calculateDominatedNum (domB o fit) pop e
  pf_sub : ∀ g ∈ r.pf, g ∈ r.population
  pf_nd : ∀ g ∈ r.pf, Spec.NonDominated o fit pop g
  pf_all : (∀ nd : List G, nd.Nodup → (∀ g ∈ nd, g ∈ pop ∧ Spec.NonDominated o fit pop g) →
    nd.length ≤ K) → ∀ g ∈ pop, Spec.NonDominated o fit pop g → g ∈ r.pf
  pf_full : ∀ nd : List G, nd.Nodup → (∀ g ∈ nd, g ∈ pop ∧ Spec.NonDominated o fit pop g) →
    K < nd.length → r.pf = r.population.toFinset

theorem selectOK_of_cut (o : FitnessOption) (K : Nat) (fit : G → Fin m → α)
    (pop : List G) (hnd : pop.Nodup) (front : List G) (layers : List (List G))
    (selected : Finset G)
    (hfront : ∀ x ∈ pop, x ∈ front ↔ calculateDominatedNum (domB o fit) pop x = 0)
    (h : CutOK (calculateDominatedNum (domB o fit) pop) pop K front layers selected) :
    SelectOK o K fit pop
      { population := pop.filter (fun g => decide (g ∈ selected))
        pf := if front.length ≤ K then front.toFinset else selected } := by
  obtain ⟨sp, hperm, hok⟩ := h.ok
  obtain ⟨ls, hf⟩ := h.front_eq
  have hmem : ∀ g, g ∈ pop.filter (fun g => decide (g ∈ selected)) ↔ g ∈ selected := by
    intro g
    rw [List.mem_filter, decide_eq_true_eq]
    exact ⟨fun h => h.2, fun h' => ⟨h.sub g h', h'⟩⟩
  have hfnd : front.Nodup := by
    have : (front :: ls).flatten.Nodup := by
      rw [← hf, hok.flat]; exact hperm.nodup_iff.2 hnd
    rw [List.flatten_cons] at this
    exact (List.nodup_append.1 this).1
  have hfpop : ∀ g ∈ front, g ∈ pop := by
    intro g hg
    rw [← hperm.mem_iff, ← hok.flat, hf, List.flatten_cons]
    exact List.mem_append_left _ hg
  have hfront' : ∀ x ∈ pop, x ∈ front ↔ Spec.NonDominated o fit pop x := by
    intro x hx; rw [hfront x hx, domNum_eq_zero_iff]
  constructor
  · dsimp only; rw [length_filter_mem pop hnd selected h.sub, h.card]
  · exact List.filter_sublist
  · intro s hs x hx hd
    dsimp only at *
    rw [hmem] at *
    exact h.closed hs hx (domNum_lt o fit pop hx hd)
  · intro s hs e he hne
    dsimp only at *
    rw [hmem] at *
    by_contra hlt
    exact hne (h.closed hs he (by omega))
  · intro g hg
    dsimp only at *
    rw [hmem]
    split at hg
    · rename_i hle
      exact h.front_sub hle g (by simpa using hg)
    · exact hg
  · intro g hg
    dsimp only at hg
    split at hg
    · have hg : g ∈ front := by simpa using hg
      exact (hfront' g (hfpop g hg)).1 hg
    · rename_i hle
      exact (hfront' g (h.sub g hg)).1 (h.sub_front (by omega) g hg)
  · intro hsmall g hg hn
    have : front.length ≤ K :=
      hsmall front hfnd (fun x hx => ⟨hfpop x hx, (hfront' x (hfpop x hx)).1 hx⟩)
    dsimp only
    rw [if_pos this]
    simpa using (hfront' g hg).2 hn
  · intro nd hnodup hall hK
    have hle : nd.length ≤ front.length := by
      have : nd.toFinset ⊆ front.toFinset := by
        intro x hx
        simp only [List.mem_toFinset] at *
        exact (hfront' x (hall x hx).1).2 (hall x hx).2
      have := Finset.card_le_card this
      rwa [List.toFinset_card_of_nodup hnodup, List.toFinset_card_of_nodup hfnd] at this
    dsimp only
    rw [if_neg (by omega)]
    ext x
    rw [List.mem_toFinset, hmem]

end

section
variable [Field α] [LinearOrder α]

theorem nsga2_main (o : FitnessOption) (K : Nat) (eps : α) (fit : G → Fin m → α)
    (sortD : Sorter G) (sortF : Fin m → Sorter G) (sortC : Sorter G) (pop : List G)
    (hnd : pop.Nodup) (hne : pop ≠ []) (hK : K ≤ pop.length) :
    ∃ r, nsga2Select o K eps fit sortD sortF sortC pop = .ok r ∧ SelectOK o K fit pop r ∧
      ∃ cong, Spec.IsCongestion fit eps pop cong ∧
        ∀ s ∈ r.population, ∀ e ∈ pop, e ∉ r.population →
          calculateDominatedNum (domB o fit) pop s = calculateDominatedNum (domB o fit) pop e →
          cong e ≤ cong s := by
  obtain ⟨front, ls, hlay, hok, hfront⟩ := layers_facts o fit sortD pop hne
  set num := calculateDominatedNum (domB o fit) pop with hnum
  have hperm := sortD.perm (fun a b => decide (num a < num b)) pop
  set sp := sortD.run (fun a b => decide (num a < num b)) pop with hsp
  have hspnd : sp.Nodup := hperm.nodup_iff.2 hnd
  have hspne : sp ≠ [] := by
    intro e; rw [e] at hperm; exact hne (List.Perm.nil_eq hperm).symm
  have hflat : (front :: ls).flatten = sp := hok.flat
  obtain ⟨taken, rest, need, htake, hsplit, hcard, hno, hyes⟩ :=
    takeLayers_spec K (front :: ls) ∅ (by rw [hflat]; exact hspnd) (by simp) (by simp)
      (by rw [hflat, hperm.length_eq]; simpa using hK)
  have hsel0 : (∅ : Finset G) ∪ taken.flatten.toFinset = taken.flatten.toFinset := by simp
  rw [hsel0] at htake hcard
  simp only [Finset.card_empty, Nat.zero_add] at hcard hno hyes
  have htpop : ∀ g ∈ taken.flatten, g ∈ pop := by
    intro g hg
    rw [← hperm.mem_iff, ← hflat, hsplit, List.flatten_append]
    exact List.mem_append_left _ hg
  obtain ⟨sp', cong, hcong, hpermc, hiscong⟩ := congestionAll_spec sortF fit eps sp hspne hspnd
  have hiscong' : Spec.IsCongestion fit eps pop cong := by
    obtain ⟨arr, t, h1, h2, h3⟩ := hiscong
    exact ⟨arr, t, fun j => ⟨(h1 j).1.trans hperm, (h1 j).2⟩,
      fun j g hg => h2 j g (hperm.mem_iff.2 hg), fun g hg => h3 g (hperm.mem_iff.2 hg)⟩
  have herase : ∀ (sel : Finset G) (space : List G), space.Perm pop →
      eraseUnselected sel space pop = pop.filter (fun g => decide (g ∈ sel)) := by
    intro sel space hp
    rw [eraseUnselected_eq sel space pop hnd]
    apply List.filter_congr
    intro x hx
    simp [hp.mem_iff.2 hx]
  cases hneed : need with
  | false =>
    subst hneed
    have hlen := hno rfl
    have hcut : CutOK num pop K front (front :: ls) taken.flatten.toFinset := by
      refine ⟨⟨taken, rest, ∅, hsplit, by simp, Or.inl ⟨rfl, hlen⟩⟩, by rw [hcard, hlen], ?_,
        ⟨ls, rfl⟩, sp, hperm, hok⟩
      intro g hg; exact htpop g (by simpa using hg)
    refine ⟨_, ?_, selectOK_of_cut o K fit pop hnd front (front :: ls) _ hfront hcut,
      cong, hiscong', ?_⟩
    · unfold nsga2Select
      simp only [hlay, ← hnum, htake]
      simp [herase _ sp hperm, ← hsp]
    · -- no layer was cut: equal counts cannot be separated
      intro s hs e he hne' heq
      exfalso
      dsimp only at hs hne'
      have hs' : s ∈ taken.flatten := by simpa using (List.mem_filter.1 hs).2
      have he' : e ∉ taken.flatten := by
        intro h; apply hne'; rw [List.mem_filter]; exact ⟨he, by simpa using h⟩
      have hefl : e ∈ (taken ++ rest).flatten := by
        rw [← hsplit, hflat]; exact hperm.mem_iff.2 he
      rw [List.flatten_append, List.mem_append] at hefl
      rcases hefl with h | h
      · exact he' h
      · obtain ⟨l1, h1, hs1⟩ := List.mem_flatten.1 hs'
        obtain ⟨l2, h2, he2⟩ := List.mem_flatten.1 h
        have hinc := hok.incr
        rw [hsplit] at hinc
        have := (List.pairwise_append.1 hinc).2.2 l1 h1 l2 h2 s hs1 e he2
        omega
  | true =>
    subst hneed
    obtain ⟨Fl, rest', hrest, hlt, hgt⟩ := hyes rfl
    have hsplit' : front :: ls = taken ++ Fl :: rest' := by rw [hsplit, hrest]
    have hFlperm := sortC.perm (fun a b => decide (cong b < cong a)) Fl
    have hFlsorted := sortC.sorted (fun a b => decide (cong b < cong a)) Fl (by simp)
      (by intro a b c; simp; exact fun h₁ h₂ => lt_trans h₂ h₁)
      (by intro a b c; simp; exact fun h₁ h₂ => le_trans h₁ h₂)
    set Fs := sortC.run (fun a b => decide (cong b < cong a)) Fl with hFs
    have hallnd : (taken ++ Fl :: rest').flatten.Nodup := by
      rw [← hsplit', hflat]; exact hspnd
    rw [List.flatten_append, List.flatten_cons] at hallnd
    have hFlnd : Fl.Nodup := (List.nodup_append.1 (List.nodup_append.1 hallnd).2.1).1
    have hdisj : ∀ g ∈ Fl, g ∉ taken.flatten := by
      intro g hg hg'
      exact (List.nodup_append.1 hallnd).2.2 g hg' g (List.mem_append_left _ hg) rfl
    obtain ⟨pre, post, hFsplit, hfill, hcardK⟩ := fillFrom_spec K Fs taken.flatten.toFinset
      (hFlperm.nodup_iff.2 hFlnd)
      (by intro g hg; rw [List.mem_toFinset]; exact hdisj g (hFlperm.mem_iff.1 hg))
      (by rw [hcard]; omega) (by rw [hcard, hFlperm.length_eq]; omega)
    have hFlpop : ∀ g ∈ Fl, g ∈ pop := by
      intro g hg
      rw [← hperm.mem_iff, ← hflat, hsplit', List.flatten_append, List.flatten_cons]
      simp [hg]
    have hprefl : ∀ g ∈ pre, g ∈ Fl := by
      intro g hg; rw [← hFlperm.mem_iff, hFsplit]; exact List.mem_append_left _ hg
    have hcut : CutOK num pop K front (front :: ls)
        (taken.flatten.toFinset ∪ pre.toFinset) := by
      refine ⟨⟨taken, rest, pre.toFinset, hsplit, rfl, Or.inr ⟨Fl, rest', hrest, ?_, hlt, hgt⟩⟩,
        hcardK, ?_, ⟨ls, rfl⟩, sp, hperm, hok⟩
      · intro g hg; exact hprefl g (by simpa using hg)
      · intro g hg
        rw [Finset.mem_union] at hg
        rcases hg with hg | hg
        · exact htpop g (by simpa using hg)
        · exact hFlpop g (hprefl g (by simpa using hg))
    refine ⟨_, ?_, selectOK_of_cut o K fit pop hnd front (front :: ls) _ hfront hcut,
      cong, hiscong', ?_⟩
    · unfold nsga2Select
      simp only [hlay, ← hnum, htake, hrest, ← hsp]
      simp only [Out.ok_bind, hcong, if_true, ← hFs, hfill]
      rw [herase _ sp' (hpermc.trans hperm)]
    · intro s hs e he hne' heq
      dsimp only at hs hne'
      have hs' : s ∈ taken.flatten.toFinset ∪ pre.toFinset := by
        simpa using (List.mem_filter.1 hs).2
      have he' : e ∉ taken.flatten.toFinset ∪ pre.toFinset := by
        intro h; apply hne'; rw [List.mem_filter]; exact ⟨he, by simpa using h⟩
      have hefl : e ∈ (taken ++ Fl :: rest').flatten := by
        rw [← hsplit', hflat]; exact hperm.mem_iff.2 he
      rw [List.flatten_append, List.flatten_cons, List.mem_append, List.mem_append] at hefl
      have hinc := hok.incr
      rw [hsplit'] at hinc
      have hinc' := List.pairwise_append.1 hinc
      have he1 : e ∉ taken.flatten := by
        intro h; apply he'; rw [Finset.mem_union]; left; simpa using h
      have hsl : s ∈ taken.flatten ∨ s ∈ pre := by
        rw [Finset.mem_union, List.mem_toFinset, List.mem_toFinset] at hs'; exact hs'
      have hspre : s ∈ pre := by
        rcases hsl with h | h
        · exfalso
          obtain ⟨l1, h1, hs1⟩ := List.mem_flatten.1 h
          have hcase : ∃ l2 ∈ Fl :: rest', e ∈ l2 := by
            rcases hefl with h' | h' | h'
            · exact absurd h' he1
            · exact ⟨Fl, by simp, h'⟩
            · obtain ⟨l2, h2, he2⟩ := List.mem_flatten.1 h'
              exact ⟨l2, by simp [h2], he2⟩
          obtain ⟨l2, h2, he2⟩ := hcase
          have := hinc'.2.2 l1 h1 l2 h2 s hs1 e he2
          omega
        · exact h
      have heFl : e ∈ Fl := by
        rcases hefl with h' | h' | h'
        · exact absurd h' he1
        · exact h'
        · exfalso
          obtain ⟨l2, h2, he2⟩ := List.mem_flatten.1 h'
          have := (List.pairwise_cons.1 hinc'.2.1).1 l2 h2 s (hprefl s hspre) e he2
          omega
      have hepost : e ∈ post := by
        have : e ∈ Fs := hFlperm.mem_iff.2 heFl
        rw [hFsplit, List.mem_append] at this
        rcases this with h | h
        · exfalso; apply he'; rw [Finset.mem_union]; right; simpa using h
        · exact h
      rw [hFsplit] at hFlsorted
      have := (List.pairwise_append.1 hFlsorted).2.2 s hspre e hepost
      simpa using this

end

end Heu
