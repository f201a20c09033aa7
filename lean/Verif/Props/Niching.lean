import Verif.Lemmas.Niche
import Verif.Model.NSGA3Full
import Verif.Props.NSGA
import Verif.Props.RefPoints

/-! # C79: niche preservation of NSGA-III, with and without its geometry -/

set_option linter.unusedSectionVars false
set_option linter.unusedSimpArgs false

namespace Heu
open Spec

variable {α : Type} {G : Type} [DecidableEq G] {m : Nat} [Field α] [LinearOrder α]

/-- What taking whole layers leaves: those with less than `n` dominators are taken, and the next layer
consists of those with exactly `n`. -/
theorem takeLayers_counts (o : FitnessOption) (K : Nat) (fit : G → Fin m → α) (sortD : Sorter G)
    (pop : List G) (hnd : pop.Nodup) (hne : pop ≠ []) (hK : K ≤ pop.length) :
    ∃ front ls sel need rest n,
      divideLayers sortD (calculateDominatedNum (domB o fit) pop) pop = front :: ls ∧
      takeLayers K ∅ (front :: ls) = .ok (sel, need, rest) ∧
      (∀ g, g ∈ sel ↔ g ∈ pop ∧ calculateDominatedNum (domB o fit) pop g < n) ∧
      (∀ Fl rest', rest = Fl :: rest' → Fl.Nodup ∧
        ∀ g, g ∈ Fl ↔ g ∈ pop ∧ calculateDominatedNum (domB o fit) pop g = n) ∧
      (need = false → sel.card = K) ∧
      (need = true → sel.card < K ∧ ∃ Fl rest', rest = Fl :: rest' ∧ Fl ≠ []) := by
  obtain ⟨front, ls, hlay, hok, hfront⟩ := layers_facts o fit sortD pop hne
  set num := calculateDominatedNum (domB o fit) pop with hnum
  have hperm := sortD.perm (fun a b => decide (num a < num b)) pop
  set sp := sortD.run (fun a b => decide (num a < num b)) pop with hsp
  have hspnd : sp.Nodup := hperm.nodup_iff.2 hnd
  have hflat : (front :: ls).flatten = sp := hok.flat
  obtain ⟨taken, rest, need, htake, hsplit, hcard, hno, hyes⟩ :=
    takeLayers_spec K (front :: ls) ∅ (by rw [hflat]; exact hspnd) (by simp) (by simp)
      (by rw [hflat, hperm.length_eq]; simpa using hK)
  have hsel0 : (∅ : Finset G) ∪ taken.flatten.toFinset = taken.flatten.toFinset := by simp
  rw [hsel0] at htake hcard
  simp only [Finset.card_empty, Nat.zero_add] at hcard hno hyes
  have hmem : ∀ g, g ∈ pop ↔ g ∈ taken.flatten ∨ g ∈ rest.flatten := by
    intro g
    rw [← hperm.mem_iff, ← hflat, hsplit, List.flatten_append, List.mem_append]
  have hincr := hok.incr
  rw [hsplit] at hincr
  have hallnd : (taken ++ rest).flatten.Nodup := by
    rw [← hsplit, hflat]; exact hspnd
  rw [List.flatten_append] at hallnd
  have hneed : need = true → taken.flatten.toFinset.card < K ∧ ∃ Fl rest', rest = Fl :: rest' ∧ Fl ≠ [] := by
    intro h
    obtain ⟨Fl, rest', h1, h2, h3⟩ := hyes h
    refine ⟨by rw [hcard]; exact h2, Fl, rest', h1, ?_⟩
    intro e; rw [e, List.length_nil] at h3; omega
  cases hr : rest with
  | nil =>
    refine ⟨front, ls, _, need, [], (pop.map num).sum + 1, hlay, by rw [htake, hr], ?_, by simp, ?_, ?_⟩
    · intro g
      rw [List.mem_toFinset, hmem, hr]
      constructor
      · intro h
        refine ⟨Or.inl h, ?_⟩
        have : g ∈ pop := (hmem g).2 (Or.inl h)
        have := List.single_le_sum (by simp : ∀ x ∈ pop.map num, 0 ≤ x) _ (List.mem_map_of_mem this)
        omega
      · rintro ⟨h | h, _⟩
        · exact h
        · simp at h
    · intro h; rw [hcard]; exact hno h
    · rw [← hr]; exact hneed
  | cons Fl rest' =>
    have hFlm : Fl ∈ front :: ls := by rw [hsplit, hr]; simp
    obtain ⟨x, hx⟩ := List.exists_mem_of_ne_nil _ (hok.nonempty Fl hFlm)
    have hconst := hok.const Fl hFlm
    have hp := List.pairwise_append.1 hincr
    rw [hr] at hp
    have hp2 := List.pairwise_cons.1 hp.2.1
    have hlt : ∀ g ∈ taken.flatten, num g < num x := by
      intro g hg
      obtain ⟨l, hl, hgl⟩ := List.mem_flatten.1 hg
      exact hp.2.2 l hl Fl (by simp) g hgl x hx
    have hgt : ∀ g ∈ rest'.flatten, num x < num g := by
      intro g hg
      obtain ⟨l, hl, hgl⟩ := List.mem_flatten.1 hg
      exact hp2.1 l hl x hx g hgl
    refine ⟨front, ls, _, need, Fl :: rest', num x, hlay, by rw [htake, hr], ?_, ?_, ?_, ?_⟩
    · intro g
      rw [List.mem_toFinset, hmem, hr, List.flatten_cons, List.mem_append]
      constructor
      · intro h; exact ⟨Or.inl h, hlt g h⟩
      · rintro ⟨h | h | h, h'⟩
        · exact h
        · exact absurd (hconst g h x hx) (by omega)
        · exact absurd (hgt g h) (by omega)
    · intro Fl' rest'' he
      cases he
      refine ⟨?_, ?_⟩
      · rw [hr, List.flatten_cons] at hallnd
        exact (List.nodup_append.1 (List.nodup_append.1 hallnd).2.1).1
      · intro g
        rw [hmem, hr, List.flatten_cons, List.mem_append]
        constructor
        · intro h; exact ⟨Or.inr (Or.inl h), hconst g h x hx⟩
        · rintro ⟨h | h | h, h'⟩
          · exact absurd (hlt g h) (by omega)
          · exact h
          · exact absurd (hgt g h) (by omega)
    · intro h; rw [hcard]; exact hno h
    · rw [← hr]; exact hneed

/-- The niche loop, started as `__impl_select` starts it. -/
theorem nicheLoop_started (K nRef : Nat) (closest : G → Nat) (dist : G → α)
    (ds : Nat → NicheDraw α G) (hd : ∀ k, (ds k).Legal) (fuel : Nat) (pop : List G) (hnd : pop.Nodup)
    (sel : Finset G) (hsub : ∀ g ∈ sel, g ∈ pop) (Fl : List G) (hFl : Fl.Nodup)
    (hdis : ∀ g ∈ Fl, g ∉ sel) (hcl : ∀ g ∈ Fl, closest g < nRef) (s' : NicheState G)
    (h : nicheLoop K dist ds fuel 0
      { selected := sel
        fl := Fl.map fun g => (closest g, g)
        refPoints := initRefPoints nRef closest (pop.filter (· ∈ sel)) } = .ok s') :
    NicheFill closest dist sel Fl.toFinset s'.selected := by
  have hid : (Fl.map fun g => (closest g, g)).map Prod.snd = Fl := by
    rw [List.map_map]
    have : (Prod.snd ∘ fun g => (closest g, g)) = (id : G → G) := by ext; rfl
    rw [this]; simp
  have := nicheLoop_fill K closest dist ds hd fuel 0 _ s' ?_ h
  · simpa only [hid] using this
  · constructor
    · dsimp only; rw [hid]; exact hFl
    · intro e he
      obtain ⟨g, hg, rfl⟩ := List.mem_map.1 he
      exact hdis g hg
    · intro e he
      obtain ⟨g, hg, rfl⟩ := List.mem_map.1 he
      refine ⟨_, List.mem_map.2 ⟨closest g, ?_, rfl⟩, rfl⟩
      rw [List.mem_range]; exact hcl g hg
    · intro e he
      obtain ⟨g, hg, rfl⟩ := List.mem_map.1 he
      rfl
    · intro r hr
      obtain ⟨i, _, rfl⟩ := List.mem_map.1 hr
      dsimp only
      unfold nicheCount
      rw [← List.toFinset_card_of_nodup ((hnd.filter _).filter _)]
      congr 1
      ext g
      simp only [List.mem_toFinset, List.mem_filter, Finset.mem_filter, decide_eq_true_eq, beq_iff_eq]
      constructor
      · rintro ⟨⟨_, h1⟩, h2⟩; exact ⟨h1, h2⟩
      · rintro ⟨h1, h2⟩; exact ⟨⟨hsub g h1, h1⟩, h2⟩

/-- C79: NSGA-III keeps everybody with less than `n` dominators and fills up, by the niching rule, with
individuals that have exactly `n` dominators. -/
theorem nsga3_niching (K : Nat) (fit : G → Fin m → α)
    (sortD : Sorter G) (nRef : Nat) (closest : G → Nat) (dist : G → α)
    (ds : Nat → NicheDraw α G) (hd : ∀ k, (ds k).Legal) (fuel : Nat) (pop : List G)
    (hcl : ∀ g ∈ pop, closest g < nRef)
    (hnd : pop.Nodup) (hne : pop ≠ []) (hK : K ≤ pop.length) (r : SelectResult G)
    (hr : nsga3Select K fit sortD nRef closest dist ds fuel pop = .ok r) :
    ∃ (n : Nat) (taken cut final : Finset G),
      (∀ g, g ∈ taken ↔ g ∈ pop ∧ ∃ k < n, DominatorCount .lessBetter fit pop g k) ∧
      (∀ g, g ∈ cut ↔ g ∈ pop ∧ DominatorCount .lessBetter fit pop g n) ∧
      NicheFill closest dist taken cut final ∧
      r.population = pop.filter (· ∈ final) := by
  obtain ⟨front, ls, sel, need, rest, n, hlay, htake, hsel, hcut, hno, hyes⟩ :=
    takeLayers_counts .lessBetter K fit sortD pop hnd hne hK
  have hselS : ∀ g, g ∈ sel ↔ g ∈ pop ∧ ∃ k < n, DominatorCount .lessBetter fit pop g k := by
    intro g
    rw [hsel]
    refine and_congr_right fun _ => ?_
    constructor
    · intro h; exact ⟨_, h, (dominatorCount_iff _ _ _ _ _).2 rfl⟩
    · rintro ⟨k, hk, hc⟩; rw [← (dominatorCount_iff _ _ _ _ _).1 hc]; exact hk
  refine ⟨n, sel, (pop.filter fun g => calculateDominatedNum (domB .lessBetter fit) pop g = n).toFinset,
    ?_⟩
  unfold nsga3Select at hr
  simp only [hlay, htake] at hr
  have hcutS : ∀ g, g ∈ (pop.filter fun g =>
      calculateDominatedNum (domB .lessBetter fit) pop g = n).toFinset ↔
      g ∈ pop ∧ DominatorCount .lessBetter fit pop g n := by
    intro g
    rw [List.mem_toFinset, List.mem_filter, dominatorCount_iff]
    simp [eq_comm]
  cases hneed : need with
  | false =>
    subst hneed
    simp at hr
    refine ⟨sel, hselS, hcutS, NicheFill.done _ _, ?_⟩
    rw [← hr]
  | true =>
    subst hneed
    obtain ⟨-, Fl, rest', hrest, -⟩ := hyes rfl
    subst hrest
    obtain ⟨hFlnd, hFl⟩ := hcut Fl rest' rfl
    simp only [Out.ok_bind, if_true] at hr
    obtain ⟨s1, hs1, hr⟩ := Out.bind_eq_ok.1 hr
    obtain ⟨s2, hs2, hs1⟩ := Out.bind_eq_ok.1 hs1
    cases hs1
    have := nicheLoop_started K nRef closest dist ds hd fuel pop hnd sel
      (fun g hg => ((hsel g).1 hg).1) Fl hFlnd
      (fun g hg hg' => by have h1 := ((hFl g).1 hg).2; have h2 := ((hsel g).1 hg').2; omega)
      (fun g hg => hcl g ((hFl g).1 hg).1) s2 hs2
    have he : Fl.toFinset = (pop.filter fun g =>
        calculateDominatedNum (domB .lessBetter fit) pop g = n).toFinset := by
      ext g; rw [List.mem_toFinset, hFl, List.mem_toFinset, List.mem_filter]; simp
    rw [he] at this
    refine ⟨s2.selected, hselS, hcutS, this, ?_⟩
    cases hr
    rfl


section full
variable [IsStrictOrderedRing α]

/-- `nsga3Normalize` computes the normalisation of `selected ∪ Fl`. -/
theorem nsga3Normalize_spec (tiny : α) (ht : 0 ≤ tiny) (fit : G → Fin m → α) (sel : Finset G)
    (order : Finset G → List G) (hord : ∀ S g, g ∈ order S ↔ g ∈ S) (g0 : G) (gs : List G) :
    IsNormalisation tiny fit (sel ∪ (g0 :: gs).toFinset)
      (fun g => (nsga3Normalize tiny ((order sel).map fit) (fit g0) (gs.map fit)).2.2 (fit g)) := by
  set scan := (order sel).map fit ++ fit g0 :: gs.map fit with hscan
  have hmem : ∀ f, f ∈ scan ↔ ∃ g ∈ sel ∪ (g0 :: gs).toFinset, fit g = f := by
    intro f
    rw [hscan]
    simp only [List.mem_append, List.mem_map, List.mem_cons, hord, Finset.mem_union, List.mem_toFinset]
    constructor
    · rintro (⟨g, hg, rfl⟩ | rfl | ⟨g, hg, rfl⟩)
      · exact ⟨g, Or.inl hg, rfl⟩
      · exact ⟨g0, Or.inr (Or.inl rfl), rfl⟩
      · exact ⟨g, Or.inr (Or.inr hg), rfl⟩
    · rintro ⟨g, hg | rfl | hg, rfl⟩
      · exact Or.inl ⟨g, hg, rfl⟩
      · exact Or.inr (Or.inl rfl)
      · exact Or.inr (Or.inr ⟨g, hg, rfl⟩)
  have h0 : fit g0 ∈ scan := (hmem _).2 ⟨g0, by simp, rfl⟩
  have hext : ∀ c, ∃ g ∈ sel ∪ (g0 :: gs).toFinset, fit g = nsga3Extreme (fit g0) scan c := by
    intro c
    rcases (nsga3Extreme_spec (fit g0) scan c).2.2 with h | h
    · rw [h]; exact ⟨g0, by simp, rfl⟩
    · exact (hmem _).1 h
  choose ext hextm hexte using hext
  set P : Matrix (Fin m) (Fin m) α := fun r c => nsga3Extreme (fit g0) scan c r -
    nsga3Ideal (fit g0) scan r with hP
  refine ⟨nsga3Ideal (fit g0) scan,
    (if |P.det| ≤ tiny then fun r => P r r else extremePoints2Intercept P), ext, P, ?_, ?_, ?_, ?_, ?_, ?_⟩
  · intro i
    have h := nsga3Ideal_spec (fit g0) scan i
    refine ⟨fun g hg => h.2.1 _ ((hmem _).2 ⟨g, hg, rfl⟩), ?_⟩
    rcases h.2.2 with h | ⟨f, hf, h⟩
    · exact ⟨g0, by simp, h.symm⟩
    · obtain ⟨g, hg, rfl⟩ := (hmem _).1 hf
      exact ⟨g, hg, h.symm⟩
  · intro c
    refine ⟨hextm c, fun g hg => ?_⟩
    rw [hexte]
    exact (nsga3Extreme_spec (fit g0) scan c).2.1 _ ((hmem _).2 ⟨g, hg, rfl⟩)
  · intro r c; rw [hexte]
  · intro h r; rw [if_pos h]
  · intro h c
    rw [if_neg (not_le.2 h)]
    have hdet : IsUnit P.transpose.det := by
      rw [Matrix.det_transpose, isUnit_iff_ne_zero]
      intro h'; rw [h', abs_zero] at h; exact absurd h (not_lt.2 ht)
    have hsolve : Matrix.mulVec P.transpose (Matrix.mulVec (P.transpose)⁻¹ (fun _ => 1)) =
        fun _ => 1 := by
      rw [Matrix.mulVec_mulVec, Matrix.mul_nonsing_inv _ hdet, Matrix.one_mulVec]
    have hc := congrFun hsolve c
    rw [Matrix.mulVec, dotProduct] at hc
    rw [← hc]
    apply Finset.sum_congr rfl
    intro r _
    rw [Matrix.transpose_apply, extremePoints2Intercept, one_div, inv_inv]
  · intro g i; rfl

/-- `associate` gives every individual of `selected ∪ Fl` the reference point whose line is nearest to its
normalised fitness. -/
theorem nsga3Associate_spec (tiny : α) (ht : 0 ≤ tiny) (refs : List (Fin m → α)) (hrefs : refs ≠ [])
    (hw : ∀ w ∈ refs, ∃ i, w i ≠ 0) (fit : G → Fin m → α)
    (order : Finset G → List G) (hord : ∀ S g, g ∈ order S ↔ g ∈ S) (sel : Finset G) (Fl : List G)
    (hFl : Fl ≠ []) :
    ∃ closest dist nf, nsga3Associate tiny refs fit order sel Fl = .ok (closest, dist) ∧
      IsNormalisation tiny fit (sel ∪ Fl.toFinset) nf ∧
      ∀ g, IsNearestLine refs (nf g) (closest g) (dist g) := by
  match Fl, hFl, refs, hrefs, hw with
  | g0 :: gs, _, w :: ws, hr, hw =>
    refine ⟨_, _, _, rfl, nsga3Normalize_spec tiny ht fit sel order hord g0 gs, fun g => ?_⟩
    obtain ⟨idx, dist, w', h1, h2, h3, h4⟩ := findNearest_nearest (w :: ws)
      ((nsga3Normalize tiny ((order sel).map fit) (fit g0) (gs.map fit)).2.2 (fit g)) hr hw
    simp only [h1]
    exact ⟨w', h2, h3, h4⟩

/-- C79, with the geometry: NSGA-III selection, as a whole, never fails, and keeps everybody with less than
`n` dominators; if there are not enough of these it fills up with individuals that have exactly `n`
dominators, by the niching rule, where everybody belongs to the reference line nearest to its normalised
fitness. -/
theorem nsga3_full_niching (K : Nat) (hK32 : K < 2 ^ 32) (fit : G → Fin m → α)
    (sortD : Sorter G) (tiny : α) (ht : 0 ≤ tiny) (refs : List (Fin m → α)) (hrefs : refs ≠ [])
    (hw : ∀ w ∈ refs, ∃ i, w i ≠ 0)
    (order : Finset G → List G) (hord : ∀ S g, g ∈ order S ↔ g ∈ S)
    (ds : Nat → NicheDraw α G) (hd : ∀ k, (ds k).Legal) (fuel : Nat) (pop : List G)
    (hfuel : pop.length + refs.length ≤ fuel)
    (hnd : pop.Nodup) (hne : pop ≠ []) (hK : K ≤ pop.length) :
    ∃ r, nsga3SelectFull K fit sortD tiny refs order ds fuel pop = .ok r ∧ r.population.length = K ∧
    ∃ (n : Nat) (taken cut final : Finset G) (closest : G → Nat) (dist : G → α) (nf : G → Fin m → α),
      (∀ g, g ∈ taken ↔ g ∈ pop ∧ ∃ k < n, DominatorCount .lessBetter fit pop g k) ∧
      (∀ g, g ∈ cut ↔ g ∈ pop ∧ DominatorCount .lessBetter fit pop g n) ∧
      (taken.card < K → IsNormalisation tiny fit (taken ∪ cut) nf ∧
        ∀ g ∈ taken ∪ cut, IsNearestLine refs (nf g) (closest g) (dist g)) ∧
      NicheFill closest dist taken cut final ∧
      r.population = pop.filter (· ∈ final) := by
  obtain ⟨front, ls, sel, need, rest, n, hlay, htake, hsel, hcut, hno, hyes⟩ :=
    takeLayers_counts .lessBetter K fit sortD pop hnd hne hK
  have hselS : ∀ g, g ∈ sel ↔ g ∈ pop ∧ ∃ k < n, DominatorCount .lessBetter fit pop g k := by
    intro g
    rw [hsel]
    refine and_congr_right fun _ => ?_
    constructor
    · intro h; exact ⟨_, h, (dominatorCount_iff _ _ _ _ _).2 rfl⟩
    · rintro ⟨k, hk, hc⟩; rw [← (dominatorCount_iff _ _ _ _ _).1 hc]; exact hk
  have hcutS : ∀ g, g ∈ (pop.filter fun g =>
      calculateDominatedNum (domB .lessBetter fit) pop g = n).toFinset ↔
      g ∈ pop ∧ DominatorCount .lessBetter fit pop g n := by
    intro g
    rw [List.mem_toFinset, List.mem_filter, dominatorCount_iff]
    simp [eq_comm]
  cases hneed : need with
  | false =>
    subst hneed
    refine ⟨{ population := pop.filter (· ∈ sel), pf := if front.length ≤ K then front.toFinset else sel },
      ?_, ?_, n, sel, _, sel, fun _ => 0, fun _ => 0, fun _ _ => 0, hselS, hcutS, ?_,
      NicheFill.done _ _, rfl⟩
    · unfold nsga3SelectFull
      simp only [hlay, htake]
      simp
    · dsimp only
      rw [length_filter_mem pop hnd sel (fun g hg => ((hsel g).1 hg).1)]
      exact hno rfl
    · intro h; have := hno rfl; omega
  | true =>
    subst hneed
    obtain ⟨hlt, Fl, rest', hrest, hFlne⟩ := hyes rfl
    subst hrest
    obtain ⟨hFlnd, hFl⟩ := hcut Fl rest' rfl
    have he : Fl.toFinset = (pop.filter fun g =>
        calculateDominatedNum (domB .lessBetter fit) pop g = n).toFinset := by
      ext g; rw [List.mem_toFinset, hFl, List.mem_toFinset, List.mem_filter]; simp
    obtain ⟨closest, dist, nf, hassoc, hnf, hnear⟩ :=
      nsga3Associate_spec tiny ht refs hrefs hw fit order hord sel Fl hFlne
    have hcl : ∀ g ∈ pop, closest g < refs.length := by
      intro g _
      obtain ⟨w, hw', _⟩ := hnear g
      exact (List.getElem?_eq_some_iff.1 hw').1
    have heq : nsga3SelectFull K fit sortD tiny refs order ds fuel pop =
        nsga3Select K fit sortD refs.length closest dist ds fuel pop := by
      unfold nsga3SelectFull nsga3Select
      simp only [hlay, htake, Out.ok_bind, if_true, hassoc]
    obtain ⟨r, hr, hlen, -, -⟩ := nsga3_exact_size K hK32 fit sortD refs.length closest dist ds hd fuel pop
      hcl hfuel hnd hne hK
    refine ⟨r, by rw [heq]; exact hr, hlen, n, sel, Fl.toFinset, ?_⟩
    unfold nsga3Select at hr
    simp only [hlay, htake] at hr
    simp only [Out.ok_bind, if_true] at hr
    obtain ⟨s1, hs1, hr⟩ := Out.bind_eq_ok.1 hr
    obtain ⟨s2, hs2, hs1⟩ := Out.bind_eq_ok.1 hs1
    cases hs1
    have := nicheLoop_started K refs.length closest dist ds hd fuel pop hnd sel
      (fun g hg => ((hsel g).1 hg).1) Fl hFlnd
      (fun g hg hg' => by have h1 := ((hFl g).1 hg).2; have h2 := ((hsel g).1 hg').2; omega)
      (fun g hg => hcl g ((hFl g).1 hg).1) s2 hs2
    refine ⟨s2.selected, closest, dist, nf, hselS, ?_, ?_, this, ?_⟩
    · rw [he]; exact hcutS
    · intro _; exact ⟨hnf, fun g _ => hnear g⟩
    · cases hr; rfl

end full

/-- Non-vacuity: the premises about the draws, the reference points and the iteration order can be met. -/
example : (∀ w ∈ ([![0, 1], ![1 / 2, 1 / 2], ![1, 0]] : List (Fin 2 → ℚ)), ∃ i, w i ≠ 0) ∧
    (({ rIdx := fun _ => 0, draws := fun _ => 1 / 2, order := id } : NicheDraw ℚ (Fin 4))).Legal ∧
    (∀ (S : Finset (Fin 4)) g, g ∈ S.sort (· ≤ ·) ↔ g ∈ S) := by
  refine ⟨?_, ⟨fun _ h => h, fun _ => by norm_num, fun l => List.Perm.refl l⟩, fun S g => by simp⟩
  decide +kernel

/-- Non-vacuity of the niching rule: a front of four, two reference points with two individuals each; from
each niche the nearest one is taken.  Taking both individuals of the first niche is not a `NicheFill`. -/
example : NicheFill (![0, 0, 1, 1] : Fin 4 → Nat) (![0, 1, 1, 0] : Fin 4 → ℚ) ∅ {0, 1, 2, 3} {0, 3} := by
  refine NicheFill.add _ _ _ 0 (by decide) (by decide) (by decide +kernel) ?_
  refine NicheFill.add _ _ _ 3 (by decide) (by decide) (by decide +kernel) ?_
  have : (insert 3 (insert 0 ∅) : Finset (Fin 4)) = {0, 3} := by decide
  rw [this]
  exact NicheFill.done _ _

end Heu
