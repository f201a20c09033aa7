import Verif.Lemmas.NSGA3Fl

/-! NSGA-III selection on IEEE data as a whole. -/

set_option linter.unusedSectionVars false
set_option linter.unusedSimpArgs false

namespace Heu
open Spec

variable {G : Type} [DecidableEq G] {m : Nat}

theorem takeLayers_countsD {dom : G → G → Bool} (irr : ∀ a, dom a a = false)
    (tr : ∀ a b c, dom a b = true → dom b c = true → dom a c = true) (K : Nat) (sortD : Sorter G)
    (pop : List G) (hnd : pop.Nodup) (hne : pop ≠ []) (hK : K ≤ pop.length) :
    ∃ front ls sel need rest n,
      divideLayers sortD (calculateDominatedNum dom pop) pop = front :: ls ∧
      takeLayers K ∅ (front :: ls) = .ok (sel, need, rest) ∧
      (∀ g, g ∈ sel ↔ g ∈ pop ∧ calculateDominatedNum dom pop g < n) ∧
      (∀ Fl rest', rest = Fl :: rest' → Fl.Nodup ∧
        ∀ g, g ∈ Fl ↔ g ∈ pop ∧ calculateDominatedNum dom pop g = n) ∧
      (need = false → sel.card = K) ∧
      (need = true → sel.card < K ∧ ∃ Fl rest', rest = Fl :: rest' ∧ Fl ≠ []) := by
  obtain ⟨front, ls, hlay, hok, hfront⟩ := layers_factsD irr tr sortD pop hne
  set num := calculateDominatedNum dom pop with hnum
  have hperm := sortD.perm (fun a b => decide (num a < num b)) pop
  set sp := sortD.run (fun a b => decide (num a < num b)) pop with hsp
  have hspnd : sp.Nodup := hperm.nodup_iff.2 hnd
  have hflat : (front :: ls).flatten = sp := hok.flat
  obtain ⟨taken, rest, need, htake, hsplit, hcard, hno, hyes⟩ :=
    takeLayers_spec K (front :: ls) ∅ (by rw [hflat]; exact hspnd) (by simp) (by simp)
      (by rw [hflat, hperm.length_eq]; simpa using hK)
  have hsel0 : (∅ : Finset G) ∪ taken.flatten.toFinset = taken.flatten.toFinset := by simp
  rw [hsel0] at htake hcard
  simp only [Finset.card_empty, Nat.zero_add] at hcard hno hyes
  have hmem : ∀ g, g ∈ pop ↔ g ∈ taken.flatten ∨ g ∈ rest.flatten := by
    intro g
    rw [← hperm.mem_iff, ← hflat, hsplit, List.flatten_append, List.mem_append]
  have hincr := hok.incr
  rw [hsplit] at hincr
  have hallnd : (taken ++ rest).flatten.Nodup := by
    rw [← hsplit, hflat]; exact hspnd
  rw [List.flatten_append] at hallnd
  have hneed : need = true → taken.flatten.toFinset.card < K ∧ ∃ Fl rest', rest = Fl :: rest' ∧ Fl ≠ [] := by
    intro h
    obtain ⟨Fl, rest', h1, h2, h3⟩ := hyes h
    refine ⟨by rw [hcard]; exact h2, Fl, rest', h1, ?_⟩
    intro e; rw [e, List.length_nil] at h3; omega
  cases hr : rest with
  | nil =>
    refine ⟨front, ls, _, need, [], (pop.map num).sum + 1, hlay, by rw [htake, hr], ?_, by simp, ?_, ?_⟩
    · intro g
      rw [List.mem_toFinset, hmem, hr]
      constructor
      · intro h
        refine ⟨Or.inl h, ?_⟩
        have : g ∈ pop := (hmem g).2 (Or.inl h)
        have := List.single_le_sum (by simp : ∀ x ∈ pop.map num, 0 ≤ x) _ (List.mem_map_of_mem this)
        omega
      · rintro ⟨h | h, _⟩
        · exact h
        · simp at h
    · intro h; rw [hcard]; exact hno h
    · rw [← hr]; exact hneed
  | cons Fl rest' =>
    have hFlm : Fl ∈ front :: ls := by rw [hsplit, hr]; simp
    obtain ⟨x, hx⟩ := List.exists_mem_of_ne_nil _ (hok.nonempty Fl hFlm)
    have hconst := hok.const Fl hFlm
    have hp := List.pairwise_append.1 hincr
    rw [hr] at hp
    have hp2 := List.pairwise_cons.1 hp.2.1
    have hlt : ∀ g ∈ taken.flatten, num g < num x := by
      intro g hg
      obtain ⟨l, hl, hgl⟩ := List.mem_flatten.1 hg
      exact hp.2.2 l hl Fl (by simp) g hgl x hx
    have hgt : ∀ g ∈ rest'.flatten, num x < num g := by
      intro g hg
      obtain ⟨l, hl, hgl⟩ := List.mem_flatten.1 hg
      exact hp2.1 l hl x hx g hgl
    refine ⟨front, ls, _, need, Fl :: rest', num x, hlay, by rw [htake, hr], ?_, ?_, ?_, ?_⟩
    · intro g
      rw [List.mem_toFinset, hmem, hr, List.flatten_cons, List.mem_append]
      constructor
      · intro h; exact ⟨Or.inl h, hlt g h⟩
      · rintro ⟨h | h | h, h'⟩
        · exact h
        · exact absurd (hconst g h x hx) (by omega)
        · exact absurd (hgt g h) (by omega)
    · intro Fl' rest'' he
      cases he
      refine ⟨?_, ?_⟩
      · rw [hr, List.flatten_cons] at hallnd
        exact (List.nodup_append.1 (List.nodup_append.1 hallnd).2.1).1
      · intro g
        rw [hmem, hr, List.flatten_cons, List.mem_append]
        constructor
        · intro h; exact ⟨Or.inr (Or.inl h), hconst g h x hx⟩
        · rintro ⟨h | h | h, h'⟩
          · exact absurd (hlt g h) (by omega)
          · exact h
          · exact absurd (hgt g h) (by omega)
    · intro h; rw [hcard]; exact hno h
    · rw [← hr]; exact hneed


variable (F : Fmt)

theorem findNearestFl_spec (E : Geometry m) (refs : List (Fin m → Fl)) (hrefs : refs ≠ []) (s : Fin m → Fl) :
    ∃ i d, findNearestFl E refs s = .ok (i, d) ∧ IsNearestFl E.distance refs s i d := by
  match refs, hrefs with
  | w :: ws, _ =>
    refine ⟨_, _, rfl, ?_⟩
    have key : ∀ (ws done : List (Fin m → Fl)) (acc : Nat × Fl × Nat),
        acc.2.2 = done.length → (∃ w, done[acc.1]? = some w ∧ acc.2.1 = E.distance w s) →
        (∀ w' ∈ done, Fl.lt (E.distance w' s) acc.2.1 = false) →
        let r := ws.foldl (fun (acc : Nat × Fl × Nat) w' =>
          if Fl.lt (E.distance w' s) acc.2.1 then (acc.2.2, E.distance w' s, acc.2.2 + 1)
          else (acc.1, acc.2.1, acc.2.2 + 1)) acc
        IsNearestFl E.distance (done ++ ws) s r.1 r.2.1 := by
      intro ws
      induction ws with
      | nil =>
        intro done acc _ h2 h3
        obtain ⟨w, hw, hd⟩ := h2
        rw [List.append_nil]
        exact ⟨w, hw, hd, h3⟩
      | cons v vs ih =>
        intro done acc h1 h2 h3
        have hsplit : done ++ v :: vs = (done ++ [v]) ++ vs := by simp
        rw [hsplit]
        dsimp only
        rw [List.foldl_cons]
        by_cases hlt : Fl.lt (E.distance v s) acc.2.1 = true
        · rw [if_pos hlt]
          refine ih (done ++ [v]) _ (by simp [h1]) ⟨v, by simp [h1], rfl⟩ ?_
          intro w' hw'
          rcases List.mem_append.1 hw' with hw' | hw'
          · exact lt_of_not_lt_of_lt hlt (h3 w' hw')
          · rw [List.mem_singleton.1 hw']; exact lt_irreflFl _
        · rw [if_neg hlt]
          obtain ⟨w, hw, hd⟩ := h2
          have hlen := (List.getElem?_eq_some_iff.1 hw).1
          refine ih (done ++ [v]) _ (by simp [h1]) ⟨w, by rw [List.getElem?_append_left hlen]; exact hw, hd⟩ ?_
          intro w' hw'
          rcases List.mem_append.1 hw' with hw' | hw'
          · exact h3 w' hw'
          · rw [List.mem_singleton.1 hw']; simpa using hlt
    exact key ws [w] (0, E.distance w s, 1) rfl ⟨w, rfl, rfl⟩ (by
      intro w' hw'; rw [List.mem_singleton.1 hw']; exact lt_irreflFl _)

theorem nsga3AssociateFl_spec (E : Geometry m) (tiny : Fl) (refs : List (Fin m → Fl)) (hrefs : refs ≠ [])
    (fit : G → Fin m → Fl) (order : Finset G → List G) (sel : Finset G) (layer : List G) (hl : layer ≠ []) :
    ∃ closest dist, nsga3AssociateFl F E tiny refs fit order sel layer = .ok (closest, dist) ∧
      ∀ g, IsNearestFl E.distance refs
        (nsga3NormalizeFl F E tiny ((order sel).map fit) (fit (layer.head hl)) (layer.tail.map fit) (fit g))
        (closest g) (dist g) := by
  match layer, hl, refs, hrefs with
  | g0 :: gs, _, w :: ws, hr =>
    refine ⟨_, _, rfl, fun g => ?_⟩
    obtain ⟨i, d, h1, h2⟩ := findNearestFl_spec E (w :: ws) hr
      (nsga3NormalizeFl F E tiny ((order sel).map fit) (fit g0) (gs.map fit) (fit g))
    simp only [h1]
    exact h2

theorem extremeFl_spec (c : Fin m) (fit : G → Fin m → Fl) : ∀ (scan : List G) (g0 : G) (seen : List G), g0 ∈ seen →
    (∀ x ∈ seen, Fl.lt (fit g0 c) (fit x c) = false) →
    ∃ e, e ∈ seen ++ scan ∧ nsga3ExtremeFl (fit g0) (scan.map fit) c = fit e ∧
      ∀ x ∈ seen ++ scan, Fl.lt (fit e c) (fit x c) = false := by
  intro scan
  induction scan with
  | nil => intro g0 seen h0 h; exact ⟨g0, by simpa using h0, rfl, by simpa using h⟩
  | cons f fs ih =>
    intro g0 seen h0 h
    cases hlt : Fl.lt (fit g0 c) (fit f c) with
    | true =>
      obtain ⟨e, he, h1, h2⟩ := ih f (seen ++ [f]) (by simp) (by
        intro x hx
        rcases List.mem_append.1 hx with hx | hx
        · by_contra hc
          rw [Bool.not_eq_false] at hc
          have a := (fl_lt_iff binary64 _ _).1 hc
          have b := (fl_lt_iff binary64 _ _).1 hlt
          have := (fl_lt_iff binary64 (fit g0 c) (fit x c)).2 ⟨b.1, a.2.1, b.2.2.trans a.2.2⟩
          rw [h x hx] at this; cases this
        · rw [List.mem_singleton.1 hx]; exact lt_irreflFl _)
      refine ⟨e, by simpa using he, ?_, by simpa using h2⟩
      rw [← h1]; simp [nsga3ExtremeFl, hlt]
    | false =>
      obtain ⟨e, he, h1, h2⟩ := ih g0 (seen ++ [f]) (by simp [h0]) (by
        intro x hx
        rcases List.mem_append.1 hx with hx | hx
        · exact h x hx
        · rw [List.mem_singleton.1 hx]; exact hlt)
      refine ⟨e, by simpa using he, ?_, by simpa using h2⟩
      rw [← h1]; simp [nsga3ExtremeFl, hlt]

theorem idealFl_eq (E : Geometry m) (i : Fin m) (fit : G → Fin m → Fl) : ∀ (scan : List G) (a : Fin m → Fl),
    ((scan.map fit).foldl (fun ideal f => fun i => E.min (ideal i) (f i)) a) i =
      (scan.map fun g => fit g i).foldl E.min (a i) := by
  intro scan
  induction scan with
  | nil => intro a; rfl
  | cons g gs ih => intro a; simp only [List.map_cons, List.foldl_cons]; exact ih _

theorem normalizeFl_spec (E : Geometry m) (tiny : Fl) (fit : G → Fin m → Fl) (order : Finset G → List G)
    (hord : ∀ S, (order S).Nodup ∧ ∀ a, a ∈ order S ↔ a ∈ S) (sel : Finset G) (layer : List G) (hl : layer ≠ []) :
    NormalisedFl F E tiny fit (sel ∪ layer.toFinset) fun g =>
      nsga3NormalizeFl F E tiny ((order sel).map fit) (fit (layer.head hl)) (layer.tail.map fit) (fit g) := by
  match layer, hl with
  | g0 :: gs, _ =>
    have hscan : (order sel).map fit ++ fit g0 :: gs.map fit = (order sel ++ g0 :: gs).map fit := by simp
    have hex := fun c => extremeFl_spec c fit (order sel ++ g0 :: gs) g0 [g0] (by simp) (by
      intro x hx; rw [List.mem_singleton.1 hx]; exact lt_irreflFl _)
    choose ex h1 h2 h3 using hex
    have hS : ∀ x, x ∈ sel ∪ (g0 :: gs).toFinset ↔ x ∈ [g0] ++ (order sel ++ g0 :: gs) := by
      intro x
      simp only [Finset.mem_union, List.mem_toFinset, List.mem_append, (hord sel).2, List.mem_cons, List.not_mem_nil]
      tauto
    refine ⟨order sel ++ g0 :: gs, nsga3IdealFl E ((order sel ++ g0 :: gs).map fit), ex,
      (if Fl.le (E.det fun r c =>
          Fl.sub F (fit (ex c) r) (nsga3IdealFl E ((order sel ++ g0 :: gs).map fit) r)).abs tiny then
        fun r => Fl.sub F (fit (ex r) r) (nsga3IdealFl E ((order sel ++ g0 :: gs).map fit) r)
        else E.intercepts fun r c => Fl.sub F (fit (ex c) r) (nsga3IdealFl E ((order sel ++ g0 :: gs).map fit) r)),
      fun r c => Fl.sub F (fit (ex c) r) (nsga3IdealFl E ((order sel ++ g0 :: gs).map fit) r), ?_, ?_, ?_, fun _ _ => rfl,
      ?_, ?_, ?_⟩
    · ext x
      simp only [Finset.mem_union, List.mem_toFinset, List.mem_append, (hord sel).2]
    · intro i; exact idealFl_eq E i fit _ _
    · intro c; exact ⟨(hS _).2 (h1 c), fun g hg => h3 c g ((hS g).1 hg)⟩
    · intro h r; simp only [h, if_true]
    · intro h; simp only [h, Bool.false_eq_true, if_false]
    · intro g i
      simp only [List.head_cons, List.tail_cons]
      unfold nsga3NormalizeFl
      simp only [hscan, h2]

theorem nicheLoopFl_started (K nRef : Nat) (closest : G → Nat) (dist : G → Fl)
    (ds : Nat → NicheDraw Fl G) (hF : F.Good) (hd : ∀ k, LegalDrawFl F (ds k)) (fuel : Nat) (pop : List G) (hnd : pop.Nodup)
    (sel : Finset G) (hsub : ∀ g ∈ sel, g ∈ pop) (layer : List G) (hFl : layer.Nodup)
    (hdis : ∀ g ∈ layer, g ∉ sel) (hcl : ∀ g ∈ layer, closest g < nRef) (s' : NicheState G)
    (h : nicheLoopFl F K dist ds fuel 0
      { selected := sel
        fl := layer.map fun g => (closest g, g)
        refPoints := initRefPoints nRef closest (pop.filter (· ∈ sel)) } = .ok s') :
    NicheFillFl closest dist sel layer.toFinset s'.selected := by
  have hid : (layer.map fun g => (closest g, g)).map Prod.snd = layer := by
    rw [List.map_map]
    have : (Prod.snd ∘ fun g => (closest g, g)) = (id : G → G) := by ext; rfl
    rw [this]; simp
  have := nicheLoopFl_fill F K closest dist ds hF hd fuel 0 _ s' ?_ h
  · simpa only [hid] using this
  · constructor
    · dsimp only; rw [hid]; exact hFl
    · intro e he
      obtain ⟨g, hg, rfl⟩ := List.mem_map.1 he
      exact hdis g hg
    · intro e he
      obtain ⟨g, hg, rfl⟩ := List.mem_map.1 he
      refine ⟨_, List.mem_map.2 ⟨closest g, ?_, rfl⟩, rfl⟩
      rw [List.mem_range]; exact hcl g hg
    · intro e he
      obtain ⟨g, hg, rfl⟩ := List.mem_map.1 he
      rfl
    · intro r hr
      obtain ⟨i, _, rfl⟩ := List.mem_map.1 hr
      dsimp only
      unfold nicheCount
      rw [← List.toFinset_card_of_nodup ((hnd.filter _).filter _)]
      congr 1
      ext g
      simp only [List.mem_toFinset, List.mem_filter, Finset.mem_filter, decide_eq_true_eq, beq_iff_eq]
      constructor
      · rintro ⟨⟨_, h1⟩, h2⟩; exact ⟨h1, h2⟩
      · rintro ⟨h1, h2⟩; exact ⟨⟨hsub g h1, h1⟩, h2⟩

theorem nsga3Fl_ok (E : Geometry m) (K : Nat) (hK32 : K ≤ 0xFFFFFFFF) (fit : G → Fin m → Fl)
    (sortD : Sorter G) (tiny : Fl) (refs : List (Fin m → Fl)) (hrefs : refs ≠ []) (order : Finset G → List G)
    (ds : Nat → NicheDraw Fl G) (hF : F.Good) (hd : ∀ k, LegalDrawFl F (ds k)) (fuel : Nat)
    (pop : List G)
    (hfuel : pop.length + refs.length ≤ fuel)
    (hnd : pop.Nodup) (hne : pop ≠ []) (hK : K ≤ pop.length) :
    ∃ r, nsga3SelectFl F E K fit sortD tiny refs order ds fuel pop = .ok r ∧
      SelectOKD (domFl .lessBetter fit) K pop r := by
  have irr := domFl_irrefl .lessBetter fit
  have tr := domFl_trans .lessBetter fit
  obtain ⟨front, ls, hlay, hok, hfront⟩ := layers_factsD irr tr sortD pop hne
  set num := calculateDominatedNum (domFl .lessBetter fit) pop with hnum
  have hperm := sortD.perm (fun a b => decide (num a < num b)) pop
  set sp := sortD.run (fun a b => decide (num a < num b)) pop with hsp
  have hspnd : sp.Nodup := hperm.nodup_iff.2 hnd
  have hflat : (front :: ls).flatten = sp := hok.flat
  obtain ⟨taken, rest, need, htake, hsplit, hcard, hno, hyes⟩ :=
    takeLayers_spec K (front :: ls) ∅ (by rw [hflat]; exact hspnd) (by simp) (by simp)
      (by rw [hflat, hperm.length_eq]; simpa using hK)
  have hsel0 : (∅ : Finset G) ∪ taken.flatten.toFinset = taken.flatten.toFinset := by simp
  rw [hsel0] at htake hcard
  simp only [Finset.card_empty, Nat.zero_add] at hcard hno hyes
  have htpop : ∀ g ∈ taken.flatten, g ∈ pop := by
    intro g hg
    rw [← hperm.mem_iff, ← hflat, hsplit, List.flatten_append]
    exact List.mem_append_left _ hg
  cases hneed : need with
  | false =>
    subst hneed
    have hlen := hno rfl
    have hcut : CutOK num pop K front (front :: ls) taken.flatten.toFinset := by
      refine ⟨⟨taken, rest, ∅, hsplit, by simp, Or.inl ⟨rfl, hlen⟩⟩, by rw [hcard, hlen], ?_,
        ⟨ls, rfl⟩, sp, hperm, hok⟩
      intro g hg; exact htpop g (by simpa using hg)
    refine ⟨_, ?_, selectOKD_of_cut irr tr K pop hnd front (front :: ls) _ hfront hcut⟩
    unfold nsga3SelectFl
    simp only [hlay, ← hnum, htake]
    simp
  | true =>
    subst hneed
    obtain ⟨layer, rest', hrest, hlt, hgt⟩ := hyes rfl
    have hsplit' : front :: ls = taken ++ layer :: rest' := by rw [hsplit, hrest]
    have hallnd : (taken ++ layer :: rest').flatten.Nodup := by
      rw [← hsplit', hflat]; exact hspnd
    rw [List.flatten_append, List.flatten_cons] at hallnd
    have hFlnd : layer.Nodup := (List.nodup_append.1 (List.nodup_append.1 hallnd).2.1).1
    have hdisj : ∀ g ∈ layer, g ∉ taken.flatten := by
      intro g hg hg'
      exact (List.nodup_append.1 hallnd).2.2 g hg' g (List.mem_append_left _ hg) rfl
    have hFlpop : ∀ g ∈ layer, g ∈ pop := by
      intro g hg
      rw [← hperm.mem_iff, ← hflat, hsplit', List.flatten_append, List.flatten_cons]
      simp [hg]
    have hFllen : layer.length ≤ pop.length := by
      have h1 : ((front :: ls).flatten).length = pop.length := by rw [hflat, hperm.length_eq]
      rw [hsplit', List.flatten_append, List.flatten_cons, List.length_append,
        List.length_append] at h1
      omega
    obtain ⟨closest, dist, hassoc, hnear⟩ := nsga3AssociateFl_spec F E tiny refs hrefs fit order
      taken.flatten.toFinset layer (by intro e; rw [e, List.length_nil] at hgt; omega)
    have hcl : ∀ g ∈ pop, closest g < refs.length := by
      intro g _
      obtain ⟨w, hw', _⟩ := hnear g
      exact (List.getElem?_eq_some_iff.1 hw').1
    have hinv : NicheInv K taken.flatten.toFinset layer
        { selected := taken.flatten.toFinset
          fl := layer.map fun g => (closest g, g)
          refPoints := initRefPoints refs.length closest
            (pop.filter (fun g => decide (g ∈ taken.flatten.toFinset))) } := by
      constructor
      · dsimp only
        rw [List.map_map]
        have : (Prod.snd ∘ fun g => (closest g, g)) = (id : G → G) := by ext; rfl
        rw [this]; simpa using hFlnd
      · intro e he
        obtain ⟨g, hg, rfl⟩ := List.mem_map.1 he
        rw [List.mem_toFinset]; exact hdisj g hg
      · intro e he
        obtain ⟨g, hg, rfl⟩ := List.mem_map.1 he
        exact hg
      · intro e he
        obtain ⟨g, hg, rfl⟩ := List.mem_map.1 he
        refine ⟨_, List.mem_map.2 ⟨closest g, ?_, rfl⟩, rfl⟩
        rw [List.mem_range]; exact hcl g (hFlpop g hg)
      · intro r hr
        obtain ⟨i, _, rfl⟩ := List.mem_map.1 hr
        dsimp only
        calc _ ≤ (pop.filter (fun g => decide (g ∈ taken.flatten.toFinset))).length :=
              List.length_filter_le _ _
          _ = _ := length_filter_mem pop hnd _ (by
              intro g hg; exact htpop g (by simpa using hg))
      · dsimp only; rw [hcard, List.length_map]; omega
      · dsimp only; rw [hcard]; omega
      · exact ⟨∅, by simp, by simp⟩
    obtain ⟨s', he, hinv', hcK⟩ := nicheLoopFl_spec F K hK32 dist ds hF hd _ layer fuel 0 _ hinv (by
      dsimp only [initRefPoints]
      rw [List.length_map, List.length_map, List.length_range]; omega)
    obtain ⟨part, hpart, hpsub⟩ := hinv'.sel
    have hcut : CutOK num pop K front (front :: ls) s'.selected := by
      refine ⟨⟨taken, rest, part, hsplit, hpart, Or.inr ⟨layer, rest', hrest, hpsub, hlt, hgt⟩⟩,
        hcK, ?_, ⟨ls, rfl⟩, sp, hperm, hok⟩
      intro g hg
      rw [hpart, Finset.mem_union] at hg
      rcases hg with hg | hg
      · exact htpop g (by simpa using hg)
      · exact hFlpop g (hpsub g hg)
    refine ⟨_, ?_, selectOKD_of_cut irr tr K pop hnd front (front :: ls) _ hfront hcut⟩
    unfold nsga3SelectFl
    simp only [hlay, ← hnum, htake, hrest]
    simp only [Out.ok_bind, if_true, hassoc]
    rw [he]
    simp


end Heu
