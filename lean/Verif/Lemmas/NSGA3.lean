import Verif.Lemmas.NSGA2Select

/-! The niche loop of NSGA-III. -/

set_option linter.unusedSectionVars false
set_option linter.unusedSimpArgs false

namespace Heu

variable {α : Type} {G : Type} [DecidableEq G] {m : Nat}

theorem foldl_min_le (l : List (Nat × Nat)) : ∀ a : Nat,
    (l.foldl (fun a i => min a i.2) a ≤ a) ∧ ∀ x ∈ l, l.foldl (fun a i => min a i.2) a ≤ x.2 := by
  induction l with
  | nil => intro a; simp
  | cons y l ih =>
    intro a
    rw [List.foldl_cons]
    have h := ih (min a y.2)
    refine ⟨by omega, ?_⟩
    intro x hx
    rcases List.mem_cons.1 hx with rfl | hx
    · omega
    · exact h.2 x hx

theorem foldl_min_mem (l : List (Nat × Nat)) : ∀ a : Nat,
    l.foldl (fun a i => min a i.2) a = a ∨ ∃ x ∈ l, l.foldl (fun a i => min a i.2) a = x.2 := by
  induction l with
  | nil => intro a; simp
  | cons y l ih =>
    intro a
    rw [List.foldl_cons]
    rcases ih (min a y.2) with h | ⟨x, hx, h⟩
    · rw [h]
      by_cases hh : a ≤ y.2
      · left; omega
      · right; exact ⟨y, by simp, by omega⟩
    · right; exact ⟨x, by simp [hx], h⟩

theorem findMinSet_mem {rps : List (Nat × Nat)} {c : Nat × Nat} (h : c ∈ findMinSet rps) :
    c ∈ rps ∧ ∀ x ∈ rps, c.2 ≤ x.2 := by
  simp only [findMinSet, List.mem_filter, beq_iff_eq] at h
  refine ⟨h.1, fun x hx => ?_⟩
  rw [h.2]
  exact (foldl_min_le rps _).2 x hx

theorem findMinSet_ne_nil {rps : List (Nat × Nat)} (hne : rps ≠ [])
    (hb : ∀ x ∈ rps, x.2 ≤ 0xFFFFFFFF) : findMinSet rps ≠ [] := by
  intro h
  rcases foldl_min_mem rps 0xFFFFFFFF with h' | ⟨x, hx, h'⟩
  · obtain ⟨x, hx⟩ := List.exists_mem_of_ne_nil rps hne
    have h1 := (foldl_min_le rps 0xFFFFFFFF).2 x hx
    have h2 := hb x hx
    have : x ∈ findMinSet rps := by
      simp only [findMinSet, List.mem_filter, beq_iff_eq]
      exact ⟨hx, by omega⟩
    rw [h] at this; simp at this
  · have : x ∈ findMinSet rps := by
      simp only [findMinSet, List.mem_filter, beq_iff_eq]
      exact ⟨hx, h'.symm⟩
    rw [h] at this; simp at this

variable [Field α] [LinearOrder α]

theorem foldl_closest_mem (dist : G → α) (xs : List (Nat × G)) : ∀ x : Nat × G,
    xs.foldl (fun mn it => if dist it.2 < dist mn.2 then it else mn) x ∈ x :: xs := by
  induction xs with
  | nil => intro x; simp
  | cons y ys ih =>
    intro x
    rw [List.foldl_cons]
    have := ih (if dist y.2 < dist x.2 then y else x)
    split at this
    · rename_i h
      simp only [h, if_true]
      rcases List.mem_cons.1 this with h' | h'
      · rw [h']; simp
      · simp [h']
    · rename_i h
      simp only [h, if_false]
      rcases List.mem_cons.1 this with h' | h'
      · rw [h']; simp
      · simp [h']

theorem foldl_closest_le (dist : G → α) (xs : List (Nat × G)) : ∀ x : Nat × G,
    ∀ y ∈ x :: xs,
      dist (xs.foldl (fun mn it => if dist it.2 < dist mn.2 then it else mn) x).2 ≤ dist y.2 := by
  induction xs with
  | nil => intro x y hy; simp at hy; simp [hy]
  | cons z zs ih =>
    intro x y hy
    rw [List.foldl_cons]
    have h := ih (if dist z.2 < dist x.2 then z else x)
    have hself := h _ (List.mem_cons_self)
    rcases List.mem_cons.1 hy with rfl | hy
    · refine le_trans hself ?_
      split
      · rename_i h'; exact le_of_lt h'
      · exact le_refl _
    · rcases List.mem_cons.1 hy with rfl | hy
      · refine le_trans hself ?_
        split
        · exact le_refl _
        · rename_i h'; exact not_lt.1 h'
      · exact h y (by simp [hy])

theorem pickClosest_spec (dist : G → α) (xs : List (Nat × G)) (hne : xs ≠ []) :
    ∃ p ∈ xs, pickClosest dist xs = .ok p ∧ ∀ y ∈ xs, dist p.2 ≤ dist y.2 := by
  cases xs with
  | nil => exact absurd rfl hne
  | cons x xs =>
    refine ⟨_, ?_, rfl, ?_⟩
    · have := foldl_closest_mem dist (x :: xs) x
      rcases List.mem_cons.1 this with h | h
      · rw [h]; simp
      · exact h
    · intro y hy
      exact foldl_closest_le dist (x :: xs) x y (by simp at hy ⊢; tauto)

theorem pickRandom_spec (draws : Nat → α) (hd : ∀ k, draws k ≤ 1) (xs : List (Nat × G)) :
    ∀ k, xs ≠ [] → ∃ p ∈ xs, pickRandom draws k xs.length xs = .ok p := by
  induction xs with
  | nil => intro k h; exact absurd rfl h
  | cons x xs ih =>
    intro k _
    rw [pickRandom]
    split
    · exact ⟨x, by simp, rfl⟩
    · rename_i hgt
      cases xs with
      | nil => exfalso; apply hgt; simpa using hd k
      | cons y ys =>
        obtain ⟨p, hp, he⟩ := ih (k + 1) (by simp)
        refine ⟨p, by simp only [List.mem_cons] at hp ⊢; tauto, ?_⟩
        simpa using he

/-- Invariant of the niche loop. -/
structure NicheInv (K : Nat) (sel0 : Finset G) (Fl : List G) (s : NicheState G) : Prop where
  flnd : (s.fl.map Prod.snd).Nodup
  fldis : ∀ e ∈ s.fl, e.2 ∉ s.selected
  flsub : ∀ e ∈ s.fl, e.2 ∈ Fl
  keys : ∀ e ∈ s.fl, ∃ r ∈ s.refPoints, r.1 = e.1
  counts : ∀ r ∈ s.refPoints, r.2 ≤ s.selected.card
  enough : K ≤ s.selected.card + s.fl.length
  notTooMany : s.selected.card ≤ K
  sel : ∃ part : Finset G, s.selected = sel0 ∪ part ∧ ∀ g ∈ part, g ∈ Fl

theorem nicheStep_done (K : Nat) (dist : G → α) (d : NicheDraw α G) (s : NicheState G)
    (h : ¬ s.selected.card < K) : nicheStep K dist d s = .ok none := by
  simp [nicheStep, h]

/-- Legal random draws: `randIdx(n) < n`, `randD() ≤ 1`, and `equal_range` visits exactly the
entries it should, in any order. -/
structure NicheDraw.Legal (d : NicheDraw α G) : Prop where
  idx : ∀ n, 0 < n → d.rIdx n < n
  unit : ∀ k, d.draws k ≤ 1
  order : ∀ l, (d.order l).Perm l

theorem nicheStep_progress (K : Nat) (hK32 : K ≤ 0xFFFFFFFF) (dist : G → α) (d : NicheDraw α G)
    (hd : d.Legal)
    (sel0 : Finset G) (Fl : List G) (s : NicheState G) (h : NicheInv K sel0 Fl s)
    (hlt : s.selected.card < K) :
    ∃ s', nicheStep K dist d s = .ok (some s') ∧ NicheInv K sel0 Fl s' ∧
      s'.fl.length + s'.refPoints.length < s.fl.length + s.refPoints.length := by
  have hfl : s.fl ≠ [] := by
    intro e; have := h.enough; rw [e] at this; simp at this; omega
  have hrp : s.refPoints ≠ [] := by
    obtain ⟨e, he⟩ := List.exists_mem_of_ne_nil _ hfl
    obtain ⟨r, hr, _⟩ := h.keys e he
    exact List.ne_nil_of_mem hr
  have hmin : findMinSet s.refPoints ≠ [] := by
    apply findMinSet_ne_nil hrp
    intro x hx; have := h.counts x hx; have := h.notTooMany; omega
  have hpos : 0 < (findMinSet s.refPoints).length := List.length_pos_iff.2 hmin
  have hidx := hd.idx _ hpos
  obtain ⟨cur, hcur⟩ : ∃ cur, (findMinSet s.refPoints)[d.rIdx (findMinSet s.refPoints).length]?
      = some cur := ⟨_, List.getElem?_eq_getElem hidx⟩
  have hcurm := findMinSet_mem (List.mem_of_getElem? hcur)
  set assoc := d.order (s.fl.filter fun e => e.1 == cur.1) with hassoc
  have hap : assoc.Perm (s.fl.filter fun e => e.1 == cur.1) := hd.order _
  by_cases hne : assoc = []
  · refine ⟨{ s with refPoints := s.refPoints.filter fun r => r.1 != cur.1 }, ?_, ?_, ?_⟩
    · simp only [nicheStep, hlt, if_true, hcur]
      rw [← hassoc]; simp [hne]
    · refine { h with keys := ?_, counts := ?_ }
      · intro e he
        obtain ⟨r, hr, hre⟩ := h.keys e he
        refine ⟨r, ?_, hre⟩
        rw [List.mem_filter]
        refine ⟨hr, ?_⟩
        simp only [bne_iff_ne, ne_eq]
        intro hrc
        have : e ∈ assoc := by
          rw [hap.mem_iff, List.mem_filter]
          exact ⟨he, by simp [← hre, hrc]⟩
        rw [hne] at this; simp at this
      · intro r hr
        exact h.counts r (List.mem_filter.1 hr).1
    · have : (s.refPoints.filter fun r => r.1 != cur.1).length < s.refPoints.length := by
        rw [List.length_filter_lt_length_iff_exists]
        exact ⟨cur, hcurm.1, by simp⟩
      simp only; omega
  · have hpick : ∃ p ∈ assoc, (if cur.2 = 0 then pickClosest dist assoc
          else pickRandom d.draws 0 assoc.length assoc) = .ok p := by
      split
      · obtain ⟨p, hp, he, _⟩ := pickClosest_spec dist assoc hne
        exact ⟨p, hp, he⟩
      · exact pickRandom_spec d.draws hd.unit assoc 0 hne
    obtain ⟨p, hp, hpe⟩ := hpick
    have hpfl : p ∈ s.fl := (List.mem_filter.1 (hap.mem_iff.1 hp)).1
    have hpn : p.2 ∉ s.selected := h.fldis p hpfl
    have hcard : (insert p.2 s.selected).card = s.selected.card + 1 :=
      Finset.card_insert_of_notMem hpn
    have hflnd : s.fl.Nodup := h.flnd.of_map _
    refine ⟨{ selected := insert p.2 s.selected
              fl := s.fl.erase p
              refPoints := s.refPoints.map fun r => if r.1 = cur.1 then (r.1, r.2 + 1) else r },
      ?_, ?_, ?_⟩
    · simp only [nicheStep, hlt, if_true, hcur]
      rw [← hassoc]
      simp only [ne_eq, hne, not_false_eq_true, if_true, hpe, Out.ok_bind]
    · constructor
      · exact h.flnd.sublist ((List.erase_sublist).map _)
      · intro e he hm
        rw [hflnd.mem_erase_iff] at he
        rcases Finset.mem_insert.1 hm with hm | hm
        · exact he.1 ((List.inj_on_of_nodup_map h.flnd) he.2 hpfl hm)
        · exact h.fldis e he.2 hm
      · intro e he; exact h.flsub e (List.mem_of_mem_erase he)
      · intro e he
        obtain ⟨r, hr, hre⟩ := h.keys e (List.mem_of_mem_erase he)
        refine ⟨_, List.mem_map.2 ⟨r, hr, rfl⟩, ?_⟩
        split <;> simp [hre]
      · intro r hr
        obtain ⟨r0, hr0, rfl⟩ := List.mem_map.1 hr
        have := h.counts r0 hr0
        dsimp only
        rw [hcard]
        split
        · simp; omega
        · omega
      · dsimp only
        rw [hcard, List.length_erase_of_mem hpfl]
        have := h.enough
        have := List.length_pos_of_mem hpfl
        omega
      · dsimp only; rw [hcard]; omega
      · obtain ⟨part, hpart, hsub⟩ := h.sel
        refine ⟨insert p.2 part, ?_, ?_⟩
        · dsimp only; rw [hpart]; ext x; simp
        · intro g hg
          rcases Finset.mem_insert.1 hg with rfl | hg
          · exact h.flsub p hpfl
          · exact hsub g hg
    · simp only [List.length_map, List.length_erase_of_mem hpfl]
      have := List.length_pos_of_mem hpfl
      omega

theorem nicheLoop_spec (K : Nat) (hK32 : K ≤ 0xFFFFFFFF) (dist : G → α) (ds : Nat → NicheDraw α G)
    (hd : ∀ k, (ds k).Legal) (sel0 : Finset G) (Fl : List G) (fuel : Nat) :
    ∀ (it : Nat) (s : NicheState G), NicheInv K sel0 Fl s →
    s.fl.length + s.refPoints.length ≤ fuel →
    ∃ s', nicheLoop K dist ds fuel it s = .ok s' ∧ NicheInv K sel0 Fl s' ∧ s'.selected.card = K := by
  induction fuel with
  | zero =>
    intro it s h hf
    by_cases hlt : s.selected.card < K
    · obtain ⟨s', _, _, hl⟩ := nicheStep_progress K hK32 dist (ds it) (hd it) sel0 Fl s h hlt
      omega
    · refine ⟨s, ?_, h, by have := h.notTooMany; omega⟩
      rw [nicheLoop, nicheStep_done K dist (ds it) s hlt]
  | succ n ih =>
    intro it s h hf
    by_cases hlt : s.selected.card < K
    · obtain ⟨s', he, hi, hl⟩ := nicheStep_progress K hK32 dist (ds it) (hd it) sel0 Fl s h hlt
      obtain ⟨s'', he', hr⟩ := ih (it + 1) s' hi (by omega)
      exact ⟨s'', by rw [nicheLoop, he]; exact he', hr⟩
    · refine ⟨s, ?_, h, by have := h.notTooMany; omega⟩
      rw [nicheLoop, nicheStep_done K dist (ds it) s hlt]

theorem nsga3_main (K : Nat) (hK32 : K ≤ 0xFFFFFFFF) (fit : G → Fin m → α)
    (sortD : Sorter G) (nRef : Nat) (closest : G → Nat) (dist : G → α)
    (ds : Nat → NicheDraw α G) (hd : ∀ k, (ds k).Legal) (fuel : Nat)
    (pop : List G)
    (hcl : ∀ g ∈ pop, closest g < nRef)
    (hfuel : pop.length + nRef ≤ fuel)
    (hnd : pop.Nodup) (hne : pop ≠ []) (hK : K ≤ pop.length) :
    ∃ r, nsga3Select K fit sortD nRef closest dist ds fuel pop = .ok r ∧
      SelectOK .lessBetter K fit pop r := by
  obtain ⟨front, ls, hlay, hok, hfront⟩ := layers_facts .lessBetter fit sortD pop hne
  set num := calculateDominatedNum (domB .lessBetter fit) pop with hnum
  have hperm := sortD.perm (fun a b => decide (num a < num b)) pop
  set sp := sortD.run (fun a b => decide (num a < num b)) pop with hsp
  have hspnd : sp.Nodup := hperm.nodup_iff.2 hnd
  have hflat : (front :: ls).flatten = sp := hok.flat
  obtain ⟨taken, rest, need, htake, hsplit, hcard, hno, hyes⟩ :=
    takeLayers_spec K (front :: ls) ∅ (by rw [hflat]; exact hspnd) (by simp) (by simp)
      (by rw [hflat, hperm.length_eq]; simpa using hK)
  have hsel0 : (∅ : Finset G) ∪ taken.flatten.toFinset = taken.flatten.toFinset := by simp
  rw [hsel0] at htake hcard
  simp only [Finset.card_empty, Nat.zero_add] at hcard hno hyes
  have htpop : ∀ g ∈ taken.flatten, g ∈ pop := by
    intro g hg
    rw [← hperm.mem_iff, ← hflat, hsplit, List.flatten_append]
    exact List.mem_append_left _ hg
  cases hneed : need with
  | false =>
    subst hneed
    have hlen := hno rfl
    have hcut : CutOK num pop K front (front :: ls) taken.flatten.toFinset := by
      refine ⟨⟨taken, rest, ∅, hsplit, by simp, Or.inl ⟨rfl, hlen⟩⟩, by rw [hcard, hlen], ?_,
        ⟨ls, rfl⟩, sp, hperm, hok⟩
      intro g hg; exact htpop g (by simpa using hg)
    refine ⟨_, ?_, selectOK_of_cut .lessBetter K fit pop hnd front (front :: ls) _ hfront hcut⟩
    unfold nsga3Select
    simp only [hlay, ← hnum, htake]
    simp
  | true =>
    subst hneed
    obtain ⟨Fl, rest', hrest, hlt, hgt⟩ := hyes rfl
    have hsplit' : front :: ls = taken ++ Fl :: rest' := by rw [hsplit, hrest]
    have hallnd : (taken ++ Fl :: rest').flatten.Nodup := by
      rw [← hsplit', hflat]; exact hspnd
    rw [List.flatten_append, List.flatten_cons] at hallnd
    have hFlnd : Fl.Nodup := (List.nodup_append.1 (List.nodup_append.1 hallnd).2.1).1
    have hdisj : ∀ g ∈ Fl, g ∉ taken.flatten := by
      intro g hg hg'
      exact (List.nodup_append.1 hallnd).2.2 g hg' g (List.mem_append_left _ hg) rfl
    have hFlpop : ∀ g ∈ Fl, g ∈ pop := by
      intro g hg
      rw [← hperm.mem_iff, ← hflat, hsplit', List.flatten_append, List.flatten_cons]
      simp [hg]
    have hFllen : Fl.length ≤ pop.length := by
      have h1 : ((front :: ls).flatten).length = pop.length := by rw [hflat, hperm.length_eq]
      rw [hsplit', List.flatten_append, List.flatten_cons, List.length_append,
        List.length_append] at h1
      omega
    have hinv : NicheInv K taken.flatten.toFinset Fl
        { selected := taken.flatten.toFinset
          fl := Fl.map fun g => (closest g, g)
          refPoints := initRefPoints nRef closest
            (pop.filter (fun g => decide (g ∈ taken.flatten.toFinset))) } := by
      constructor
      · dsimp only
        rw [List.map_map]
        have : (Prod.snd ∘ fun g => (closest g, g)) = (id : G → G) := by ext; rfl
        rw [this]; simpa using hFlnd
      · intro e he
        obtain ⟨g, hg, rfl⟩ := List.mem_map.1 he
        rw [List.mem_toFinset]; exact hdisj g hg
      · intro e he
        obtain ⟨g, hg, rfl⟩ := List.mem_map.1 he
        exact hg
      · intro e he
        obtain ⟨g, hg, rfl⟩ := List.mem_map.1 he
        refine ⟨_, List.mem_map.2 ⟨closest g, ?_, rfl⟩, rfl⟩
        rw [List.mem_range]; exact hcl g (hFlpop g hg)
      · intro r hr
        obtain ⟨i, _, rfl⟩ := List.mem_map.1 hr
        dsimp only
        calc _ ≤ (pop.filter (fun g => decide (g ∈ taken.flatten.toFinset))).length :=
              List.length_filter_le _ _
          _ = _ := length_filter_mem pop hnd _ (by
              intro g hg; exact htpop g (by simpa using hg))
      · dsimp only; rw [hcard, List.length_map]; omega
      · dsimp only; rw [hcard]; omega
      · exact ⟨∅, by simp, by simp⟩
    obtain ⟨s', he, hinv', hcK⟩ := nicheLoop_spec K hK32 dist ds hd _ Fl fuel 0 _ hinv (by
      dsimp only [initRefPoints]
      rw [List.length_map, List.length_map, List.length_range]; omega)
    obtain ⟨part, hpart, hpsub⟩ := hinv'.sel
    have hcut : CutOK num pop K front (front :: ls) s'.selected := by
      refine ⟨⟨taken, rest, part, hsplit, hpart, Or.inr ⟨Fl, rest', hrest, hpsub, hlt, hgt⟩⟩,
        hcK, ?_, ⟨ls, rfl⟩, sp, hperm, hok⟩
      intro g hg
      rw [hpart, Finset.mem_union] at hg
      rcases hg with hg | hg
      · exact htpop g (by simpa using hg)
      · exact hFlpop g (hpsub g hg)
    refine ⟨_, ?_, selectOK_of_cut .lessBetter K fit pop hnd front (front :: ls) _ hfront hcut⟩
    unfold nsga3Select
    simp only [hlay, ← hnum, htake, hrest]
    simp only [Out.ok_bind, if_true]
    rw [he]
    simp

end Heu
