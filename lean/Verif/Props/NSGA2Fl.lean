import Verif.Lemmas.NSGA2Fl
import Verif.Props.NSGA
import Verif.Props.IEEE
import Verif.Props.Box

/-!
# C92–C94 – dominance and NSGA-II selection on real `double`s
-/

set_option linter.unusedSectionVars false
set_option linter.unusedSimpArgs false

namespace Heu

variable {G : Type} [DecidableEq G] {m : Nat}

/-- C92: on arbitrary `double`s, NaN and infinities included, the code's test says exactly: no NaN is
involved, nowhere worse, somewhere better. -/
theorem dominate_ieee_iff (F : Fmt) (o : FitnessOption) (A B : Fin m → Fl) :
    isStrongDominateFl o A B = true ↔ Spec.DominatesFl F o A B := dominateFl_iff F o A B

/-- C92: it is a strict partial order on all vectors of `double`s. -/
theorem dominate_ieee_order (o : FitnessOption) :
    (∀ A : Fin m → Fl, isStrongDominateFl o A A = false) ∧
    (∀ A B C : Fin m → Fl, isStrongDominateFl o A B = true → isStrongDominateFl o B C = true →
      isStrongDominateFl o A C = true) ∧
    (∀ A B : Fin m → Fl, isStrongDominateFl o A B = true → isStrongDominateFl o B A = false) := by
  have hi : ∀ A : Fin m → Fl, isStrongDominateFl o A A = false :=
    fun A => domFl_irrefl (G := Unit) o (fun _ => A) ()
  have ht : ∀ A B C : Fin m → Fl, isStrongDominateFl o A B = true → isStrongDominateFl o B C = true →
      isStrongDominateFl o A C = true := fun A B C h1 h2 =>
    (dominateFl_iff binary64 o _ _).2 (dominatesFl_trans binary64 o _ _ _
      ((dominateFl_iff binary64 o _ _).1 h1) ((dominateFl_iff binary64 o _ _).1 h2))
  refine ⟨hi, ht, fun A B h => ?_⟩
  by_contra h'
  have := ht A B A h (by simpa using h')
  rw [hi] at this
  exact Bool.noConfusion this

/-- C92: a vector with a NaN neither dominates nor is dominated. -/
theorem nan_incomparable (o : FitnessOption) (A B : Fin m → Fl) (i : Fin m) (h : A i = .nan) :
    isStrongDominateFl o A B = false ∧ isStrongDominateFl o B A = false := by
  constructor
  · by_contra hc
    exact (((dominateFl_iff binary64 o _ _).1 (by simpa using hc)).1 i).1 h
  · by_contra hc
    exact (((dominateFl_iff binary64 o _ _).1 (by simpa using hc)).1 i).2 h

/-- C92: without NaN the test agrees with the one over a linear order (the extended rationals), which is what
the other theorems about dominance assume. -/
theorem dominate_ieee_agrees (F : Fmt) (o : FitnessOption) (A B : Fin m → Fl)
    (hA : ∀ i, A i ≠ .nan) (hB : ∀ i, B i ≠ .nan) :
    isStrongDominateFl o A B =
      isStrongDominate o (fun i => Spec.extended F (A i)) (fun i => Spec.extended F (B i)) := by
  rw [Bool.eq_iff_iff, dominateFl_iff F, isStrongDominate_iff]
  exact ⟨fun h => h.2, fun h => ⟨fun i => ⟨hA i, hB i⟩, h⟩⟩

example : isStrongDominateFl .lessBetter ![Fl.fin true 3, .inf true] ![Fl.fin false 0, .inf true] = true ∧
    isStrongDominateFl .lessBetter ![Fl.fin true 0, .fin false 1] ![Fl.fin false 0, .fin false 2] = true ∧
    isStrongDominateFl .greaterBetter ![Fl.fin true 3, .nan] ![Fl.fin false 0, .fin false 1] = false := by
  decide

section select
variable (F : Fmt) (o : FitnessOption) (K : Nat) (eps : Fl) (fit : G → Fin m → Fl)
  (sortD : Sorter G) (sortF : Fin m → Sorter G) (sortC : Sorter G) (pop : List G)

/-- The four possible courses of the selection. -/
theorem nsga2Fl_course (hnd : pop.Nodup) (hne : pop ≠ []) (hK : K ≤ pop.length) :
    let num := calculateDominatedNum (domFl o fit) pop
    let sp := sortD.run (fun a b => decide (num a < num b)) pop
    ∃ (front : List G) (ls taken rest : List (List G)),
      (∀ x ∈ pop, x ∈ front ↔ num x = 0) ∧ front :: ls = taken ++ rest ∧ sp.Perm pop ∧
      LayersOK num sp (front :: ls) ∧
      ((taken.flatten.length = K ∧
        nsga2SelectFl F o K eps fit sortD sortF sortC pop =
          .ok { population := pop.filter (fun g => decide (g ∈ taken.flatten.toFinset))
                pf := if front.length ≤ K then front.toFinset else taken.flatten.toFinset }) ∨
      ∃ layer rest', rest = layer :: rest' ∧ taken.flatten.length < K ∧
        K < taken.flatten.length + layer.length ∧
        nsga2SelectFl F o K eps fit sortD sortF sortC pop =
          (congestionAllFl F sortF fit eps sp >>= fun r =>
            sortRange sortC (fun a b => Fl.lt (r.2 b) (r.2 a)) layer >>= fun sorted =>
            fillFrom K taken.flatten.toFinset sorted >>= fun sel =>
            .ok { population := eraseUnselected sel r.1 pop
                  pf := if front.length ≤ K then front.toFinset else sel })) := by
  intro num sp
  obtain ⟨front, ls, hlay, hok, hfront⟩ :=
    layers_factsD (domFl_irrefl o fit) (domFl_trans o fit) sortD pop hne
  have hperm : sp.Perm pop := sortD.perm (fun a b => decide (num a < num b)) pop
  have hspnd : sp.Nodup := hperm.nodup_iff.2 hnd
  have hflat : (front :: ls).flatten = sp := hok.flat
  obtain ⟨taken, rest, need, htake, hsplit, hcard, hno, hyes⟩ :=
    takeLayers_spec K (front :: ls) ∅ (by rw [hflat]; exact hspnd) (by simp) (by simp)
      (by rw [hflat, hperm.length_eq]; simpa using hK)
  have hsel0 : (∅ : Finset G) ∪ taken.flatten.toFinset = taken.flatten.toFinset := by simp
  rw [hsel0] at htake hcard
  simp only [Finset.card_empty, Nat.zero_add] at hcard hno hyes
  refine ⟨front, ls, taken, rest, hfront, hsplit, hperm, hok, ?_⟩
  have herase : ∀ (sel : Finset G) (space : List G), space.Perm pop →
      eraseUnselected sel space pop = pop.filter (fun g => decide (g ∈ sel)) := by
    intro sel space hp
    rw [eraseUnselected_eq sel space pop hnd]
    apply List.filter_congr
    intro x hx
    simp [hp.mem_iff.2 hx]
  cases hneed : need with
  | false =>
    subst hneed
    left
    refine ⟨hno rfl, ?_⟩
    unfold nsga2SelectFl
    simp only [hlay, htake, Out.ok_bind]
    simp only [Bool.false_eq_true, if_false, Out.ok_bind]
    rw [herase _ _ hperm]
  | true =>
    subst hneed
    right
    obtain ⟨layer, rest', hrest, hlt, hgt⟩ := hyes rfl
    refine ⟨layer, rest', hrest, hlt, hgt, ?_⟩
    unfold nsga2SelectFl
    simp only [hlay, htake, Out.ok_bind, hrest, if_true, bind_assoc]
    rfl

/-- What a finished selection looks like (any `double`s). -/
theorem nsga2Fl_main (hnd : pop.Nodup) (hne : pop ≠ []) (hK : K ≤ pop.length) (r : SelectResult G)
    (hr : nsga2SelectFl F o K eps fit sortD sortF sortC pop = .ok r) :
    SelectOKD (domFl o fit) K pop r ∧
    ((∀ s ∈ r.population, ∀ e ∈ pop, e ∉ r.population →
        calculateDominatedNum (domFl o fit) pop s < calculateDominatedNum (domFl o fit) pop e) ∨
      ∃ cong, Spec.IsCongestionFl F fit eps pop cong ∧
        ∀ s ∈ r.population, ∀ e ∈ pop, e ∉ r.population →
          calculateDominatedNum (domFl o fit) pop s = calculateDominatedNum (domFl o fit) pop e →
          Fl.lt (cong s) (cong e) = false) := by
  obtain ⟨front, ls, taken, rest, hfront, hsplit, hperm, hok, hcase⟩ :=
    nsga2Fl_course F o K eps fit sortD sortF sortC pop hnd hne hK
  set num := calculateDominatedNum (domFl o fit) pop with hnum
  set sp := sortD.run (fun a b => decide (num a < num b)) pop with hsp
  have hspnd : sp.Nodup := hperm.nodup_iff.2 hnd
  have hflat : (front :: ls).flatten = sp := hok.flat
  have htpop : ∀ g ∈ taken.flatten, g ∈ pop := by
    intro g hg
    rw [← hperm.mem_iff, ← hflat, hsplit, List.flatten_append]
    exact List.mem_append_left _ hg
  have htnd : taken.flatten.Nodup := by
    have : ((front :: ls).flatten).Nodup := by rw [hflat]; exact hspnd
    rw [hsplit, List.flatten_append] at this
    exact (List.nodup_append.1 this).1
  have hcard : taken.flatten.toFinset.card = taken.flatten.length := List.toFinset_card_of_nodup htnd
  have herase : ∀ (sel : Finset G) (space : List G), space.Perm pop →
      eraseUnselected sel space pop = pop.filter (fun g => decide (g ∈ sel)) := by
    intro sel space hp
    rw [eraseUnselected_eq sel space pop hnd]
    apply List.filter_congr
    intro x hx
    simp [hp.mem_iff.2 hx]
  rcases hcase with ⟨hlen, hres⟩ | ⟨layer, rest', hrest, hlt, hgt, hres⟩
  · rw [hres] at hr; cases hr
    have hcut : CutOK num pop K front (front :: ls) taken.flatten.toFinset := by
      refine ⟨⟨taken, rest, ∅, hsplit, by simp, Or.inl ⟨rfl, hlen⟩⟩, by rw [hcard, hlen], ?_,
        ⟨ls, rfl⟩, sp, hperm, hok⟩
      intro g hg; exact htpop g (by simpa using hg)
    refine ⟨selectOKD_of_cut (domFl_irrefl o fit) (domFl_trans o fit) K pop hnd front (front :: ls) _
      hfront hcut, Or.inl ?_⟩
    intro s hs e he hne'
    dsimp only at hs hne'
    have hs' : s ∈ taken.flatten := by simpa using (List.mem_filter.1 hs).2
    have he' : e ∉ taken.flatten := by
      intro h; apply hne'; rw [List.mem_filter]; exact ⟨he, by simpa using h⟩
    have hefl : e ∈ (taken ++ rest).flatten := by
      rw [← hsplit, hflat]; exact hperm.mem_iff.2 he
    rw [List.flatten_append, List.mem_append] at hefl
    rcases hefl with h | h
    · exact absurd h he'
    · obtain ⟨l1, h1, hs1⟩ := List.mem_flatten.1 hs'
      obtain ⟨l2, h2, he2⟩ := List.mem_flatten.1 h
      have hinc := hok.incr
      rw [hsplit] at hinc
      exact (List.pairwise_append.1 hinc).2.2 l1 h1 l2 h2 s hs1 e he2
  · rw [hres] at hr
    obtain ⟨⟨sp', cong⟩, hcg, hr⟩ := Out.bind_eq_ok.1 hr
    obtain ⟨Fs, hFs, hr⟩ := Out.bind_eq_ok.1 hr
    obtain ⟨sel, hsel, hr⟩ := Out.bind_eq_ok.1 hr
    cases hr
    dsimp only at hFs
    obtain ⟨-, hFlperm, hFlsorted⟩ := sortRange_inv sortC hFs
    obtain ⟨hpermc, hsteps⟩ := congestionFoldFl_inv pop hnd (List.finRange m) hperm hcg
    have hsplit' : front :: ls = taken ++ layer :: rest' := by rw [hsplit, hrest]
    have hallnd : (taken ++ layer :: rest').flatten.Nodup := by
      rw [← hsplit', hflat]; exact hspnd
    rw [List.flatten_append, List.flatten_cons] at hallnd
    have hFlnd : layer.Nodup := (List.nodup_append.1 (List.nodup_append.1 hallnd).2.1).1
    have hdisj : ∀ g ∈ layer, g ∉ taken.flatten := by
      intro g hg hg'
      exact (List.nodup_append.1 hallnd).2.2 g hg' g (List.mem_append_left _ hg) rfl
    obtain ⟨pre, post, hFsplit, hfill, hcardK⟩ := fillFrom_spec K Fs taken.flatten.toFinset
      (hFlperm.nodup_iff.2 hFlnd)
      (by intro g hg; rw [List.mem_toFinset]; exact hdisj g (hFlperm.mem_iff.1 hg))
      (by rw [hcard]; omega) (by rw [hcard, hFlperm.length_eq]; omega)
    rw [hfill] at hsel; cases hsel
    have hFlpop : ∀ g ∈ layer, g ∈ pop := by
      intro g hg
      rw [← hperm.mem_iff, ← hflat, hsplit', List.flatten_append, List.flatten_cons]
      simp [hg]
    have hprefl : ∀ g ∈ pre, g ∈ layer := by
      intro g hg; rw [← hFlperm.mem_iff, hFsplit]; exact List.mem_append_left _ hg
    have hcut : CutOK num pop K front (front :: ls)
        (taken.flatten.toFinset ∪ pre.toFinset) := by
      refine ⟨⟨taken, rest, pre.toFinset, hsplit, rfl, Or.inr ⟨layer, rest', hrest, ?_, hlt, hgt⟩⟩,
        hcardK, ?_, ⟨ls, rfl⟩, sp, hperm, hok⟩
      · intro g hg; exact hprefl g (by simpa using hg)
      · intro g hg
        rw [Finset.mem_union] at hg
        rcases hg with hg | hg
        · exact htpop g (by simpa using hg)
        · exact hFlpop g (hprefl g (by simpa using hg))
    rw [herase _ _ hpermc]
    refine ⟨selectOKD_of_cut (domFl_irrefl o fit) (domFl_trans o fit) K pop hnd front (front :: ls) _
      hfront hcut, Or.inr ⟨cong, hsteps, ?_⟩⟩
    intro s hs e he hne' heq
    dsimp only at hs hne'
    have hs' : s ∈ taken.flatten.toFinset ∪ pre.toFinset := by
      simpa using (List.mem_filter.1 hs).2
    have he' : e ∉ taken.flatten.toFinset ∪ pre.toFinset := by
      intro h; apply hne'; rw [List.mem_filter]; exact ⟨he, by simpa using h⟩
    have hefl : e ∈ (taken ++ layer :: rest').flatten := by
      rw [← hsplit', hflat]; exact hperm.mem_iff.2 he
    rw [List.flatten_append, List.flatten_cons, List.mem_append, List.mem_append] at hefl
    have hinc := hok.incr
    rw [hsplit'] at hinc
    have hinc' := List.pairwise_append.1 hinc
    have he1 : e ∉ taken.flatten := by
      intro h; apply he'; rw [Finset.mem_union]; left; simpa using h
    have hsl : s ∈ taken.flatten ∨ s ∈ pre := by
      rw [Finset.mem_union, List.mem_toFinset, List.mem_toFinset] at hs'; exact hs'
    have hspre : s ∈ pre := by
      rcases hsl with h | h
      · exfalso
        obtain ⟨l1, h1, hs1⟩ := List.mem_flatten.1 h
        have hcase : ∃ l2 ∈ layer :: rest', e ∈ l2 := by
          rcases hefl with h' | h' | h'
          · exact absurd h' he1
          · exact ⟨layer, by simp, h'⟩
          · obtain ⟨l2, h2, he2⟩ := List.mem_flatten.1 h'
            exact ⟨l2, by simp [h2], he2⟩
        obtain ⟨l2, h2, he2⟩ := hcase
        have := hinc'.2.2 l1 h1 l2 h2 s hs1 e he2
        omega
      · exact h
    have heFl : e ∈ layer := by
      rcases hefl with h' | h' | h'
      · exact absurd h' he1
      · exact h'
      · exfalso
        obtain ⟨l2, h2, he2⟩ := List.mem_flatten.1 h'
        have := (List.pairwise_cons.1 hinc'.2.1).1 l2 h2 s (hprefl s hspre) e he2
        omega
    have hepost : e ∈ post := by
      have : e ∈ Fs := hFlperm.mem_iff.2 heFl
      rw [hFsplit, List.mem_append] at this
      rcases this with h | h
      · exfalso; apply he'; rw [Finset.mem_union]; right; simpa using h
      · exact h
    rw [hFsplit] at hFlsorted
    exact (List.pairwise_append.1 hFlsorted).2.2 s hspre e hepost

/-- C93: NSGA-II selection on `double`s – exact IEEE arithmetic with rounding – runs without undefined
behaviour as long as no fitness value is NaN and no difference of two values of the same objective
overflows (in particular all values are finite). -/
theorem nsga2_ieee_defined (e : Nat) (he : 0 < e) (hnd : pop.Nodup) (hne : pop ≠ []) (hK : K ≤ pop.length)
    (hd : ∀ a ∈ pop, ∀ b ∈ pop, ∀ j, ∃ s n, Fl.sub F (fit a j) (fit b j) = .fin s n) :
    ∃ r, nsga2SelectFl F o K (.fin false e) fit sortD sortF sortC pop = .ok r := by
  have hn : ∀ g ∈ pop, ∀ j, fit g j ≠ .nan := by
    intro g hg j hnan
    obtain ⟨s, n, h⟩ := hd g hg g hg j
    rw [hnan] at h
    simp [Fl.sub, Fl.neg, Fl.add] at h
  obtain ⟨front, ls, taken, rest, hfront, hsplit, hperm, hok, hcase⟩ :=
    nsga2Fl_course F o K (.fin false e) fit sortD sortF sortC pop hnd hne hK
  rcases hcase with ⟨hlen, hres⟩ | ⟨layer, rest', hrest, hlt, hgt, hres⟩
  · exact ⟨_, hres⟩
  · rw [hres]
    obtain ⟨⟨sp', cong⟩, hcg⟩ := congestionFoldFl_ok (F := F) sortF fit (.fin false e) pop hne hnd hn
      (List.finRange m) _ (fun _ => .fin false 0) hperm
    obtain ⟨hpermc, hsteps⟩ := congestionFoldFl_inv pop hnd (List.finRange m) hperm hcg
    have hnn := crowding_nonNeg he hd hsteps (fun g _ => Or.inr ⟨0, rfl⟩)
    have hsplit' := hsplit
    rw [hrest] at hsplit'
    have hflat := hok.flat
    have hallnd : (taken ++ layer :: rest').flatten.Nodup := by
      rw [← hsplit', hflat]; exact hperm.nodup_iff.2 hnd
    have hFlpop : ∀ g ∈ layer, g ∈ pop := by
      intro g hg
      rw [← hperm.mem_iff, ← hflat, hsplit', List.flatten_append, List.flatten_cons]
      simp [hg]
    rw [List.flatten_append, List.flatten_cons] at hallnd
    have hFlnd : layer.Nodup := (List.nodup_append.1 (List.nodup_append.1 hallnd).2.1).1
    have hdisj : ∀ g ∈ layer, g ∉ taken.flatten := by
      intro g hg hg'
      exact (List.nodup_append.1 hallnd).2.2 g hg' g (List.mem_append_left _ hg) rfl
    have hcard : taken.flatten.toFinset.card = taken.flatten.length :=
      List.toFinset_card_of_nodup (List.nodup_append.1 hallnd).1
    obtain ⟨Fs, hFs, hFlperm, -⟩ := sortRange_ok sortC
      (strictWeakOn_gt cong layer fun g hg => (hnn g (hFlpop g hg)).ne_nan)
    obtain ⟨pre, post, hFsplit, hfill, hcardK⟩ := fillFrom_spec K Fs taken.flatten.toFinset
      (hFlperm.nodup_iff.2 hFlnd)
      (by intro g hg; rw [List.mem_toFinset]; exact hdisj g (hFlperm.mem_iff.1 hg))
      (by rw [hcard]; omega) (by rw [hcard, hFlperm.length_eq]; omega)
    have hcg' : congestionAllFl F sortF fit (.fin false e) _ = .ok (sp', cong) := hcg
    rw [hcg']
    simp only [Out.ok_bind, hFs, hfill]
    exact ⟨_, rfl⟩

/-- C93: whenever the selection returns – whatever the `double`s – it leaves exactly `populationSize` of the
candidates, every dominator of a survivor survives, and the reported front consists of survivors nobody
dominates; it is the whole non-dominated set if that fits, and all survivors otherwise. -/
theorem nsga2_ieee_result (hnd : pop.Nodup) (hne : pop ≠ []) (hK : K ≤ pop.length) (r : SelectResult G)
    (hr : nsga2SelectFl F o K eps fit sortD sortF sortC pop = .ok r) :
    r.population.length = K ∧ r.population.Sublist pop ∧
    (∀ s ∈ r.population, ∀ x ∈ pop, Spec.DominatesFl F o (fit x) (fit s) → x ∈ r.population) ∧
    (∀ g ∈ r.pf, g ∈ r.population ∧ Spec.NonDominatedFl F o fit pop g) ∧
    (∀ nd : List G, nd.Nodup → (∀ g, g ∈ nd ↔ g ∈ pop ∧ Spec.NonDominatedFl F o fit pop g) →
      (nd.length ≤ K → r.pf = nd.toFinset) ∧ (K < nd.length → r.pf = r.population.toFinset)) := by
  have h := (nsga2Fl_main F o K eps fit sortD sortF sortC pop hnd hne hK r hr).1
  have hndiff : ∀ g, (∀ y ∈ pop, domFl o fit y g = false) ↔ Spec.NonDominatedFl F o fit pop g := by
    intro g
    unfold Spec.NonDominatedFl
    simp only [← dominateFl_iff, Bool.not_eq_true]
  refine ⟨h.size, h.sublist, fun s hs x hx hd => h.closed s hs x hx ((dominateFl_iff F o _ _).2 hd),
    fun g hg => ⟨h.pf_sub g hg, (hndiff g).1 (h.pf_nd g hg)⟩, fun nd hn hall => h.pf_eq nd hn ?_⟩
  intro g; rw [hall, hndiff]

/-- C93: no survivor has more dominators than an eliminated candidate; among candidates with equally many
dominators the survivors are those with the larger crowding value, computed with rounding. -/
theorem nsga2_ieee_prefers (hnd : pop.Nodup) (hne : pop ≠ []) (hK : K ≤ pop.length) (r : SelectResult G)
    (hr : nsga2SelectFl F o K eps fit sortD sortF sortC pop = .ok r) :
    (∀ s ∈ r.population, ∀ e ∈ pop, e ∉ r.population → ∀ ns ne,
      Spec.DominatorCountFl F o fit pop s ns → Spec.DominatorCountFl F o fit pop e ne → ns ≤ ne) ∧
    ((∀ s ∈ r.population, ∀ e ∈ pop, e ∉ r.population → ∀ ns ne,
      Spec.DominatorCountFl F o fit pop s ns → Spec.DominatorCountFl F o fit pop e ne → ns < ne) ∨
    ∃ cong, Spec.IsCongestionFl F fit eps pop cong ∧
      ∀ s ∈ r.population, ∀ e ∈ pop, e ∉ r.population → ∀ n,
        Spec.DominatorCountFl F o fit pop s n → Spec.DominatorCountFl F o fit pop e n →
        Fl.lt (cong s) (cong e) = false) := by
  have hm := nsga2Fl_main F o K eps fit sortD sortF sortC pop hnd hne hK r hr
  have hcount : ∀ x n, Spec.DominatorCountFl F o fit pop x n ↔
      n = calculateDominatedNum (domFl o fit) pop x := by
    intro x n
    rw [← dominatorCountD (domFl_irrefl o fit)]
    unfold Spec.DominatorCountFl
    simp only [← dominateFl_iff]
  simp only [hcount]
  refine ⟨?_, ?_⟩
  · rintro s hs e he hne' _ _ rfl rfl
    exact hm.1.ranked s hs e he hne'
  · rcases hm.2 with h | ⟨cong, hc, h⟩
    · left
      rintro s hs e he hne' _ _ rfl rfl
      exact h s hs e he hne'
    · right
      refine ⟨cong, hc, ?_⟩
      rintro s hs e he hne' n rfl hn
      exact h s hs e he hne' hn

/-- C94: NaN in an objective that also takes two different values makes the selection undefined whenever a
front has to be cut: `std::sort` gets a comparator that is no strict weak order. -/
theorem nsga2_nan_ub (hnd : pop.Nodup) (hK0 : 1 ≤ K) (hK : K ≤ pop.length)
    (big : List G) (hbig : big.Nodup) (hbn : ∀ g ∈ big, g ∈ pop ∧ Spec.NonDominatedFl F o fit pop g)
    (hbK : K < big.length) (j : Fin m) (a b c : G) (ha : a ∈ pop) (hb : b ∈ pop) (hc : c ∈ pop)
    (hnan : fit b j = .nan) (hlt : Fl.lt (fit a j) (fit c j) = true) :
    nsga2SelectFl F o K eps fit sortD sortF sortC pop = .ub := by
  have hne : pop ≠ [] := List.ne_nil_of_mem ha
  obtain ⟨front, ls, taken, rest, hfront, hsplit, hperm, hok, hcase⟩ :=
    nsga2Fl_course F o K eps fit sortD sortF sortC pop hnd hne hK
  have hsub : big.length ≤ front.length := by
    have h1 : big.toFinset ⊆ front.toFinset := by
      intro x hx
      simp only [List.mem_toFinset] at *
      refine (hfront x (hbn x hx).1).2 ?_
      rw [numD_eq_zero_iff (domFl_irrefl o fit)]
      intro y hy
      have := (hbn x hx).2 y hy
      rwa [← dominateFl_iff, Bool.not_eq_true] at this
    have h2 := Finset.card_le_card h1
    rw [List.toFinset_card_of_nodup hbig] at h2
    exact h2.trans (List.toFinset_card_le _)
  rcases hcase with ⟨hlen, -⟩ | ⟨layer, rest', hrest, hlt', hgt, hres⟩
  · exfalso
    cases taken with
    | nil => simp at hlen; omega
    | cons l t =>
      simp only [List.cons_append, List.cons.injEq] at hsplit
      rw [List.flatten_cons, List.length_append, ← hsplit.1] at hlen
      omega
  · rw [hres]
    have := congestionFoldFl_ub (F := F) sortF fit eps pop hnd j ha hb hc hnan hlt (List.finRange m) _
      (fun _ => .fin false 0) hperm (List.mem_finRange j)
    exact (congrArg (· >>= _) this).trans rfl

/-- The difference of two finite values below half of the overflow threshold is finite. -/
theorem sub_finite (hmb : F.mb + 2 ≤ F.top) {x y : Fl}
    (hx : ∃ s n, x = .fin s n ∧ Rep F.mb n ∧ n < 2 ^ (F.top - 1))
    (hy : ∃ s n, y = .fin s n ∧ Rep F.mb n ∧ n < 2 ^ (F.top - 1)) :
    ∃ s n, Fl.sub F x y = .fin s n := by
  obtain ⟨s, n, rfl, rn, hn⟩ := hx
  obtain ⟨t, k, rfl, rk, hk⟩ := hy
  have h1 := rep_lt_pow rn (by omega) hn
  have h2 := rep_lt_pow rk (by omega) hk
  have hpow : 2 ^ F.top = 2 * 2 ^ (F.top - 1) := by
    rw [← pow_succ']; congr 1; omega
  have hpow2 : 2 ^ (F.top - 1) = 2 ^ (F.mb + 1) * 2 ^ (F.top - 1 - (F.mb + 1)) := by
    rw [← pow_add]; congr 1; omega
  obtain ⟨q, hq⟩ : ∃ q, q = 2 ^ (F.top - 1 - (F.mb + 1)) := ⟨_, rfl⟩
  have hq0 : 0 < q := by rw [hq]; positivity
  have h2mb : 2 ≤ 2 ^ (F.mb + 1) := by
    have := Nat.pow_le_pow_right (n := 2) (by norm_num) (show 1 ≤ F.mb + 1 by omega)
    simpa using this
  simp only [Fl.sub, Fl.neg, Fl.add]
  split
  · exact ⟨_, _, rfl⟩
  · have habs : (Fl.units s n + Fl.units (!t) k).natAbs ≤ n + k := by
      cases s <;> cases t <;> simp [Fl.units] <;> omega
    have hrep : Rep F.mb ((2 ^ (F.mb + 1) - 1) * 2 ^ (F.top - 1 - (F.mb + 1) + 1)) :=
      ⟨2 ^ (F.mb + 1) - 1, F.top - 1 - (F.mb + 1) + 1, by omega, rfl⟩
    have hval : (2 ^ (F.mb + 1) - 1) * 2 ^ (F.top - 1 - (F.mb + 1) + 1) + 2 * q = 2 ^ F.top := by
      rw [hpow, hpow2, pow_succ _ (F.top - 1 - (F.mb + 1)), ← hq]
      obtain ⟨w, hw⟩ : ∃ w, 2 ^ (F.mb + 1) = w + 1 := ⟨2 ^ (F.mb + 1) - 1, by omega⟩
      rw [hw]; simp; ring
    have hle := rndUnits_le F.mb (Fl.units s n + Fl.units (!t) k).natAbs 1 (by norm_num) hrep
      (by rw [mul_one]; rw [← hq] at h1 h2; omega)
    unfold Fl.mk
    rw [if_neg (by omega)]
    exact ⟨_, _, rfl⟩

theorem units_lt_of_number (B : Nat) {s : Bool} {n : Nat} (h : |Fl.number F (.fin s n)| < 2 ^ B) :
    n < 2 ^ (B + F.one) := by
  have h5 : |Fl.number F (.fin s n)| = (n : ℚ) * (2 : ℚ) ^ (-(F.one : ℤ)) := by
    have hp : (0 : ℚ) ≤ (n : ℚ) * (2 : ℚ) ^ (-(F.one : ℤ)) :=
      mul_nonneg (Nat.cast_nonneg _) (zpow_nonneg (by norm_num) _)
    simp only [Fl.number]
    cases s
    · simp only [Bool.false_eq_true, if_false, one_mul]; exact abs_of_nonneg hp
    · simp only [if_true, neg_mul, one_mul, abs_neg]; exact abs_of_nonneg hp
  rw [h5] at h
  have hpos : (0 : ℚ) < 2 ^ F.one := pow_pos (by norm_num) _
  have h7 := mul_lt_mul_of_pos_right h hpos
  have h8 : (2 : ℚ) ^ (-(F.one : ℤ)) * 2 ^ F.one = 1 := by
    rw [zpow_neg, zpow_natCast]; exact inv_mul_cancel₀ hpos.ne'
  rw [mul_assoc, h8, mul_one, ← pow_add] at h7
  exact_mod_cast h7

/-- C93: for `double` it is enough that every fitness value is finite and below `2^1023` in absolute
value (`1e-10` is the `double` next to that number). -/
theorem nsga2_double_defined (hnd : pop.Nodup) (hne : pop ≠ []) (hK : K ≤ pop.length)
    (hb : ∀ g ∈ pop, ∀ j, (fit g j).Finite binary64 ∧ |(fit g j).number binary64| < 2 ^ 1023) :
    ∃ r, nsga2SelectFl binary64 o K (.fin false (7737125245533627 * 2 ^ (1074 - 86)))
      fit sortD sortF sortC pop = .ok r := by
  refine nsga2_ieee_defined binary64 o K fit sortD sortF sortC pop _ (by positivity) hnd hne hK ?_
  have hfin : ∀ g ∈ pop, ∀ j, ∃ s n, fit g j = .fin s n ∧ Rep binary64.mb n ∧ n < 2 ^ (binary64.top - 1) := by
    intro g hg j
    obtain ⟨⟨s, n, h1, h2, h3⟩, h4⟩ := hb g hg j
    refine ⟨s, n, h1, h2, ?_⟩
    rw [h1] at h4
    have h9 : binary64.top - 1 = 1023 + binary64.one := by decide
    rw [h9]
    exact units_lt_of_number binary64 1023 h4
  intro a ha b hb' j
  exact sub_finite binary64 (by decide) (hfin a ha j) (hfin b hb' j)

end select

/-- The `double` nearest to `1e-10`. -/
def demoEps : Fl := .fin false (7737125245533627 * 2 ^ (1074 - 86))

/-- A `double` that is a natural number. -/
def demoNum (k : Nat) : Fl := .fin false (k * 2 ^ 1074)

/-- Non-vacuity: three candidates of which one is dominated, and a front of four that has to be cut, both with
all values far below the bound. -/
example : nsga2SelectFl binary64 .lessBetter 2 demoEps
    (![![demoNum 1, demoNum 2], ![demoNum 2, demoNum 1], ![demoNum 3, demoNum 3]] : Fin 3 → Fin 2 → Fl)
    insertionSorter (fun _ => insertionSorter) insertionSorter [0, 1, 2]
    |>.satisfies (fun r => decide (r.population = [0, 1] ∧ r.pf = {0, 1})) := by decide +kernel

example : nsga2SelectFl binary64 .lessBetter 3 demoEps
    (![![demoNum 1, demoNum 4], ![demoNum 2, demoNum 3], ![demoNum 4, demoNum 2], ![demoNum 9, demoNum 1]] :
      Fin 4 → Fin 2 → Fl)
    insertionSorter (fun _ => insertionSorter) insertionSorter [0, 1, 2, 3]
    |>.satisfies (fun r => decide (r.population = [0, 2, 3] ∧ r.pf = {0, 2, 3})) := by decide +kernel

/-- C94: one infinite value is enough (here `+inf` in one objective of one of five candidates, e.g. a
penalty): the crowding value of its neighbour is `inf / inf`, and sorting by crowding is undefined. -/
theorem nsga2_infinite_ub :
    nsga2SelectFl binary64 .lessBetter 3 demoEps
      (![![demoNum 0, demoNum 5], ![demoNum 1, demoNum 4], ![demoNum 2, demoNum 3], ![demoNum 3, demoNum 2],
        ![.inf false, demoNum 1]] : Fin 5 → Fin 2 → Fl)
      insertionSorter (fun _ => insertionSorter) insertionSorter [0, 1, 2, 3, 4] = .ub := by decide +kernel

/-- C94: so are finite values whose difference overflows (here `±1.5 * 2^1023`). -/
theorem nsga2_overflow_ub :
    nsga2SelectFl binary64 .lessBetter 3 demoEps
      (![![.fin true (3 * 2 ^ (1022 + 1074)), demoNum 5], ![demoNum 0, demoNum 4],
        ![.fin false (3 * 2 ^ (1022 + 1074)), demoNum 3], ![.fin false (7 * 2 ^ (1021 + 1074)), demoNum 1]] :
        Fin 4 → Fin 2 → Fl)
      insertionSorter (fun _ => insertionSorter) insertionSorter [0, 1, 2, 3] = .ub := by decide +kernel

/-- Non-vacuity of `nsga2_nan_ub`: four candidates, one with a NaN. -/
example : nsga2SelectFl binary64 .lessBetter 2 demoEps
    (![![demoNum 1, demoNum 4], ![demoNum 2, demoNum 3], ![demoNum 4, demoNum 2], ![.nan, demoNum 1]] :
      Fin 4 → Fin 2 → Fl)
    insertionSorter (fun _ => insertionSorter) insertionSorter [0, 1, 2, 3] = .ub := by
  refine nsga2_nan_ub binary64 .lessBetter 2 demoEps _ _ _ _ _ (by decide) (by decide) (by decide) [0, 1, 2, 3]
    (by decide) ?_ (by decide) 0 0 3 1 (by decide) (by decide) (by decide) rfl (by decide +kernel)
  intro g _
  refine ⟨by revert g; decide, ?_⟩
  unfold Spec.NonDominatedFl
  simp only [← dominate_ieee_iff]
  revert g
  decide +kernel

/-- `std::abs` as used in the congestion distance: the absolute value of a finite number, `+inf` for both
infinities, NaN for NaN; it never has a sign. -/
theorem fl_abs_correct (F : Fmt) (s : Bool) (n : Nat) :
    Fl.number F (Fl.abs (.fin s n)) = |Fl.number F (.fin s n)| ∧ (∃ k, Fl.abs (.fin s n) = .fin false k) ∧
    Fl.abs (.inf s) = .inf false ∧ Fl.abs .nan = .nan := by
  refine ⟨?_, ⟨n, rfl⟩, rfl, rfl⟩
  rw [number_abs, Fl.abs, number_fin]
  have : (0 : ℚ) ≤ (n : ℚ) / 2 ^ F.one := by positivity
  cases s <;> simp [Fl.units, abs_of_nonneg this]

end Heu
