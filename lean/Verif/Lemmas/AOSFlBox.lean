import Verif.Lemmas.AOSFlRun
import Verif.Props.PSO

/-! # Atomic orbital search on IEEE doubles: states -/

set_option linter.unusedSectionVars false
set_option linter.unusedSimpArgs false
set_option linter.unusedVariables false
set_option linter.unnecessarySimpa false

namespace Heu
open Spec

variable {F : Fmt}

/-! ### magnitudes -/

theorem Fl.add_absLe {x y : Fl} {A B : Nat} (hx : x.AbsLe A) (hy : y.AbsLe B) (hr : Rep F.mb (A + B))
    (ht : A + B < 2 ^ F.top) : (x.add F y).AbsLe (A + B) := by
  obtain ⟨s, n, rfl, hn⟩ := hx
  obtain ⟨t, m, rfl, hm⟩ := hy
  unfold Fl.add
  dsimp only
  split
  · exact ⟨_, 0, rfl, by omega⟩
  · refine Fl.mk_absLe F (rndUnits_le _ _ _ one_pos hr ?_) ht
    have h1 : (Fl.units s n).natAbs ≤ A := by unfold Fl.units; split <;> simp <;> omega
    have h2 : (Fl.units t m).natAbs ≤ B := by unfold Fl.units; split <;> simp <;> omega
    have := Int.natAbs_add_le (Fl.units s n) (Fl.units t m)
    omega

theorem Fl.neg_absLe {x : Fl} {A : Nat} (hx : x.AbsLe A) : x.neg.AbsLe A := by
  obtain ⟨s, n, rfl, hn⟩ := hx
  exact ⟨!s, n, rfl, hn⟩

theorem Fl.mulUnit_absLe {x y : Fl} {A : Nat} (hx : x.AbsLe (2 ^ F.one)) (hy : y.AbsLe A) (hr : Rep F.mb A)
    (ht : A < 2 ^ F.top) : (x.mul F y).AbsLe A := by
  have h1 : rndUnits F.mb (2 ^ F.one * A) (2 ^ F.one) ≤ A :=
    rndUnits_le _ _ _ (by positivity) hr (by rw [Nat.mul_comm])
  obtain ⟨s, n, h2, h3⟩ := Fl.mul_absLe F hx hy (lt_of_le_of_lt h1 ht)
  exact ⟨s, n, h2, h3.trans h1⟩

theorem Fl.divNat_absLe {x : Fl} {A q : Nat} (hx : x.AbsLe A) (hr : Rep F.mb A) (ht : A < 2 ^ F.top)
    (hq : 0 < q) : (x.div F (Fl.ofNat F q)).AbsLe A := by
  obtain ⟨s, n, rfl, hn⟩ := hx
  have hp : 0 < 2 ^ F.one := by positivity
  have hm : q * 2 ^ F.one ≠ 0 := by positivity
  unfold Fl.div Fl.ofNat
  dsimp only
  rw [if_neg hm]
  refine Fl.mk_absLe F (rndUnits_le _ _ _ (by omega) hr ?_) ht
  calc n * 2 ^ F.one ≤ A * 2 ^ F.one := Nat.mul_le_mul_right _ hn
    _ ≤ A * (q * 2 ^ F.one) := Nat.mul_le_mul_left _ (Nat.le_mul_of_pos_left _ hq)

theorem Fl.AbsLe.mono {x : Fl} {A B : Nat} (h : x.AbsLe A) (hab : A ≤ B) : x.AbsLe B := by
  obtain ⟨s, n, rfl, hn⟩ := h
  exact ⟨s, n, rfl, hn.trans hab⟩

theorem Fl.AbsLe.ne_nan {x : Fl} {A : Nat} (h : x.AbsLe A) : x ≠ .nan := by
  obtain ⟨s, n, rfl, -⟩ := h; simp

theorem Fl.AbsLe.fin {x : Fl} {A : Nat} (h : x.AbsLe A) : ∃ s n, x = .fin s n := by
  obtain ⟨s, n, rfl, -⟩ := h; exact ⟨s, n, rfl⟩

theorem atMost_absLe {p : Nat} {x : Dbl F} (h : AtMost F p x) : x.val.AbsLe (2 ^ (F.one + p)) := by
  obtain ⟨⟨s, n, he, -, -⟩, h2⟩ := h
  refine ⟨s, n, he, ?_⟩
  rw [he, number_abs_eq, div_le_iff₀ (by positivity), ← pow_add, Nat.add_comm] at h2
  exact_mod_cast h2

/-- Between two small numbers there are only small numbers. -/
theorem between_absLe {lo hi x : Dbl F} {A : Nat} (hlo : lo.val.AbsLe A) (hhi : hi.val.AbsLe A) (h1 : lo ≤ x)
    (h2 : x ≤ hi) : x.val.AbsLe A := by
  obtain ⟨lo⟩ := lo; obtain ⟨hi⟩ := hi; obtain ⟨x⟩ := x
  obtain ⟨s1, n1, rfl, ha1⟩ := hlo
  obtain ⟨s2, n2, rfl, ha2⟩ := hhi
  rw [dbl_le_def] at h1 h2
  cases x with
  | nan => simp [Fl.le] at h1
  | inf s => cases s <;> simp [Fl.le] at h1 h2
  | fin s n =>
    refine ⟨s, n, rfl, ?_⟩
    simp only [Fl.le, decide_eq_true_eq] at h1 h2
    unfold Fl.units at h1 h2
    cases s <;> cases s1 <;> cases s2 <;> simp at h1 h2 <;> omega

/-! ### sums and means -/

/-- Every entry at most `A` units in magnitude. -/
def AllAbs (A : Nat) (v : List (Dbl F)) : Prop := ∀ x ∈ v, x.val.AbsLe A

theorem zipAdd_allAbs {A B : Nat} {u v : List (Dbl F)} (hu : AllAbs A u) (hv : AllAbs B v)
    (hr : Rep F.mb (A + B)) (ht : A + B < 2 ^ F.top) : AllAbs (A + B) (List.zipWith (· + ·) u v) := by
  intro x hx
  obtain ⟨i, hi, rfl⟩ := List.getElem_of_mem hx
  rw [List.getElem_zipWith]
  exact Fl.add_absLe (hu _ (List.getElem_mem _)) (hv _ (List.getElem_mem _)) hr ht

theorem foldAdd_allAbs {e N : Nat} (hN : N < 2 ^ (F.mb + 1)) (ht : N * 2 ^ e < 2 ^ F.top)
    (vs : List (List (Dbl F))) : ∀ (j : Nat) (acc : List (Dbl F)), j + vs.length ≤ N → AllAbs (j * 2 ^ e) acc →
    (∀ v ∈ vs, AllAbs (2 ^ e) v) →
    AllAbs ((j + vs.length) * 2 ^ e) (vs.foldl (fun acc v => List.zipWith (· + ·) acc v) acc) := by
  induction vs with
  | nil => intro j acc _ h _; simpa using h
  | cons v vs ih =>
    intro j acc hj hacc hv
    rw [List.foldl_cons]
    rw [List.length_cons] at hj ⊢
    have h1 : j * 2 ^ e + 2 ^ e = (j + 1) * 2 ^ e := by ring
    have h2 : AllAbs ((j + 1) * 2 ^ e) (List.zipWith (· + ·) acc v) := by
      rw [← h1]
      refine zipAdd_allAbs hacc (hv v (by simp)) ?_ ?_
      · rw [h1]; exact ⟨j + 1, e, by omega, rfl⟩
      · rw [h1]
        exact lt_of_le_of_lt (Nat.mul_le_mul_right _ (by omega)) ht
    have := ih (j + 1) _ (by omega) h2 fun w hw => hv w (by simp [hw])
    rwa [show j + (vs.length + 1) = j + 1 + vs.length by omega]

theorem divNat_allAbs {A q : Nat} {v : List (Dbl F)} (hv : AllAbs A v) (hr : Rep F.mb A) (ht : A < 2 ^ F.top)
    (hq : 0 < q) : AllAbs A (v.map (· / ((q : Nat) : Dbl F))) := by
  intro x hx
  obtain ⟨y, hy, rfl⟩ := List.mem_map.1 hx
  exact Fl.divNat_absLe (hv y hy) hr ht hq

/-! ### children -/

/-- The draws of `randD()` are in `[0, 1)`, and no random step is NaN. -/
structure LegalDrawAOS (d : AOSDraw (Dbl F)) : Prop where
  a : ∀ i, UnitDraw F (d.a i)
  b : ∀ i, UnitDraw F (d.b i)
  c : ∀ i, UnitDraw F (d.c i)
  step : ∀ i, (d.step i).val ≠ .nan

theorem photon_not_nan {d : AOSDraw (Dbl F)} (hd : LegalDrawAOS d) {e N q : Nat} (hN : N + 1 < 2 ^ (F.mb + 1))
    (ht : (N + 1) * 2 ^ e < 2 ^ F.top) (hq : 0 < q) {parent bx bs : List (Dbl F)}
    (hp : AllAbs (2 ^ e) parent) (hbx : AllAbs (2 ^ e) bx) (hbs : AllAbs (N * 2 ^ e) bs) :
    ∀ x ∈ photonState d ((q : Nat) : Dbl F) parent bx bs, x.val ≠ .nan := by
  intro x hx
  unfold photonState at hx
  obtain ⟨i, hi, rfl⟩ := List.getElem_of_mem hx
  rw [List.getElem_zipWith]
  have hi' : i < parent.length ∧ i < bx.length ∧ i < bs.length := by
    simp at hi; omega
  simp only [List.getElem_zipIdx, List.getElem_zip, Nat.zero_add]
  have hNe : Rep F.mb (N * 2 ^ e) := ⟨N, e, by omega, rfl⟩
  have h1e : Rep F.mb (2 ^ e) := ⟨1, e, by
    have : 1 < 2 ^ (F.mb + 1) := Nat.one_lt_two_pow (by omega)
    exact this, by ring⟩
  have hN1 : Rep F.mb ((N + 1) * 2 ^ e) := ⟨N + 1, e, hN, rfl⟩
  have hsum : 2 ^ e + N * 2 ^ e = (N + 1) * 2 ^ e := by ring
  have ht1 : N * 2 ^ e < 2 ^ F.top := lt_of_le_of_lt (Nat.mul_le_mul_right _ (by omega)) ht
  have ht2 : 2 ^ e < 2 ^ F.top := lt_of_le_of_lt (by rw [← hsum]; omega) ht
  have hbX := Fl.mulUnit_absLe (F := F) (unitDraw_absLe F (hd.b i)) (hbx _ (List.getElem_mem hi'.2.1)) h1e ht2
  have hcX := Fl.mulUnit_absLe (F := F) (unitDraw_absLe F (hd.c i)) (hbs _ (List.getElem_mem hi'.2.2)) hNe ht1
  have hdiff := Fl.add_absLe (F := F) hbX (Fl.neg_absLe hcX) (by rw [hsum]; exact hN1) (by rw [hsum]; exact ht)
  rw [hsum] at hdiff
  have hmul := Fl.mulUnit_absLe (F := F) (unitDraw_absLe F (hd.a i)) hdiff hN1 ht
  have hdiv := Fl.divNat_absLe (F := F) hmul hN1 ht hq
  exact Fl.add_fin_ne_nan F _ _ (hp _ (List.getElem_mem hi'.1)).ne_nan hdiv.fin

theorem rest_not_nan {d : AOSDraw (Dbl F)} (hd : LegalDrawAOS d) {A : Nat} {parent : List (Dbl F)}
    (hp : AllAbs A parent) : ∀ x ∈ restState d parent, x.val ≠ .nan := by
  intro x hx
  unfold restState at hx
  obtain ⟨i, hi, rfl⟩ := List.getElem_of_mem hx
  rw [List.getElem_mapIdx]
  rw [List.length_mapIdx] at hi
  obtain ⟨s, n, he⟩ := (hp _ (List.getElem_mem hi)).fin
  show (Fl.add F (parent[i]).val (d.step i).val) ≠ .nan
  rw [he]
  have hst := hd.step i
  cases hs : (d.step i).val with
  | nan => exact absurd hs hst
  | inf t => simp [Fl.add]
  | fin t m => exact Fl.add_fin_ne_nan F _ _ (by simp) ⟨t, m, rfl⟩

/-- Confinement, whatever is confined. -/
theorem confine_inBoxOrNaN (b : Box (Dbl F)) (hb : NonEmptyBox b) (v : List (Dbl F)) (hv : v.length = b.dim) :
    InBoxOrNaN b (confine b v) := by
  refine ⟨by simp [confine, hv], ?_⟩
  intro i hi
  simp only [confine, List.getElem_mapIdx]
  simp only [confine, List.length_mapIdx] at hi
  by_cases hn : (v[i]).val = .nan
  · right; rw [clamp_nan _ _ _ hn]; exact hn
  · left; exact clamp_mem _ _ _ (hb i (by omega)) hn

theorem confine_inBoxFl (b : Box (Dbl F)) (hb : NonEmptyBox b) (v : List (Dbl F)) (hv : v.length = b.dim)
    (hn : ∀ x ∈ v, x.val ≠ .nan) : InBox b (confine b v) := by
  refine ⟨by simp [confine, hv], ?_⟩
  intro i hi
  simp only [confine, List.getElem_mapIdx]
  simp only [confine, List.length_mapIdx] at hi
  exact clamp_mem _ _ _ (hb i (by omega)) (hn _ (List.getElem_mem hi))

theorem inBox_allAbs {b : Box (Dbl F)} {A : Nat} (hmin : ∀ i, i < b.dim → (b.min i).val.AbsLe A)
    (hmax : ∀ i, i < b.dim → (b.max i).val.AbsLe A) {v : List (Dbl F)} (hv : InBox b v) : AllAbs A v := by
  intro x hx
  obtain ⟨i, hi, rfl⟩ := List.getElem_of_mem hx
  have := hv.2 i hi
  exact between_absLe (hmin i (by rw [← hv.1]; exact hi)) (hmax i (by rw [← hv.1]; exact hi)) this.1 this.2

/-! ### what holds of all states -/

section
variable {impl : AOSImpl} {opt : FitnessOption} {o : AOSOption} {b : Box (Dbl F)} {f : List (Dbl F) → Dbl F}
  {env : Nat → AOSEnvFl F}

/-- An invariant of states and of means of states. -/
theorem aosEvalFl_states (P M : List (Dbl F) → Prop) (hdim : ∀ v, P v → v.length = b.dim)
    (hMdim : ∀ v, M v → v.length = b.dim)
    (hatom : ∀ vs : List (List (Dbl F)), vs ≠ [] → vs.length ≤ 2 * o.electronNum → (∀ v ∈ vs, P v) →
      M ((sumStates b.dim vs).map (· / ((vs.length : Nat) : Dbl F))))
    (hlayer : ∀ (v : List (Dbl F)) (vs : List (List (Dbl F))), vs.length + 1 ≤ 2 * o.electronNum → P v →
      (∀ v ∈ vs, P v) → M ((vs.foldl (fun acc v => List.zipWith (· + ·) acc v) v).map
        (· / ((vs.length + 1 : Nat) : Dbl F))))
    (hphoton : ∀ (i n q : Nat) (parent bx bs : List (Dbl F)), P parent → P bx → M bs → 0 < q →
      P (confine b (photonState ((env i).draw n) ((q : Nat) : Dbl F) parent bx bs)))
    (hrest : ∀ (i n : Nat) (parent : List (Dbl F)), P parent → P (confine b (restState ((env i).draw n) parent)))
    {s0 : AOSState (Dbl F)} (hs : AOSReadyFl f s0) (h0 : s0.electrons.length ≤ 2 * o.electronNum)
    (hP0 : ∀ c ∈ s0.electrons, P c.2.var) :
    ∀ (i : Nat) (t : AOSState (Dbl F)), aosEvalFl impl opt o b f env s0 i = .ok t →
      (∀ c ∈ t.electrons, P c.2.var) ∧ M t.bindingState := by
  have heval : ∀ {s t : AOSState (Dbl F)}, AOSReadyFl f s → s.electrons.length ≤ 2 * o.electronNum →
      (∀ c ∈ s.electrons, P c.2.var) → aosEvaluate opt f s = .ok t →
      (∀ c ∈ t.electrons, P c.2.var) ∧ M t.bindingState := by
    intro s t hs hlen hPs h
    obtain ⟨h1, -, -, -, ⟨g, hg⟩, ⟨c0, h2, c, hc, hc0⟩, -⟩ := aosEvaluate_fl h hs.distinct hs.cache
    have hPt : ∀ c ∈ t.electrons, P c.2.var := by
      intro c hc
      rw [h1] at hc
      obtain ⟨-, -, d, hd, -, hdv⟩ := computeAllFitness_mem hs.cache c hc
      rw [← hdv]; exact hPs d hd
    refine ⟨hPt, ?_⟩
    have hlen' : t.electrons.length ≤ 2 * o.electronNum := by rw [h1]; simpa [computeAllFitness] using hlen
    have := hatom (t.electrons.map (·.2.var)) (by
      intro h0; rw [List.map_eq_nil_iff] at h0; rw [h0] at hg; cases hg) (by simpa using hlen') (by
      intro v hv
      obtain ⟨c, hc, rfl⟩ := List.mem_map.1 hv
      exact hPt c hc)
    rw [h2, hc0, hdim _ (hPt c hc)]
    simpa using this
  intro i
  induction i with
  | zero => intro t h; exact heval hs h0 hP0 h
  | succ i ih =>
    intro t h
    obtain ⟨t0, u, v, h1, h2, h3, h4⟩ := aosEvalFl_succ h
    obtain ⟨hPt, hMt⟩ := ih t0 h1
    have ha := aosEvalFl_after hs i t0 h1
    obtain ⟨-, hu2, hready, ⟨S, hp, -, hu1⟩, ⟨new', hv', -, hl', -⟩, -⟩ := generation_fl ha h2 h3 h4
    obtain ⟨_, _, _, -, -, -, -, -, -, hubs, -⟩ := select_okFl h2
    obtain ⟨w, hw1, hw2, -, hw3, -, hw4, hw5⟩ := children_ok h3
    have hwP : ∀ c ∈ w.electrons, P c.2.var := by
      intro c hc
      rw [hw1, hu1] at hc
      exact hPt c (keptFl_sub c hc)
    have hul : u.electrons.length ≤ o.electronNum := by
      rw [hu1, keptFl_length ha.distinct hp]; omega
    have hwl : w.electrons.length ≤ o.electronNum := by rw [hw1]; exact hul
    have hflat : (w.layers.map (·.members.length)).sum ≤ o.electronNum := by
      obtain ⟨S', _, _, -, hp', -, hu', -, -, -, -, -, -, hmk⟩ := select_okFl h2
      have h5 := congrArg (List.map List.length) (layers_members hw4)
      rw [List.map_map, List.map_map] at h5
      have h6 : (w.layers.map (·.members.length)).sum = ((u.layers.map (·.members)).flatten).length := by
        rw [List.length_flatten, List.map_map]
        exact congrArg List.sum h5
      rw [h6, (makeLayersFl_flatten hmk).1, List.length_map, List.length_take]
      omega
    have hlM : ∀ l ∈ w.layers, M l.bindingState := by
      intro l hl
      obtain ⟨hlen, hpt⟩ := Out.mapM_length hw4
      obtain ⟨j, hj, rfl⟩ := List.getElem_of_mem hl
      have hc := hpt j _ _ (List.getElem?_eq_getElem (by omega)) (List.getElem?_eq_getElem hj)
      obtain ⟨hm, -, e, rest, hd, hbst, -⟩ := computeLayer_ok hc
      obtain ⟨hl1, hl2⟩ := derefAll_ok hd
      have hmem : ∀ x ∈ e :: rest, P x.var := by
        intro x hx
        obtain ⟨m, hm, rfl⟩ := List.getElem_of_mem hx
        have := hl2 m _ _ (List.getElem?_eq_getElem (by omega)) (List.getElem?_eq_getElem hm)
        rw [← hw1] at this
        exact hwP _ this
      have hcount : rest.length + 1 ≤ 2 * o.electronNum := by
        have h7 : (w.layers[j]).members.length ≤ (w.layers.map (·.members.length)).sum :=
          List.single_le_sum (fun _ _ => Nat.zero_le _) _ (List.mem_map_of_mem (List.getElem_mem hj))
        rw [hm, ← hl1, List.length_cons] at h7
        omega
      rw [hbst, ← List.foldl_map (f := fun x : Gene (List (Dbl F)) (Dbl F) => x.var)
        (g := fun acc v => List.zipWith (· + ·) acc v)]
      have := hlayer e.var (rest.map (·.var)) (by simpa using hcount) (hmem e (by simp)) (by
        intro x hx
        obtain ⟨y, hy, rfl⟩ := List.mem_map.1 hx
        exact hmem y (by simp [hy]))
      simpa using this
    have hgrow := updateElectrons_ok (P := P) (by
      intro n m s hg layer idx hidx a parent st ham hdp hcs
      obtain ⟨new, e1, -, e3⟩ := hg.new
      have hall : ∀ a g, deref s.electrons a = .ok g → P g.var := by
        intro a g h
        have := deref_ok h
        rw [e1] at this
        rcases List.mem_append.1 this with h | h
        · exact hwP _ h
        · exact (e3 _ h).2.1
      unfold childState at hcs
      by_cases hph : ((env i).toAOSEnv.draw n).photon = true
      · rw [if_pos hph] at hcs
        by_cases hen : energyBetter opt parent.fitness layer.bindingEnergy = true
        · rw [if_pos hen] at hcs
          cases hm : layer.members[layer.bestIdx]? with
          | none => rw [hm] at hcs; cases hcs
          | some a' =>
            rw [hm] at hcs
            dsimp only at hcs
            rw [Out.bind_eq_ok] at hcs
            obtain ⟨lb, hlbd, hcs⟩ := hcs
            cases hcs
            exact hphoton i n 1 _ _ _ (hall _ _ hdp) (hall _ _ hlbd) (hlM layer (List.mem_of_getElem? hidx)) one_pos
        · rw [if_neg hen, Out.bind_eq_ok] at hcs
          obtain ⟨ab, hab, hcs⟩ := hcs
          cases hcs
          exact hphoton i n (idx + 1) _ _ _ (hall _ _ hdp) (hall _ _ hab)
            (by rw [hg.bindingState, hw3, hubs]; exact hMt) (by omega)
      · rw [if_neg hph] at hcs
        cases hcs
        exact hrest i n _ (hall _ _ hdp)) hw5
    obtain ⟨new, hn1, -, hn3⟩ := hgrow.new
    refine heval hready ?_ ?_ h4
    · rw [hv', List.length_append, hl']; omega
    · intro c hc
      rw [hn1] at hc
      rcases List.mem_append.1 hc with h | h
      · exact hwP c h
      · exact (hn3 c h).2.1

end

end Heu
