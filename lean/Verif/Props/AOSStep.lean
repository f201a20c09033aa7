import Verif.Props.AOS

/-!
# C100: where the electrons of atomic orbital search move
-/

set_option linter.unusedSectionVars false
set_option linter.unusedSimpArgs false
set_option linter.unusedVariables false

namespace Heu
open Spec

variable {α : Type} [Field α] [LinearOrder α] [IsStrictOrderedRing α] [FloorSemiring α]

theorem clampTo_nearest {lo hi t : α} (h : lo ≤ hi) : Nearest lo hi t (clampTo lo hi t) := by
  refine ⟨(clampTo_mem lo hi t h).1, (clampTo_mem lo hi t h).2, fun z h1 h2 => ?_⟩
  unfold clampTo stdMax stdMin
  split
  · rename_i hlt
    rw [if_neg (not_lt.2 h), abs_of_nonpos (by linarith), abs_of_nonpos (by linarith)]
    linarith
  · split
    · rw [abs_of_nonneg (by linarith), abs_of_nonneg (by linarith)]
      linarith
    · simp

theorem confine_photon {b : Box α} (hb : NonEmptyBox b) {d : AOSDraw α} {q : α} {parent bx bs : List α}
    (h1 : parent.length = b.dim) (h2 : bx.length = b.dim) (h3 : bs.length = b.dim) :
    PhotonMove b d.a d.b d.c q bx bs parent (confine b (photonState d q parent bx bs)) := by
  refine ⟨by simp [confine, photonState, h1, h2, h3], fun i hi => ?_⟩
  have e : (confine b (photonState d q parent bx bs)).getD i 0 =
      clampTo (b.min i) (b.max i) (parent.getD i 0 + d.a i * (d.b i * bx.getD i 0 - d.c i * bs.getD i 0) / q) := by
    simp [confine, photonState, List.getD_eq_getElem?_getD, List.getElem?_mapIdx, List.getElem?_zipWith,
      List.getElem?_zip_eq_some, List.getElem?_eq_getElem, h1, h2, h3, hi]
  rw [e]
  exact clampTo_nearest (hb i hi)

/-- **C100**.  A child made by a photon lies at the point of the box nearest to the documented target: a parent
that beats the mean energy of its layer is moved by the best and the mean state of the layer, any other parent
by the best and the mean state of the whole atom, and the step of the latter is divided by the number of the
layer, counted from one. -/
theorem aos_photon_child (opt : FitnessOption) (b : Box α) (hb : NonEmptyBox b) (d : AOSDraw α)
    (s : AOSState α) (layer : Layer α) (idx : Nat) (parent : Gene (List α) α) (st : List α)
    (hel : ∀ c ∈ s.electrons, InBox b c.2.var) (hpar : InBox b parent.var)
    (hlb : InBox b layer.bindingState) (hsb : InBox b s.bindingState) (hp : d.photon = true)
    (h : childState opt b d s layer idx parent = .ok st) :
    (Better opt parent.fitness layer.bindingEnergy → ∃ a g, layer.members[layer.bestIdx]? = some a ∧
      (a, g) ∈ s.electrons ∧ PhotonMove b d.a d.b d.c 1 g.var layer.bindingState parent.var st) ∧
    (¬ Better opt parent.fitness layer.bindingEnergy → ∃ g, (s.best, g) ∈ s.electrons ∧
      PhotonMove b d.a d.b d.c (idx + 1) g.var s.bindingState parent.var st) := by
  have hbet : energyBetter opt parent.fitness layer.bindingEnergy = true ↔
      Better opt parent.fitness layer.bindingEnergy := by
    cases opt <;> simp [energyBetter, Better]
  unfold childState at h
  rw [if_pos hp, Nat.cast_one, Nat.cast_add, Nat.cast_one] at h
  by_cases he : energyBetter opt parent.fitness layer.bindingEnergy = true
  · refine ⟨fun _ => ?_, fun hn => absurd (hbet.1 he) hn⟩
    rw [if_pos he] at h
    cases hm : layer.members[layer.bestIdx]? with
    | none => rw [hm] at h; cases h
    | some a =>
      rw [hm] at h
      dsimp only at h
      rw [Out.bind_eq_ok] at h
      obtain ⟨lb, hlbd, h⟩ := h
      cases h
      exact ⟨a, lb, rfl, deref_ok hlbd, confine_photon hb hpar.1 (hel _ (deref_ok hlbd)).1 hlb.1⟩
  · refine ⟨fun hn => absurd (hbet.2 hn) he, fun _ => ?_⟩
    rw [if_neg he, Out.bind_eq_ok] at h
    obtain ⟨ab, hab, h⟩ := h
    cases h
    exact ⟨ab, deref_ok hab, confine_photon hb hpar.1 (hel _ (deref_ok hab)).1 hsb.1⟩

theorem getD_inBox {b : Box α} {v : List α} (h : InBox b v) {i : Nat} (hi : i < b.dim) :
    b.min i ≤ v.getD i 0 ∧ v.getD i 0 ≤ b.max i := by
  have hl : i < v.length := by rw [h.1]; exact hi
  have := h.2 i hl
  rw [List.getD_eq_getElem?_getD, List.getElem?_eq_getElem hl]
  exact this

theorem photon_reach {lo hi a b c x y p k t : α} (ha : 0 ≤ a ∧ a ≤ 1) (hb : 0 ≤ b ∧ b ≤ 1) (hc : 0 ≤ c ∧ c ≤ 1)
    (hx : lo ≤ x ∧ x ≤ hi) (hy : lo ≤ y ∧ y ≤ hi) (hp : lo ≤ p ∧ p ≤ hi) (hk : 0 < k)
    (ht : Nearest lo hi (p + a * (b * x - c * y) / k) t) : |t - p| ≤ (max hi 0 - min lo 0) / k := by
  obtain ⟨h1, h2, h3⟩ := ht
  have hU : ∀ b x : α, 0 ≤ b → b ≤ 1 → lo ≤ x → x ≤ hi → min lo 0 ≤ b * x ∧ b * x ≤ max hi 0 := by
    intro b x b0 b1 x0 x1
    have m0 : min lo 0 ≤ lo := min_le_left _ _
    have m1 : min lo 0 ≤ 0 := min_le_right _ _
    have n0 : hi ≤ max hi 0 := le_max_left _ _
    have n1 : 0 ≤ max hi 0 := le_max_right _ _
    constructor <;> nlinarith
  obtain ⟨u1, u2⟩ := hU b x hb.1 hb.2 hx.1 hx.2
  obtain ⟨v1, v2⟩ := hU c y hc.1 hc.2 hy.1 hy.2
  have hD : |a * (b * x - c * y)| ≤ max hi 0 - min lo 0 := by
    rw [abs_mul, abs_of_nonneg ha.1]
    have : |b * x - c * y| ≤ max hi 0 - min lo 0 := by rw [abs_le]; constructor <;> linarith
    nlinarith [abs_nonneg (b * x - c * y)]
  have hstep : |a * (b * x - c * y) / k| ≤ (max hi 0 - min lo 0) / k := by
    rw [abs_div, abs_of_pos hk]
    exact div_le_div_of_nonneg_right hD hk.le
  refine le_trans ?_ hstep
  -- the nearest point to the target is no farther from `p` than the target
  obtain ⟨T, hT⟩ : ∃ T, T = a * (b * x - c * y) / k := ⟨_, rfl⟩
  rw [← hT] at h3 ⊢
  have key := h3 (clampTo lo hi (p + T)) (clampTo_mem _ _ _ (hx.1.trans hx.2)).1 (clampTo_mem _ _ _ (hx.1.trans hx.2)).2
  by_cases c1 : hi < p + T
  · have := h3 hi (hx.1.trans hx.2) le_rfl
    rw [abs_of_nonpos (by linarith), abs_of_nonpos (by linarith)] at this
    rw [abs_of_nonneg (by linarith [hp.2] : (0:α) ≤ t - p), abs_of_nonneg (by linarith [hp.2])]
    linarith
  · by_cases c2 : p + T < lo
    · have := h3 lo le_rfl (hx.1.trans hx.2)
      rw [abs_of_nonneg (by linarith), abs_of_nonneg (by linarith)] at this
      rw [abs_of_nonpos (by linarith [hp.1] : t - p ≤ 0), abs_of_nonpos (by linarith [hp.1])]
      linarith
    · have := h3 (p + T) (not_lt.1 c2) (not_lt.1 c1)
      have e : t = p + T := by
        have h0 : |t - (p + T)| = 0 := le_antisymm (by simpa using this) (abs_nonneg _)
        linarith [abs_eq_zero.1 h0]
      rw [e]; simp

/-- **C100**.  With random factors in `[0, 1]` a child differs from its parent by at most the extent of the
interval spanned by the box and the origin; when the parent does not beat the mean of its layer, by at most that
extent divided by the number of the layer: outer layers search ever closer to the parents. -/
theorem aos_photon_step (opt : FitnessOption) (b : Box α) (hb : NonEmptyBox b) (d : AOSDraw α)
    (s : AOSState α) (layer : Layer α) (idx : Nat) (parent : Gene (List α) α) (st : List α)
    (hd : ∀ i, (0 ≤ d.a i ∧ d.a i ≤ 1) ∧ (0 ≤ d.b i ∧ d.b i ≤ 1) ∧ (0 ≤ d.c i ∧ d.c i ≤ 1))
    (hel : ∀ c ∈ s.electrons, InBox b c.2.var) (hpar : InBox b parent.var)
    (hlb : InBox b layer.bindingState) (hsb : InBox b s.bindingState) (hp : d.photon = true)
    (h : childState opt b d s layer idx parent = .ok st) (i : Nat) (hi : i < b.dim) :
    |st.getD i 0 - parent.var.getD i 0| ≤ (max (b.max i) 0 - min (b.min i) 0) ∧
    (¬ Better opt parent.fitness layer.bindingEnergy →
      |st.getD i 0 - parent.var.getD i 0| ≤ (max (b.max i) 0 - min (b.min i) 0) / (idx + 1)) := by
  obtain ⟨h1, h2⟩ := aos_photon_child opt b hb d s layer idx parent st hel hpar hlb hsb hp h
  have hk : (0 : α) < idx + 1 := by positivity
  have hD : (0 : α) ≤ max (b.max i) 0 - min (b.min i) 0 := by
    have := le_max_right (b.max i) 0
    have := min_le_right (b.min i) 0
    linarith
  have hslow : ¬ Better opt parent.fitness layer.bindingEnergy →
      |st.getD i 0 - parent.var.getD i 0| ≤ (max (b.max i) 0 - min (b.min i) 0) / (idx + 1) := by
    intro hn
    obtain ⟨g, hg, hm⟩ := h2 hn
    exact photon_reach (hd i).1 (hd i).2.1 (hd i).2.2 (getD_inBox (hel _ hg) hi) (getD_inBox hsb hi)
      (getD_inBox hpar hi) hk (hm.2 i hi)
  refine ⟨?_, hslow⟩
  by_cases he : Better opt parent.fitness layer.bindingEnergy
  · obtain ⟨a, g, -, hg, hm⟩ := h1 he
    have := photon_reach (hd i).1 (hd i).2.1 (hd i).2.2 (getD_inBox (hel _ hg) hi) (getD_inBox hlb hi)
      (getD_inBox hpar hi) one_pos (hm.2 i hi)
    simpa using this
  · refine (hslow he).trans (div_le_self hD ?_)
    have : (0 : α) ≤ idx := by positivity
    linarith

theorem mean_between {l : List α} {lo hi : α} (hne : l ≠ []) (h : ∀ x ∈ l, lo ≤ x ∧ x ≤ hi) :
    lo ≤ mean l ∧ mean l ≤ hi := by
  have hl : (0 : α) < (l.length : α) := by exact_mod_cast List.length_pos_iff.2 hne
  have hs : lo * l.length ≤ l.sum ∧ l.sum ≤ hi * l.length := by
    clear hne hl
    induction l with
    | nil => simp
    | cons x l ih =>
      obtain ⟨i1, i2⟩ := ih fun y hy => h y (by simp [hy])
      obtain ⟨x1, x2⟩ := h x (by simp)
      simp only [List.sum_cons, List.length_cons, Nat.cast_add, Nat.cast_one]
      constructor <;> nlinarith
  unfold mean
  rw [le_div_iff₀ hl, div_le_iff₀ hl]
  exact hs

theorem meanVector_inBox {b : Box α} {m : List α} {vs : List (List α)} (hne : vs ≠ [])
    (hv : ∀ v ∈ vs, InBox b v) (h : IsMeanVector b.dim m vs) : InBox b m := by
  refine ⟨h.1, fun i hi => ?_⟩
  have hd : i < b.dim := by rw [← h.1]; exact hi
  have e := h.2 i hd
  rw [List.getD_eq_getElem?_getD, List.getElem?_eq_getElem hi] at e
  simp only [Option.getD_some] at e
  rw [e]
  refine mean_between (by simpa using hne) ?_
  intro x hx
  obtain ⟨v, hvm, rfl⟩ := List.mem_map.1 hx
  exact getD_inBox (hv v hvm) hd

/-- **C100** (the hypotheses above are met in every run): the mean states of the atom and of every layer are in
the box as long as the electrons are (C51). -/
theorem aos_means_in_box (impl : AOSImpl) (opt : FitnessOption) (b : Box α) :
    (∀ (f : List α → α) (s t : AOSState α), (∀ c ∈ s.electrons, InBox b c.2.var) →
      (∀ c ∈ t.electrons, InBox b c.2.var) → t.electrons ≠ [] →
      aosEvaluate opt f s = .ok t → InBox b t.bindingState) ∧
    (∀ (pop : Pop (Gene (List α) α)) (l l' : Layer α), (∀ c ∈ pop, InBox b c.2.var) →
      computeLayer impl opt pop l = .ok l' → InBox b l'.bindingState) := by
  constructor
  · intro f s t hs ht hne h
    have := (aos_atom_means opt f s t b.dim (fun c hc => (hs c hc).1) h).1
    refine meanVector_inBox (by simpa using hne) ?_ this
    intro v hv
    obtain ⟨c, hc, rfl⟩ := List.mem_map.1 hv
    exact ht c hc
  · intro pop l l' hp h
    obtain ⟨es, he1, he2, -, he3, -⟩ := aos_layer_means_partial impl opt pop b.dim (fun c hc => (hp c hc).1) l l' h
    refine meanVector_inBox (by simpa using he2) ?_ he3
    intro v hv
    obtain ⟨e, hee, rfl⟩ := List.mem_map.1 hv
    obtain ⟨j, hj, rfl⟩ := List.getElem_of_mem hee
    exact hp _ (he1.2 j _ _ (List.getElem?_eq_getElem (by rw [← he1.1]; exact hj)) (List.getElem?_eq_getElem hj))

/-- Non-vacuity: an electron at 2 in the third layer, box `[-4, 4]`, atom best at 3, atom mean at -3, all
factors 1: the child is at `2 + 6/3 = 4`; from a parent that beats its layer (best 1, mean -4) it is at 4 too,
but only because of the box. -/
example :
    childState .lessBetter (⟨1, fun _ => -4, fun _ => 4⟩ : Box ℚ) ⟨true, fun _ => 1, fun _ => 1, fun _ => 1, fun _ => 0⟩
      { electrons := [(0, ⟨[3], 0, true⟩), (1, ⟨[1], 5, true⟩)], best := 0, layers := [], bindingState := [-3],
        bindingEnergy := 7, early := 0 } ⟨[1], [-4], 6, 0⟩ 2 ⟨[2], 8, true⟩ = .ok [4] ∧
    childState .lessBetter (⟨1, fun _ => -4, fun _ => 4⟩ : Box ℚ) ⟨true, fun _ => 1, fun _ => 1, fun _ => 1, fun _ => 0⟩
      { electrons := [(0, ⟨[3], 0, true⟩), (1, ⟨[1], 5, true⟩)], best := 0, layers := [], bindingState := [-3],
        bindingEnergy := 7, early := 0 } ⟨[1], [-4], 6, 0⟩ 2 ⟨[2], 5, true⟩ = .ok [4] ∧
    childState .lessBetter (⟨1, fun _ => -4, fun _ => 4⟩ : Box ℚ) ⟨true, fun _ => 1, fun _ => 1/2, fun _ => 1, fun _ => 0⟩
      { electrons := [(0, ⟨[3], 0, true⟩), (1, ⟨[1], 5, true⟩)], best := 0, layers := [], bindingState := [-3],
        bindingEnergy := 7, early := 0 } ⟨[1], [-4], 6, 0⟩ 2 ⟨[2], 8, true⟩ = .ok [7/2] := by
  decide +kernel

end Heu
