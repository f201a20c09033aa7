import Verif.Lemmas.Niche
import Verif.Lemmas.NSGA2Fl
import Verif.Spec.NSGA3Fl
import Verif.Props.BoxFl

/-! The niche loop of NSGA-III on IEEE data. -/

set_option linter.unusedSectionVars false
set_option linter.unusedSimpArgs false

namespace Heu
open Spec

variable {G : Type} [DecidableEq G] {m : Nat} (F : Fmt)

theorem lt_nan_right (x : Fl) : Fl.lt x .nan = false := by cases x <;> rfl

theorem lt_nan_left (x : Fl) : Fl.lt .nan x = false := by cases x <;> rfl

theorem lt_irreflFl (x : Fl) : Fl.lt x x = false := by
  have := fl_lt_iff binary64 x x
  by_contra h
  rw [Bool.not_eq_false] at h
  exact lt_irrefl _ (this.1 h).2.2

/-- Scanning for the least value: nothing in the list is less than the result. -/
theorem lt_of_not_lt_of_lt {x y z : Fl} (h1 : Fl.lt y x = true) (h2 : Fl.lt z x = false) : Fl.lt z y = false := by
  by_contra h
  rw [Bool.not_eq_false] at h
  have a := (fl_lt_iff binary64 _ _).1 h
  have b := (fl_lt_iff binary64 _ _).1 h1
  have : Fl.lt z x = true := (fl_lt_iff binary64 _ _).2 ⟨a.1, b.2.1, lt_trans a.2.2 b.2.2⟩
  rw [h2] at this; cases this

theorem foldl_closestFl_mem (dist : G → Fl) (xs : List (Nat × G)) : ∀ x : Nat × G,
    xs.foldl (fun mn it => if Fl.lt (dist it.2) (dist mn.2) then it else mn) x ∈ x :: xs := by
  induction xs with
  | nil => intro x; simp
  | cons y ys ih =>
    intro x
    rw [List.foldl_cons]
    by_cases h : Fl.lt (dist y.2) (dist x.2) = true
    · rw [if_pos h]
      rcases List.mem_cons.1 (ih y) with h' | h'
      · rw [h']; simp
      · simp [h']
    · rw [if_neg h]
      rcases List.mem_cons.1 (ih x) with h' | h'
      · rw [h']; simp
      · simp [h']

theorem foldl_closestFl_le (dist : G → Fl) (xs : List (Nat × G)) : ∀ x : Nat × G, ∀ y ∈ x :: xs,
    Fl.lt (dist y.2) (dist (xs.foldl (fun mn it => if Fl.lt (dist it.2) (dist mn.2) then it else mn) x).2)
      = false := by
  have key : ∀ (xs : List (Nat × G)) (x : Nat × G) (z : Fl), Fl.lt z (dist x.2) = false →
      Fl.lt z (dist (xs.foldl (fun mn it => if Fl.lt (dist it.2) (dist mn.2) then it else mn) x).2) = false := by
    intro xs
    induction xs with
    | nil => intro x z h; exact h
    | cons y ys ih =>
      intro x z h
      rw [List.foldl_cons]
      apply ih
      by_cases h' : Fl.lt (dist y.2) (dist x.2) = true
      · rw [if_pos h']; exact lt_of_not_lt_of_lt h' h
      · rw [if_neg h']; exact h
  induction xs with
  | nil => intro x y hy; simp at hy; rw [hy]; exact lt_irreflFl _
  | cons z zs ih =>
    intro x y hy
    rcases List.mem_cons.1 hy with rfl | hy
    · exact key _ _ _ (lt_irreflFl _)
    · rw [List.foldl_cons]
      rcases List.mem_cons.1 hy with rfl | hy
      · apply key
        by_cases h : Fl.lt (dist y.2) (dist x.2) = true
        · rw [if_pos h]; exact lt_irreflFl _
        · rw [if_neg h]; simpa using h
      · exact ih _ y (by simp [hy])

theorem pickClosestFl_spec (dist : G → Fl) (xs : List (Nat × G)) (hne : xs ≠ []) :
    ∃ p ∈ xs, pickClosestFl dist xs = .ok p ∧ ∀ y ∈ xs, Fl.lt (dist y.2) (dist p.2) = false := by
  cases xs with
  | nil => exact absurd rfl hne
  | cons x xs =>
    refine ⟨_, ?_, rfl, ?_⟩
    · rcases List.mem_cons.1 (foldl_closestFl_mem dist (x :: xs) x) with h | h
      · rw [h]; simp
      · exact h
    · intro y hy
      exact foldl_closestFl_le dist (x :: xs) x y (by simp at hy ⊢; tauto)

/-- A draw passes the test once one individual is left. -/
def DrawUpToOne (x : Fl) : Prop := Fl.le (Fl.mul F x (Fl.ofNat F 1)) (Fl.ofNat F 1) = true

theorem pickRandomFl_spec (draws : Nat → Fl) (hd : ∀ k, DrawUpToOne F (draws k)) (xs : List (Nat × G)) :
    ∀ k, xs ≠ [] → ∃ p ∈ xs, pickRandomFl F draws k xs.length xs = .ok p := by
  induction xs with
  | nil => intro k h; exact absurd rfl h
  | cons x xs ih =>
    intro k _
    rw [pickRandomFl]
    split
    · exact ⟨x, by simp, rfl⟩
    · rename_i hgt
      cases xs with
      | nil => exfalso; apply hgt; exact hd k
      | cons y ys =>
        obtain ⟨p, hp, he⟩ := ih (k + 1) (by simp)
        refine ⟨p, by simp only [List.mem_cons] at hp ⊢; tauto, ?_⟩
        simpa using he

theorem draw_unit (hF : F.Good) {d : NicheDraw Fl G} (hd : LegalDrawFl F d) (k : Nat) : DrawUpToOne F (d.draws k) := by
  obtain ⟨h1, h2, h3⟩ := hd.unit k
  have one_fin : (Fl.ofNat F 1).Finite F := by
    refine ⟨false, 2 ^ F.one, by simp [Fl.ofNat], ⟨1, F.one, Nat.one_lt_two_pow (by omega), by simp⟩,
      Nat.pow_lt_pow_right (by norm_num) (by have := hF.wide; have := hF.pow_eb; simp only [Fmt.one, Fmt.top]; omega)⟩
  exact (fl_mul_between hF _ _ h1 one_fin (by rw [abs_le]; constructor <;> linarith) (by
    rw [Fl.ofNat]; simp [Fl.number])).2

theorem nicheStepFl_done (K : Nat) (dist : G → Fl) (d : NicheDraw Fl G) (s : NicheState G)
    (h : ¬ s.selected.card < K) : nicheStepFl F K dist d s = .ok none := by
  simp [nicheStepFl, h]

theorem nicheStepFl_progress (K : Nat) (hK32 : K ≤ 0xFFFFFFFF) (dist : G → Fl) (d : NicheDraw Fl G)
    (hF : F.Good) (hd : LegalDrawFl F d)
    (sel0 : Finset G) (layer : List G) (s : NicheState G) (h : NicheInv K sel0 layer s)
    (hlt : s.selected.card < K) :
    ∃ s', nicheStepFl F K dist d s = .ok (some s') ∧ NicheInv K sel0 layer s' ∧
      s'.fl.length + s'.refPoints.length < s.fl.length + s.refPoints.length := by
  have hfl : s.fl ≠ [] := by
    intro e; have := h.enough; rw [e] at this; simp at this; omega
  have hrp : s.refPoints ≠ [] := by
    obtain ⟨e, he⟩ := List.exists_mem_of_ne_nil _ hfl
    obtain ⟨r, hr, _⟩ := h.keys e he
    exact List.ne_nil_of_mem hr
  have hmin : findMinSet s.refPoints ≠ [] := by
    apply findMinSet_ne_nil hrp
    intro x hx; have := h.counts x hx; have := h.notTooMany; omega
  have hpos : 0 < (findMinSet s.refPoints).length := List.length_pos_iff.2 hmin
  have hidx := hd.idx _ hpos
  obtain ⟨cur, hcur⟩ : ∃ cur, (findMinSet s.refPoints)[d.rIdx (findMinSet s.refPoints).length]?
      = some cur := ⟨_, List.getElem?_eq_getElem hidx⟩
  have hcurm := findMinSet_mem (List.mem_of_getElem? hcur)
  set assoc := d.order (s.fl.filter fun e => e.1 == cur.1) with hassoc
  have hap : assoc.Perm (s.fl.filter fun e => e.1 == cur.1) := hd.order _
  by_cases hne : assoc = []
  · refine ⟨{ s with refPoints := s.refPoints.filter fun r => r.1 != cur.1 }, ?_, ?_, ?_⟩
    · simp only [nicheStepFl, hlt, if_true, hcur]
      rw [← hassoc]; simp [hne]
    · refine { h with keys := ?_, counts := ?_ }
      · intro e he
        obtain ⟨r, hr, hre⟩ := h.keys e he
        refine ⟨r, ?_, hre⟩
        rw [List.mem_filter]
        refine ⟨hr, ?_⟩
        simp only [bne_iff_ne, ne_eq]
        intro hrc
        have : e ∈ assoc := by
          rw [hap.mem_iff, List.mem_filter]
          exact ⟨he, by simp [← hre, hrc]⟩
        rw [hne] at this; simp at this
      · intro r hr
        exact h.counts r (List.mem_filter.1 hr).1
    · have : (s.refPoints.filter fun r => r.1 != cur.1).length < s.refPoints.length := by
        rw [List.length_filter_lt_length_iff_exists]
        exact ⟨cur, hcurm.1, by simp⟩
      simp only; omega
  · have hpick : ∃ p ∈ assoc, (if cur.2 = 0 then pickClosestFl dist assoc
          else pickRandomFl F d.draws 0 assoc.length assoc) = .ok p := by
      split
      · obtain ⟨p, hp, he, _⟩ := pickClosestFl_spec dist assoc hne
        exact ⟨p, hp, he⟩
      · exact pickRandomFl_spec F d.draws (draw_unit F hF hd) assoc 0 hne
    obtain ⟨p, hp, hpe⟩ := hpick
    have hpfl : p ∈ s.fl := (List.mem_filter.1 (hap.mem_iff.1 hp)).1
    have hpn : p.2 ∉ s.selected := h.fldis p hpfl
    have hcard : (insert p.2 s.selected).card = s.selected.card + 1 :=
      Finset.card_insert_of_notMem hpn
    have hflnd : s.fl.Nodup := h.flnd.of_map _
    refine ⟨{ selected := insert p.2 s.selected
              fl := s.fl.erase p
              refPoints := s.refPoints.map fun r => if r.1 = cur.1 then (r.1, r.2 + 1) else r },
      ?_, ?_, ?_⟩
    · simp only [nicheStepFl, hlt, if_true, hcur]
      rw [← hassoc]
      simp only [ne_eq, hne, not_false_eq_true, if_true, hpe, Out.ok_bind]
    · constructor
      · exact h.flnd.sublist ((List.erase_sublist).map _)
      · intro e he hm
        rw [hflnd.mem_erase_iff] at he
        rcases Finset.mem_insert.1 hm with hm | hm
        · exact he.1 ((List.inj_on_of_nodup_map h.flnd) he.2 hpfl hm)
        · exact h.fldis e he.2 hm
      · intro e he; exact h.flsub e (List.mem_of_mem_erase he)
      · intro e he
        obtain ⟨r, hr, hre⟩ := h.keys e (List.mem_of_mem_erase he)
        refine ⟨_, List.mem_map.2 ⟨r, hr, rfl⟩, ?_⟩
        split <;> simp [hre]
      · intro r hr
        obtain ⟨r0, hr0, rfl⟩ := List.mem_map.1 hr
        have := h.counts r0 hr0
        dsimp only
        rw [hcard]
        split
        · simp; omega
        · omega
      · dsimp only
        rw [hcard, List.length_erase_of_mem hpfl]
        have := h.enough
        have := List.length_pos_of_mem hpfl
        omega
      · dsimp only; rw [hcard]; omega
      · obtain ⟨part, hpart, hsub⟩ := h.sel
        refine ⟨insert p.2 part, ?_, ?_⟩
        · dsimp only; rw [hpart]; ext x; simp
        · intro g hg
          rcases Finset.mem_insert.1 hg with rfl | hg
          · exact h.flsub p hpfl
          · exact hsub g hg
    · simp only [List.length_map, List.length_erase_of_mem hpfl]
      have := List.length_pos_of_mem hpfl
      omega

theorem nicheLoopFl_spec (K : Nat) (hK32 : K ≤ 0xFFFFFFFF) (dist : G → Fl) (ds : Nat → NicheDraw Fl G)
    (hF : F.Good) (hd : ∀ k, LegalDrawFl F (ds k)) (sel0 : Finset G) (layer : List G) (fuel : Nat) :
    ∀ (it : Nat) (s : NicheState G), NicheInv K sel0 layer s →
    s.fl.length + s.refPoints.length ≤ fuel →
    ∃ s', nicheLoopFl F K dist ds fuel it s = .ok s' ∧ NicheInv K sel0 layer s' ∧ s'.selected.card = K := by
  induction fuel with
  | zero =>
    intro it s h hf
    by_cases hlt : s.selected.card < K
    · obtain ⟨s', _, _, hl⟩ := nicheStepFl_progress F K hK32 dist (ds it) hF (hd it) sel0 layer s h hlt
      omega
    · refine ⟨s, ?_, h, by have := h.notTooMany; omega⟩
      rw [nicheLoopFl, nicheStepFl_done F K dist (ds it) s hlt]
  | succ n ih =>
    intro it s h hf
    by_cases hlt : s.selected.card < K
    · obtain ⟨s', he, hi, hl⟩ := nicheStepFl_progress F K hK32 dist (ds it) hF (hd it) sel0 layer s h hlt
      obtain ⟨s'', he', hr⟩ := ih (it + 1) s' hi (by omega)
      exact ⟨s'', by rw [nicheLoopFl, he]; exact he', hr⟩
    · refine ⟨s, ?_, h, by have := h.notTooMany; omega⟩
      rw [nicheLoopFl, nicheStepFl_done F K dist (ds it) s hlt]

theorem nicheStepFl_fill (K : Nat) (closest : G → Nat) (dist : G → Fl) (d : NicheDraw Fl G) (hF : F.Good) (hd : LegalDrawFl F d)
    (s s' : NicheState G) (h : NicheInv2 closest s) (hs : nicheStepFl F K dist d s = .ok (some s')) :
    NicheInv2 closest s' ∧ ∀ T, NicheFillFl closest dist s'.selected (s'.fl.map Prod.snd).toFinset T →
      NicheFillFl closest dist s.selected (s.fl.map Prod.snd).toFinset T := by
  unfold nicheStepFl at hs
  split at hs
  · dsimp only at hs
    split at hs
    · cases hs
    · rename_i cur hcur
      have hcurm := findMinSet_mem (List.mem_of_getElem? hcur)
      set assoc := d.order (s.fl.filter fun e => e.1 == cur.1) with hassoc
      have hap : assoc.Perm (s.fl.filter fun e => e.1 == cur.1) := hd.order _
      have hmem : ∀ p, p ∈ assoc ↔ p ∈ s.fl ∧ p.1 = cur.1 := by
        intro p; rw [hap.mem_iff, List.mem_filter]; simp
      by_cases hne : assoc = []
      · simp only [hne, ne_eq, not_true_eq_false, if_false] at hs
        cases hs
        refine ⟨{ h with keys := ?_, count := ?_ }, fun T hF => hF⟩
        · intro e he
          obtain ⟨r, hr, hre⟩ := h.keys e he
          refine ⟨r, ?_, hre⟩
          rw [List.mem_filter]
          refine ⟨hr, ?_⟩
          simp only [bne_iff_ne, ne_eq]
          intro hrc
          have : e ∈ assoc := (hmem e).2 ⟨he, by rw [← hre, hrc]⟩
          rw [hne] at this; simp at this
        · intro r hr
          exact h.count r (List.mem_filter.1 hr).1
      · simp only [hne, ne_eq, not_false_eq_true, if_true] at hs
        obtain ⟨p, hp, hres⟩ := Out.bind_eq_ok.1 hs
        cases hres
        have key : p ∈ assoc ∧ (cur.2 = 0 → ∀ y ∈ assoc, Fl.lt (dist y.2) (dist p.2) = false) := by
          split at hp
          · obtain ⟨p', hp', he, hmin⟩ := pickClosestFl_spec dist assoc hne
            rw [he] at hp; cases hp
            exact ⟨hp', fun _ => hmin⟩
          · rename_i hc
            obtain ⟨p', hp', he⟩ := pickRandomFl_spec F d.draws (draw_unit F hF hd) assoc 0 hne
            rw [he] at hp; cases hp
            exact ⟨hp', fun h0 => absurd h0 hc⟩
        have hp1 := (hmem p).1 key.1
        have hpfl := hp1.1
        have hpn : p.2 ∉ s.selected := h.fldis p hpfl
        have hflnd : s.fl.Nodup := h.flnd.of_map _
        have hpc : closest p.2 = cur.1 := by rw [← h.assoc p hpfl, hp1.2]
        have hcc : cur.2 = nicheCount closest s.selected cur.1 := h.count cur hcurm.1
        refine ⟨⟨?_, ?_, ?_, ?_, ?_⟩, ?_⟩
        · exact h.flnd.sublist ((List.erase_sublist).map _)
        · intro e he hm
          rw [hflnd.mem_erase_iff] at he
          rcases Finset.mem_insert.1 hm with hm | hm
          · exact he.1 ((List.inj_on_of_nodup_map h.flnd) he.2 hpfl hm)
          · exact h.fldis e he.2 hm
        · intro e he
          obtain ⟨r, hr, hre⟩ := h.keys e (List.mem_of_mem_erase he)
          refine ⟨_, List.mem_map.2 ⟨r, hr, rfl⟩, ?_⟩
          split <;> simp [hre]
        · intro e he; exact h.assoc e (List.mem_of_mem_erase he)
        · intro r hr
          obtain ⟨r0, hr0, rfl⟩ := List.mem_map.1 hr
          have hc := h.count r0 hr0
          dsimp only
          rw [nicheCount_insert _ _ _ hpn, hpc]
          split
          · rename_i he; simp only [he]; rw [hc, he]; simp
          · rename_i he; rw [if_neg (fun h' => he h'.symm)]; simp [hc]
        · intro T hF
          refine NicheFillFl.add _ _ _ p.2 ?_ ?_ ?_ ?_
          · rw [List.mem_toFinset]; exact List.mem_map_of_mem hpfl
          · intro g hg
            rw [List.mem_toFinset] at hg
            obtain ⟨e, he, rfl⟩ := List.mem_map.1 hg
            obtain ⟨r, hr, hre⟩ := h.keys e he
            have h1 := hcurm.2 r hr
            rw [hpc, ← hcc, ← h.assoc e he, ← hre, ← h.count r hr]
            exact h1
          · intro h0 g hg hcg
            rw [List.mem_toFinset] at hg
            obtain ⟨e, he, rfl⟩ := List.mem_map.1 hg
            rw [hpc, ← hcc] at h0
            exact key.2 h0 e ((hmem e).2 ⟨he, by rw [h.assoc e he, hcg, hpc]⟩)
          · have : (List.map Prod.snd (s.fl.erase p)).toFinset =
                (List.map Prod.snd s.fl).toFinset.erase p.2 := by
              ext x
              simp only [List.mem_toFinset, List.mem_map, Finset.mem_erase]
              constructor
              · rintro ⟨e, he, rfl⟩
                rw [hflnd.mem_erase_iff] at he
                exact ⟨fun hx => he.1 ((List.inj_on_of_nodup_map h.flnd) he.2 hpfl hx), e, he.2, rfl⟩
              · rintro ⟨hx, e, he, rfl⟩
                exact ⟨e, hflnd.mem_erase_iff.2 ⟨fun h' => hx (by rw [h']), he⟩, rfl⟩
            rw [← this]
            exact hF
  · cases hs

theorem nicheLoopFl_fill (K : Nat) (closest : G → Nat) (dist : G → Fl) (ds : Nat → NicheDraw Fl G)
    (hF : F.Good) (hd : ∀ k, LegalDrawFl F (ds k)) (fuel : Nat) : ∀ (it : Nat) (s s' : NicheState G), NicheInv2 closest s →
    nicheLoopFl F K dist ds fuel it s = .ok s' →
    NicheFillFl closest dist s.selected (s.fl.map Prod.snd).toFinset s'.selected := by
  induction fuel with
  | zero =>
    intro it s s' h hs
    rw [nicheLoopFl] at hs
    split at hs <;> cases hs
    exact NicheFillFl.done _ _
  | succ n ih =>
    intro it s s' h hs
    rw [nicheLoopFl] at hs
    split at hs
    · cases hs; exact NicheFillFl.done _ _
    · rename_i s1 he
      obtain ⟨h1, h2⟩ := nicheStepFl_fill F K closest dist (ds it) hF (hd it) s s1 h he
      exact h2 _ (ih _ _ _ h1 hs)
    · cases hs
    · cases hs


end Heu
