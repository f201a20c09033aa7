import Verif.Lemmas.NSGA3
import Verif.Spec.Niche

/-! The niche loop follows the niching rule. -/

set_option linter.unusedSectionVars false
set_option linter.unusedSimpArgs false

namespace Heu
open Spec

variable {α : Type} {G : Type} [DecidableEq G] {m : Nat} [Field α] [LinearOrder α]

/-- The part of the invariant of the niche loop that ties the bookkeeping to the sets. -/
structure NicheInv2 (closest : G → Nat) (s : NicheState G) : Prop where
  flnd : (s.fl.map Prod.snd).Nodup
  fldis : ∀ e ∈ s.fl, e.2 ∉ s.selected
  keys : ∀ e ∈ s.fl, ∃ r ∈ s.refPoints, r.1 = e.1
  assoc : ∀ e ∈ s.fl, e.1 = closest e.2
  count : ∀ r ∈ s.refPoints, r.2 = nicheCount closest s.selected r.1

theorem nicheCount_insert (closest : G → Nat) (S : Finset G) (g : G) (hg : g ∉ S) (i : Nat) :
    nicheCount closest (insert g S) i = nicheCount closest S i + if closest g = i then 1 else 0 := by
  unfold nicheCount
  rw [Finset.filter_insert]
  split
  · rw [Finset.card_insert_of_notMem]
    simp [hg]
  · simp

theorem nicheStep_fill (K : Nat) (closest : G → Nat) (dist : G → α) (d : NicheDraw α G) (hd : d.Legal)
    (s s' : NicheState G) (h : NicheInv2 closest s) (hs : nicheStep K dist d s = .ok (some s')) :
    NicheInv2 closest s' ∧ ∀ F, NicheFill closest dist s'.selected (s'.fl.map Prod.snd).toFinset F →
      NicheFill closest dist s.selected (s.fl.map Prod.snd).toFinset F := by
  unfold nicheStep at hs
  split at hs
  · dsimp only at hs
    split at hs
    · cases hs
    · rename_i cur hcur
      have hcurm := findMinSet_mem (List.mem_of_getElem? hcur)
      set assoc := d.order (s.fl.filter fun e => e.1 == cur.1) with hassoc
      have hap : assoc.Perm (s.fl.filter fun e => e.1 == cur.1) := hd.order _
      have hmem : ∀ p, p ∈ assoc ↔ p ∈ s.fl ∧ p.1 = cur.1 := by
        intro p; rw [hap.mem_iff, List.mem_filter]; simp
      by_cases hne : assoc = []
      · simp only [hne, ne_eq, not_true_eq_false, if_false] at hs
        cases hs
        refine ⟨{ h with keys := ?_, count := ?_ }, fun F hF => hF⟩
        · intro e he
          obtain ⟨r, hr, hre⟩ := h.keys e he
          refine ⟨r, ?_, hre⟩
          rw [List.mem_filter]
          refine ⟨hr, ?_⟩
          simp only [bne_iff_ne, ne_eq]
          intro hrc
          have : e ∈ assoc := (hmem e).2 ⟨he, by rw [← hre, hrc]⟩
          rw [hne] at this; simp at this
        · intro r hr
          exact h.count r (List.mem_filter.1 hr).1
      · simp only [hne, ne_eq, not_false_eq_true, if_true] at hs
        obtain ⟨p, hp, hres⟩ := Out.bind_eq_ok.1 hs
        cases hres
        have key : p ∈ assoc ∧ (cur.2 = 0 → ∀ y ∈ assoc, dist p.2 ≤ dist y.2) := by
          split at hp
          · obtain ⟨p', hp', he, hmin⟩ := pickClosest_spec dist assoc hne
            rw [he] at hp; cases hp
            exact ⟨hp', fun _ => hmin⟩
          · rename_i hc
            obtain ⟨p', hp', he⟩ := pickRandom_spec d.draws hd.unit assoc 0 hne
            rw [he] at hp; cases hp
            exact ⟨hp', fun h0 => absurd h0 hc⟩
        have hp1 := (hmem p).1 key.1
        have hpfl := hp1.1
        have hpn : p.2 ∉ s.selected := h.fldis p hpfl
        have hflnd : s.fl.Nodup := h.flnd.of_map _
        have hpc : closest p.2 = cur.1 := by rw [← h.assoc p hpfl, hp1.2]
        have hcc : cur.2 = nicheCount closest s.selected cur.1 := h.count cur hcurm.1
        refine ⟨⟨?_, ?_, ?_, ?_, ?_⟩, ?_⟩
        · exact h.flnd.sublist ((List.erase_sublist).map _)
        · intro e he hm
          rw [hflnd.mem_erase_iff] at he
          rcases Finset.mem_insert.1 hm with hm | hm
          · exact he.1 ((List.inj_on_of_nodup_map h.flnd) he.2 hpfl hm)
          · exact h.fldis e he.2 hm
        · intro e he
          obtain ⟨r, hr, hre⟩ := h.keys e (List.mem_of_mem_erase he)
          refine ⟨_, List.mem_map.2 ⟨r, hr, rfl⟩, ?_⟩
          split <;> simp [hre]
        · intro e he; exact h.assoc e (List.mem_of_mem_erase he)
        · intro r hr
          obtain ⟨r0, hr0, rfl⟩ := List.mem_map.1 hr
          have hc := h.count r0 hr0
          dsimp only
          rw [nicheCount_insert _ _ _ hpn, hpc]
          split
          · rename_i he; simp only [he]; rw [hc, he]; simp
          · rename_i he; rw [if_neg (fun h' => he h'.symm)]; simp [hc]
        · intro F hF
          refine NicheFill.add _ _ _ p.2 ?_ ?_ ?_ ?_
          · rw [List.mem_toFinset]; exact List.mem_map_of_mem hpfl
          · intro g hg
            rw [List.mem_toFinset] at hg
            obtain ⟨e, he, rfl⟩ := List.mem_map.1 hg
            obtain ⟨r, hr, hre⟩ := h.keys e he
            have h1 := hcurm.2 r hr
            rw [hpc, ← hcc, ← h.assoc e he, ← hre, ← h.count r hr]
            exact h1
          · intro h0 g hg hcg
            rw [List.mem_toFinset] at hg
            obtain ⟨e, he, rfl⟩ := List.mem_map.1 hg
            rw [hpc, ← hcc] at h0
            exact key.2 h0 e ((hmem e).2 ⟨he, by rw [h.assoc e he, hcg, hpc]⟩)
          · have : (List.map Prod.snd (s.fl.erase p)).toFinset =
                (List.map Prod.snd s.fl).toFinset.erase p.2 := by
              ext x
              simp only [List.mem_toFinset, List.mem_map, Finset.mem_erase]
              constructor
              · rintro ⟨e, he, rfl⟩
                rw [hflnd.mem_erase_iff] at he
                exact ⟨fun hx => he.1 ((List.inj_on_of_nodup_map h.flnd) he.2 hpfl hx), e, he.2, rfl⟩
              · rintro ⟨hx, e, he, rfl⟩
                exact ⟨e, hflnd.mem_erase_iff.2 ⟨fun h' => hx (by rw [h']), he⟩, rfl⟩
            rw [← this]
            exact hF
  · cases hs

theorem nicheLoop_fill (K : Nat) (closest : G → Nat) (dist : G → α) (ds : Nat → NicheDraw α G)
    (hd : ∀ k, (ds k).Legal) (fuel : Nat) : ∀ (it : Nat) (s s' : NicheState G), NicheInv2 closest s →
    nicheLoop K dist ds fuel it s = .ok s' →
    NicheFill closest dist s.selected (s.fl.map Prod.snd).toFinset s'.selected := by
  induction fuel with
  | zero =>
    intro it s s' h hs
    rw [nicheLoop] at hs
    split at hs <;> cases hs
    exact NicheFill.done _ _
  | succ n ih =>
    intro it s s' h hs
    rw [nicheLoop] at hs
    split at hs
    · cases hs; exact NicheFill.done _ _
    · rename_i s1 he
      obtain ⟨h1, h2⟩ := nicheStep_fill K closest dist (ds it) (hd it) s s1 h he
      exact h2 _ (ih _ _ _ h1 hs)
    · cases hs
    · cases hs

end Heu
