import Verif.Spec.DefaultRunFl
import Verif.Props.Calls
import Verif.Props.BoxFl

/-! Lemmas for `Props/DefaultRunFl`. -/

set_option linter.unusedSectionVars false
set_option linter.unusedVariables false
set_option linter.unusedSimpArgs false

namespace Heu
open Spec

section world
variable {κ V Y ω τ R : Type}

/-- What the functions of the user and the rest of the solver keep true of the rest of the program. -/
structure KeepsWorld (u : UserFns V Y ω) (h : GAHost κ V Y ω τ R) (I : ω → Prop) : Prop where
  ini : ∀ v w, I w → I (u.ini v w).2
  fit : ∀ v y w, I w → I (u.fit v y w).2
  cross : ∀ p q w, I w → I (u.cross p q w).2
  muta : ∀ v w, I w → I (u.muta v w).2
  rnd : ∀ w, I w → I (h.rnd w).2
  shuffle : ∀ l w, I w → I (h.shuffle l w).2
  select : ∀ pop t w r, h.select pop t w = .ok r → I w → I r.2

variable {u : UserFns V Y ω} {h : GAHost κ V Y ω τ R} {I : ω → Prop}

theorem iniCalls_world (H : KeepsWorld u h I) : ∀ (pop : Pop (Gene V Y)) (w : ω), I w → I (iniCalls u pop w).2
  | [], w, hw => hw
  | c :: cs, w, hw => iniCalls_world H cs _ (H.ini _ _ hw)

theorem evalCalls_world (H : KeepsWorld u h I) : ∀ (as : List Addr) (pop : Pop (Gene V Y)) (w : ω)
    (r : Pop (Gene V Y) × ω), evalCalls u as pop w = .ok r → I w → I r.2
  | [], pop, w, r, hr, hw => by cases hr; exact hw
  | a :: as, pop, w, r, hr, hw => by
    rw [evalCalls] at hr
    obtain ⟨g, -, hr⟩ := Out.bind_eq_ok.1 hr
    exact evalCalls_world H as _ _ r hr (H.fit _ _ _ hw)

theorem drawn_world [LE κ] [DecidableLE κ] (H : KeepsWorld u h I) (p : κ) : ∀ (pop : Pop (Gene V Y)) (w : ω), I w →
    I (drawn h p pop w).2
  | [], w, hw => hw
  | c :: cs, w, hw => drawn_world H p cs _ (H.rnd _ hw)

theorem crossCalls_world (H : KeepsWorld u h I) (junk : Y) : ∀ (q : List (Cell (Gene V Y))) (pop : Pop (Gene V Y)) (w : ω),
    I w → I (crossCalls u junk q pop w).2
  | [], pop, w, hw => hw
  | [a], pop, w, hw => hw
  | a :: b :: q, pop, w, hw => crossCalls_world H junk q _ _ (H.cross _ _ _ hw)

theorem mutCalls_world (H : KeepsWorld u h I) (junk : Y) : ∀ (q : List (Cell (Gene V Y))) (pop : Pop (Gene V Y)) (w : ω),
    I w → I (mutCalls u junk q pop w).2
  | [], pop, w, hw => hw
  | a :: q, pop, w, hw => mutCalls_world H junk q _ _ (H.muta _ _ hw)

theorem callsLoop_world [LE κ] [DecidableLE κ] (H : KeepsWorld u h I) (o : GALimits κ) : ∀ (fuel gen : Nat)
    (pop : Pop (Gene V Y)) (t : τ) (w : ω) (record : List R) (r : CallsResult V Y ω τ R),
    callsLoop u h o fuel gen pop t w record = .ok r → I w → I r.world
  | 0, _, _, _, _, _, _, hr, _ => by cases hr
  | fuel + 1, gen, pop, t, w, record, r, hr, hw => by
    rw [callsLoop] at hr
    obtain ⟨e, he, hr⟩ := Out.bind_eq_ok.1 hr
    obtain ⟨s, hs, hr⟩ := Out.bind_eq_ok.1 hr
    obtain ⟨b, -, hr⟩ := Out.bind_eq_ok.1 hr
    have h1 := H.select _ _ _ _ hs (evalCalls_world H _ _ _ _ he hw)
    split at hr
    · cases hr; exact h1
    · split at hr
      · cases hr; exact h1
      · refine callsLoop_world H o fuel _ _ _ _ _ r hr ?_
        exact mutCalls_world H _ _ _ _ (drawn_world H _ _ _
          (crossCalls_world H _ _ _ _ (H.shuffle _ _ (drawn_world H _ _ _ h1))))

/-- A call as the function of the user made it. -/
def FromUser (u : UserFns V Y ω) : UserCall V Y → Prop
  | .ini b a => ∃ w, a = (u.ini b w).1
  | .fit x y => ∃ f w, y = (u.fit x f w).1
  | .cross p q c d => ∃ w, (c, d) = (u.cross p q w).1
  | .muta s d => ∃ w, d = (u.muta s w).1

theorem logged_keeps (u : UserFns V Y ω) (h : GAHost κ V Y ω τ R) :
    KeepsWorld (logged u) (unaware h) (fun s => ∀ e ∈ s.2, FromUser u e) := by
  have snoc : ∀ (l : List (UserCall V Y)) (x : UserCall V Y), FromUser u x → (∀ e ∈ l, FromUser u e) →
      ∀ e ∈ l ++ [x], FromUser u e := by
    intro l x hx hl e he
    rcases List.mem_append.1 he with he | he
    · exact hl e he
    · rw [List.mem_singleton] at he; subst he; exact hx
  refine ⟨fun v w hw => snoc _ _ ⟨_, rfl⟩ hw, fun v y w hw => snoc _ _ ⟨_, _, rfl⟩ hw,
    fun p q w hw => snoc _ _ ⟨_, rfl⟩ hw, fun v w hw => snoc _ _ ⟨_, rfl⟩ hw, fun w hw => hw, fun l w hw => hw, ?_⟩
  intro pop t w r hr hw
  obtain ⟨x, -, hx⟩ := Out.bind_eq_ok.1 (show (h.select pop t w.1 >>= fun r => Out.ok (r.1, (r.2, w.2))) = .ok r from hr)
  cases hx
  exact hw

theorem mem_made {l : List (UserCall V Y)} {v : V} : v ∈ made l ↔ ∃ e ∈ l, v ∈ e.created := by
  simp [made, List.mem_flatMap]

theorem fit_values {l : List (UserCall V Y)} (h : ∀ e ∈ l, e.isFit) {e : UserCall V Y} (he : e ∈ l) {v : V}
    (hv : v ∈ e.points) : v ∈ (values l).map (·.1) := by
  have := h e he
  cases e with
  | fit x y =>
    simp only [UserCall.points, List.mem_singleton] at hv
    subst hv
    exact List.mem_map.2 ⟨(v, y), List.mem_flatMap.2 ⟨_, he, by simp [UserCall.valued]⟩, rfl⟩
  | ini _ _ => cases this
  | cross _ _ _ _ => cases this
  | muta _ _ => cases this

/-- A property that may get weaker from one generation to the next. -/
theorem runLog_levels (P : Nat → V → Prop) (Good Def : UserCall V Y → Prop) (G : Nat)
    (hmono : ∀ g v, P g v → P (g + 1) v)
    (hcx : ∀ g p q c d, g < G → Good (.cross p q c d) → P g p → P g q → P (g + 1) c ∧ P (g + 1) d ∧ Def (.cross p q c d))
    (hmu : ∀ g s d, g ≤ G → Good (.muta s d) → P g s → P g d ∧ Def (.muta s d))
    (hfit : ∀ x y, Def (.fit x y))
    {known : List (V × Y)} {new : List V} {ks : List Nat} {es : List (UserCall V Y)}
    (h : RunLog List.Perm known new ks es) : ∀ g, g + ks.length ≤ G → (∀ e ∈ es, Good e) →
    (∀ p ∈ known, P g p.1) → (∀ v ∈ new, P g v) → ∀ e ∈ es, (∀ v ∈ e.points, P (g + ks.length) v) ∧ Def e := by
  induction h with
  | @last known new fs hf hm =>
    intro g hG hgood hk hn e he
    refine ⟨fun v hv => hn v (hm.mem_iff.1 (fit_values hf he hv)), ?_⟩
    have := hf e he
    cases e with
    | fit x y => exact hfit x y
    | ini _ _ => cases this
    | cross _ _ _ _ => cases this
    | muta _ _ => cases this
  | @step known new fs cs ms ks rest k hf hm hc hcp _ hmt hmp _ _ ih =>
    intro g hG hgood hk hn e he
    have up : ∀ n g v, P g v → P (g + n) v := by
      intro n
      induction n with
      | zero => intro g v h; exact h
      | succ n ih => intro g v h; exact hmono _ _ (ih g v h)
    rw [List.length_cons] at hG ⊢
    have hfs : ∀ v ∈ (values fs).map (·.1), P g v := fun v hv => hn v (hm.mem_iff.1 hv)
    have hknown : ∀ p ∈ known ++ values fs, P g p.1 := by
      intro p hp
      rcases List.mem_append.1 hp with hp | hp
      · exact hk p hp
      · exact hfs _ (List.mem_map_of_mem hp)
    have hkv : ∀ v ∈ (known ++ values fs).map (·.1), P g v := by
      intro v hv
      obtain ⟨p, hp, rfl⟩ := List.mem_map.1 hv
      exact hknown p hp
    have hcs : ∀ e ∈ cs, (∀ v ∈ e.points, P (g + 1) v) ∧ Def e := by
      intro e he
      have := hc e he
      have hp := hcp e he
      have hg := hgood e (by simp [he])
      cases e with
      | cross p q c d =>
        have h1 := hkv p (hp p (by simp [UserCall.parents]))
        have h2 := hkv q (hp q (by simp [UserCall.parents]))
        have h3 := hcx g p q c d (by omega) hg h1 h2
        refine ⟨fun v hv => ?_, h3.2.2⟩
        simp only [UserCall.points, List.mem_cons, List.not_mem_nil, or_false] at hv
        rcases hv with rfl | rfl | rfl | rfl
        · exact hmono _ _ h1
        · exact hmono _ _ h2
        · exact h3.1
        · exact h3.2.1
      | ini _ _ => cases this
      | fit _ _ => cases this
      | muta _ _ => cases this
    have made_points : ∀ (e : UserCall V Y) (v : V), v ∈ e.created → v ∈ e.points := by
      intro e v hv
      cases e <;> simp_all [UserCall.created, UserCall.points]
    have hcm : ∀ v ∈ made cs, P (g + 1) v := by
      intro v hv
      obtain ⟨e, he, hv⟩ := mem_made.1 hv
      exact (hcs e he).1 v (made_points e v hv)
    have hms : ∀ e ∈ ms, (∀ v ∈ e.points, P (g + 1) v) ∧ Def e := by
      intro e he
      have := hmt e he
      have hp := hmp e he
      have hg := hgood e (by simp [he])
      cases e with
      | muta s d =>
        have h1 : P (g + 1) s := by
          rcases List.mem_append.1 (hp s (by simp [UserCall.parents])) with h | h
          · exact hmono _ _ (hkv s h)
          · exact hcm s h
        have h3 := hmu (g + 1) s d (by omega) hg h1
        refine ⟨fun v hv => ?_, h3.2⟩
        simp only [UserCall.points, List.mem_cons, List.not_mem_nil, or_false] at hv
        rcases hv with rfl | rfl
        · exact h1
        · exact h3.1
      | ini _ _ => cases this
      | fit _ _ => cases this
      | cross _ _ _ _ => cases this
    have hmm : ∀ v ∈ made ms, P (g + 1) v := by
      intro v hv
      obtain ⟨e, he, hv⟩ := mem_made.1 hv
      exact (hms e he).1 v (made_points e v hv)
    rw [show g + (ks.length + 1) = g + 1 + ks.length by omega]
    simp only [List.mem_append] at he
    rcases he with ((he | he) | he) | he
    · refine ⟨fun v hv => up _ _ _ (hmono _ _ (hfs v (fit_values hf he hv))), ?_⟩
      have := hf e he
      cases e with
      | fit x y => exact hfit x y
      | ini _ _ => cases this
      | cross _ _ _ _ => cases this
      | muta _ _ => cases this
    · exact ⟨fun v hv => up _ _ _ ((hcs e he).1 v hv), (hcs e he).2⟩
    · exact ⟨fun v hv => up _ _ _ ((hms e he).1 v hv), (hms e he).2⟩
    · refine ih (g + 1) (by omega) (fun e he => hgood e (by simp [he])) (fun p hp => hmono _ _ (hknown p hp)) ?_ e he
      intro v hv
      rcases List.mem_append.1 hv with h | h
      · exact hcm v h
      · exact hmm v h

end world

section fl
variable {F : Fmt}

theorem mk_finite (s : Bool) (a c : Nat) (hc : 0 < c) {t n} (h : Fl.mk F s (rndUnits F.mb a c) = .fin t n) :
    (Fl.mk F s (rndUnits F.mb a c)).Finite F := by
  unfold Fl.mk at h ⊢
  split
  · rw [if_pos ‹_›] at h; cases h
  · exact ⟨s, _, rfl, rep_rndUnits _ _ _ hc, by omega⟩

theorem add_finite (x y : Fl) {t n} (h : x.add F y = .fin t n) : (x.add F y).Finite F := by
  cases x <;> cases y <;> simp only [Fl.add] at h ⊢ <;> try (cases h)
  · split at h <;> cases h
  · split
    · exact ⟨_, 0, rfl, ⟨0, 0, by positivity, by simp⟩, by positivity⟩
    · rw [if_neg ‹_›] at h
      exact mk_finite _ _ 1 (by norm_num) h

end fl

end Heu
