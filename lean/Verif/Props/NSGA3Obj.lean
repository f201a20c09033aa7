import Verif.Props.SelConfig
import Verif.Props.RefPoints
import Verif.Spec.NSGA3Obj

/-!
# NSGA-III objects after any history of calls (C121)
-/

namespace Heu
open Spec
set_option linter.unusedSimpArgs false
set_option linter.unusedVariables false

theorem snoc_split {β : Type} {cs : List β} {c : β} {before : List β} {x : β} {after : List β}
    (h : cs ++ [c] = before ++ x :: after) :
    (after = [] ∧ x = c ∧ before = cs) ∨ ∃ a', after = a' ++ [c] ∧ cs = before ++ x :: a' := by
  rcases List.eq_nil_or_concat after with rfl | ⟨a', y, rfl⟩
  · obtain ⟨h1, h2⟩ := List.append_inj' h rfl
    simp only [List.cons.injEq, and_true] at h2
    exact .inl ⟨rfl, h2.symm, h1.symm⟩
  · have h' : cs ++ [c] = (before ++ x :: a') ++ [y] := by simpa using h
    obtain ⟨h1, h2⟩ := List.append_inj' h' rfl
    simp only [List.cons.injEq, and_true] at h2
    subst h2
    exact .inr ⟨a', by simp, h1⟩

theorem lastSet_snoc {C T : Type} (get : C → Option T) (cs : List C) (c : C) (i : T) :
    lastSet get (cs ++ [c]) i = (get c).getD (lastSet get cs i) := by
  cases h : get c with
  | none => simp [lastSet, h]
  | some t => exact lastSet_append_some get cs c t i h

section
variable {V α : Type} {d : Nat} [Field α] [LinearOrder α] [IsStrictOrderedRing α] {L : RefLayout d α} {tiny : α}

theorem nsga3Session_snoc (x : NSGA3Obj L V) (cs : List (NSGA3Call L V)) (c : NSGA3Call L V) :
    nsga3Session L tiny x (cs ++ [c]) = nsga3Session L tiny x cs >>= fun y => nsga3Call L tiny y c := by
  induction cs generalizing x with
  | nil =>
    show (nsga3Call L tiny x c >>= fun y => Out.ok y) = nsga3Call L tiny x c
    cases nsga3Call L tiny x c <;> rfl
  | cons e cs ih =>
    show (nsga3Call L tiny x e >>= fun y => nsga3Session L tiny y (cs ++ [c])) = _
    show _ = (nsga3Call L tiny x e >>= fun y => nsga3Session L tiny y cs) >>= _
    cases nsga3Call L tiny x e with
    | ok y => exact ih y
    | ub => rfl
    | timeout => rfl

theorem precisionInForce_snoc (cs : List (NSGA3Call L V)) (c : NSGA3Call L V) :
    precisionInForce L (cs ++ [c]) =
      match c with | .setPrecision p => some p | _ => precisionInForce L cs := by
  unfold precisionInForce
  rw [lastSet_snoc]
  cases c <;> rfl

theorem nsga3Size_snoc (cs : List (NSGA3Call L V)) (c : NSGA3Call L V) :
    nsga3PopulationSize (cs ++ [c]) = match c with | .setOption K _ _ => K | _ => nsga3PopulationSize cs := by
  unfold nsga3PopulationSize
  rw [lastSet_snoc]
  cases c <;> rfl

theorem nsga3Count_fst (cs : List (NSGA3Call L V)) :
    (cs.foldl (fun p c => match c with
      | .setOption K' _ _ => (K', p.2)
      | .setFitness _ => p
      | .setPrecision _ => p
      | .initializePop _ _ _ _ => (p.1, p.1)
      | .run _ _ => (p.1, p.1)) (100, 0)).1 = nsga3PopulationSize cs := by
  induction cs using List.reverseRecOn with
  | nil => rfl
  | append_singleton cs c ih =>
    rw [nsga3Size_snoc, List.foldl_append]
    cases c <;> first | rfl | exact ih

theorem nsga3Count_snoc (cs : List (NSGA3Call L V)) (c : NSGA3Call L V) :
    nsga3Count (cs ++ [c]) = match c with
      | .initializePop _ _ _ _ => nsga3PopulationSize cs
      | .run _ _ => nsga3PopulationSize cs
      | _ => nsga3Count cs := by
  have h := nsga3Count_fst cs
  unfold nsga3Count
  rw [List.foldl_append]
  cases c <;> first | rfl | exact h

theorem nsga3Room_snoc {cs : List (NSGA3Call L V)} {c : NSGA3Call L V} :
    NSGA3Room (cs ++ [c]) ↔
      NSGA3Room cs ∧ ((∃ e v, c = .run e v) → nsga3PopulationSize cs ≤ nsga3Count cs) := by
  constructor
  · intro h
    refine ⟨fun b e v a hcs => h b e v (a ++ [c]) (by rw [hcs]; simp), ?_⟩
    rintro ⟨e, v, rfl⟩
    exact h cs e v [] rfl
  · rintro ⟨h1, h2⟩ b e v a hcs
    rcases snoc_split hcs with ⟨-, rfl, rfl⟩ | ⟨a', -, h⟩
    · exact h2 ⟨e, v, rfl⟩
    · exact h1 b e v a' h

theorem precBefore_snoc {cs : List (NSGA3Call L V)} {c : NSGA3Call L V} :
    PrecisionBeforeInit L (cs ++ [c]) ↔
      PrecisionBeforeInit L cs ∧ (NSGA3Call.IsInit c → precisionInForce L cs ≠ none) := by
  constructor
  · intro h
    exact ⟨fun b x a hcs hx => h b x (a ++ [c]) (by rw [hcs]; simp) hx, fun hx => h cs c [] rfl hx⟩
  · rintro ⟨h1, h2⟩ b x a hcs hx
    rcases snoc_split hcs with ⟨-, rfl, rfl⟩ | ⟨a', -, h⟩
    · exact h2 hx
    · exact h1 b x a' h hx

theorem nsga3Unchanged_snoc {cs : List (NSGA3Call L V)} {c : NSGA3Call L V} (hc : ¬ NSGA3Call.IsInit c)
    (h : NSGA3FitnessUnchanged (cs ++ [c])) : NSGA3FitnessUnchanged cs := by
  intro b f a hcs
  obtain ⟨x, hx, hxi⟩ := h b f (a ++ [c]) (by rw [hcs]; simp)
  rcases List.mem_append.1 hx with hx | hx
  · exact ⟨x, hx, hxi⟩
  · rw [List.mem_singleton] at hx
    subst hx
    exact absurd hxi hc

/-- With this precision, making the reference points succeeds and gives usable points, whatever the shuffle. -/
def UsablePrecision (L : RefLayout d α) (p : L.P) : Prop :=
  ∀ junk shuffle, (∀ l, (shuffle l).Perm l) →
    ∃ refs, L.make junk shuffle p = .ok refs ∧ refs ≠ [] ∧ ∀ w ∈ refs, ∃ i, w i ≠ 0

/-- The arguments of the calls are legal: positive population sizes, usable precisions, real shuffles and possible
draws. -/
structure NSGA3Legal (L : RefLayout d α) (cs : List (NSGA3Call L V)) : Prop where
  size : ∀ K G F, NSGA3Call.setOption K G F ∈ cs → 1 ≤ K ∧ K < 2 ^ 32
  prec : ∀ p, NSGA3Call.setPrecision p ∈ cs → L.allowed p = true ∧ UsablePrecision L p
  shuffle : ∀ i b j s, NSGA3Call.initializePop i b j s ∈ cs → ∀ l, (s l).Perm l
  draws : ∀ e v, NSGA3Call.run e v ∈ cs → ∀ g, (e g).Legal

theorem NSGA3Legal.left {cs ds : List (NSGA3Call L V)} (h : NSGA3Legal L (cs ++ ds)) : NSGA3Legal L cs :=
  ⟨fun K G F hm => h.size K G F (List.mem_append_left _ hm), fun p hm => h.prec p (List.mem_append_left _ hm),
   fun i b j s hm => h.shuffle i b j s (List.mem_append_left _ hm),
   fun e v hm => h.draws e v (List.mem_append_left _ hm)⟩

theorem nsga3Size_pos {cs : List (NSGA3Call L V)} (h : NSGA3Legal L cs) :
    1 ≤ nsga3PopulationSize cs ∧ nsga3PopulationSize cs < 2 ^ 32 := by
  unfold nsga3PopulationSize
  refine lastSet_all NSGA3Call.option? (fun t => 1 ≤ t.1 ∧ t.1 < 2 ^ 32) cs _ (by norm_num) ?_
  intro c hc t ht
  cases c <;> simp [NSGA3Call.option?] at ht
  subst ht
  exact h.size _ _ _ hc

theorem usable_inForce {cs : List (NSGA3Call L V)} (h : NSGA3Legal L cs)
    (h0 : ∀ p, L.initial = some p → UsablePrecision L p) (p : L.P) (hp : precisionInForce L cs = some p) :
    UsablePrecision L p := by
  have : ∀ q, precisionInForce L cs = some q → UsablePrecision L q := by
    unfold precisionInForce
    refine lastSet_all (fun c => (NSGA3Call.precision? c).map some)
      (fun t => ∀ q, t = some q → UsablePrecision L q) cs _ h0 ?_
    intro c hc t ht q hq
    subst hq
    cases c <;> simp [NSGA3Call.precision?] at ht
    subst ht
    exact (h.prec _ hc).2
  exact this p hp

/-- What is true of an NSGA-III object after any history of calls that returned. -/
structure NSGA3Reachable (cs : List (NSGA3Call L V)) (x : NSGA3Obj L V) : Prop where
  K : x.mo.K = nsga3PopulationSize cs
  count : x.mo.st.pop.length = nsga3Count cs
  prec : x.prec = precisionInForce L cs
  distinct : DistinctNodes x.mo.st.pop
  front : ∀ a ∈ x.mo.st.pf, a ∈ x.mo.st.pop.map (·.1)
  refs : 0 < nsga3Count cs → x.refs ≠ [] ∧ ∀ w ∈ x.refs, ∃ i, w i ≠ 0
  cache : NSGA3FitnessUnchanged cs → CacheCorrect x.mo.f x.mo.st.pop

theorem nsga3_object_cases (ht : 0 ≤ tiny) (f : V → Fin (d + 1) → α) (garbage : Nat × Nat)
    (cs : List (NSGA3Call L V)) (hl : NSGA3Legal L cs)
    (h0 : ∀ p, L.initial = some p → UsablePrecision L p) :
    (PrecisionBeforeInit L cs ∧ NSGA3Room cs →
      ∃ x, nsga3Session L tiny (.new L f garbage) cs = .ok x ∧ NSGA3Reachable cs x) ∧
    (¬ (PrecisionBeforeInit L cs ∧ NSGA3Room cs) → nsga3Session L tiny (.new L f garbage) cs = .ub) := by
  induction cs using List.reverseRecOn with
  | nil =>
    refine ⟨fun _ => ⟨_, rfl, rfl, rfl, rfl, List.nodup_nil, ?_, ?_, ?_⟩, fun h => absurd ⟨?_, ?_⟩ h⟩
    · intro a ha; simp [NSGA3Obj.new, MOObj.new] at ha
    · intro h; simp [nsga3Count] at h
    · intro _ c hc; cases hc
    · intro b x a h; simp at h
    · intro b e v a h; simp at h
  | append_singleton cs c ih =>
    obtain ⟨ih1, ih2⟩ := ih hl.left
    rw [nsga3Session_snoc, precBefore_snoc, nsga3Room_snoc]
    by_cases hold : PrecisionBeforeInit L cs ∧ NSGA3Room cs
    swap
    · refine ⟨fun h => absurd ⟨h.1.1, h.2.1⟩ hold, fun _ => ?_⟩
      rw [ih2 hold]; rfl
    obtain ⟨y, hy, hi⟩ := ih1 hold
    rw [hy, Out.ok_bind]
    have hK := nsga3Size_pos hl.left
    cases c with
    | setOption K G F =>
      refine ⟨fun _ => ⟨_, rfl, ?_, ?_, ?_, hi.distinct, hi.front, ?_,
        fun hu => hi.cache (nsga3Unchanged_snoc (by rintro ⟨_, _, _, _, h⟩; cases h) hu)⟩,
        fun h => absurd ⟨⟨hold.1, ?_⟩, hold.2, ?_⟩ h⟩
      · rw [nsga3Size_snoc]
      · rw [nsga3Count_snoc]; exact hi.count
      · rw [precisionInForce_snoc]; exact hi.prec
      · rw [nsga3Count_snoc]; exact hi.refs
      · rintro ⟨_, _, _, _, h⟩; cases h
      · rintro ⟨_, _, h⟩; cases h
    | setFitness g =>
      refine ⟨fun _ => ⟨_, rfl, ?_, ?_, ?_, hi.distinct, hi.front, ?_, fun hu => ?_⟩,
        fun h => absurd ⟨⟨hold.1, ?_⟩, hold.2, ?_⟩ h⟩
      · rw [nsga3Size_snoc]; exact hi.K
      · rw [nsga3Count_snoc]; exact hi.count
      · rw [precisionInForce_snoc]; exact hi.prec
      · rw [nsga3Count_snoc]; exact hi.refs
      · obtain ⟨x, hx, -⟩ := hu cs g [] rfl
        cases hx
      · rintro ⟨_, _, _, _, h⟩; cases h
      · rintro ⟨_, _, h⟩; cases h
    | setPrecision p =>
      have hp := (hl.prec p (by simp)).1
      refine ⟨fun _ => ⟨{ y with prec := some p }, ?_, ?_, ?_, ?_, hi.distinct, hi.front, ?_,
        fun hu => hi.cache (nsga3Unchanged_snoc (by rintro ⟨_, _, _, _, h⟩; cases h) hu)⟩,
        fun h => absurd ⟨⟨hold.1, ?_⟩, hold.2, ?_⟩ h⟩
      · simp only [nsga3Call, hp, if_true]
      · rw [nsga3Size_snoc]; exact hi.K
      · rw [nsga3Count_snoc]; exact hi.count
      · rw [precisionInForce_snoc]
      · rw [nsga3Count_snoc]; exact hi.refs
      · rintro ⟨_, _, _, _, h⟩; cases h
      · rintro ⟨_, _, h⟩; cases h
    | initializePop init blank junk shuffle =>
      cases hp : precisionInForce L cs with
      | none =>
        refine ⟨fun h => absurd rfl (h.1.2 ⟨_, _, _, _, rfl⟩), fun _ => ?_⟩
        have : y.prec = none := hi.prec.trans hp
        simp only [nsga3Call, this]
      | some p =>
        have hyp : y.prec = some p := hi.prec.trans hp
        obtain ⟨refs, hr, hrn, hrw⟩ := usable_inForce hl.left h0 p hp junk shuffle
          (hl.shuffle _ _ _ _ (List.mem_append_right _ (List.mem_singleton.2 rfl)))
        obtain ⟨r1, r2, r3, -⟩ := reinit_spec y.mo.K init blank y.mo.st.pop hi.distinct
        refine ⟨fun _ => ⟨{ y with
              refs := refs
              mo := { y.mo with st := { y.mo.st with
                pop := reinitializePop y.mo.K init blank y.mo.st.pop, pf := ∅ } } },
            ?_, ?_, ?_, ?_, r1, ?_, fun _ => ⟨hrn, hrw⟩, fun _ => cacheCorrect_uncomputed r3⟩,
          fun h => absurd ⟨⟨hold.1, ?_⟩, hold.2, ?_⟩ h⟩
        · simp only [nsga3Call, hyp, hr, Out.ok_bind, moCall]
        · rw [nsga3Size_snoc]; exact hi.K
        · rw [nsga3Count_snoc]; exact r2.trans hi.K
        · rw [precisionInForce_snoc]; exact hi.prec
        · intro a ha; simp at ha
        · intro _ h; cases h
        · rintro ⟨_, _, h⟩; cases h
    | run e v =>
      have hleg := hl.draws e v (by simp)
      have hK1 : 1 ≤ y.mo.K := by rw [hi.K]; exact hK.1
      refine ⟨fun h => ?_, fun h => ?_⟩
      · have hlen : y.mo.K ≤ y.mo.st.pop.length := by
          rw [hi.K, hi.count]; exact h.2.2 ⟨e, v, rfl⟩
        obtain ⟨hrn, hrw⟩ := hi.refs (by rw [← hi.count]; omega)
        have hg : ∀ g, GoodSelection .lessBetter y.mo.K (fun fit pop =>
            nsga3SelectFull y.mo.K fit (e g).sortD tiny y.refs (e g).order (e g).ds
              (pop.length + y.refs.length) pop) := fun g =>
          good_nsga3 y.mo.K (by rw [hi.K]; exact hK.2) tiny ht y.refs hrn hrw (e g) (hleg g)
            (fun n => n + y.refs.length) (fun _ => le_refl _)
        obtain ⟨r, hrr, hsel⟩ := moSound_run .lessBetter y.mo.f y.mo.K (fun g fit pop =>
            nsga3SelectFull y.mo.K fit (e g).sortD tiny y.refs (e g).order (e g).ds
              (pop.length + y.refs.length) pop) v hK1 hg
          (s := y.mo.st) ⟨hi.distinct, hlen⟩ y.mo.maxGen y.mo.maxFail
        refine ⟨{ y with mo := { y.mo with st := r.state, generation := r.generation, record := r.record } },
          ?_, ?_, ?_, ?_, hsel.distinct, hsel.front, fun _ => ⟨hrn, hrw⟩, fun hu => ?_⟩
        · simp only [nsga3Call, moCall, hrr, Out.ok_bind]
        · rw [nsga3Size_snoc]; exact hi.K
        · rw [nsga3Count_snoc]; exact hsel.size.trans hi.K
        · rw [precisionInForce_snoc]; exact hi.prec
        · have hc := hi.cache (nsga3Unchanged_snoc (by rintro ⟨_, _, _, _, h⟩; cases h) hu)
          obtain ⟨-, h2, -⟩ := run_record _ _ _ _ _ r hrr
          obtain ⟨t, c, hta, -, hc1, hc2, -, hst, -⟩ :=
            mo_after .lessBetter y.mo.f y.mo.K _ v hK1 hg ⟨hi.distinct, hc, hlen⟩ r.generation
          rw [h2] at hta
          cases hta
          exact (moStep_ready .lessBetter y.mo.f y.mo.K hc1 hc2 hst).1.cache
      · have hlt : y.mo.st.pop.length < y.mo.K := by
          rw [hi.K, hi.count]
          by_contra hge
          refine h ⟨⟨hold.1, ?_⟩, hold.2, fun _ => by omega⟩
          rintro ⟨_, _, _, _, h⟩; cases h
        show (moCall .lessBetter y.mo _ >>= _) = _
        show ((gaRun (moSolver .lessBetter y.mo.f _ v) y.mo.maxGen y.mo.maxFail (y.mo.maxGen + 1) y.mo.st >>= _)
          >>= _) = _
        rw [short_run .lessBetter y.mo.f y.mo.K _ v
          (short_nsga3 y.mo.K tiny y.refs (e 1) (fun n => n + y.refs.length)) hlt]
        rfl

/-- The reference points of an object are those its last `initializePop` made, with the precision in force at that
moment; `run` and the setters leave them alone. -/
theorem points_from_last_init (x y : NSGA3Obj L V) (cs : List (NSGA3Call L V))
    (h : nsga3Session L tiny x cs = .ok y) :
    y.prec = lastSet (fun c => (NSGA3Call.precision? c).map some) cs x.prec ∧
    (NoInit cs → y.refs = x.refs) ∧
    ∀ before i b junk shuffle after, cs = before ++ .initializePop i b junk shuffle :: after → NoInit after →
      ∃ p, lastSet (fun c => (NSGA3Call.precision? c).map some) before x.prec = some p ∧
        L.make junk shuffle p = .ok y.refs := by
  induction cs using List.reverseRecOn generalizing y with
  | nil =>
    simp only [nsga3Session, Out.ok.injEq] at h
    subst h
    exact ⟨rfl, fun _ => rfl, fun b i bl j s a hcs => by simp at hcs⟩
  | append_singleton cs c ih =>
    rw [nsga3Session_snoc, Out.bind_eq_ok] at h
    obtain ⟨z, hz, h⟩ := h
    obtain ⟨h1, h2, h3⟩ := ih z hz
    rw [lastSet_snoc, ← h1]
    have hni : NoInit (cs ++ [c]) → NoInit cs := fun hn d hd => hn d (List.mem_append_left _ hd)
    have hna : ∀ a', NoInit (a' ++ [c]) → NoInit a' := fun a' hn d hd => hn d (List.mem_append_left _ hd)
    have keep : (¬ NSGA3Call.IsInit c) → y.refs = z.refs →
        (NoInit (cs ++ [c]) → y.refs = x.refs) ∧
        ∀ before i b junk shuffle after,
          cs ++ [c] = before ++ .initializePop i b junk shuffle :: after → NoInit after →
          ∃ p, lastSet (fun c => (NSGA3Call.precision? c).map some) before x.prec = some p ∧
            L.make junk shuffle p = .ok y.refs := by
      intro hc hr
      rw [hr]
      refine ⟨fun hn => h2 (hni hn), fun b i bl j s a hcs hn => ?_⟩
      rcases snoc_split hcs with ⟨-, rfl, -⟩ | ⟨a', rfl, hcs'⟩
      · exact absurd ⟨_, _, _, _, rfl⟩ hc
      · exact h3 b i bl j s a' hcs' (hna a' hn)
    cases c with
    | setOption K G F =>
      simp only [nsga3Call, moCall, Out.ok_bind, Out.ok.injEq] at h
      subst h
      exact ⟨rfl, keep (by rintro ⟨_, _, _, _, h⟩; cases h) rfl⟩
    | setFitness g =>
      simp only [nsga3Call, moCall, Out.ok_bind, Out.ok.injEq] at h
      subst h
      exact ⟨rfl, keep (by rintro ⟨_, _, _, _, h⟩; cases h) rfl⟩
    | setPrecision p =>
      simp only [nsga3Call] at h
      split at h
      · simp only [Out.ok.injEq] at h
        subst h
        exact ⟨rfl, keep (by rintro ⟨_, _, _, _, h⟩; cases h) rfl⟩
      · cases h
    | initializePop init blank junk shuffle =>
      simp only [nsga3Call] at h
      split at h
      · cases h
      · next p hp =>
        simp only [moCall, Out.bind_eq_ok, Out.ok_bind, Out.ok.injEq] at h
        obtain ⟨refs, hr, rfl⟩ := h
        refine ⟨rfl, fun hn => absurd ⟨_, _, _, _, rfl⟩ (hn _ (List.mem_append_right _ (List.mem_singleton.2 rfl))), fun b i bl j s a hcs hn => ?_⟩
        rcases snoc_split hcs with ⟨-, hc, rfl⟩ | ⟨a', rfl, -⟩
        · cases hc
          exact ⟨p, by rw [← h1]; exact hp, hr⟩
        · exact absurd ⟨_, _, _, _, rfl⟩ (hn _ (List.mem_append_right _ (List.mem_singleton.2 rfl)))
    | run e v =>
      simp only [nsga3Call] at h
      rw [Out.bind_eq_ok] at h
      obtain ⟨w, -, h⟩ := h
      simp only [Out.ok.injEq] at h
      subst h
      exact ⟨rfl, keep (by rintro ⟨_, _, _, _, h⟩; cases h) rfl⟩

end

section layers
variable {V α : Type} {d : Nat} [Field α] [LinearOrder α] [IsStrictOrderedRing α] {tiny : α}

/-- **C121**, single layer.  After any history of calls that returned, the reference points in use are exactly the
lattice of the precision that was the last one set before the last `initializePop`: later calls of
`setReferencePointPrecision` have no effect on them, and neither have runs or other setters. -/
theorem nsga3_points_single (f : V → Fin (d + 1) → α) (garbage : Nat × Nat)
    (before after : List (NSGA3Call (singleLayer d α) V)) (init : Nat → V) (blank : Gene V (Fin (d + 1) → α))
    (junk : Fin (d + 1) → α) (shuffle : List (Fin (d + 1) → α) → List (Fin (d + 1) → α))
    (hsh : ∀ l, (shuffle l).Perm l) (hn : NoInit after) (x : NSGA3Obj (singleLayer d α) V)
    (h : nsga3Session (singleLayer d α) tiny (.new _ f garbage)
      (before ++ .initializePop init blank junk shuffle :: after) = .ok x) :
    ∃ p : Nat, precisionInForce (singleLayer d α) before = some p ∧
      (1 ≤ p → d + p ≤ 20 → IsLattice p x.refs ∧ x.refs.length = (d + p).choose p) := by
  obtain ⟨-, -, h3⟩ := points_from_last_init _ x _ h
  obtain ⟨p, hp, hm⟩ := h3 before init blank junk shuffle after rfl hn
  refine ⟨p, hp, fun hp1 hp2 => ?_⟩
  obtain ⟨cols, hc, c1, c2, -, c4⟩ := referencePoses_partial p hp1 (by omega) junk shuffle hsh
  have : cols = x.refs := Out.ok.inj (hc.symm.trans hm)
  subst this
  exact ⟨⟨c1, c4⟩, by rw [c2]; congr 1; omega⟩

/-- **C121**, double layer. -/
theorem nsga3_points_double (invSqrt2 : α) (f : V → Fin (d + 1) → α) (garbage : Nat × Nat)
    (before after : List (NSGA3Call (doubleLayer d α invSqrt2) V)) (init : Nat → V)
    (blank : Gene V (Fin (d + 1) → α))
    (junk : Fin (d + 1) → α) (shuffle : List (Fin (d + 1) → α) → List (Fin (d + 1) → α))
    (hn : NoInit after) (x : NSGA3Obj (doubleLayer d α invSqrt2) V)
    (h : nsga3Session (doubleLayer d α invSqrt2) tiny (.new _ f garbage)
      (before ++ .initializePop init blank junk shuffle :: after) = .ok x) :
    ∃ p : Nat × Nat, precisionInForce (doubleLayer d α invSqrt2) before = some p ∧
      (1 ≤ p.1 → 1 ≤ p.2 → d + p.1 ≤ 20 → d + p.2 ≤ 20 → IsTwoLattices invSqrt2 p.1 p.2 x.refs ∧
        x.refs.length = (d + p.1).choose p.1 + (d + p.2).choose p.2) := by
  obtain ⟨-, -, h3⟩ := points_from_last_init _ x _ h
  obtain ⟨p, hp, hm⟩ := h3 before init blank junk shuffle after rfl hn
  refine ⟨p, hp, fun hi ho hi2 ho2 => ?_⟩
  obtain ⟨ip, op, hc, c1, c2, c3, c4, c5, c6⟩ :=
    referencePoses2_partial p.1 p.2 hi ho (by omega) (by omega) junk invSqrt2
  have : _ = x.refs := Out.ok.inj (hc.symm.trans hm)
  rw [← this]
  refine ⟨⟨ip, op, ⟨c1, c5⟩, ⟨c2, c6⟩, rfl⟩, ?_⟩
  rw [List.length_append, List.length_map, c3, c4]
  congr 2 <;> omega

theorem usable_single (p : Nat) (h1 : 1 ≤ p) (h2 : d + p ≤ 20) : UsablePrecision (singleLayer d α) p := by
  intro junk shuffle hsh
  obtain ⟨cols, hc, c1, c2, -, c4⟩ := referencePoses_partial p h1 (by omega) junk shuffle hsh
  refine ⟨cols, hc, ?_, fun w hw => latticePoint_nonzero p h1 w ((c4 w).1 hw)⟩
  intro hnil
  rw [hnil] at c2
  have := Nat.choose_pos (show p ≤ d + 1 + p - 1 by omega)
  rw [List.length_nil] at c2; omega

theorem usable_double (invSqrt2 : α) (hc0 : invSqrt2 ≠ 0) (p : Nat × Nat) (hi : 1 ≤ p.1) (ho : 1 ≤ p.2)
    (hi2 : d + p.1 ≤ 20) (ho2 : d + p.2 ≤ 20) : UsablePrecision (doubleLayer d α invSqrt2) p := by
  intro junk shuffle hsh
  obtain ⟨ip, op, hc, c1, c2, c3, c4, c5, c6⟩ :=
    referencePoses2_partial p.1 p.2 hi ho (by omega) (by omega) junk invSqrt2
  refine ⟨_, hc, ?_, fun w hw => ?_⟩
  · intro hnil
    have := congrArg List.length hnil
    rw [List.length_append, List.length_map, c3, c4] at this
    have := Nat.choose_pos (show p.1 ≤ d + 1 + p.1 - 1 by omega)
    simp at *; omega
  · rcases List.mem_append.1 hw with hw | hw
    · obtain ⟨v, hv, rfl⟩ := List.mem_map.1 hw
      obtain ⟨i, hi'⟩ := latticePoint_nonzero p.1 hi v ((c5 v).1 hv)
      exact ⟨i, mul_ne_zero hi' hc0⟩
    · exact latticePoint_nonzero p.2 ho w ((c6 w).1 hw)

/-- The arguments of the calls are legal, single layer: positive population sizes, precisions of at least 1 with
at most 20 for precision plus objectives minus one, real shuffles and possible draws. -/
structure SingleLegal (cs : List (NSGA3Call (singleLayer d α) V)) : Prop where
  size : ∀ K G F, NSGA3Call.setOption K G F ∈ cs → 1 ≤ K ∧ K < 2 ^ 32
  prec : ∀ p : Nat, NSGA3Call.setPrecision (L := singleLayer d α) p ∈ cs → 1 ≤ p ∧ d + p ≤ 20
  shuffle : ∀ i b j s, NSGA3Call.initializePop i b j s ∈ cs → ∀ l, (s l).Perm l
  draws : ∀ e v, NSGA3Call.run e v ∈ cs → ∀ g, (e g).Legal

/-- As `SingleLegal`, for two layers (both precisions at least 2). -/
structure DoubleLegal {invSqrt2 : α} (cs : List (NSGA3Call (doubleLayer d α invSqrt2) V)) : Prop where
  size : ∀ K G F, NSGA3Call.setOption K G F ∈ cs → 1 ≤ K ∧ K < 2 ^ 32
  prec : ∀ i o : Nat, NSGA3Call.setPrecision (L := doubleLayer d α invSqrt2) (i, o) ∈ cs →
    2 ≤ i ∧ 2 ≤ o ∧ d + i ≤ 20 ∧ d + o ≤ 20
  shuffle : ∀ i b j s, NSGA3Call.initializePop i b j s ∈ cs → ∀ l, (s l).Perm l
  draws : ∀ e v, NSGA3Call.run e v ∈ cs → ∀ g, (e g).Legal

theorem SingleLegal.legal {cs : List (NSGA3Call (singleLayer d α) V)} (h : SingleLegal cs) :
    NSGA3Legal (singleLayer d α) cs :=
  ⟨h.size, fun p hm => ⟨rfl, usable_single p (h.prec p hm).1 (h.prec p hm).2⟩, h.shuffle, h.draws⟩

theorem DoubleLegal.legal {invSqrt2 : α} (hc0 : invSqrt2 ≠ 0)
    {cs : List (NSGA3Call (doubleLayer d α invSqrt2) V)} (h : DoubleLegal cs) :
    NSGA3Legal (doubleLayer d α invSqrt2) cs := by
  refine ⟨h.size, fun p hm => ?_, h.shuffle, h.draws⟩
  obtain ⟨h1, h2, h3, h4⟩ := h.prec p.1 p.2 hm
  exact ⟨by simp [doubleLayer, h1, h2], usable_double invSqrt2 hc0 p (by omega) (by omega) h3 h4⟩

/-- **C121**, single layer: a history of legal calls returns exactly if the precision was set before every
`initializePop` and the population had `populationSize` members at every `run`; otherwise its behaviour is
undefined. -/
theorem nsga3_defined_single (ht : 0 ≤ tiny) (f : V → Fin (d + 1) → α) (garbage : Nat × Nat)
    (cs : List (NSGA3Call (singleLayer d α) V)) (hl : SingleLegal cs) :
    ((PrecisionBeforeInit (singleLayer d α) cs ∧ NSGA3Room cs) ↔
      ∃ x, nsga3Session (singleLayer d α) tiny (.new _ f garbage) cs = .ok x) ∧
    (¬ (PrecisionBeforeInit (singleLayer d α) cs ∧ NSGA3Room cs) ↔
      nsga3Session (singleLayer d α) tiny (.new _ f garbage) cs = .ub) := by
  obtain ⟨h1, h2⟩ := nsga3_object_cases (tiny := tiny) ht f garbage cs hl.legal
    (fun p hp => by simp [singleLayer] at hp)
  refine ⟨⟨fun h => ?_, fun ⟨x, hx⟩ => ?_⟩, ⟨h2, fun h hr => ?_⟩⟩
  · obtain ⟨x, hx, -⟩ := h1 h; exact ⟨x, hx⟩
  · by_contra hn; rw [h2 hn] at hx; cases hx
  · obtain ⟨x, hx, -⟩ := h1 hr; rw [hx] at h; cases h

/-- **C121**, double layer: the precisions have defaults, so only the population size matters (with at most 17
objectives, so that the defaults 3 and 4 are in range). -/
theorem nsga3_defined_double (ht : 0 ≤ tiny) (invSqrt2 : α) (hc0 : invSqrt2 ≠ 0) (hd : d ≤ 16)
    (f : V → Fin (d + 1) → α) (garbage : Nat × Nat)
    (cs : List (NSGA3Call (doubleLayer d α invSqrt2) V)) (hl : DoubleLegal cs) :
    (NSGA3Room cs ↔ ∃ x, nsga3Session (doubleLayer d α invSqrt2) tiny (.new _ f garbage) cs = .ok x) ∧
    (¬ NSGA3Room cs ↔ nsga3Session (doubleLayer d α invSqrt2) tiny (.new _ f garbage) cs = .ub) := by
  obtain ⟨h1, h2⟩ := nsga3_object_cases (tiny := tiny) ht f garbage cs (hl.legal hc0)
    (fun p hp => by
      have hp' : ((3, 4) : Nat × Nat) = p := Option.some.inj hp
      subst hp'
      exact usable_double invSqrt2 hc0 (3, 4) (by norm_num) (by norm_num) (by omega) (by omega))
  have hpre : PrecisionBeforeInit (doubleLayer d α invSqrt2) cs := by
    intro before c after _ _
    unfold precisionInForce
    refine lastSet_all (fun c => (NSGA3Call.precision? c).map some) (fun t => t ≠ none) before _ ?_ ?_
    · simp [doubleLayer]
    · intro c _ t ht'
      cases hq : NSGA3Call.precision? c with
      | none => simp [hq] at ht'
      | some q => simp [hq] at ht'; rw [← ht']; simp
  refine ⟨⟨fun h => ?_, fun ⟨x, hx⟩ => ?_⟩, ⟨fun h => h2 (fun hn => h hn.2), fun h hr => ?_⟩⟩
  · obtain ⟨x, hx, -⟩ := h1 ⟨hpre, h⟩; exact ⟨x, hx⟩
  · by_contra hn; rw [h2 (fun h => hn h.2)] at hx; cases hx
  · obtain ⟨x, hx, -⟩ := h1 ⟨hpre, hr⟩; rw [hx] at h; cases h

/-- **C121**: if the single-layer precision was never set, `initializePop` is undefined behaviour (the precision
is an indeterminate value). -/
theorem nsga3_precision_never_set (f : V → Fin (d + 1) → α) (garbage : Nat × Nat)
    (before after : List (NSGA3Call (singleLayer d α) V)) (hno : ∀ c ∈ before, NSGA3Call.precision? c = none)
    (c : NSGA3Call (singleLayer d α) V) (hc : NSGA3Call.IsInit c) (x : NSGA3Obj (singleLayer d α) V) :
    nsga3Session (singleLayer d α) tiny (.new _ f garbage) (before ++ c :: after) ≠ .ok x := by
  intro h
  obtain ⟨i, b, j, s, rfl⟩ := hc
  have key : ∀ (cs : List (NSGA3Call (singleLayer d α) V)) (y z : NSGA3Obj (singleLayer d α) V),
      nsga3Session (singleLayer d α) tiny y cs = .ok z → ∀ pre suf, cs = pre ++ suf →
      ∃ w, nsga3Session (singleLayer d α) tiny y pre = .ok w ∧ nsga3Session (singleLayer d α) tiny w suf = .ok z := by
    intro cs
    induction cs with
    | nil =>
      intro y z hz pre suf hps
      obtain ⟨rfl, rfl⟩ := List.append_eq_nil_iff.1 hps.symm
      exact ⟨y, rfl, hz⟩
    | cons e cs ih =>
      intro y z hz pre suf hps
      cases pre with
      | nil => exact ⟨y, rfl, by rw [← show e :: cs = suf by simpa using hps]; exact hz⟩
      | cons e' pre =>
        simp only [List.cons_append, List.cons.injEq] at hps
        obtain ⟨rfl, hps⟩ := hps
        simp only [nsga3Session] at hz
        rw [Out.bind_eq_ok] at hz
        obtain ⟨y', hy', hz⟩ := hz
        obtain ⟨w, hw, hw'⟩ := ih y' z hz pre suf hps
        exact ⟨w, by simp only [nsga3Session, hy', Out.ok_bind]; exact hw, hw'⟩
  obtain ⟨w, hw, hw'⟩ := key _ _ _ h before _ rfl
  obtain ⟨hp, -, -⟩ := points_from_last_init _ w _ hw
  have : w.prec = none := by
    rw [hp]
    have : before.filterMap (fun c => (NSGA3Call.precision? c).map some) = [] := by
      rw [List.filterMap_eq_nil_iff]
      intro c hc
      rw [hno c hc]; rfl
    unfold lastSet
    rw [this]
    rfl
  simp only [nsga3Session, nsga3Call, this] at hw'
  cases hw'

/-- **C121**: `referencePointCount()` speaks about the precision set last, not about the points in use.  With at
least two objectives it is the number of points in use exactly if the precision is the one that was in force at
the last `initializePop`. -/
theorem nsga3_count_single (hd : 1 ≤ d) (f : V → Fin (d + 1) → α) (garbage : Nat × Nat)
    (before after : List (NSGA3Call (singleLayer d α) V)) (init : Nat → V) (blank : Gene V (Fin (d + 1) → α))
    (junk : Fin (d + 1) → α) (shuffle : List (Fin (d + 1) → α) → List (Fin (d + 1) → α))
    (hsh : ∀ l, (shuffle l).Perm l) (hn : NoInit after) (x : NSGA3Obj (singleLayer d α) V)
    (h : nsga3Session (singleLayer d α) tiny (.new _ f garbage)
      (before ++ .initializePop init blank junk shuffle :: after) = .ok x) (p q : Nat)
    (hp : precisionInForce (singleLayer d α) before = some p)
    (hq : precisionInForce (singleLayer d α) (before ++ .initializePop init blank junk shuffle :: after) = some q)
    (hp1 : 1 ≤ p) (hp2 : d + p ≤ 20) (hq2 : d + q ≤ 20) :
    x.referencePointCount = .ok ((d + q).choose q) ∧
    (x.referencePointCount = .ok x.refs.length ↔ q = p) := by
  obtain ⟨p', hp', hlat⟩ := nsga3_points_single f garbage before after init blank junk shuffle hsh hn x h
  have : p' = p := Option.some.inj (hp'.symm.trans hp)
  subst this
  obtain ⟨-, hlen⟩ := hlat hp1 hp2
  obtain ⟨hprec, -, -⟩ := points_from_last_init _ x _ h
  have hxq : x.prec = some q := hprec.trans hq
  have hcount : x.referencePointCount = .ok ((d + q).choose q) := by
    unfold NSGA3Obj.referencePointCount
    rw [hxq]
    show nchooseK64 (q + (d + 1) - 1) q = _
    rw [show q + (d + 1) - 1 = d + q by omega]
    exact nchooseK_eq_choose_partial (d + q) q (by omega) (by omega)
  refine ⟨hcount, ?_⟩
  rw [hcount, hlen, Out.ok.injEq]
  have mono : ∀ a b : Nat, a < b → (d + a).choose a < (d + b).choose b := by
    intro a b hab
    rw [← Nat.choose_symm (show a ≤ d + a by omega), ← Nat.choose_symm (show b ≤ d + b by omega),
      show d + a - a = d by omega, show d + b - b = d by omega]
    have h1 : (d + a).choose d < (d + a + 1).choose d := by
      obtain ⟨e, rfl⟩ : ∃ e, d = e + 1 := ⟨d - 1, by omega⟩
      have := Nat.choose_succ_succ' (e + 1 + a) e
      have := Nat.choose_pos (show e ≤ e + 1 + a by omega)
      omega
    exact lt_of_lt_of_le h1 (Nat.choose_le_choose d (by omega))
  constructor
  · intro he
    rcases lt_trichotomy q p' with hlt | heq | hgt
    · have := mono q p' hlt; omega
    · exact heq
    · have := mono p' q hgt; omega
  · rintro rfl; rfl

/-- **C121**: what `setReferencePointPrecision` accepts: anything with a single layer, two precisions of at least 2
with two layers (anything else breaks an assertion); it changes the precision only. -/
theorem nsga3_setter (invSqrt2 : α) (x : NSGA3Obj (doubleLayer d α invSqrt2) V) (y : NSGA3Obj (singleLayer d α) V) :
    (∀ i o : Nat, (2 ≤ i ∧ 2 ≤ o ↔ nsga3Call (doubleLayer d α invSqrt2) tiny x (.setPrecision (i, o)) ≠ .ub) ∧
      (2 ≤ i ∧ 2 ≤ o → nsga3Call (doubleLayer d α invSqrt2) tiny x (.setPrecision (i, o)) =
        .ok ⟨x.mo, some (i, o), x.refs⟩)) ∧
    ∀ p : Nat, nsga3Call (singleLayer d α) tiny y (.setPrecision p) = .ok ⟨y.mo, some p, y.refs⟩ := by
  refine ⟨fun i o => ?_, fun p => rfl⟩
  by_cases hc : 2 ≤ i ∧ 2 ≤ o
  · have : nsga3Call (doubleLayer d α invSqrt2) tiny x (.setPrecision (i, o)) = .ok ⟨x.mo, some (i, o), x.refs⟩ := by
      exact if_pos (by simp [hc.1, hc.2] : (decide (2 ≤ i) && decide (2 ≤ o)) = true)
    exact ⟨⟨fun _ => by rw [this]; simp, fun _ => hc⟩, fun _ => this⟩
  · refine ⟨⟨fun h => absurd h hc, fun hn => absurd ?_ hn⟩, fun h => absurd h hc⟩
    exact if_neg (by simpa using hc : ¬ (decide (2 ≤ i) && decide (2 ≤ o)) = true)

/-- **C121**, double layer: `referencePointCount()` is the sum of the sizes of the two lattices of the precisions
set last. -/
theorem nsga3_count_double (invSqrt2 : α) (f : V → Fin (d + 1) → α) (garbage : Nat × Nat)
    (cs : List (NSGA3Call (doubleLayer d α invSqrt2) V)) (x : NSGA3Obj (doubleLayer d α invSqrt2) V)
    (h : nsga3Session (doubleLayer d α invSqrt2) tiny (.new _ f garbage) cs = .ok x) (i o : Nat)
    (hp : precisionInForce (doubleLayer d α invSqrt2) cs = some (i, o)) (hi : d + i ≤ 20) (ho : d + o ≤ 20) :
    x.referencePointCount = .ok ((d + i).choose i + (d + o).choose o) := by
  have hx : x.prec = some (i, o) := (points_from_last_init _ _ _ h).1.trans hp
  have hc : ∀ p : Nat, d + p ≤ 20 → nchooseK64 (p + (d + 1) - 1) p = .ok ((d + p).choose p) := by
    intro p hp
    have : p + (d + 1) - 1 = d + p := by omega
    rw [this]
    exact nchooseK_eq_choose_partial _ _ (by omega) (by omega)
  have hb : ∀ p : Nat, d + p ≤ 20 → (d + p).choose p < 2 ^ 20 + 1 := fun p hp => by
    have h1 := Nat.choose_le_two_pow (d + p) p
    have h2 := Nat.pow_le_pow_right (n := 2) (by norm_num) hp
    omega
  unfold NSGA3Obj.referencePointCount
  rw [hx]
  show (do
    let ci ← nchooseK64 (i + (d + 1) - 1) i
    let co ← nchooseK64 (o + (d + 1) - 1) o
    .ok ((ci + co) % 2 ^ 64) : Out Nat) = _
  rw [hc i hi, hc o ho]
  have h1 := hb i hi
  have h2 := hb o ho
  simp only [Out.ok_bind]
  rw [Nat.mod_eq_of_lt (by norm_num; omega)]

/-- **C121**: let any legal history (single or double layer) end with a `run` that returned, the fitness function
not having been changed since the last `initializePop`.  Then `populationSize` individuals remain, each with its
true fitness, the run made `maxGenerations` generations and the reported front is exactly the non-dominated part
of the population: changing the precision between runs does no harm. -/
theorem nsga3_object_run {L : RefLayout d α} (ht : 0 ≤ tiny) (f : V → Fin (d + 1) → α) (garbage : Nat × Nat)
    (cs : List (NSGA3Call L V)) (e : Nat → NSGA3Env α) (v : Nat → MOVary V (d + 1) α)
    (hl : NSGA3Legal L (cs ++ [.run e v])) (h0 : ∀ p, L.initial = some p → UsablePrecision L p)
    (hu : NSGA3FitnessUnchanged cs) (x : NSGA3Obj L V)
    (hx : nsga3Session L tiny (.new L f garbage) (cs ++ [.run e v]) = .ok x)
    (order : Finset Addr → List Addr) (hord : ∀ S, (order S).Nodup ∧ ∀ a, a ∈ order S ↔ a ∈ S) :
    x.mo.generation = x.mo.maxGen ∧ x.mo.st.pop.length = nsga3PopulationSize cs ∧
    (∀ c ∈ x.mo.st.pop, c.2.fitness = x.mo.f c.2.var) ∧
    ∃ front, paretoFront order x.mo.st = .ok front ∧
      IsFrontOf .lessBetter x.mo.f (x.mo.st.pop.map fun c => c.2.var) front := by
  obtain ⟨h1, h2⟩ := nsga3_object_cases (tiny := tiny) ht f garbage cs hl.left h0
  obtain ⟨-, h2'⟩ := nsga3_object_cases (tiny := tiny) ht f garbage _ hl h0
  have hroom : PrecisionBeforeInit L (cs ++ [.run e v]) ∧ NSGA3Room (cs ++ [.run e v]) := by
    by_contra hn; rw [h2' hn] at hx; cases hx
  rw [precBefore_snoc, nsga3Room_snoc] at hroom
  obtain ⟨y, hy, hi⟩ := h1 ⟨hroom.1.1, hroom.2.1⟩
  rw [nsga3Session_snoc, hy, Out.ok_bind] at hx
  have hK := nsga3Size_pos hl.left
  have hK1 : 1 ≤ y.mo.K := by rw [hi.K]; exact hK.1
  have hlen : y.mo.K ≤ y.mo.st.pop.length := by
    rw [hi.K, hi.count]; exact hroom.2.2 ⟨e, v, rfl⟩
  obtain ⟨hrn, hrw⟩ := hi.refs (by rw [← hi.count]; omega)
  have hleg := hl.draws e v (by simp)
  have hg : ∀ g, GoodSelection .lessBetter y.mo.K (fun fit pop =>
      nsga3SelectFull y.mo.K fit (e g).sortD tiny y.refs (e g).order (e g).ds
        (pop.length + y.refs.length) pop) := fun g =>
    good_nsga3 y.mo.K (by rw [hi.K]; exact hK.2) tiny ht y.refs hrn hrw (e g) (hleg g)
      (fun n => n + y.refs.length) (fun _ => le_refl _)
  obtain ⟨r, hr, a1, a2, a3, a4, -⟩ := mo_run .lessBetter y.mo.f y.mo.K (fun g fit pop =>
      nsga3SelectFull y.mo.K fit (e g).sortD tiny y.refs (e g).order (e g).ds
        (pop.length + y.refs.length) pop) v hK1 hg y.mo.st
    ⟨hi.distinct, hi.cache hu, hlen⟩ y.mo.maxGen y.mo.maxFail order hord
  simp only [nsga3Call, moCall, hr, Out.ok_bind, Out.ok.injEq] at hx
  subst hx
  exact ⟨a1, a2.trans hi.K, a3, a4⟩

end layers

/-- Draws of a run, with insertion sort. -/
def demoN3Run {L : RefLayout 2 ℚ} : NSGA3Call L (Fin 3 → ℚ) :=
  .run (fun _ => ⟨insertionSorter, fun S => S.sort (· ≤ ·),
      fun _ => { rIdx := fun _ => 0, draws := fun _ => 1 / 2, order := id }⟩)
    (fun _ => ⟨fun _ a b => (b, a), fun _ => true, id, fun _ x => x, fun _ => false, 0⟩)

/-- `initializePop` with three-dimensional points. -/
def demoN3Init {L : RefLayout 2 ℚ} : NSGA3Call L (Fin 3 → ℚ) :=
  .initializePop (fun i => ![i, 2 - i, 1]) ⟨0, 99, true⟩ (fun _ => 7) id

/-- Precision 6, four individuals, initialise, run, change the precision to 4, run again. -/
def demoN3History : List (NSGA3Call (singleLayer 2 ℚ) (Fin 3 → ℚ)) :=
  [.setPrecision (L := singleLayer 2 ℚ) (6 : Nat), .setOption 4 3 0, demoN3Init, demoN3Run,
    .setPrecision (L := singleLayer 2 ℚ) (4 : Nat), demoN3Run]

/-- Non-vacuity of `nsga3_defined_single`: the calls are legal … -/
theorem demoN3_legal : SingleLegal demoN3History := by
  refine ⟨?_, ?_, ?_, ?_⟩
  · intro K G F h
    simp only [demoN3History, demoN3Init, demoN3Run, List.mem_cons, List.not_mem_nil, or_false, reduceCtorEq,
      false_or, NSGA3Call.setOption.injEq] at h
    obtain ⟨rfl, -, -⟩ := h
    norm_num
  · intro p h
    simp only [demoN3History, demoN3Init, demoN3Run, List.mem_cons, List.not_mem_nil, or_false, reduceCtorEq,
      false_or, NSGA3Call.setPrecision.injEq] at h
    rcases h with h | h <;> (injection h with h'; subst h'; norm_num)
  · intro i b j s h l
    simp only [demoN3History, demoN3Init, demoN3Run, List.mem_cons, List.not_mem_nil, or_false, reduceCtorEq,
      false_or, NSGA3Call.initializePop.injEq] at h
    obtain ⟨-, -, -, rfl⟩ := h
    exact List.Perm.refl l
  · intro e v h g
    simp only [demoN3History, demoN3Init, demoN3Run, List.mem_cons, List.not_mem_nil, or_false, reduceCtorEq,
      false_or, NSGA3Call.run.injEq] at h
    rcases h with h | h <;>
      (obtain ⟨rfl, -⟩ := h
       exact ⟨fun S g => by simp, fun k => ⟨fun _ h => h, fun _ => by norm_num, fun l => List.Perm.refl l⟩⟩)

/-- … and in a legal order, so the history returns. -/
theorem demoN3_returns : ∃ x, nsga3Session (singleLayer 2 ℚ) (1 / 10000000000) (.new _ (fun v : Fin 3 → ℚ => v) (5, 6))
    demoN3History = .ok x := by
  refine (nsga3_defined_single (by norm_num) _ _ _ demoN3_legal).1.1 ?_
  have e : demoN3History = ((((((([] : List (NSGA3Call (singleLayer 2 ℚ) (Fin 3 → ℚ))) ++
    [.setPrecision (L := singleLayer 2 ℚ) (6 : Nat)]) ++ [.setOption 4 3 0]) ++ [demoN3Init]) ++ [demoN3Run]) ++
    [.setPrecision (L := singleLayer 2 ℚ) (4 : Nat)]) ++ [demoN3Run]) := rfl
  rw [e]
  simp only [precBefore_snoc, nsga3Room_snoc, precisionInForce_snoc, nsga3Size_snoc, nsga3Count_snoc]
  refine ⟨⟨⟨⟨⟨⟨⟨?_, ?_⟩, ?_⟩, ?_⟩, ?_⟩, ?_⟩, ?_⟩, ⟨⟨⟨⟨⟨⟨?_, ?_⟩, ?_⟩, ?_⟩, ?_⟩, ?_⟩, ?_⟩⟩
  · intro b c a h; simp at h
  · rintro ⟨_, _, _, _, h⟩; cases h
  · rintro ⟨_, _, _, _, h⟩; cases h
  · intro _; simp
  · rintro ⟨_, _, _, _, h⟩; cases h
  · rintro ⟨_, _, _, _, h⟩; cases h
  · rintro ⟨_, _, _, _, h⟩; cases h
  · intro b e v a h; simp at h
  all_goals first
    | (rintro ⟨_, _, h⟩; cases h; done)
    | (intro _; simp [demoN3Init, demoN3Run])

/-- **C121** in use: in this history the runs use the 28 points of precision 6, although `referencePointCount()`
says 15 at the end, the number for precision 4. -/
theorem nsga3_count_lies (x : NSGA3Obj (singleLayer 2 ℚ) (Fin 3 → ℚ))
    (h : nsga3Session (singleLayer 2 ℚ) (1 / 10000000000) (.new _ (fun v : Fin 3 → ℚ => v) (5, 6))
      demoN3History = .ok x) :
    x.refs.length = 28 ∧ IsLattice 6 x.refs ∧ x.referencePointCount = .ok 15 := by
  have hn : NoInit ([demoN3Run, .setPrecision (L := singleLayer 2 ℚ) (4 : Nat), demoN3Run] :
      List (NSGA3Call (singleLayer 2 ℚ) (Fin 3 → ℚ))) := by
    intro c hc
    simp only [List.mem_cons, List.not_mem_nil, or_false] at hc
    rcases hc with rfl | rfl | rfl <;> (rintro ⟨_, _, _, _, h⟩; cases h)
  obtain ⟨p, hp, hl⟩ := nsga3_points_single (fun v : Fin 3 → ℚ => v) (5, 6)
    [.setPrecision (L := singleLayer 2 ℚ) (6 : Nat), .setOption 4 3 0]
    [demoN3Run, .setPrecision (L := singleLayer 2 ℚ) (4 : Nat), demoN3Run] _ _ _ id (fun l => List.Perm.refl l) hn x h
  have hp6 : p = 6 := (Option.some.inj hp).symm
  subst hp6
  obtain ⟨h1, h2⟩ := hl (by norm_num) (by norm_num)
  obtain ⟨c1, -⟩ := nsga3_count_single (by norm_num) (fun v : Fin 3 → ℚ => v) (5, 6)
    [.setPrecision (L := singleLayer 2 ℚ) (6 : Nat), .setOption 4 3 0]
    [demoN3Run, .setPrecision (L := singleLayer 2 ℚ) (4 : Nat), demoN3Run] _ _ _ id (fun l => List.Perm.refl l) hn x h
    6 4 rfl rfl (by norm_num) (by norm_num) (by norm_num)
  exact ⟨h2.trans (by decide), h1, c1.trans (by decide)⟩

/-- Non-vacuity of the double-layer theorems: with the default precisions, initialise and run. -/
example : DoubleLegal ([.setOption 4 3 0, demoN3Init, demoN3Run] :
    List (NSGA3Call (doubleLayer 2 ℚ (7 / 10)) (Fin 3 → ℚ))) ∧
    precisionInForce (doubleLayer 2 ℚ (7 / 10)) ([.setOption 4 3 0] :
      List (NSGA3Call (doubleLayer 2 ℚ (7 / 10)) (Fin 3 → ℚ))) = some ((3, 4) : Nat × Nat) := by
  refine ⟨⟨?_, ?_, ?_, ?_⟩, rfl⟩
  · intro K G F h
    simp only [demoN3Init, demoN3Run, List.mem_cons, List.not_mem_nil, or_false, reduceCtorEq,
      false_or, NSGA3Call.setOption.injEq] at h
    obtain ⟨rfl, -, -⟩ := h
    norm_num
  · intro i o h
    simp [demoN3Init, demoN3Run] at h
  · intro i b j s h l
    simp only [demoN3Init, demoN3Run, List.mem_cons, List.not_mem_nil, or_false, reduceCtorEq,
      false_or, NSGA3Call.initializePop.injEq] at h
    obtain ⟨-, -, -, rfl⟩ := h
    exact List.Perm.refl l
  · intro e v h g
    simp only [demoN3Init, demoN3Run, List.mem_cons, List.not_mem_nil, or_false, reduceCtorEq,
      false_or, NSGA3Call.run.injEq] at h
    obtain ⟨rfl, -⟩ := h
    exact ⟨fun S g => by simp, fun k => ⟨fun _ h => h, fun _ => by norm_num, fun l => List.Perm.refl l⟩⟩

end Heu
