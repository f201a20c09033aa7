import Verif.Lemmas.SOGAFl5
import Verif.Spec.SOFl
import Verif.Props.NSGA

/-!
# C96–C99: single-objective selection on real `double`s

`Props/SOGA` treats fitness values as elements of an ordered field.  Here they are IEEE-754 doubles: sums and
products round and overflow, values may be infinite or NaN.
-/

set_option linter.unusedSectionVars false
set_option linter.unusedSimpArgs false
set_option linter.unusedVariables false

namespace Heu
open Spec

section
variable {γ : Type} [DecidableEq γ] {F : Fmt}

/-- What the standard library and the generators guarantee about the draws of one selection on doubles. -/
structure ValidEnvFl (F : Fmt) (e : SelectEnv γ (Dbl F)) : Prop where
  shuffle : ∀ l, (e.shuffle l).Perm l
  order : ∀ l, (e.order l).Perm l
  tournamentSize : 1 ≤ e.tournamentSize
  idxB : ∀ n k j, e.tournamentSize < n → e.tournamentSize ≤ e.idxB n k j ∧ e.idxB n k j < n
  ds : ∀ i, Uniform01 F (e.ds i).u
  u0 : Uniform01 F e.u0
  u : ∀ i, Uniform01 F (e.u i)

theorem Spec.AtMost.small {F : Fmt} {e : Nat} {x : Dbl F} (h : AtMost F e x) : Small F 1 (F.one + e) x.val := by
  obtain ⟨⟨s, n, hx, -, -⟩, h⟩ := h
  refine ⟨s, n, hx, ?_⟩
  rw [hx] at h
  have h2 : (0 : ℚ) < (2 : ℚ) ^ F.one := by positivity
  have hn : |Fl.number F (.fin s n)| = (n : ℚ) / 2 ^ F.one := by
    cases s <;> simp [Fl.number, abs_mul, div_eq_mul_inv, abs_of_pos h2]
  rw [hn, div_le_iff₀ h2] at h
  rw [Nat.one_mul, pow_add, Nat.mul_comm]
  exact_mod_cast h

theorem Spec.Uniform01.draw {F : Fmt} {x : Dbl F} (h : Uniform01 F x) : Draw01 x := by
  obtain ⟨-, ⟨n, hx⟩, h⟩ := h
  refine ⟨n, hx, ?_⟩
  rw [hx] at h
  have h2 : (0 : ℚ) < (2 : ℚ) ^ F.one := by positivity
  have hn : Fl.number F (.fin false n) = (n : ℚ) / 2 ^ F.one := by
    simp [Fl.number, div_eq_mul_inv]
  rw [hn, div_lt_one h2] at h
  exact_mod_cast h

theorem Spec.Uniform01.isFin {F : Fmt} {x : Dbl F} (h : Uniform01 F x) : x.IsFin := by
  obtain ⟨-, ⟨n, hx⟩, -⟩ := h; exact ⟨false, n, hx⟩

theorem SelectSpec.toFl {F : Fmt} {o : FitnessOption} {fit : γ → Dbl F} {s s' : SOState γ}
    (h : SelectSpec o (fitExt fit) s s') : SelectedFl F o fit s s' := by
  refine ⟨h.noInvention, h.best, ?_⟩
  obtain ⟨c, old, h1, h2, h3, h4⟩ := h.fail
  exact ⟨c, old, deref_ok h1, deref_ok h2, h3, h4⟩

/-! ## C96: what selection returns -/

/-- The same for all methods, in the vocabulary of `Lemmas/SOGA`. -/
theorem selection_fl_spec (F : Fmt) (o : FitnessOption) (fit : γ → Dbl F) (m : SelectMethod)
    (e : SelectEnv γ (Dbl F)) (he : ValidEnvFl F e) (pow : Dbl F → Nat → Dbl F) (K : Nat) (s s' : SOState γ)
    (hd : DistinctNodes s.pop) (hnan : ∀ c ∈ s.pop, (fit c.2).val ≠ .nan)
    (h : runSelectFl o fit m e pow K s = .ok s') : SelectSpec o (fitExt fit) s s' := by
  cases m with
  | RouletteWheel => exact (rouletteFl_inv o fit hd hnan h).1
  | Tournament =>
    simp only [runSelectFl, tournament_fl o fit he.shuffle hnan] at h
    exact (tournament_spec o (fitExt fit) he.shuffle he.order he.tournamentSize hd h).1
  | Truncation =>
    simp only [runSelectFl, truncation_fl o fit hnan] at h
    exact (truncation_spec o (fitExt fit) _ hd h).1
  | MonteCarlo => exact (montecarloFl_inv o fit he.shuffle hd hnan h).1
  | Probability =>
    refine (weightedFl_inv o fit hd hnan (es := (probabilitiesFl o fit s.pop).map _) ?_ h).1
    rw [map_fst_map, probabilitiesFl_map]
  | LinearRank =>
    simp only [runSelectFl, selectLinearRankFl, sortRange_fl o fit _ hnan, Out.ok_bind] at h
    refine (weightedFl_inv o fit hd hnan ?_ h).1
    rw [zipIdx_map_fst]; exact (rangeSorter e.sort s.pop).perm _ _
  | ExponentialRank =>
    simp only [runSelectFl, selectExponentialRankFl, sortRange_fl o fit _ hnan, Out.ok_bind] at h
    refine (weightedFl_inv o fit hd hnan ?_ h).1
    rw [zipIdx_map_fst _ (fun i => exponentialWeightFl e.base pow s.pop.length i)]
    exact (rangeSorter e.sort s.pop).perm _ _
  | Boltzmann =>
    refine (weightedFl_inv o fit hd hnan (es := s.pop.map fun c => (c, e.exp (e.strength * fit c.2))) ?_ h).1
    rw [List.map_map]; show (s.pop.map fun c => c).Perm _; simp
  | StochasticUniversal => exact susFl_inv o fit hd hnan h
  | EliteReserved => exact (eliteFl_inv o fit hd hnan h).1
  | RunTimeSelectMethod => simp [runSelectFl] at h

/-- C96: with any doubles but NaN as fitness – infinities included – whatever any of the ten methods returns
consists of copies of members, reports a living best that no survivor beats and counts fruitless generations
correctly: rounding never spoils this. -/
theorem selection_fl_correct (F : Fmt) (o : FitnessOption) (fit : γ → Dbl F) (m : SelectMethod)
    (e : SelectEnv γ (Dbl F)) (he : ValidEnvFl F e) (pow : Dbl F → Nat → Dbl F) (K : Nat) (s s' : SOState γ)
    (hd : DistinctNodes s.pop) (hnan : ∀ c ∈ s.pop, (fit c.2).val ≠ .nan)
    (h : runSelectFl o fit m e pow K s = .ok s') : SelectedFl F o fit s s' :=
  SelectSpec.toFl (selection_fl_spec F o fit m e he pow K s s' hd hnan h)

/-- C96 (partial): exactly `min K n` individuals survive, with any doubles but NaN, for all methods but
StochasticUniversal (EliteReserved: with at most `K` elites).  Missing: StochasticUniversal, for which it is
false (`sus_rounding_keeps_extra`); see `sus_fl_at_least`. -/
theorem selection_fl_size_partial (F : Fmt) (o : FitnessOption) (fit : γ → Dbl F) (m : SelectMethod)
    (e : SelectEnv γ (Dbl F)) (he : ValidEnvFl F e) (pow : Dbl F → Nat → Dbl F) (K : Nat) (s s' : SOState γ)
    (hd : DistinctNodes s.pop) (hnan : ∀ c ∈ s.pop, (fit c.2).val ≠ .nan)
    (hsus : m ≠ .StochasticUniversal) (hel : m = .EliteReserved → e.eliteNum ≤ K)
    (h : runSelectFl o fit m e pow K s = .ok s') : s'.pop.length = min K s.pop.length := by
  cases m with
  | RouletteWheel => exact (rouletteFl_inv o fit hd hnan h).2
  | Tournament =>
    simp only [runSelectFl, tournament_fl o fit he.shuffle hnan] at h
    exact (tournament_spec o (fitExt fit) he.shuffle he.order he.tournamentSize hd h).2.1
  | Truncation =>
    simp only [runSelectFl, truncation_fl o fit hnan] at h
    exact (truncation_spec o (fitExt fit) _ hd h).2.1
  | MonteCarlo => exact (montecarloFl_inv o fit he.shuffle hd hnan h).2
  | Probability =>
    refine (weightedFl_inv o fit hd hnan (es := (probabilitiesFl o fit s.pop).map _) ?_ h).2
    rw [map_fst_map, probabilitiesFl_map]
  | LinearRank =>
    simp only [runSelectFl, selectLinearRankFl, sortRange_fl o fit _ hnan, Out.ok_bind] at h
    refine (weightedFl_inv o fit hd hnan ?_ h).2
    rw [zipIdx_map_fst]; exact (rangeSorter e.sort s.pop).perm _ _
  | ExponentialRank =>
    simp only [runSelectFl, selectExponentialRankFl, sortRange_fl o fit _ hnan, Out.ok_bind] at h
    refine (weightedFl_inv o fit hd hnan ?_ h).2
    rw [zipIdx_map_fst _ (fun i => exponentialWeightFl e.base pow s.pop.length i)]
    exact (rangeSorter e.sort s.pop).perm _ _
  | Boltzmann =>
    refine (weightedFl_inv o fit hd hnan (es := s.pop.map fun c => (c, e.exp (e.strength * fit c.2))) ?_ h).2
    rw [List.map_map]; show (s.pop.map fun c => c).Perm _; simp
  | StochasticUniversal => exact absurd rfl hsus
  | EliteReserved =>
    have := (eliteFl_inv o fit hd hnan h).2
    have := hel rfl
    omega
  | RunTimeSelectMethod => simp [runSelectFl] at h

/-- C96, C97: StochasticUniversal always returns and never leaves fewer than `min K n`. -/
theorem sus_fl_at_least (o : FitnessOption) (fit : γ → Dbl binary64) (e : SelectEnv γ (Dbl binary64))
    (he : ValidEnvFl binary64 e) (pow : Dbl binary64 → Nat → Dbl binary64) (K : Nat) (hK : 0 < K) (s : SOState γ)
    (hd : DistinctNodes s.pop) (hb : s.best ∈ s.pop.map (·.1)) (hl : s.pop.length < 2 ^ 31)
    (hnan : ∀ c ∈ s.pop, (fit c.2).val ≠ .nan) :
    ∃ s', runSelectFl o fit .StochasticUniversal e pow K s = .ok s' ∧ min K s.pop.length ≤ s'.pop.length :=
  susFl_total o fit hd hnan hb hK hl (by decide) (by decide) (fun i => (he.u i).draw)

/-! ## C97: selection returns -/

/-- C97 (partial): with finite fitness values of magnitude at most `2^970` and fewer than `2^31` individuals
the roulette loops of RouletteWheel, Probability, LinearRank, ExponentialRank and Boltzmann end in spite of
rounding, and Tournament, MonteCarlo and StochasticUniversal return as well.  Hypotheses about the libm: `pow`
maps `[0,1]` into `[0,1]` and does not exceed its base there; the exponentials of Boltzmann are at most
`2^970`.  RouletteWheel: in each round with vanishing weights one of the draws hits, as in the ideal
arithmetic.  Missing: everything else is false or undefined, see the following theorems and C35. -/
theorem selection_fl_finishes_partial (o : FitnessOption) (fit : γ → Dbl binary64) (m : SelectMethod)
    (e : SelectEnv γ (Dbl binary64)) (he : ValidEnvFl binary64 e) (pow : Dbl binary64 → Nat → Dbl binary64)
    (K : Nat) (hK : 0 < K) (s : SOState γ) (hd : DistinctNodes s.pop) (hb : s.best ∈ s.pop.map (·.1))
    (hl : s.pop.length < 2 ^ 31) (hfuel : K ≤ e.fuel)
    (hfit : ∀ c ∈ s.pop, AtMost binary64 970 (fit c.2))
    (hm : m ≠ .Truncation ∧ m ≠ .EliteReserved ∧ m ≠ .RunTimeSelectMethod)
    (hT : m = .Tournament → e.tournamentSize < K)
    (hR : m = .RouletteWheel → ∀ it, ∃ j, j ≤ s.pop.length - K ∧ (e.ds it).hit j = true)
    (hP : m = .Probability → AtMost binary64 400 e.big)
    (hL : m = .LinearRank → AtMost binary64 0 e.worst ∧ AtMost binary64 0 e.best)
    (hE : m = .ExponentialRank → Uniform01 binary64 e.base)
    (hpow : ∀ (x : Dbl binary64) k, 0 ≤ x → x ≤ Dbl.nat binary64 1 →
      0 ≤ pow x k ∧ pow x k ≤ Dbl.nat binary64 1 ∧ (0 < k → pow x k ≤ x))
    (hB : m = .Boltzmann → ∀ c ∈ s.pop, AtMost binary64 970 (e.exp (e.strength * fit c.2))) :
    ∃ s', runSelectFl o fit m e pow K s = .ok s' := by
  have hs : ∀ c ∈ s.pop, Small binary64 1 (binary64.one + 970) (fit c.2).val := fun c hc => (hfit c hc).small
  have hnan : ∀ c ∈ s.pop, (fit c.2).val ≠ .nan := fun c hc => (Small.isFin (hs c hc)).ne_nan
  have hu : ∀ i, (e.ds i).u.IsFin := fun i => (he.ds i).isFin
  cases m with
  | RouletteWheel =>
    exact rouletteFl_total o fit hd hb hK hfuel hu hl (by decide) (by decide) hs (hR rfl)
  | Tournament =>
    simp only [runSelectFl, tournament_fl o fit he.shuffle hnan]
    exact tournament_total o (fitExt fit) he.shuffle he.tournamentSize hd hb (hT rfl)
      (fun hlt k j => (he.idxB _ k j (by have := hT rfl; omega)).2)
  | Truncation => exact absurd rfl hm.1
  | MonteCarlo => exact montecarloFl_total o fit he.shuffle hd hnan hb hK
  | Probability =>
    exact probabilityFl_total o fit (b := 400) hd hb hK hfuel hu hl (by decide) hs (by decide) (hP rfl).small
      (by decide) (fun x k hx => ⟨(hpow x k hx.1 hx.2).1, (hpow x k hx.1 hx.2).2.1⟩)
  | LinearRank =>
    exact linearRankFl_total o fit hd hnan hb hK hfuel hu hl (by decide) (by decide)
      (hL rfl).1.small (hL rfl).2.small
  | ExponentialRank =>
    obtain ⟨⟨s', b', hb', hrep, -⟩, ⟨b, hbase⟩, -⟩ := hE rfl
    have hbb : b' = b := by rw [hbase] at hb'; simp at hb'; exact hb'.2.symm
    obtain ⟨b2, hb2, hlt⟩ := (hE rfl).draw
    have hbb2 : b2 = b := by rw [hbase] at hb2; simp at hb2; exact hb2.symm
    subst hbb; subst hbb2
    have hU : Unit01 e.base := by
      refine ⟨?_, ?_⟩
      · rw [Dbl.le_def, hbase, Dbl.zero_val, fl_le_fin]; simp [Fl.units]
      · rw [Dbl.le_def, hbase, nat_val, fl_le_fin]
        simp only [Fl.units, Bool.false_eq_true, if_false, Nat.one_mul]
        exact_mod_cast hlt.le
    exact exponentialRankFl_total o fit binary64_good hd hnan hb hK hfuel hu hl (by decide) (by decide) hbase hrep hlt
      (fun k => ⟨(hpow _ k hU.1 hU.2).1, (hpow _ k hU.1 hU.2).2.1⟩) (fun k hk => (hpow _ k hU.1 hU.2).2.2 hk)
  | Boltzmann =>
    exact boltzmannFl_total o fit (e := binary64.one + 970) hd hnan hb hK hfuel hu hl (by decide) (by decide)
      (fun c hc => (hB rfl c hc).small)
  | StochasticUniversal =>
    obtain ⟨s', h, -⟩ := sus_fl_at_least o fit e he pow K hK s hd hb hl hnan
    exact ⟨s', h⟩
  | EliteReserved => exact absurd rfl hm.2.1
  | RunTimeSelectMethod => exact absurd rfl hm.2.2

/-! ### C97, negations -/

theorem length_mapFst {l : List (Cell γ × Dbl F)} {pop : List (Cell γ)} (h : l.map (·.1) = pop) :
    l.length = pop.length := by rw [← h, List.length_map]

theorem signed_nan {F : Fmt} (o : FitnessOption) (fit : γ → Dbl F) (g : γ) :
    (signedFit o fit g).val = .nan ↔ (fit g).val = .nan := by
  cases o
  · show (fit g).val.neg = .nan ↔ _
    cases (fit g).val <;> simp [Fl.neg]
  · rfl

theorem signed_worst {F : Fmt} (o : FitnessOption) (fit : γ → Dbl F) (g : γ) :
    (signedFit o fit g).val = .inf true ↔ (fit g).val = worstPossible o := by
  cases o
  · show (fit g).val.neg = .inf true ↔ _
    cases (fit g).val with
    | nan => simp [Fl.neg, worstPossible]
    | inf s => cases s <;> simp [Fl.neg, worstPossible]
    | fin s n => simp [Fl.neg, worstPossible]
  · rfl

theorem signed_best {F : Fmt} (o : FitnessOption) (fit : γ → Dbl F) (g : γ) :
    (signedFit o fit g).val = .inf false ↔ (fit g).val = bestPossible o := by
  cases o
  · show (fit g).val.neg = .inf false ↔ _
    cases (fit g).val with
    | nan => simp [Fl.neg, bestPossible]
    | inf s => cases s <;> simp [Fl.neg, bestPossible]
    | fin s n => simp [Fl.neg, bestPossible]
  · rfl

theorem signed_isFin {F : Fmt} (o : FitnessOption) (fit : γ → Dbl F) (g : γ) :
    (signedFit o fit g).IsFin ↔ (fit g).IsFin := by
  cases o
  · show (∃ s n, (fit g).val.neg = .fin s n) ↔ ∃ s n, (fit g).val = .fin s n
    cases (fit g).val <;> simp [Fl.neg]
  · rfl

/-- C97, negation for Boltzmann: as soon as one exponential overflows to `+inf` (or is NaN), the selection never
returns, whatever the draws and however long it runs. -/
theorem boltzmann_overflow_hangs (F : Fmt) (o : FitnessOption) (fit : γ → Dbl F) (e : SelectEnv γ (Dbl F))
    (he : ValidEnvFl F e) (pow : Dbl F → Nat → Dbl F) (K : Nat) (hK : 0 < K) (s : SOState γ)
    (hb : s.best ∈ s.pop.map (·.1)) (hlt : K < s.pop.length)
    (h : (∃ c ∈ s.pop, (e.exp (e.strength * fit c.2)).val = .nan) ∨
      ((∀ c ∈ s.pop, 0 ≤ e.exp (e.strength * fit c.2)) ∧
        ∃ c ∈ s.pop, (e.exp (e.strength * fit c.2)).val = .inf false)) :
    runSelectFl o fit .Boltzmann e pow K s = .timeout := by
  simp only [runSelectFl, selectBoltzmannFl]
  rcases deref_ok_or_ub s.pop s.best with ⟨old, hold⟩ | hub
  swap
  · exact absurd hb (deref_ub.1 hub)
  rw [hold]; simp only [Out.ok_bind]
  rw [if_neg (by omega)]
  apply byWeightsFl_stuck o fit (fun i => (he.ds i).draw) (by rw [List.length_map]) hK hlt
  rcases h with ⟨c, hc, h⟩ | ⟨hn, c, hc, h⟩
  · exact Or.inl ⟨_, List.mem_map.2 ⟨c, hc, rfl⟩, h⟩
  · refine Or.inr ⟨?_, _, List.mem_map.2 ⟨c, hc, rfl⟩, h⟩
    intro x hx
    obtain ⟨c, hc, rfl⟩ := List.mem_map.1 hx
    exact hn c hc

/-- C97: with the default strength 10 (maximising) one individual of fitness 71 or more is enough, because
`exp` overflows above 710. -/
theorem boltzmann_default_strength_hangs (fit : γ → Dbl binary64) (e : SelectEnv γ (Dbl binary64))
    (he : ValidEnvFl binary64 e) (pow : Dbl binary64 → Nat → Dbl binary64) (K : Nat) (hK : 0 < K) (s : SOState γ)
    (hb : s.best ∈ s.pop.map (·.1)) (hlt : K < s.pop.length)
    (hstr : e.strength = Dbl.nat binary64 10)
    (hexp : ∀ x, (x.val ≠ .nan → 0 ≤ e.exp x) ∧ (Dbl.nat binary64 710 ≤ x → (e.exp x).val = .inf false))
    (hfin : ∀ c ∈ s.pop, (fit c.2).IsFin) (hbig : ∃ c ∈ s.pop, Dbl.nat binary64 71 ≤ fit c.2) :
    runSelectFl .greaterBetter fit .Boltzmann e pow K s = .timeout := by
  refine boltzmann_overflow_hangs binary64 _ fit e he pow K hK s hb hlt (Or.inr ⟨?_, ?_⟩)
  · intro c hc
    apply (hexp _).1
    obtain ⟨t, n, hn⟩ := hfin c hc
    rw [hstr, Dbl.mul_val, hn, nat_val]
    exact mk_ne_nan _ _
  · obtain ⟨c, hc, h⟩ := hbig
    refine ⟨c, hc, (hexp _).2 ?_⟩
    obtain ⟨t, n, hn⟩ := hfin c hc
    rw [Dbl.le_def, nat_val, hn, fl_le_fin] at h
    rw [Dbl.le_def, hstr, Dbl.mul_val, hn, nat_val, nat_val]
    obtain ⟨B, hB⟩ : ∃ B, B = 2 ^ binary64.one := ⟨_, rfl⟩
    have hBpos : 0 < B := by rw [hB]; positivity
    rw [← hB] at h ⊢
    have htf : t = false := by
      cases t
      · rfl
      · simp [Fl.units] at h; omega
    subst htf
    have hn71 : 71 * B ≤ n := by simp [Fl.units] at h; exact_mod_cast h
    have hr : 710 * B ≤ rndUnits binary64.mb (10 * B * n) (2 ^ binary64.one) := by
      refine le_rndUnits _ _ _ (by positivity) ⟨710, binary64.one, by decide, by rw [hB]⟩ ?_
      rw [← hB]
      calc 710 * B * B = 10 * B * (71 * B) := by ring
        _ ≤ _ := Nat.mul_le_mul_left _ hn71
    simp only [Fl.mul, Fl.mk]
    split
    · rfl
    · rw [fl_le_fin]; simp only [Fl.units, Bool.xor_self, Bool.false_eq_true, if_false]
      exact_mod_cast hr

/-- C97, negation for Probability: one infinite or NaN fitness and the selection never returns (`pow` of NaN is
NaN). -/
theorem probability_nonfinite_hangs (F : Fmt) (o : FitnessOption) (fit : γ → Dbl F) (e : SelectEnv γ (Dbl F))
    (he : ValidEnvFl F e) (pow : Dbl F → Nat → Dbl F) (K : Nat) (hK : 0 < K) (s : SOState γ)
    (hb : s.best ∈ s.pop.map (·.1)) (hlt : K < s.pop.length)
    (hpow : ∀ x k, 0 < k → x.val = .nan → (pow x k).val = .nan)
    (h : ∃ c ∈ s.pop, ¬ (fit c.2).IsFin) :
    runSelectFl o fit .Probability e pow K s = .timeout := by
  simp only [runSelectFl, selectProbabilityFl]
  rcases deref_ok_or_ub s.pop s.best with ⟨old, hold⟩ | hub
  swap
  · exact absurd hb (deref_ub.1 hub)
  rw [hold]; simp only [Out.ok_bind]
  rw [if_neg (by omega)]
  apply byWeightsFl_stuck o fit (fun i => (he.ds i).draw) (by
    rw [List.length_map]; exact length_mapFst (probabilitiesFl_map o fit s.pop)) hK hlt
  left
  -- some probability is NaN
  have hp : ∃ p ∈ probabilitiesFl o fit s.pop, p.2.val = .nan := by
    unfold probabilitiesFl
    simp only
    obtain ⟨c, hc, hnf⟩ := h
    by_cases hA : (shiftedSpaceFl minFlSwapped o fit s.pop).1.val = .nan
    · rw [if_neg (by rw [Dbl.le_def, hA]; simp [Fl.le])]
      have hne : (shiftedSpaceFl minFlSwapped o fit s.pop).2 ≠ [] := by
        rw [← List.length_pos_iff, length_mapFst (shiftedSpaceFl_map o fit _ s.pop)]; omega
      obtain ⟨x, hx⟩ := List.exists_mem_of_ne_nil _ hne
      refine ⟨_, List.mem_map.2 ⟨x, hx, rfl⟩, ?_⟩
      simp only
      rw [Dbl.div_val, hA]; cases x.2.val <;> rfl
    · have hnn : ∀ c' ∈ s.pop, (signedFit o fit c'.2).val ≠ .nan := fun c' hc' hbad =>
        hA (shifted_nan minFlSwapped_isMin o fit ⟨c', hc', Or.inl hbad⟩)
      have hno : ∀ c' ∈ s.pop, (signedFit o fit c'.2).val ≠ .inf true := fun c' hc' hbad =>
        hA (shifted_nan minFlSwapped_isMin o fit ⟨c', hc', Or.inr ⟨hnn, hbad⟩⟩)
      have hor : ∀ c' ∈ s.pop, (signedFit o fit c'.2).IsFin ∨ (signedFit o fit c'.2).val = .inf false := by
        intro c' hc'
        cases hv : (signedFit o fit c'.2).val with
        | nan => exact absurd hv (hnn c' hc')
        | inf t => cases t; exact Or.inr rfl; exact absurd hv (hno c' hc')
        | fin t n => exact Or.inl ⟨t, n, hv⟩
      have hcinf : (signedFit o fit c.2).val = .inf false := by
        rcases hor c hc with h | h
        · exact absurd ((signed_isFin o fit _).1 h) hnf
        · exact h
      by_cases hf : ∃ c' ∈ s.pop, (signedFit o fit c'.2).IsFin
      · have hsh := shifted_nonNeg minFlSwapped_isMin o fit hor hf
        obtain ⟨x, hx, hxc, -, hxi⟩ := hsh c hc
        have hall : ∀ y ∈ (shiftedSpaceFl minFlSwapped o fit s.pop).2, (0 : Dbl F) ≤ y.2 := by
          intro y hy
          simp only [shiftedSpaceFl, List.mem_map] at hy
          obtain ⟨q, ⟨c', hc', rfl⟩, rfl⟩ := hy
          obtain ⟨z, hz, hzc, hz0, -⟩ := hsh c' hc'
          simp only [shiftedSpaceFl, List.mem_map] at hz
          obtain ⟨q', ⟨c'', hc'', rfl⟩, rfl⟩ := hz
          simp only at hzc; subst hzc
          exact hz0
        have hsum : (shiftedSpaceFl minFlSwapped o fit s.pop).1.val = .inf false :=
          sum_inf _ hall 0 (nonNeg_fin rfl (by simp)) (Or.inr ⟨x, hx, hxi hcinf⟩)
        rw [if_neg (by rw [Dbl.le_def, hsum, Dbl.zero_val]; simp [Fl.le])]
        refine ⟨_, List.mem_map.2 ⟨x, hx, rfl⟩, ?_⟩
        simp only
        rw [Dbl.div_val, hsum, hxi hcinf]; rfl
      · exfalso
        apply hA
        -- all are `+inf`, so the minimum is too
        obtain ⟨l, hl⟩ : ∃ l, l = (s.pop.map fun c => (c, signedFit o fit c.2)).map (·.2) := ⟨_, rfl⟩
        have hall : ∀ y ∈ l, y.val = .inf false := by
          intro y hy
          rw [hl, List.map_map] at hy
          obtain ⟨c', hc', rfl⟩ := List.mem_map.1 hy
          exact (hor c' hc').resolve_left (fun h => hf ⟨c', hc', h⟩)
        have hmin := minFlSwapped_isMin l (fun y hy => by rw [hall y hy]; simp)
        have hcl : signedFit o fit c.2 ∈ l := by
          rw [hl, List.map_map]; exact List.mem_map.2 ⟨c, hc, rfl⟩
        have hm := hall _ (hmin.mem (List.ne_nil_of_mem hcl))
        refine sum_nan _ _ (Or.inr ⟨(c, signedFit o fit c.2 - minFlSwapped l), ?_, ?_⟩)
        · show _ ∈ ((s.pop.map fun c => (c, signedFit o fit c.2)).map fun p => (p.1, p.2 - minFlSwapped _))
          rw [← hl, List.map_map]
          exact List.mem_map.2 ⟨c, hc, rfl⟩
        · simp only
          rw [Dbl.sub_val, hcinf, hm]; rfl
  obtain ⟨p, hp, hpn⟩ := hp
  refine ⟨_, List.mem_map.2 ⟨p, hp, rfl⟩, ?_⟩
  simp only
  rw [Dbl.mul_val, Dbl.mul_val, hpow _ K hK hpn]
  have : (Fl.mul F e.big.val .nan) = .nan := by cases e.big.val <;> rfl
  rw [this]; rfl

/-- C97, negation for RouletteWheel: one infinitely good individual among finite ones and the selection never
returns. -/
theorem roulette_infinitely_good_hangs (F : Fmt) (o : FitnessOption) (fit : γ → Dbl F) (e : SelectEnv γ (Dbl F))
    (he : ValidEnvFl F e) (pow : Dbl F → Nat → Dbl F) (K : Nat) (hK : 0 < K) (s : SOState γ)
    (hb : s.best ∈ s.pop.map (·.1)) (hlt : K < s.pop.length)
    (hor : ∀ c ∈ s.pop, (fit c.2).IsFin ∨ (fit c.2).val = bestPossible o)
    (hf : ∃ c ∈ s.pop, (fit c.2).IsFin) (hi : ∃ c ∈ s.pop, (fit c.2).val = bestPossible o) :
    runSelectFl o fit .RouletteWheel e pow K s = .timeout := by
  simp only [runSelectFl, selectRouletteFl]
  rcases deref_ok_or_ub s.pop s.best with ⟨old, hold⟩ | hub
  swap
  · exact absurd hb (deref_ub.1 hub)
  rw [hold]; simp only [Out.ok_bind]
  rw [if_neg (by omega)]
  have hor' : ∀ c ∈ s.pop, (signedFit o fit c.2).IsFin ∨ (signedFit o fit c.2).val = .inf false :=
    fun c hc => (hor c hc).imp (signed_isFin o fit _).2 (signed_best o fit _).2
  have hsh := shifted_nonNeg minFl_isMin o fit hor' (by
    obtain ⟨c, hc, h⟩ := hf; exact ⟨c, hc, (signed_isFin o fit _).2 h⟩)
  have hall : ∀ y ∈ (shiftedSpaceFl minFl o fit s.pop).2, (0 : Dbl F) ≤ y.2 := by
    intro y hy
    simp only [shiftedSpaceFl, List.mem_map] at hy
    obtain ⟨q, ⟨c', hc', rfl⟩, rfl⟩ := hy
    obtain ⟨z, hz, hzc, hz0, -⟩ := hsh c' hc'
    simp only [shiftedSpaceFl, List.mem_map] at hz
    obtain ⟨q', ⟨c'', hc'', rfl⟩, rfl⟩ := hz
    simp only at hzc; subst hzc
    exact hz0
  obtain ⟨c, hc, hci⟩ := hi
  obtain ⟨x, hx, -, -, hxi⟩ := hsh c hc
  have hxi' := hxi ((signed_best o fit _).2 hci)
  have hsum : (shiftedSpaceFl minFl o fit s.pop).1.val = .inf false :=
    sum_inf _ hall 0 (nonNeg_fin rfl (by simp)) (Or.inr ⟨x, hx, hxi'⟩)
  rw [elimLoop_stuck (m := s.pop.length - K) (st := shiftedSpaceFl minFl o fit s.pop)]
  · rfl
  · intro it
    rw [if_pos (show (0 : Dbl F) < (shiftedSpaceFl minFl o fit s.pop).1 by
      rw [Dbl.lt_def, hsum, Dbl.zero_val]; rfl)]
    refine rouletteStep_inf hsum ?_ ?_ ⟨x, hx, hxi'⟩
    · obtain ⟨n, hn, -⟩ := (he.ds it).draw; exact ⟨n, hn⟩
    · intro y hy
      rcases nonNeg_cases (hall y hy) with h | ⟨t, n, h, -⟩
      · exact Or.inr h
      · exact Or.inl ⟨t, n, h⟩
  · rw [length_mapFst (shiftedSpaceFl_map o fit _ s.pop)]; omega

/-- C97, negation for EliteReserved, the default method: one individual with the worst possible fitness – an
infinite penalty – and the selection never returns (fewer elites than `populationSize`). -/
theorem elite_infinite_penalty_hangs (F : Fmt) (o : FitnessOption) (fit : γ → Dbl F) (e : SelectEnv γ (Dbl F))
    (pow : Dbl F → Nat → Dbl F) (K : Nat) (s : SOState γ) (hlt : K < s.pop.length)
    (hel : e.eliteNum < K) (hnan : ∀ c ∈ s.pop, (fit c.2).val ≠ .nan)
    (hi : ∃ c ∈ s.pop, (fit c.2).val = worstPossible o) :
    runSelectFl o fit .EliteReserved e pow K s = .timeout := by
  simp only [runSelectFl, selectEliteFl]
  rw [if_neg (by omega), sortRange_fl o fit _ hnan]
  simp only [Out.ok_bind]
  have hS := geneItCompare_sorted o (fitExt fit) (rangeSorter e.sort s.pop) s.pop
  have hSp := (rangeSorter e.sort s.pop).perm (geneItCompare o (fitExt fit)) s.pop
  obtain ⟨S, hSdef⟩ : ∃ S, S = (rangeSorter e.sort s.pop).run (geneItCompare o (fitExt fit)) s.pop := ⟨_, rfl⟩
  rw [← hSdef] at hS hSp ⊢
  -- the worst are not among the elites
  have hworst : ∃ c ∈ S.drop e.eliteNum, (fit c.2).val = worstPossible o := by
    obtain ⟨c, hc, hcw⟩ := hi
    have hcS := hSp.mem_iff.2 hc
    have hsplit : S = S.take e.eliteNum ++ S.drop e.eliteNum := (List.take_append_drop _ S).symm
    rw [hsplit, List.mem_append] at hcS
    rcases hcS with h | h
    · have hne : S.drop e.eliteNum ≠ [] := by
        intro h0
        have := congrArg List.length h0
        rw [List.length_drop, hSp.length_eq] at this; simp at this; omega
      obtain ⟨x, hx⟩ := List.exists_mem_of_ne_nil _ hne
      refine ⟨x, hx, ?_⟩
      rw [hsplit, List.pairwise_append] at hS
      have hnb := hS.2.2 c h x hx
      have hxn : (fit x.2).val ≠ .nan := hnan x (hSp.mem_iff.1 ((List.drop_sublist _ _).subset hx))
      cases o
      · by_contra hc'
        apply hnb
        show extended F (fit x.2).val < extended F (fit c.2).val
        have := lt_inf (F := F) hxn hc'
        rw [Dbl.lt_def, fl_lt_iff F] at this
        rw [hcw]; exact this.2.2
      · by_contra hc'
        apply hnb
        show extended F (fit c.2).val < extended F (fit x.2).val
        rw [hcw]
        have : Fl.lt (.inf true) (fit x.2).val = true := by
          cases hv : (fit x.2).val with
          | nan => exact absurd hv hxn
          | inf t => cases t; rfl; exact absurd hv hc'
          | fin t n => rfl
        rw [fl_lt_iff F] at this; exact this.2.2
    · exact ⟨c, h, hcw⟩
  obtain ⟨c, hc, hcw⟩ := hworst
  have hsub : ∀ c ∈ S.drop e.eliteNum, c ∈ s.pop := fun c hc =>
    hSp.mem_iff.1 ((List.drop_sublist _ _).subset hc)
  have hsum := shifted_nan minFl_isMin o fit (pop := S.drop e.eliteNum) ⟨c, hc, Or.inr
    ⟨fun c' hc' => fun h => hnan c' (hsub c' hc') ((signed_nan o fit _).1 h), (signed_worst o fit _).2 hcw⟩⟩
  rw [elimLoop_stuck (m := s.pop.length - K) (st := shiftedSpaceFl minFl o fit (S.drop e.eliteNum))]
  · rfl
  · intro it
    rw [if_neg (by rw [Dbl.le_def, hsum]; simp [Fl.le])]
    exact rouletteStep_nan hsum
  · rw [length_mapFst (shiftedSpaceFl_map o fit _ _), List.length_drop, hSp.length_eq]; omega

/-- C97: a NaN beside two different fitness values makes the comparator of `std::sort` inconsistent: the four
methods that sort have undefined behaviour. -/
theorem nan_fitness_sort_undefined (F : Fmt) (o : FitnessOption) (fit : γ → Dbl F) (m : SelectMethod)
    (e : SelectEnv γ (Dbl F)) (pow : Dbl F → Nat → Dbl F) (K : Nat) (s : SOState γ)
    (hb : s.best ∈ s.pop.map (·.1)) (hlt : K < s.pop.length)
    (hm : m = .Truncation ∨ m = .LinearRank ∨ m = .ExponentialRank ∨ m = .EliteReserved)
    (hnan : ∃ c ∈ s.pop, (fit c.2).val = .nan)
    (hdiff : ∃ a ∈ s.pop, ∃ b ∈ s.pop, fit a.2 < fit b.2) :
    runSelectFl o fit m e pow K s = .ub := by
  have hsort : sortRange e.sort (geneItCompare o fit) s.pop = .ub := by
    have : ¬ StrictWeakOn (geneItCompare o fit) s.pop := by
      intro h
      obtain ⟨c, hc, hcn⟩ := hnan
      obtain ⟨a, ha, b, hb, hab⟩ := hdiff
      have n1 : ∀ x : Dbl F, ¬ x < fit c.2 := fun x h => by
        rw [Dbl.lt_def, hcn] at h; cases hx : x.val <;> rw [hx] at h <;> simp [Fl.lt] at h
      have n2 : ∀ x : Dbl F, ¬ fit c.2 < x := fun x h => by
        rw [Dbl.lt_def, hcn] at h; simp [Fl.lt] at h
      cases o
      · have := h.2.2 a ha c hc b hb (by simp [geneItCompare, isBetter, n1]) (by simp [geneItCompare, isBetter, n2])
        simp [geneItCompare, isBetter, hab] at this
      · have := h.2.2 b hb c hc a ha (by simp [geneItCompare, isBetter, n2]) (by simp [geneItCompare, isBetter, n1])
        simp [geneItCompare, isBetter, hab] at this
    simp [sortRange, this]
  rcases deref_ok_or_ub s.pop s.best with ⟨old, hold⟩ | hub
  swap
  · exact absurd hb (deref_ub.1 hub)
  rcases hm with rfl | rfl | rfl | rfl
  · simp [runSelectFl, selectTruncationFl, hsort]
  · simp [runSelectFl, selectLinearRankFl, hold, hsort, show ¬ s.pop.length ≤ K by omega]
  · simp [runSelectFl, selectExponentialRankFl, hold, hsort, show ¬ s.pop.length ≤ K by omega]
  · simp [runSelectFl, selectEliteFl, hsort, show ¬ s.pop.length ≤ K by omega]

/-! ## C98 -/

theorem zeroStep {β : Type} {u : Dbl F} (hu : Draw01 u) {x : β × Dbl F} {l : List (β × Dbl F)} {r : Dbl F}
    (hr : r.val = .fin false 0) (hx : x.2.val = .fin false 0) :
    ∃ r', rouletteStep u (r, x :: l) = .ok (r', l) ∧ r'.val = .fin false 0 := by
  obtain ⟨n, hn, -⟩ := hu
  have h0 : rndUnits F.mb 0 (2 ^ F.one) = 0 := by
    have := rndUnits_le F.mb 0 (2 ^ F.one) (by positivity) (rep_zero F.mb) (by simp)
    omega
  have hs : ((r - 0 : Dbl F)).val = .fin false 0 := by
    rw [Dbl.sub_val, hr, Dbl.zero_val]; rfl
  have hmk : Fl.mk F false 0 = .fin false 0 := by
    unfold Fl.mk; rw [if_neg (by have : 0 < 2 ^ F.top := by positivity
                                 omega)]
  have hv : (((r - 0) * u + 0 : Dbl F)).val = .fin false 0 := by
    rw [Dbl.add_val, Dbl.mul_val, hs, hn, Dbl.zero_val]
    simp only [Fl.mul, Nat.zero_mul, h0, Bool.xor_self, hmk]
    rfl
  have hsub : (((r - 0) * u + 0 - x.2 : Dbl F)).val = .fin false 0 := by
    rw [Dbl.sub_val, hv, hx]; rfl
  refine ⟨r - x.2, ?_, by rw [Dbl.sub_val, hr, hx]; rfl⟩
  unfold rouletteStep
  simp only [rouletteErase]
  rw [if_pos (by rw [Dbl.le_def, hsub, Dbl.zero_val]; rfl)]

theorem zeroLoop {β : Type} {ds : Nat → RouletteDraw (Dbl F)} (hds : ∀ i, Draw01 (ds i).u) {m : Nat} :
    ∀ (K fuel it : Nat) (r : Dbl F) (es : List (β × Dbl F)), r.val = .fin false 0 →
      (∀ x ∈ es, x.2.val = .fin false 0) → es.length = m + K → K ≤ fuel →
      elimLoop m (fun it st => rouletteStep (ds it).u st) fuel it (r, es) = .ok (es.drop K) := by
  intro K
  induction K with
  | zero =>
    intro fuel it r es hr hes hl hf
    cases fuel with
    | zero => simp [elimLoop]; omega
    | succ fuel => simp only [elimLoop]; rw [if_neg (by omega)]; rfl
  | succ K ih =>
    intro fuel it r es hr hes hl hf
    cases es with
    | nil => simp at hl
    | cons x es =>
      cases fuel with
      | zero => omega
      | succ fuel =>
        obtain ⟨r', h1, h2⟩ := zeroStep (hds it) (l := es) hr (hes x (by simp))
        simp only [elimLoop]
        rw [if_pos (by simp only [List.length_cons] at *; omega), h1]
        simp only [Out.ok_bind, List.drop_succ_cons]
        exact ih fuel (it + 1) r' es h2 (fun y hy => hes y (by simp [hy])) (by simp at hl; omega) (by omega)

/-- C98, negation: when all exponentials underflow to zero – with the default strength and minimisation this
is every population whose fitness exceeds 75 – Boltzmann keeps exactly the first `K` of the population,
whatever their fitness; offspring, which are appended at the end, never survive. -/
theorem boltzmann_underflow_keeps_first (F : Fmt) (o : FitnessOption) (fit : γ → Dbl F) (e : SelectEnv γ (Dbl F))
    (he : ValidEnvFl F e) (pow : Dbl F → Nat → Dbl F) (K : Nat) (hK : 0 < K) (hfuel : K ≤ e.fuel) (s : SOState γ)
    (hd : DistinctNodes s.pop) (hb : s.best ∈ s.pop.map (·.1)) (hlt : K < s.pop.length)
    (hnan : ∀ c ∈ s.pop, (fit c.2).val ≠ .nan)
    (hz : ∀ c ∈ s.pop, (e.exp (e.strength * fit c.2)).val = .fin false 0) :
    ∃ s', runSelectFl o fit .Boltzmann e pow K s = .ok s' ∧ s'.pop = s.pop.take K := by
  rcases deref_ok_or_ub s.pop s.best with ⟨old, hold⟩ | hub
  swap
  · exact absurd hb (deref_ub.1 hub)
  obtain ⟨es, hes⟩ : ∃ es, es = s.pop.map fun c => (c, e.exp (e.strength * fit c.2)) := ⟨_, rfl⟩
  have hw : ∀ x ∈ es, x.2.val = .fin false 0 := by
    intro x hx
    rw [hes] at hx
    obtain ⟨c, hc, rfl⟩ := List.mem_map.1 hx
    exact hz c hc
  have hsum : ∀ (l : List (Cell γ × Dbl F)) (a : Dbl F), a.val = .fin false 0 → (∀ x ∈ l, x.2.val = .fin false 0) →
      (l.foldl (fun (a : Dbl F) p => a + p.2) a).val = .fin false 0 := by
    intro l
    induction l with
    | nil => intro a ha _; exact ha
    | cons x l ih =>
      intro a ha hl
      simp only [List.foldl_cons]
      exact ih _ (by rw [Dbl.add_val, ha, hl x (by simp)]; rfl) (fun y hy => hl y (by simp [hy]))
  have hlen : es.length = s.pop.length := by rw [hes, List.length_map]
  have hloop := zeroLoop (m := s.pop.length - K) (fun i => (he.ds i).draw) K e.fuel 0 _ es
    (hsum es 0 rfl hw) hw (by omega) hfuel
  have hmap : es.map (·.1) = s.pop := by rw [hes, List.map_map]; exact List.map_id _
  have hE : (es.drop K).map (·.1) = s.pop.drop K := by rw [List.map_drop, hmap]
  obtain ⟨s', h1, -, h2, -⟩ := finish_fl o fit hd hnan hold (E := es.drop K)
    (by rw [hE]; exact (List.drop_sublist _ _).subperm) (by rw [List.length_drop]; omega)
  refine ⟨s', ?_, ?_⟩
  · simp only [runSelectFl, selectBoltzmannFl, hold, Out.ok_bind]
    rw [if_neg (by omega), ← hes]
    unfold selectByWeightsFl
    rw [hloop]
    exact h1
  · rw [h2]
    unfold applyErasement
    have hEa : (es.drop K).map (·.1.1) = (s.pop.drop K).map (·.1) := by
      rw [← hE, List.map_map]; rfl
    rw [hEa]
    have hnd : ((s.pop.take K).map (·.1) ++ (s.pop.drop K).map (·.1)).Nodup := by
      rw [← List.map_append, List.take_append_drop]; exact hd
    rw [List.nodup_append] at hnd
    have f1 : (s.pop.take K).filter (fun c => !((s.pop.drop K).map (·.1)).contains c.1) = s.pop.take K := by
      rw [List.filter_eq_self]
      intro c hc
      rw [Bool.not_eq_true', ← Bool.not_eq_true, List.contains_iff_mem]
      intro hbad
      exact hnd.2.2 c.1 (List.mem_map.2 ⟨c, hc, rfl⟩) c.1 hbad rfl
    have f2 : (s.pop.drop K).filter (fun c => !((s.pop.drop K).map (·.1)).contains c.1) = [] := by
      rw [List.filter_eq_nil_iff]
      intro c hc
      simp only [Bool.not_eq_true', Bool.not_eq_false]
      rw [List.contains_iff_mem]
      exact List.mem_map.2 ⟨c, hc, rfl⟩
    calc s.pop.filter (fun c => !((s.pop.drop K).map (·.1)).contains c.1)
        = (s.pop.take K ++ s.pop.drop K).filter (fun c => !((s.pop.drop K).map (·.1)).contains c.1) := by
          rw [List.take_append_drop]
      _ = s.pop.take K := by rw [List.filter_append, f1, f2, List.append_nil]

/-- C98: with the default strength -10 (minimising) every population of finite fitness values from 75 on is
such a population, because `exp` underflows below -746. -/
theorem boltzmann_default_strength_keeps_first (fit : γ → Dbl binary64) (e : SelectEnv γ (Dbl binary64))
    (he : ValidEnvFl binary64 e) (pow : Dbl binary64 → Nat → Dbl binary64) (K : Nat) (hK : 0 < K)
    (hfuel : K ≤ e.fuel) (s : SOState γ)
    (hd : DistinctNodes s.pop) (hb : s.best ∈ s.pop.map (·.1)) (hlt : K < s.pop.length)
    (hstr : e.strength = -Dbl.nat binary64 10)
    (hexp : ∀ x, x ≤ -Dbl.nat binary64 746 → (e.exp x).val = .fin false 0)
    (hfin : ∀ c ∈ s.pop, (fit c.2).IsFin) (hbig : ∀ c ∈ s.pop, Dbl.nat binary64 75 ≤ fit c.2) :
    ∃ s', runSelectFl .lessBetter fit .Boltzmann e pow K s = .ok s' ∧ s'.pop = s.pop.take K := by
  refine boltzmann_underflow_keeps_first binary64 _ fit e he pow K hK hfuel s hd hb hlt
    (fun c hc => (hfin c hc).ne_nan) (fun c hc => hexp _ ?_)
  obtain ⟨t, n, hn⟩ := hfin c hc
  have h := hbig c hc
  rw [Dbl.le_def, nat_val, hn, fl_le_fin] at h
  rw [Dbl.le_def, hstr, Dbl.mul_val, Dbl.neg_val, Dbl.neg_val, hn, nat_val, nat_val]
  obtain ⟨B, hB⟩ : ∃ B, B = 2 ^ binary64.one := ⟨_, rfl⟩
  have hBpos : 0 < B := by rw [hB]; positivity
  rw [← hB] at h ⊢
  have htf : t = false := by
    cases t
    · rfl
    · simp [Fl.units] at h; omega
  subst htf
  have hn75 : 75 * B ≤ n := by simp [Fl.units] at h; exact_mod_cast h
  have hr : 746 * B ≤ rndUnits binary64.mb (10 * B * n) (2 ^ binary64.one) := by
    refine le_rndUnits _ _ _ (by positivity) ⟨746, binary64.one, by decide, by rw [hB]⟩ ?_
    rw [← hB]
    calc 746 * B * B ≤ 10 * B * (75 * B) := by nlinarith
      _ ≤ _ := Nat.mul_le_mul_left _ hn75
  simp only [Fl.neg, Fl.mul, Fl.mk, Bool.not_false, Bool.xor_false]
  split
  · rfl
  · rw [fl_le_fin]; simp only [Fl.units, if_true]
    have : (746 * B : ℤ) ≤ (rndUnits binary64.mb (10 * B * n) (2 ^ binary64.one) : ℕ) := by exact_mod_cast hr
    push_cast
    omega

/-! ## C99 -/

theorem foldBest_nan {F : Fmt} (o : FitnessOption) (fit : γ → Dbl F) (l : List (Cell γ)) (c : Cell γ) :
    ((fit c.2).val = .nan → l.foldl (fun g it => if geneItCompare o fit it g then it else g) c = c) ∧
    ((fit c.2).val ≠ .nan →
      (fit (l.foldl (fun g it => if geneItCompare o fit it g then it else g) c).2).val ≠ .nan) := by
  have n1 : ∀ x y : Dbl F, x < y → x.val ≠ .nan ∧ y.val ≠ .nan := fun x y h => by
    rw [Dbl.lt_def, fl_lt_iff F] at h; exact ⟨h.1, h.2.1⟩
  have hb : ∀ x y : Cell γ, geneItCompare o fit x y = true → (fit x.2).val ≠ .nan ∧ (fit y.2).val ≠ .nan := by
    intro x y h
    cases o
    · simp only [geneItCompare, isBetter, decide_eq_true_eq] at h
      exact n1 _ _ h
    · simp only [geneItCompare, isBetter, decide_eq_true_eq] at h
      exact (n1 _ _ h).symm
  induction l generalizing c with
  | nil => exact ⟨fun _ => rfl, fun h => h⟩
  | cons x l ih =>
    simp only [List.foldl_cons]
    by_cases h : geneItCompare o fit x c = true
    · rw [if_pos h]
      exact ⟨fun hc => absurd hc (hb _ _ h).2, fun _ => (ih x).2 (hb _ _ h).1⟩
    · rw [if_neg h]
      exact ih c

/-- What `findCurrentBestGene` does with NaN: the head decides. -/
theorem findBest_nan {F : Fmt} {o : FitnessOption} {fit : γ → Dbl F} {c b : Cell γ} {cs : List (Cell γ)}
    (h : findCurrentBestGene o fit (c :: cs) = .ok b) :
    ((fit c.2).val = .nan → b = c) ∧ ((fit b.2).val = .nan → (fit c.2).val = .nan) := by
  unfold findCurrentBestGene at h
  simp only [Out.ok.injEq] at h
  subst h
  obtain ⟨h1, h2⟩ := foldBest_nan o fit (c :: cs) c
  exact ⟨h1, fun hb => by_contra fun hc => h2 hc hb⟩

theorem emplaceBack_prefix (l : List γ) (kept : Pop γ) : ∃ more, l.foldl emplaceBack kept = kept ++ more := by
  induction l generalizing kept with
  | nil => exact ⟨[], by simp⟩
  | cons x l ih =>
    obtain ⟨more, h⟩ := ih (emplaceBack kept x)
    simp only [List.foldl_cons, h]
    unfold emplaceBack
    exact ⟨_, List.append_assoc _ _ _⟩

theorem best_by_scan (F : Fmt) (o : FitnessOption) (fit : γ → Dbl F) (m : SelectMethod)
    (e : SelectEnv γ (Dbl F)) (pow : Dbl F → Nat → Dbl F) (K : Nat) (s s' : SOState γ) (hm : m ≠ .Truncation)
    (h : runSelectFl o fit m e pow K s = .ok s') :
    ∃ kept more b, findCurrentBestGene o fit kept = .ok b ∧ s'.pop = kept ++ more ∧ s'.best = b.1 := by
  have hfin : ∀ E v, finish o fit s E v = .ok s' →
      ∃ kept more b, findCurrentBestGene o fit kept = .ok b ∧ s'.pop = kept ++ more ∧ s'.best = b.1 := by
    intro E v hf
    unfold finish at hf
    obtain ⟨b, hb, hf⟩ := Out.bind_eq_ok.1 hf
    simp only [Out.ok.injEq] at hf
    subst hf
    exact ⟨_, [], b, hb, by simp [updateFail], rfl⟩
  have hkeep : ∀ v, keepAll o fit s v = .ok s' →
      ∃ kept more b, findCurrentBestGene o fit kept = .ok b ∧ s'.pop = kept ++ more ∧ s'.best = b.1 := by
    intro v hf
    unfold keepAll at hf
    obtain ⟨b, hb, hf⟩ := Out.bind_eq_ok.1 hf
    simp only [Out.ok.injEq] at hf
    subst hf
    exact ⟨_, [], b, hb, by simp [updateFail], rfl⟩
  have hup : ∀ (s₁ : SOState γ) b, findCurrentBestGene o fit s₁.pop = .ok b → updateFail1 o fit s₁ b = .ok s' →
      ∃ kept more b, findCurrentBestGene o fit kept = .ok b ∧ s'.pop = kept ++ more ∧ s'.best = b.1 := by
    intro s₁ b hb hf
    unfold updateFail1 at hf
    obtain ⟨g, -, hf⟩ := Out.bind_eq_ok.1 hf
    simp only [Out.ok.injEq] at hf
    subst hf
    exact ⟨_, [], b, hb, by simp [updateFail], rfl⟩
  have hw : ∀ {ds : Nat → RouletteDraw (Dbl F)} {fuel : Nat} {prev : γ} {r : Dbl F} {es : List (Cell γ × Dbl F)},
      selectByWeightsFl o fit ds fuel K s prev r es = .ok s' →
      ∃ kept more b, findCurrentBestGene o fit kept = .ok b ∧ s'.pop = kept ++ more ∧ s'.best = b.1 := by
    intro ds fuel prev r es hf
    unfold selectByWeightsFl at hf
    obtain ⟨E, -, hf⟩ := Out.bind_eq_ok.1 hf
    exact hfin _ _ hf
  cases m with
  | Truncation => exact absurd rfl hm
  | RunTimeSelectMethod => simp [runSelectFl] at h
  | RouletteWheel =>
    simp only [runSelectFl, selectRouletteFl] at h
    obtain ⟨p, -, h⟩ := Out.bind_eq_ok.1 h
    split at h
    · exact hkeep _ h
    · obtain ⟨E, -, h⟩ := Out.bind_eq_ok.1 h
      exact hfin _ _ h
  | MonteCarlo =>
    simp only [runSelectFl, selectMonteCarlo] at h
    obtain ⟨p, -, h⟩ := Out.bind_eq_ok.1 h
    split at h
    · exact hkeep _ h
    · exact hfin _ _ h
  | Probability =>
    simp only [runSelectFl, selectProbabilityFl] at h
    obtain ⟨p, -, h⟩ := Out.bind_eq_ok.1 h
    split at h
    · exact hkeep _ h
    · exact hw h
  | LinearRank =>
    simp only [runSelectFl, selectLinearRankFl] at h
    obtain ⟨p, -, h⟩ := Out.bind_eq_ok.1 h
    split at h
    · exact hkeep _ h
    · obtain ⟨q, -, h⟩ := Out.bind_eq_ok.1 h
      exact hw h
  | ExponentialRank =>
    simp only [runSelectFl, selectExponentialRankFl] at h
    obtain ⟨p, -, h⟩ := Out.bind_eq_ok.1 h
    split at h
    · exact hkeep _ h
    · obtain ⟨q, -, h⟩ := Out.bind_eq_ok.1 h
      exact hw h
  | Boltzmann =>
    simp only [runSelectFl, selectBoltzmannFl] at h
    obtain ⟨p, -, h⟩ := Out.bind_eq_ok.1 h
    split at h
    · exact hkeep _ h
    · exact hw h
  | StochasticUniversal =>
    simp only [runSelectFl, selectSUSFl] at h
    obtain ⟨p, -, h⟩ := Out.bind_eq_ok.1 h
    split at h
    · exact hkeep _ h
    · exact hfin _ _ h
  | EliteReserved =>
    simp only [runSelectFl, selectEliteFl] at h
    split at h
    · obtain ⟨b, hb, h⟩ := Out.bind_eq_ok.1 h
      exact hup _ _ hb h
    · obtain ⟨q, -, h⟩ := Out.bind_eq_ok.1 h
      obtain ⟨E, -, h⟩ := Out.bind_eq_ok.1 h
      obtain ⟨b, hb, h⟩ := Out.bind_eq_ok.1 h
      exact hup _ _ hb h
  | Tournament =>
    simp only [runSelectFl, selectTournament] at h
    split at h
    · simp at h
    · obtain ⟨p, -, h⟩ := Out.bind_eq_ok.1 h
      split at h
      · exact hkeep _ h
      · obtain ⟨⟨ws, l⟩, -, h⟩ := Out.bind_eq_ok.1 h
        obtain ⟨b, hb, h⟩ := Out.bind_eq_ok.1 h
        simp only [Out.ok.injEq] at h
        subst h
        obtain ⟨more, hmore⟩ := emplaceBack_prefix
          ((e.order (s.pop.filter fun c => decide ((ws.map (·.1)).count c.1 > 0))).flatMap
            fun c => List.replicate ((ws.map (·.1)).count c.1 - 1) c.2)
          (s.pop.filter fun c => decide ((ws.map (·.1)).count c.1 > 0))
        exact ⟨_, more, b, hb, hmore, rfl⟩

/-- C99, negation and exact condition: in every method but Truncation a NaN is reported as best exactly when it
is the fitness of the first survivor in the list, whatever the others achieved. -/
theorem nan_first_is_best (F : Fmt) (o : FitnessOption) (fit : γ → Dbl F) (m : SelectMethod)
    (e : SelectEnv γ (Dbl F)) (pow : Dbl F → Nat → Dbl F) (K : Nat) (s s' : SOState γ) (hm : m ≠ .Truncation)
    (h : runSelectFl o fit m e pow K s = .ok s') :
    ∃ first rest b, s'.pop = first :: rest ∧ b ∈ s'.pop ∧ b.1 = s'.best ∧
      ((fit first.2).val = .nan → b = first) ∧ ((fit b.2).val = .nan ↔ (fit first.2).val = .nan) := by
  obtain ⟨kept, more, b, h1, h2, h3⟩ := best_by_scan F o fit m e pow K s s' hm h
  cases kept with
  | nil => simp [findCurrentBestGene] at h1
  | cons c cs =>
    have hmem : b ∈ c :: cs := by
      unfold findCurrentBestGene at h1
      simp only [Out.ok.injEq] at h1
      have key : ∀ (l : List (Cell γ)) (a : Cell γ), l.foldl
          (fun g it => if geneItCompare o fit it g then it else g) a ∈ a :: l := by
        intro l
        induction l with
        | nil => intro a; simp
        | cons x l ih =>
          intro a
          simp only [List.foldl_cons]
          have := ih (if geneItCompare o fit x a then x else a)
          rcases List.mem_cons.1 this with h | h
          · rw [h]; split <;> simp
          · simp [h]
      have := key (c :: cs) c
      rw [h1] at this
      simpa using this
    obtain ⟨hn1, hn2⟩ := findBest_nan h1
    refine ⟨c, cs ++ more, b, by simpa using h2, ?_, h3.symm, hn1, hn2, fun hc => ?_⟩
    · rw [h2]; exact List.mem_append_left _ hmem
    · rw [hn1 hc]; exact hc

end

/-! ## Concrete cases -/

section demo

/-- Draws, parameters and mathematical functions for the concrete cases: all uniform draws are one half; `exp`
is coarse but over- and underflows where `std::exp` does. -/
def demoEnvFl (γ : Type) : SelectEnv γ (Dbl binary64) where
  sort := insertionSorter
  shuffle := id
  order := id
  ds _ := { u := ⟨.fin false (2 ^ 1073)⟩, hit := fun _ => true }
  fuel := 10
  tournamentSize := 2
  idxB n _ _ := n - 1
  big := Dbl.nat binary64 (2 ^ 40)
  worst := ⟨.fin false (2 ^ 1071)⟩
  best := ⟨.fin false (7 * 2 ^ 1071)⟩
  base := ⟨.fin false (13 * 2 ^ 1070)⟩
  exp x := if x ≤ -Dbl.nat binary64 746 then 0 else if Dbl.nat binary64 710 ≤ x then ⟨.inf false⟩
    else if x.val = .nan then ⟨.nan⟩ else Dbl.nat binary64 1
  strength := -Dbl.nat binary64 10
  u0 := ⟨.fin false (2 ^ 1073)⟩
  u _ := ⟨.fin false (2 ^ 1073)⟩
  eliteNum := 1

/-- A coarse `std::pow` for the concrete cases. -/
def demoPow (x : Dbl binary64) (k : Nat) : Dbl binary64 := if k = 0 then Dbl.nat binary64 1 else x

theorem uniform_half : Uniform01 binary64 ⟨.fin false (2 ^ 1073)⟩ := by
  refine ⟨⟨false, 2 ^ 1073, rfl, ⟨1, 1073, by decide, by simp⟩, ?_⟩, ⟨_, rfl⟩, ?_⟩
  · exact Nat.pow_lt_pow_right (by norm_num) (by decide)
  · show (if false then (-1 : ℚ) else 1) * (((2 ^ 1073 : ℕ) : ℚ) * (2 : ℚ) ^ (-(1074 : ℤ))) < 1
    rw [Nat.cast_pow, Nat.cast_ofNat, ← zpow_natCast, ← zpow_add₀ (by norm_num)]
    norm_num

theorem demoEnvFl_valid (γ : Type) : ValidEnvFl binary64 (demoEnvFl γ) where
  shuffle _ := List.Perm.refl _
  order _ := List.Perm.refl _
  tournamentSize := by simp [demoEnvFl]
  idxB n k j h := by simp only [demoEnvFl] at *; omega
  ds _ := uniform_half
  u0 := uniform_half
  u _ := uniform_half

/-- Five individuals (address, fitness as a datum): 3, 5, 1, 4, 2. -/
def demoStateFl : SOState Fl :=
  { pop := [(0, .ofNat binary64 3), (1, .ofNat binary64 5), (2, .ofNat binary64 1), (3, .ofNat binary64 4),
      (4, .ofNat binary64 2)], best := 0, fail := 7 }

/-- C96, C97: the hypotheses about the population hold and every one of the ten methods returns three of five. -/
example : DistinctNodes demoStateFl.pop ∧ demoStateFl.best ∈ demoStateFl.pop.map (·.1) ∧
    (∀ c ∈ demoStateFl.pop, c.2 ≠ .nan) ∧
    [SelectMethod.RouletteWheel, .Tournament, .Truncation, .MonteCarlo, .Probability, .LinearRank,
    .ExponentialRank, .Boltzmann, .StochasticUniversal, .EliteReserved].all (fun m =>
    (runSelectFl .lessBetter Dbl.mk m (demoEnvFl Fl) demoPow 3 demoStateFl).satisfies fun r =>
      r.pop.length == 3) = true := by
  refine ⟨by decide, by decide, by decide +kernel, by decide +kernel⟩

theorem atMost_nat {k e : Nat} (hk : k < 2 ^ 53) (he : k ≤ 2 ^ e) (h : e < 1000) :
    AtMost binary64 e (Dbl.nat binary64 k) := by
  refine ⟨⟨false, k * 2 ^ 1074, rfl, ⟨k, 1074, hk, rfl⟩, ?_⟩, ?_⟩
  · calc k * 2 ^ 1074 < 2 ^ 53 * 2 ^ 1074 := Nat.mul_lt_mul_of_pos_right hk (by positivity)
      _ = 2 ^ (53 + 1074) := (pow_add _ _ _).symm
      _ ≤ 2 ^ binary64.top := Nat.pow_le_pow_right (by norm_num) (by decide)
  · rw [nat_val, number_units, Fl.units]
    simp only [Bool.false_eq_true, if_false]
    push_cast
    rw [show (binary64.one : ℤ) = ((binary64.one : ℕ) : ℤ) from rfl, zpow_neg, zpow_natCast, mul_assoc,
      mul_inv_cancel₀ (by positivity), mul_one, abs_of_nonneg (by positivity)]
    exact_mod_cast he

theorem demoAtMost {k : Nat} (hk : k < 2 ^ 53) (he : k ≤ 2 ^ 4) :
    AtMost binary64 970 (Dbl.mk (.ofNat binary64 k)) := by
  obtain ⟨h1, h2⟩ := atMost_nat (e := 4) hk he (by decide)
  exact ⟨h1, h2.trans (pow_le_pow_right₀ (by norm_num) (by decide))⟩

/-- Non-vacuity of `selection_fl_finishes_partial`: all its hypotheses hold for Probability on this
population. -/
example : ∃ s', runSelectFl .lessBetter Dbl.mk .Probability (demoEnvFl Fl) demoPow 3 demoStateFl = .ok s' := by
  refine selection_fl_finishes_partial .lessBetter Dbl.mk .Probability (demoEnvFl Fl) (demoEnvFl_valid Fl) demoPow 3
    (by decide) demoStateFl (by decide) (by decide) (by decide) (by decide) ?_ (by decide) (by simp) (by simp)
    (fun _ => ?_) (by simp) (by simp) ?_ (by simp)
  · intro c hc
    simp only [demoStateFl, List.mem_cons, List.not_mem_nil, or_false] at hc
    rcases hc with rfl | rfl | rfl | rfl | rfl <;>
    · exact demoAtMost (by decide) (by decide)
  · obtain ⟨h1, h2⟩ := atMost_nat (k := 2 ^ 40) (e := 40) (by decide) (by decide) (by decide)
    exact ⟨h1, h2.trans (pow_le_pow_right₀ (by norm_num) (by decide))⟩
  · intro x k h0 h1
    unfold demoPow
    split
    · refine ⟨by decide +kernel, by decide +kernel, fun h => by omega⟩
    · have : x.val ≠ .nan := by
        rintro h
        rw [Dbl.le_def, h] at h1
        simp [Fl.le] at h1
      exact ⟨h0, h1, fun _ => fl_le_refl this⟩

/-- C96, negation for StochasticUniversal: rounding spoils the size.  Fitness 1 and 0 (maximising), one to be
kept, the first pointer drawn as `1 - 2^-53`: `1 - 2^-53 + 1` rounds to 2, both individuals are passed over by a
pointer, and both stay. -/
theorem sus_rounding_keeps_extra :
    (runSelectFl .greaterBetter (Dbl.mk : Fl → Dbl binary64) .StochasticUniversal
      { demoEnvFl Fl with u0 := ⟨.fin false (2 ^ 1074 - 2 ^ 1021)⟩ } demoPow 1
      { pop := [(0, .ofNat binary64 1), (1, .ofNat binary64 0)], best := 0, fail := 0 }).satisfies
      (fun r => r.pop.length == 2) = true := by decide +kernel

/-- C97: concrete hangs; the default method with one infinite penalty among five … -/
example : runSelectFl .lessBetter (Dbl.mk : Fl → Dbl binary64) .EliteReserved (demoEnvFl Fl) demoPow 3
    { demoStateFl with pop := demoStateFl.pop ++ [(5, .inf false)] } = .timeout :=
  elite_infinite_penalty_hangs binary64 .lessBetter Dbl.mk (demoEnvFl Fl) demoPow 3 _ (by decide) (by decide)
    (by decide +kernel) ⟨(5, .inf false), by decide +kernel, rfl⟩

/-- … Roulette with one infinitely good individual … -/
example : runSelectFl .lessBetter (Dbl.mk : Fl → Dbl binary64) .RouletteWheel (demoEnvFl Fl) demoPow 3
    { demoStateFl with pop := demoStateFl.pop ++ [(5, .inf true)] } = .timeout := by
  refine roulette_infinitely_good_hangs binary64 .lessBetter Dbl.mk (demoEnvFl Fl) (demoEnvFl_valid Fl) demoPow 3
    (by decide) _ (by decide) (by decide) ?_ ⟨(0, .ofNat binary64 3), by decide +kernel, ⟨_, _, rfl⟩⟩
    ⟨(5, .inf true), by decide +kernel, rfl⟩
  intro c hc
  simp only [demoStateFl, List.mem_append, List.mem_cons, List.not_mem_nil, or_false] at hc
  rcases hc with (rfl | rfl | rfl | rfl | rfl) | rfl
  · exact Or.inl ⟨_, _, rfl⟩
  · exact Or.inl ⟨_, _, rfl⟩
  · exact Or.inl ⟨_, _, rfl⟩
  · exact Or.inl ⟨_, _, rfl⟩
  · exact Or.inl ⟨_, _, rfl⟩
  · exact Or.inr rfl

/-- … Probability with an infinity … -/
example : runSelectFl .lessBetter (Dbl.mk : Fl → Dbl binary64) .Probability (demoEnvFl Fl) demoPow 3
    { demoStateFl with pop := demoStateFl.pop ++ [(5, .inf false)] } = .timeout := by
  refine probability_nonfinite_hangs binary64 .lessBetter Dbl.mk (demoEnvFl Fl) (demoEnvFl_valid Fl) demoPow 3
    (by decide) _ (by decide) (by decide) (fun x k hk h => by unfold demoPow; rw [if_neg (by omega)]; exact h)
    ⟨(5, .inf false), by decide +kernel, ?_⟩
  rintro ⟨s, n, h⟩
  cases h

/-- The default strength of Boltzmann when maximising. -/
def demoEnvBoltz : SelectEnv Fl (Dbl binary64) := { demoEnvFl Fl with strength := Dbl.nat binary64 10 }

theorem demoEnvBoltz_valid : ValidEnvFl binary64 demoEnvBoltz where
  shuffle _ := List.Perm.refl _
  order _ := List.Perm.refl _
  tournamentSize := by simp [demoEnvBoltz, demoEnvFl]
  idxB n k j h := by simp only [demoEnvBoltz, demoEnvFl] at *; omega
  ds _ := uniform_half
  u0 := uniform_half
  u _ := uniform_half

/-- … Boltzmann, maximising with the default strength, with one individual of fitness 80: the exponential
overflows. -/
example : runSelectFl .greaterBetter (Dbl.mk : Fl → Dbl binary64) .Boltzmann demoEnvBoltz demoPow 1
    { pop := [(0, .ofNat binary64 3), (1, .ofNat binary64 80)], best := 0, fail := 0 } = .timeout :=
  boltzmann_overflow_hangs binary64 .greaterBetter Dbl.mk demoEnvBoltz demoEnvBoltz_valid demoPow 1
    (by decide) _ (by decide) (by decide) (Or.inr ⟨by decide +kernel, by decide +kernel⟩)

/-- C97: a NaN and two different numbers: the sorting methods are undefined. -/
example : runSelectFl .lessBetter (Dbl.mk : Fl → Dbl binary64) .EliteReserved (demoEnvFl Fl) demoPow 3
    { demoStateFl with pop := demoStateFl.pop ++ [(5, .nan)] } = .ub :=
  nan_fitness_sort_undefined binary64 .lessBetter Dbl.mk .EliteReserved (demoEnvFl Fl) demoPow 3 _ (by decide)
    (by decide) (by simp) ⟨(5, .nan), by decide +kernel, rfl⟩
    ⟨(2, .ofNat binary64 1), by decide +kernel, (0, .ofNat binary64 3), by decide +kernel, by decide +kernel⟩

/-- C98: four individuals of fitness 900, 800, 100, 75, two to be kept, minimising: the two worst stay. -/
example : ∃ s', runSelectFl .lessBetter (Dbl.mk : Fl → Dbl binary64) .Boltzmann (demoEnvFl Fl) demoPow 2
    { pop := [(0, .ofNat binary64 900), (1, .ofNat binary64 800), (2, .ofNat binary64 100),
      (3, .ofNat binary64 75)], best := 0, fail := 0 } = .ok s' ∧
    s'.pop = [(0, .ofNat binary64 900), (1, .ofNat binary64 800)] :=
  boltzmann_underflow_keeps_first binary64 .lessBetter Dbl.mk (demoEnvFl Fl) (demoEnvFl_valid Fl) demoPow 2
    (by decide) (by decide) _ (by decide +kernel) (by decide +kernel) (by decide +kernel) (by decide +kernel) (by decide +kernel)

/-- C99: a NaN at the head is reported as best. -/
example : (runSelectFl .lessBetter (Dbl.mk : Fl → Dbl binary64) .MonteCarlo (demoEnvFl Fl) demoPow 3
    { pop := [(7, .nan), (0, .ofNat binary64 3), (1, .ofNat binary64 1)], best := 1, fail := 0 }).satisfies
    (fun r => r.best == 7 && r.pop.length == 3) = true := by decide +kernel

end demo

/-- LinearRank over `double`: whatever the best weight, the worst-ranked gene gets the weight
`(worst * n) / n`, i.e. the configured worst probability up to the two roundings (provided the products do
not overflow). -/
theorem linear_last_rank (F : Fmt) (worst best : Dbl F) (n k : Nat) (hn : 2 ≤ n)
    (hw : Fl.mul F worst.val (.ofNat F n) = .fin false (k + 1)) (hf : Fl.Finite F (.fin false (k + 1)))
    (hd : (best * Dbl.nat F n - worst * Dbl.nat F n).IsFin) :
    (linearWeightFl worst best n (n - 1)).val = Fl.div F (.fin false (k + 1)) (.ofNat F n) := by
  obtain ⟨sd, d, hd⟩ := hd
  obtain ⟨_, _, heq, hrep, htop⟩ := hf
  obtain ⟨rfl, rfl⟩ : false = _ ∧ k + 1 = _ := by simpa using heq
  have hz : ∀ b, rndUnits F.mb 0 b = 0 := fun b => by simp [rndUnits, rndHE]
  have hmk : ∀ s, Fl.mk F s 0 = .fin s 0 := fun s => by
    unfold Fl.mk; rw [if_neg (by have := Nat.two_pow_pos F.top; omega)]
  have e1 : ((best * Dbl.nat F n - worst * Dbl.nat F n) * Dbl.nat F (n - (n - 1) - 1)).val = .fin sd 0 := by
    show Fl.mul F (best * Dbl.nat F n - worst * Dbl.nat F n).val (.ofNat F (n - (n - 1) - 1)) = _
    rw [hd, show n - (n - 1) - 1 = 0 by omega, Fl.ofNat, Fl.mul]
    simp [hz, hmk]
  have hp : (n - 1) * 2 ^ F.one ≠ 0 := by
    have := Nat.two_pow_pos F.one
    exact Nat.mul_ne_zero (by omega) (by omega)
  have e2 : ((best * Dbl.nat F n - worst * Dbl.nat F n) * Dbl.nat F (n - (n - 1) - 1) /
      Dbl.nat F (n - 1)).val = .fin sd 0 := by
    show Fl.div F (_ * _ : Dbl F).val (.ofNat F (n - 1)) = _
    rw [e1, Fl.ofNat, Fl.div, if_neg hp]
    simp [hz, hmk]
  show Fl.div F (Fl.add F (Fl.mul F worst.val (.ofNat F n)) (_ / _ : Dbl F).val) (.ofNat F n) = _
  rw [e2, hw]
  congr 1
  have hu : Fl.units sd 0 = 0 := by cases sd <;> rfl
  have hu' : Fl.units false (k + 1) = ((k + 1 : Nat) : Int) := rfl
  simp only [Fl.add, hu, hu', add_zero]
  rw [if_neg (by omega), Int.natAbs_natCast, rndUnits_rep1 hrep, Fl.mk, if_neg (by omega)]
  simp; omega

/-- Non-vacuity: worst `1/4`, best `1`, eight genes. -/
example : (linearWeightFl (⟨.fin false (2 ^ 1072)⟩ : Dbl binary64) (Dbl.nat _ 1) 8 7).val = .fin false (2 ^ 1072) ∧
    (linearWeightFl (⟨.fin false (2 ^ 1072)⟩ : Dbl binary64) (Dbl.nat _ 1) 8 0).val = .ofNat binary64 1 := by
  decide +kernel

end Heu
