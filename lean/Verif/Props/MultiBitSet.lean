import Verif.Lemmas.MultiBitSet3

/-!
# `multiBitSet` (C01–C04, C60, C61)

`Fits w p e` collects the compile-time conditions: element width at most the block width, and either
shifts are evaluated in the block type (32- and 64-bit blocks) or no element straddles two blocks.
-/

namespace Heu
set_option linter.unusedSimpArgs false
set_option linter.unusedVariables false

variable {w : Nat}

/-- Compile-time conditions under which element access is right (see the file header). -/
structure Fits (w p e : Nat) : Prop where
  pos : 0 < e
  le : e ≤ w
  promoted : p = w ∨ (w ≤ p ∧ e ∣ w)

theorem Fits.w_pos {w p e : Nat} (f : Fits w p e) : 0 < w := by have := f.pos; have := f.le; omega
theorem Fits.w_le {w p e : Nat} (f : Fits w p e) : w ≤ p := by rcases f.promoted with h | h <;> omega

/-- The object stands for the list `l`: same size, storage for all elements, and every element reads
as the list's. -/
structure Represents (p e : Nat) (s : MBS w) (l : List Nat) : Prop where
  size : s.size = l.length
  room : e * s.size ≤ w * s.blocks.length
  elem : ∀ i (h : i < l.length), ∃ u, s.read p e i = .ok u ∧ u.toNat = l[i]

/-! ## C01, C02 -/

/-- C01: what is written is read back, modulo `2^e`. -/
theorem write_read {p e : Nat} (f : Fits w p e) (s : MBS w) (hroom : e * s.size ≤ w * s.blocks.length)
    (i : Nat) (hi : i < s.size) (v : BitVec w) :
    ∃ s', s.write p e i v = .ok s' ∧ ∃ u, s'.read p e i = .ok u ∧ u.toNat = v.toNat % 2 ^ e := by
  have h1 : e * (i + 1) ≤ w * s.blocks.length :=
    Nat.le_trans (Nat.mul_le_mul_left e hi) hroom
  obtain ⟨bs', h2, h3, ⟨u, hu, huv⟩, -, -⟩ :=
    setValue_get_same f.w_pos f.promoted f.pos f.le s.blocks i v h1
  refine ⟨{ s with blocks := bs' }, by simp [MBS.write, hi, h2], u, by simp [MBS.read, hi, hu], huv⟩

/-- C02: a write leaves the size, the number of blocks and every other element alone, and does nothing
undefined (in particular touches no block outside the allocated ones). -/
theorem write_frame {p e : Nat} (f : Fits w p e) (s : MBS w)
    (hroom : e * s.size ≤ w * s.blocks.length) (i : Nat) (hi : i < s.size) (v : BitVec w) :
    ∃ s', s.write p e i v = .ok s' ∧ s'.size = s.size ∧ s'.blocks.length = s.blocks.length ∧
      (∀ j, j ≠ i → s'.read p e j = s.read p e j) ∧
      (∀ k, ¬ (e * i ≤ k ∧ k < e * (i + 1)) → packedBit s'.blocks k = packedBit s.blocks k) := by
  have h1 : ∀ j, j < s.size → e * (j + 1) ≤ w * s.blocks.length := fun j hj =>
    Nat.le_trans (Nat.mul_le_mul_left e hj) hroom
  obtain ⟨bs', h2, h3, -, h4, h5⟩ :=
    setValue_get_same f.w_pos f.promoted f.pos f.le s.blocks i v (h1 i hi)
  refine ⟨{ s with blocks := bs' }, by simp [MBS.write, hi, h2], rfl, h3, ?_, h5⟩
  intro j hj
  by_cases hjs : j < s.size
  · simp only [MBS.read, hjs, if_true]; exact h4 j hj (h1 j hjs)
  · simp only [MBS.read, hjs, if_false]

/-- Elements are the packed bits: element `i` consists of bits `e*i .. e*(i+1)-1`, most significant
first. -/
theorem read_bits {p e : Nat} (f : Fits w p e) (s : MBS w) (hroom : e * s.size ≤ w * s.blocks.length)
    (i : Nat) (hi : i < s.size) :
    ∃ u, s.read p e i = .ok u ∧
      ∀ t, u.getLsbD t = (decide (t < e) && packedBit s.blocks (e * (i + 1) - 1 - t)) := by
  obtain ⟨v, hv, hb⟩ := getValue_bits f.w_pos f.w_le f.pos f.le s.blocks i
    (Nat.le_trans (Nat.mul_le_mul_left e hi) hroom)
  exact ⟨v, by simp [MBS.read, hi, hv], hb⟩

/-- The hypotheses are met: 5-bit elements in 64-bit blocks (element 12 straddles blocks 0 and 1). -/
example : Fits 64 64 5 ∧ 5 * (mbsCtor (w := 64) 5 mbsEmpty 25).size ≤
    64 * (mbsCtor (w := 64) 5 mbsEmpty 25).blocks.length :=
  ⟨⟨by omega, by omega, Or.inl rfl⟩, by decide +kernel⟩

example : (do let s ← (mbsCtor (w := 64) 5 mbsEmpty 25).write 64 5 12 (45#64)
              let u ← s.read 64 5 12
              return u.toNat : Out Nat) = .ok 13 := by decide +kernel

/-- C01 fails for 8- and 16-bit blocks with straddling elements: `(next << r) >> r` is evaluated in
`int`, so the old bits stay. -/
theorem narrow_blocks_write_lost :
    (do let s ← ({ blocks := [0xFF#8, 0xFF#8], size := 3 } : MBS 8).write 32 5 1 (0#8)
        let u ← s.read 32 5 1
        return u.toNat : Out Nat) = .ok 3 := by decide +kernel

theorem narrow_blocks16_write_lost :
    (do let s ← ({ blocks := [0xFFFF#16, 0xFFFF#16], size := 5 } : MBS 16).write 32 5 3 (0#16)
        let u ← s.read 32 5 3
        return u.toNat : Out Nat) = .ok 15 := by decide +kernel

/-- The block types of C++: shifts of 32- and 64-bit blocks are done in the block type, shifts of 8- and
16-bit blocks in 32 bits. -/
structure BlockType (w p e : Nat) : Prop where
  pos : 0 < e
  le : e ≤ w
  promoted : p = w ∨ 2 * w ≤ p

/-- C01, exactly, for every block type: what is read back is the value modulo `2^e`, except that in
narrow blocks the bits of a straddling element that lie in its second block (its `e*(i+1) % w` lowest
ones) keep every bit that was set before the write. -/
theorem write_read_exact {p e : Nat} (f : BlockType w p e) (s : MBS w)
    (hroom : e * s.size ≤ w * s.blocks.length) (i : Nat) (hi : i < s.size) (v : BitVec w) :
    ∃ old s' u, s.read p e i = .ok old ∧ s.write p e i v = .ok s' ∧ s'.read p e i = .ok u ∧
      u.toNat =
        if p ≠ w ∧ e * i / w ≠ (e * (i + 1) - 1) / w then
          v.toNat % 2 ^ e ||| old.toNat % 2 ^ (e * (i + 1) % w)
        else v.toNat % 2 ^ e := by
  have hw : 0 < w := by have := f.pos; have := f.le; omega
  have hwp : w ≤ p := by rcases f.promoted with h | h <;> omega
  have hb : e * (i + 1) ≤ w * s.blocks.length := Nat.le_trans (Nat.mul_le_mul_left e hi) hroom
  obtain ⟨old, ho, hob⟩ := getValue_bits hw hwp f.pos f.le s.blocks i hb
  obtain ⟨bs', h2, h3, h4⟩ := setValue_bits_gen hw f.promoted f.pos f.le s.blocks i v hb
  obtain ⟨u, hu, hub⟩ := getValue_bits hw hwp f.pos f.le bs' i (by rw [h3]; exact hb)
  refine ⟨old, { s with blocks := bs' }, u, by simp [MBS.read, hi, ho],
    by simp [MBS.write, hi, h2], by simp [MBS.read, hi, hu], ?_⟩
  have hpos := f.pos
  have hexp : e * (i + 1) = e * i + e := by ring
  obtain ⟨q, a, ha, h5, h6, h7⟩ := elem_pos hw (i := i) f.pos f.le
  have hcm : (i + 1) * e = e * (i + 1) := by ring
  rw [hcm] at h7
  -- every bit of the result
  have key : ∀ t, u.toNat.testBit t = (decide (t < e) && (v.toNat.testBit t ||
      (decide (p ≠ w) && decide ((e * (i + 1) - 1 - t) / w ≠ e * i / w) && old.toNat.testBit t))) := by
    intro t
    have h8 := hub t
    have h9 := hob t
    simp only [BitVec.getLsbD] at h8 h9
    rw [h8, h9]
    by_cases hte : t < e
    · simp only [hte, decide_true, Bool.true_and]
      rw [h4, if_pos (by omega)]
      simp only [BitVec.getLsbD]
      congr 2
      omega
    · simp [hte]
  apply Nat.eq_of_testBit_eq
  intro t
  rw [key t]
  rcases h7 with ⟨h8, h9⟩ | ⟨h8, h9⟩
  · rw [if_neg (by rw [h6, h9]; simp), Nat.testBit_mod_two_pow]
    by_cases hte : t < e
    · have hd : (e * (i + 1) - 1 - t) / w = q := by
        rw [hexp, h5, Nat.mul_comm, show w * q + a + e - 1 - t = w * q + (a + e - 1 - t) by omega,
          Nat.mul_add_div hw, Nat.div_eq_of_lt (by omega)]; rfl
      simp [hte, hd, h6]
    · simp [hte]
  · have hmod : e * (i + 1) % w = a + e - w := by
      rw [hexp, h5, Nat.mul_comm, show w * q + a + e = w * (q + 1) + (a + e - w) by
        rw [Nat.mul_add]; omega, Nat.mul_add_mod, Nat.mod_eq_of_lt (by have := f.le; omega)]
    have hd : t < e → ((e * (i + 1) - 1 - t) / w ≠ q ↔ t < a + e - w) := by
      intro hte
      by_cases hlt : t < a + e - w
      · have : (e * (i + 1) - 1 - t) / w = q + 1 := by
          rw [hexp, h5, Nat.mul_comm, show w * q + a + e - 1 - t = w * (q + 1) + (a + e - w - 1 - t) by
            rw [Nat.mul_add]; omega, Nat.mul_add_div hw, Nat.div_eq_of_lt (by have := f.le; omega)]
        simp [this, hlt]
      · have : (e * (i + 1) - 1 - t) / w = q := by
          rw [hexp, h5, Nat.mul_comm, show w * q + a + e - 1 - t = w * q + (a + e - 1 - t) by omega,
            Nat.mul_add_div hw, Nat.div_eq_of_lt (by omega)]; rfl
        simp [this, hlt]
    by_cases hpw : p = w
    · rw [if_neg (by simp [hpw]), Nat.testBit_mod_two_pow]
      simp [hpw]
    · rw [if_pos ⟨hpw, by rw [h6, h9]; omega⟩, Nat.testBit_or, Nat.testBit_mod_two_pow,
        Nat.testBit_mod_two_pow, hmod, h6]
      by_cases hte : t < e
      · simp only [hte, decide_true, Bool.true_and, hpw, ne_eq, not_false_iff]
        have := hd hte
        simp only [ne_eq] at this
        simp only [this]
      · have : ¬ t < a + e - w := by have := f.le; omega
        simp [hte, this]

/-- C01, corollary: a straddling element of narrow blocks reads back right exactly when the write sets
every bit, of those in the second block, that was set before. -/
theorem narrow_write_right_iff {p e : Nat} (f : BlockType w p e) (s : MBS w)
    (hroom : e * s.size ≤ w * s.blocks.length) (i : Nat) (hi : i < s.size) (v : BitVec w)
    (hp : p ≠ w) (hstraddle : e * i / w ≠ (e * (i + 1) - 1) / w) :
    ∃ old s' u, s.read p e i = .ok old ∧ s.write p e i v = .ok s' ∧ s'.read p e i = .ok u ∧
      (u.toNat = v.toNat % 2 ^ e ↔
        ∀ t, t < e * (i + 1) % w → old.toNat.testBit t = true → v.toNat.testBit t = true) := by
  obtain ⟨old, s', u, h1, h2, h3, h4⟩ := write_read_exact f s hroom i hi v
  refine ⟨old, s', u, h1, h2, h3, ?_⟩
  rw [h4, if_pos ⟨hp, hstraddle⟩]
  have hw : 0 < w := by have := f.pos; have := f.le; omega
  have hlt : e * (i + 1) % w ≤ e := by
    obtain ⟨q, a, ha, h5, h6, h7⟩ := elem_pos hw (i := i) f.pos f.le
    have hcm : (i + 1) * e = e * (i + 1) := by ring
    have hexp : e * (i + 1) = e * i + e := by ring
    rw [hcm] at h7
    rcases h7 with ⟨h8, h9⟩ | ⟨h8, h9⟩
    · exact absurd (h6.trans h9.symm) hstraddle
    · rw [hexp, h5, Nat.mul_comm, show w * q + a + e = w * (q + 1) + (a + e - w) by
        rw [Nat.mul_add]; omega, Nat.mul_add_mod, Nat.mod_eq_of_lt (by have := f.le; omega)]
      omega
  constructor
  · intro h t ht hot
    have := congrArg (fun n => n.testBit t) h
    simp only [Nat.testBit_or, Nat.testBit_mod_two_pow, ht, hot, decide_true, Bool.and_self,
      Bool.or_true, show t < e by omega, Bool.true_and] at this
    exact this.symm
  · intro h
    apply Nat.eq_of_testBit_eq
    intro t
    rw [Nat.testBit_or, Nat.testBit_mod_two_pow, Nat.testBit_mod_two_pow]
    by_cases ht : t < e * (i + 1) % w
    · have := h t ht
      have hte : t < e := by omega
      cases hv : v.toNat.testBit t <;> cases ho : old.toNat.testBit t <;> simp_all
    · simp [ht]

/-- The hypotheses are met: 5-bit elements in bytes, element 1 straddles. -/
example : BlockType 8 32 5 ∧ 5 * 3 ≤ 8 * 2 ∧ 32 ≠ 8 ∧ 5 * 1 / 8 ≠ (5 * (1 + 1) - 1) / 8 :=
  ⟨⟨by omega, by omega, Or.inr (by omega)⟩, by decide⟩

/-- C02 for every block type, straddling elements of narrow blocks included. -/
theorem write_frame_any {p e : Nat} (f : BlockType w p e) (s : MBS w)
    (hroom : e * s.size ≤ w * s.blocks.length) (i : Nat) (hi : i < s.size) (v : BitVec w) :
    ∃ s', s.write p e i v = .ok s' ∧ s'.size = s.size ∧ s'.blocks.length = s.blocks.length ∧
      (∀ j, j ≠ i → s'.read p e j = s.read p e j) ∧
      (∀ k, ¬ (e * i ≤ k ∧ k < e * (i + 1)) → packedBit s'.blocks k = packedBit s.blocks k) := by
  have hw : 0 < w := by have := f.pos; have := f.le; omega
  have hwp : w ≤ p := by rcases f.promoted with h | h <;> omega
  have h1 : ∀ j, j < s.size → e * (j + 1) ≤ w * s.blocks.length := fun j hj =>
    Nat.le_trans (Nat.mul_le_mul_left e hj) hroom
  obtain ⟨bs', h2, h3, h4⟩ := setValue_bits_gen hw f.promoted f.pos f.le s.blocks i v (h1 i hi)
  refine ⟨{ s with blocks := bs' }, by simp [MBS.write, hi, h2], rfl, h3, ?_, ?_⟩
  · intro j hj
    by_cases hjs : j < s.size
    · simp only [MBS.read, hjs, if_true]
      refine getValue_congr hw hwp f.pos f.le (by rw [h3]; exact h1 j hjs) (h1 j hjs)
        fun k hk1 hk2 => ?_
      rw [h4, if_neg (elem_disjoint hj hk1 hk2)]
    · simp only [MBS.read, hjs, if_false]
  · intro k hk
    rw [h4, if_neg hk]

/-! ## C04 -/

/-- C04 (partial): up to 2^24 bits, construction, `resize` and `reserve` provide the requested
capacity. -/
theorem capacity_enough_partial {e : Nat} (he : 0 < e) (hw : 0 < w) (n : Nat) (hn : n * e ≤ 2 ^ 24) :
    (∀ g : MBS w, n ≠ 0 → n ≤ (mbsCtor e g n).capacity e) ∧
    (∀ (s : MBS w) junk, n ≤ (s.resize e junk n).capacity e) ∧
    (∀ (s s' : MBS w) junk, s.reserve e junk n = .ok s' → n ≤ s'.capacity e) := by
  have hb := (blocksFor_bounds (w := w) hw hn).1
  rw [Nat.mul_comm n e] at hb
  refine ⟨fun g h0 => ?_, fun s junk => ?_, fun s s' junk h => ?_⟩
  · rw [le_capacity_iff he]
    simpa [mbsCtor, h0] using hb
  · rw [le_capacity_iff he]
    unfold MBS.resize
    split
    · rename_i h; exact (le_capacity_iff he s n).1 h
    · simpa [freshBlocks] using hb
  · unfold MBS.reserve at h
    split at h
    · rename_i h1; simp only [Out.ok.injEq] at h; subst h; exact h1
    · rw [Out.bind_eq_ok] at h
      obtain ⟨d, hd, h⟩ := h
      simp only [Out.pure_eq, Out.ok.injEq] at h
      subst h
      rw [le_capacity_iff he]
      have : d.length = blocksFor w e n := by
        unfold memcpyB at hd
        split at hd
        · simp only [Out.ok.injEq] at hd; subst hd; simp [freshBlocks]
        · cases hd
      simpa [this] using hb

example : 0 < 5 ∧ 0 < 64 ∧ 3000000 * 5 ≤ 2 ^ 24 := by decide

/-- C04, exactly: a freshly allocated store for `n` elements is too small if and only if the float
nearest to the number of bits needed is at most some whole number of blocks that is itself below that
number of bits. -/
theorem capacity_fails_iff {e : Nat} (he : 0 < e) (hw : 0 < w) (n : Nat) (hn : n ≠ 0) (g : MBS w) :
    (mbsCtor e g n).capacity e < n ↔ ∃ b, roundF32 (n * e) ≤ w * b ∧ w * b < n * e := by
  have h1 : (mbsCtor e g n).capacity e < n ↔ w * blocksFor w e n < n * e := by
    rw [← not_le, le_capacity_iff he]
    simp [mbsCtor, hn, Nat.mul_comm n e]
  rw [h1]
  have h2 : roundF32 (n * e) ≤ w * blocksFor w e n := by
    unfold blocksFor
    have h3 := Nat.div_add_mod (roundF32 (n * e) + (w - 1)) w
    have h4 := Nat.mod_lt (roundF32 (n * e) + (w - 1)) hw
    omega
  constructor
  · intro h; exact ⟨_, h2, h⟩
  · rintro ⟨b, h5, h6⟩
    have : blocksFor w e n ≤ b := by
      unfold blocksFor
      rw [Nat.div_le_iff_le_mul_add_pred hw]
      omega
    exact lt_of_le_of_lt (Nat.mul_le_mul_left w this) h6

/-- C04 fails above 2^24 bits: the block count is computed in `float`.  For 2^24+1 one-bit elements the
constructor allocates room for 2^24. -/
theorem capacity_too_small (g : MBS 64) :
    (mbsCtor 1 g (2 ^ 24 + 1)).size = 2 ^ 24 + 1 ∧
    (mbsCtor 1 g (2 ^ 24 + 1)).capacity 1 < 2 ^ 24 + 1 := by
  have h := ctor_capacity g (by omega) blocksFor_big
  exact ⟨h.1, by rw [h.2]; norm_num⟩

/-- … so writing its last element is out of bounds. -/
theorem capacity_too_small_write (g : MBS 64) (v : BitVec 64) :
    (mbsCtor 1 g (2 ^ 24 + 1)).write 64 1 (2 ^ 24) v = .ub :=
  ctor_write_ub (by omega) g v (by omega) (by omega) blocksFor_big (by norm_num)

/-- The constructor with size 0 leaves the object uninitialised: any state can result. -/
theorem ctor_zero_uninitialised (e : Nat) (g : MBS w) : mbsCtor e g 0 = g := by simp [mbsCtor]

/-! ## C03 -/

/-- The API call for each abstract operation; `junk` is the content of memory it may allocate. -/
def runOp (p e : Nat) (junk : Nat → BitVec w) (s : MBS w) : SeqOp → Out (MBS w)
  | .write i v => s.write p e i (BitVec.ofNat w v)
  | .push v => s.pushBack p e junk (BitVec.ofNat w v)
  | .pop => s.popBack
  | .clear => .ok s.clear
  | .reserve n => s.reserve e junk n
  | .shrink => s.shrinkToFit e junk
  | .truncate n => .ok (s.resize e junk n)

/-- A history: operations, each with the content of the memory it may allocate. -/
abbrev History (w : Nat) := List (SeqOp × (Nat → BitVec w))

/-- Running a history. -/
def runHistory (p e : Nat) : MBS w → History w → Out (MBS w)
  | s, [] => .ok s
  | s, (op, j) :: rest => do
    let s ← runOp p e j s op
    runHistory p e s rest

/-- The same history on an ordinary list. -/
def specHistory (e : Nat) : List Nat → List SeqOp → Option (List Nat)
  | l, [] => some l
  | l, op :: rest => (op.apply e l).bind fun l' => specHistory e l' rest

/-- Storing `n` elements needs no growth of a non-empty store (or blocks are bytes), and is below the
range where the block count is computed wrongly. -/
def GrowthOk (e : Nat) (s : MBS w) (n : Nat) : Prop :=
  n * e ≤ 2 ^ 24 ∧ (n ≤ s.capacity e ∨ s.blocks = [] ∨ w = 8)

/-- The restriction on one operation of a history. -/
def OpOk (e : Nat) (s : MBS w) : SeqOp → Prop
  | .push _ => GrowthOk e s (s.size + 1)
  | .reserve n => GrowthOk e s n
  | .shrink => s.size * e ≤ 2 ^ 24
  | _ => True

/-- The restriction along a history. -/
def HistoryOk (p e : Nat) : MBS w → History w → Prop
  | _, [] => True
  | s, (op, j) :: rest => OpOk e s op ∧ ∀ s', runOp p e j s op = .ok s' → HistoryOk p e s' rest

theorem represents_congr {p e : Nat} (f : Fits w p e) {s s' : MBS w} {l l' : List Nat}
    (h : Represents p e s l) (hsz : s'.size = l'.length) (hle : l'.length ≤ l.length)
    (hpre : ∀ i (h1 : i < l'.length) (h2 : i < l.length), l'[i] = l[i])
    (hroom : e * s'.size ≤ w * s'.blocks.length)
    (hbits : ∀ k, k < e * l'.length → packedBit s'.blocks k = packedBit s.blocks k) :
    Represents p e s' l' := by
  refine ⟨hsz, hroom, fun i hi => ?_⟩
  obtain ⟨u, hu, hv⟩ := h.elem i (by omega)
  have hi2 : i < s.size := by rw [h.size]; omega
  have hi3 : i < s'.size := by omega
  refine ⟨u, ?_, by rw [hv, hpre i hi (by omega)]⟩
  simp only [MBS.read, hi2, hi3, if_true] at hu ⊢
  rw [← hu]
  have h4 := Nat.mul_le_mul_left e (show i + 1 ≤ s'.size from hi3)
  have h5 := Nat.mul_le_mul_left e (show i + 1 ≤ s.size from hi2)
  have h6 := Nat.mul_le_mul_left e (show i + 1 ≤ l'.length from hi)
  have := h.room
  exact getValue_congr f.w_pos f.w_le f.pos f.le (by omega) (by omega)
    (fun k _ hk => hbits k (by omega))

/-- One operation. -/
theorem runOp_refines {p e : Nat} (f : Fits w p e) (h8 : 8 ∣ w) {s : MBS w} {l l' : List Nat}
    (h : Represents p e s l) (op : SeqOp) (junk : Nat → BitVec w) (hop : OpOk e s op)
    (hl : op.apply e l = some l') :
    ∃ s', runOp p e junk s op = .ok s' ∧ Represents p e s' l' := by
  have hmod : ∀ v, v % 2 ^ w % 2 ^ e = v % 2 ^ e := fun v =>
    Nat.mod_mod_of_dvd v (Nat.pow_dvd_pow 2 f.le)
  cases op with
  | write i v =>
    simp only [SeqOp.apply] at hl
    split at hl
    · rename_i hi
      simp only [Option.some.injEq] at hl
      subst hl
      have hi2 : i < s.size := by rw [h.size]; exact hi
      obtain ⟨s', h1, u, hu, huv⟩ := write_read f s h.room i hi2 (BitVec.ofNat w v)
      obtain ⟨s'', h1', hsz, hbl, hfr, -⟩ := write_frame f s h.room i hi2 (BitVec.ofNat w v)
      rw [h1] at h1'
      simp only [Out.ok.injEq] at h1'
      subst h1'
      refine ⟨s', h1, by simp [hsz, h.size], by rw [hsz, hbl]; exact h.room, fun j hj => ?_⟩
      rw [List.length_set] at hj
      by_cases hji : j = i
      · subst hji
        exact ⟨u, hu, by simp [huv, hmod]⟩
      · rw [hfr j hji, List.getElem_set_ne (Ne.symm hji)]
        exact h.elem j hj
    · cases hl
  | push v =>
    simp only [SeqOp.apply, Option.some.injEq] at hl
    subst hl
    obtain ⟨s1, hr, hsz, hbl, hrm, hbits⟩ :=
      reserve_keeps f.w_pos h8 f.pos s junk hop.1 hop.2
    obtain ⟨bs', h2, h3, ⟨u, hu, huv⟩, h4, h5⟩ :=
      setValue_get_same f.w_pos f.promoted f.pos f.le s1.blocks s.size (BitVec.ofNat w v) hrm
    refine ⟨{ blocks := bs', size := s.size + 1 }, ?_, ?_⟩
    · simp only [runOp, MBS.pushBack, hr, Out.ok_bind, hsz, h2, Out.pure_eq]
    · refine ⟨by simp [h.size], by simp only [h3]; exact hrm, fun j hj => ?_⟩
      rw [List.length_append, List.length_singleton] at hj
      by_cases hjs : j = s.size
      · subst hjs
        refine ⟨u, by simp [MBS.read, hu], ?_⟩
        rw [huv, List.getElem_append_right (by rw [h.size])]
        simp [h.size, hmod]
      · have hj2 : j < l.length := by rw [h.size] at hjs; omega
        obtain ⟨u', hu', hv'⟩ := h.elem j hj2
        have hj3 : j < s.size := by rw [h.size]; exact hj2
        refine ⟨u', ?_, by rw [hv', List.getElem_append_left hj2]⟩
        simp only [MBS.read, hj3, if_true] at hu'
        simp only [MBS.read, show j < s.size + 1 by omega, if_true]
        have h6 := Nat.mul_le_mul_left e (show j + 1 ≤ s.size from hj3)
        have h7 := h.room
        have h8' := Nat.mul_le_mul_left w hbl
        rw [h4 j hjs (by omega), ← hu']
        exact getValue_congr f.w_pos f.w_le f.pos f.le (by omega) (by omega)
          (fun k _ hk => hbits k (by omega))
  | pop =>
    simp only [SeqOp.apply] at hl
    split at hl
    · cases hl
    · rename_i hne
      simp only [Option.some.injEq] at hl
      subst hl
      have hpos : 0 < l.length := List.length_pos_iff.2 hne
      have hs := h.size
      refine ⟨{ s with size := s.size - 1 }, by simp [runOp, MBS.popBack, show 0 < s.size by omega], ?_⟩
      refine represents_congr f h (by simp [hs]) (by simp) (fun i h1 h2 => by simp) ?_ (fun _ _ => rfl)
      exact Nat.le_trans (Nat.mul_le_mul_left e (Nat.sub_le _ _)) h.room
  | clear =>
    simp only [SeqOp.apply, Option.some.injEq] at hl
    subst hl
    exact ⟨_, rfl, rfl, by simp [MBS.clear], fun i hi => by simp at hi⟩
  | reserve n =>
    simp only [SeqOp.apply, Option.some.injEq] at hl
    subst hl
    obtain ⟨s1, hr, hsz, hbl, hrm, hbits⟩ :=
      reserve_keeps f.w_pos h8 f.pos s junk hop.1 hop.2
    have h7 := h.room
    have h8' := Nat.mul_le_mul_left w hbl
    refine ⟨s1, hr, represents_congr f h (by rw [hsz, h.size]) (Nat.le_refl _) (fun _ _ _ => rfl)
      (by rw [hsz]; omega) (fun k hk => hbits k (by rw [← h.size] at hk; omega))⟩
  | shrink =>
    simp only [SeqOp.apply, Option.some.injEq] at hl
    subst hl
    simp only [OpOk] at hop
    have hb := blocksFor_bounds (w := w) f.w_pos hop
    have h7 := h.room
    have hle := blocksFor_le (b := s.blocks.length) f.w_pos hop (by rw [Nat.mul_comm]; exact h7)
    simp only [runOp, MBS.shrinkToFit]
    by_cases heq : blocksFor w e s.size = s.blocks.length
    · rw [if_pos heq]; exact ⟨s, rfl, h⟩
    · rw [if_neg heq]
      obtain ⟨d, hd, hl', hk⟩ := memcpyB_blocks
        (dst := freshBlocks junk (blocksFor w e s.size)) (src := s.blocks)
        (b := blocksFor w e s.size) f.w_pos h8 (by simp [freshBlocks]) hle
      rw [Nat.mul_comm (w / 8), hd]
      refine ⟨{ s with blocks := d }, rfl, represents_congr f h h.size (Nat.le_refl _)
        (fun _ _ _ => rfl) ?_ (fun k hk' => hk k ?_)⟩
      · simp only [hl', freshBlocks, List.length_map, List.length_range]
        rw [Nat.mul_comm]; exact hb.1
      · rw [← h.size, Nat.mul_comm] at hk'; omega
  | truncate n =>
    simp only [SeqOp.apply] at hl
    split at hl
    · rename_i hn
      simp only [Option.some.injEq] at hl
      subst hl
      have hcap : n ≤ s.capacity e := by
        rw [le_capacity_iff f.pos]
        refine Nat.le_trans (Nat.mul_le_mul_left e (by rw [h.size]; exact hn)) h.room
      refine ⟨{ s with size := n }, by simp [runOp, MBS.resize, hcap], ?_⟩
      refine represents_congr f h (by simp [hn]) (by simp) (fun i h1 h2 => by simp) ?_ (fun _ _ => rfl)
      exact (le_capacity_iff f.pos s n).1 hcap
    · cases hl

/-- C03 (partial): along every history in which no non-empty store has to grow, the object stands for
the same list as the specification, and nothing undefined happens.  (Missing: growth, where the code
loses data, see `growth_loses_data`.) -/
theorem sequence_refinement_partial {p e : Nat} (f : Fits w p e) (h8 : 8 ∣ w) (hist : History w) :
    ∀ (s : MBS w) (l l' : List Nat), Represents p e s l → HistoryOk p e s hist →
      specHistory e l (hist.map (·.1)) = some l' →
      ∃ s', runHistory p e s hist = .ok s' ∧ Represents p e s' l' := by
  induction hist with
  | nil =>
    intro s l l' h _ hl
    simp only [List.map_nil, specHistory, Option.some.injEq] at hl
    subst hl
    exact ⟨s, rfl, h⟩
  | cons a rest ih =>
    obtain ⟨op, j⟩ := a
    intro s l l' h hok hl
    simp only [List.map_cons, specHistory, Option.bind_eq_some_iff] at hl
    obtain ⟨l1, hl1, hl2⟩ := hl
    obtain ⟨s1, hs1, hr1⟩ := runOp_refines f h8 h op j hok.1 hl1
    obtain ⟨s', hs', hr'⟩ := ih s1 l1 l' hr1 (hok.2 s1 hs1) hl2
    exact ⟨s', by simp [runHistory, hs1, hs'], hr'⟩

/-- The empty object and a freshly constructed one stand for `[]` and `n` zeros. -/
theorem fresh_represents {p e : Nat} (f : Fits w p e) :
    Represents p e (mbsEmpty : MBS w) [] ∧
    ∀ (g : MBS w) n, n ≠ 0 → n * e ≤ 2 ^ 24 → Represents p e (mbsCtor e g n) (List.replicate n 0) := by
  refine ⟨⟨rfl, by simp [mbsEmpty], fun i hi => by simp at hi⟩, fun g n h0 hn => ?_⟩
  have hb := (blocksFor_bounds (w := w) f.w_pos hn).1
  rw [Nat.mul_comm] at hb
  rw [mbsCtor_pos g h0]
  have hroom : e * n ≤ w * (List.replicate (blocksFor w e n) 0#w).length := by simpa using hb
  refine ⟨by simp, hroom, fun i hi => ?_⟩
  rw [List.length_replicate] at hi
  obtain ⟨u, hu, hbit⟩ := getValue_bits f.w_pos f.w_le f.pos f.le
    (List.replicate (blocksFor w e n) 0#w) i
    (Nat.le_trans (Nat.mul_le_mul_left e hi) hroom)
  refine ⟨u, by simp [MBS.read, hi, hu], ?_⟩
  have : u = 0#w := by
    apply BitVec.eq_of_getLsbD_eq
    intro t _
    rw [hbit, packedBit]
    have : (List.replicate (blocksFor w e n) 0#w).getD ((e * (i + 1) - 1 - t) / w) 0 = 0#w := by
      rw [List.getD_eq_getElem?_getD, List.getElem?_replicate]
      split <;> rfl
    rw [this]
    simp
  simp [this]

/-- C03 (partial), user's form: construct with `n` elements (at most 2^24 bits), then write, push, pop
and truncate in any order without ever holding more than `n` elements: the object behaves as a list. -/
theorem preallocated_is_a_list_partial {p e : Nat} (f : Fits w p e) (h8 : 8 ∣ w) (g : MBS w) (n : Nat)
    (h0 : n ≠ 0) (hn : n * e ≤ 2 ^ 24) (hist : History w) (l' : List Nat)
    (hops : ∀ a ∈ hist, a.1 ≠ .clear ∧ a.1 ≠ .shrink ∧ ∀ m, a.1 ≠ .reserve m)
    (hlen : ∀ k l, specHistory e (List.replicate n 0) ((hist.map (·.1)).take k) = some l → l.length ≤ n)
    (hl : specHistory e (List.replicate n 0) (hist.map (·.1)) = some l') :
    ∃ s', runHistory p e (mbsCtor e g n) hist = .ok s' ∧ Represents p e s' l' := by
  have key : ∀ (hist : History w) (s : MBS w) (l : List Nat), Represents p e s l →
      e * n ≤ w * s.blocks.length → l.length ≤ n →
      (∀ a ∈ hist, a.1 ≠ .clear ∧ a.1 ≠ .shrink ∧ ∀ m, a.1 ≠ .reserve m) →
      (∀ k l1, specHistory e l ((hist.map (·.1)).take k) = some l1 → l1.length ≤ n) →
      (∀ l', specHistory e l (hist.map (·.1)) = some l' → HistoryOk p e s hist) := by
    intro hist
    induction hist with
    | nil => intros; trivial
    | cons a rest ih =>
      obtain ⟨op, j⟩ := a
      intro s l h hcap hll hops hlen l' hl
      simp only [List.map_cons, specHistory, Option.bind_eq_some_iff] at hl
      obtain ⟨l1, hl1, hl2⟩ := hl
      have hlen1 : l1.length ≤ n := hlen 1 l1 (by simp [specHistory, hl1])
      have hop : OpOk e s op := by
        have h1 := (hops _ (List.mem_cons_self ..))
        cases op with
        | push v =>
          simp only [SeqOp.apply, Option.some.injEq] at hl1
          subst hl1
          simp only [List.length_append, List.length_singleton] at hlen1
          have h2 : s.size + 1 ≤ n := by rw [h.size]; exact hlen1
          refine ⟨Nat.le_trans (Nat.mul_le_mul_right e h2) hn, Or.inl ?_⟩
          rw [le_capacity_iff f.pos]
          exact Nat.le_trans (Nat.mul_le_mul_left e h2) hcap
        | reserve m => exact absurd rfl (h1.2.2 m)
        | shrink => exact absurd rfl h1.2.1
        | write i v => trivial
        | pop => trivial
        | clear => trivial
        | truncate m => trivial
      refine ⟨hop, fun s1 hs1 => ?_⟩
      obtain ⟨s1', hs1', hr1⟩ := runOp_refines f h8 h op j hop hl1
      have : s1' = s1 := by
        simp only [hs1, Out.ok.injEq] at hs1'
        exact hs1'.symm
      subst this
      have hblk : s1'.blocks.length = s.blocks.length := by
        have h1 := (hops _ (List.mem_cons_self ..))
        cases op with
        | push v =>
          simp only [runOp, MBS.pushBack, MBS.reserve] at hs1
          have h2 : s.size + 1 ≤ s.capacity e := by
            simp only [SeqOp.apply, Option.some.injEq] at hl1
            subst hl1
            simp only [List.length_append, List.length_singleton] at hlen1
            rw [le_capacity_iff f.pos]
            exact Nat.le_trans (Nat.mul_le_mul_left e (by rw [h.size]; exact hlen1)) hcap
          rw [if_pos h2] at hs1
          obtain ⟨bs', hb1, hb2, -⟩ := setValue_bits f.w_pos f.promoted f.pos f.le s.blocks s.size
            (BitVec.ofNat w v) ((le_capacity_iff f.pos s _).1 h2)
          simp only [Out.ok_bind, hb1, Out.pure_eq, Out.ok.injEq] at hs1
          subst hs1
          exact hb2
        | reserve m => exact absurd rfl (h1.2.2 m)
        | shrink => exact absurd rfl h1.2.1
        | write i v =>
          simp only [SeqOp.apply] at hl1
          split at hl1
          · rename_i hi
            obtain ⟨s2, h2, -, h3, -⟩ := write_frame f s h.room i (by rw [h.size]; exact hi)
              (BitVec.ofNat w v)
            simp only [runOp, h2, Out.ok.injEq] at hs1
            subst hs1
            exact h3
          · cases hl1
        | pop =>
          simp only [runOp, MBS.popBack] at hs1
          split at hs1
          · simp only [Out.ok.injEq] at hs1; subst hs1; rfl
          · cases hs1
        | clear => exact absurd rfl h1.1
        | truncate m =>
          simp only [SeqOp.apply] at hl1
          split at hl1
          · rename_i hm
            simp only [runOp, MBS.resize, Out.ok.injEq] at hs1
            rw [if_pos] at hs1
            · subst hs1; rfl
            · rw [le_capacity_iff f.pos]
              exact Nat.le_trans (Nat.mul_le_mul_left e (by rw [h.size]; exact hm)) h.room
          · cases hl1
      refine ih s1' l1 hr1 (by rw [hblk]; exact hcap) hlen1
        (fun a ha => hops a (List.mem_cons_of_mem _ ha)) (fun k l2 hk => ?_) l' hl2
      exact hlen (k + 1) l2 (by simp [specHistory, hl1, hk])
  have hb := (blocksFor_bounds (w := w) f.w_pos hn).1
  rw [Nat.mul_comm] at hb
  exact sequence_refinement_partial f h8 hist _ _ _ ((fresh_represents f).2 g n h0 hn)
    (key hist _ _ ((fresh_represents f).2 g n h0 hn)
      (by rw [mbsCtor_pos g h0]; simpa using hb) (by simp) hops hlen l' hl) hl

/-- C03 is false when a non-empty store of blocks wider than a byte has to grow: the push goes through,
but some element that was there reads differently afterwards, for some content of the newly allocated
memory (`reserve` copies as many *bytes* as there are blocks). -/
theorem growth_loses_data {p e : Nat} (f : Fits w p e) (h8 : 8 ∣ w) (hw : 16 ≤ w) (s : MBS w)
    (l : List Nat) (h : Represents p e s l) (hB : s.blocks ≠ []) (hfull : s.capacity e < s.size + 1)
    (hn : (s.size + 1) * e ≤ 2 ^ 24) (v : BitVec w) :
    ∃ (junk : Nat → BitVec w) (s' : MBS w) (j : Nat), j < s.size ∧
      s.pushBack p e junk v = .ok s' ∧ s'.read p e j ≠ s.read p e j := by
  have hw0 : 0 < w := by omega
  have hBl : 0 < s.blocks.length := List.length_pos_iff.2 hB
  obtain ⟨B, hBdef⟩ : ∃ B, B = s.blocks.length := ⟨_, rfl⟩
  rw [← hBdef] at hBl
  let junk : Nat → BitVec w := fun k => ~~~ (s.blocks.getD k 0)
  have hbd := (blocksFor_bounds (w := w) hw0 hn).1
  rw [Nat.mul_comm] at hbd
  have hcap : ¬ (s.size + 1 ≤ s.capacity e) := by omega
  have hcap' := hcap
  rw [le_capacity_iff f.pos, ← hBdef] at hcap
  have hlen : (freshBlocks junk (blocksFor w e (s.size + 1))).length = blocksFor w e (s.size + 1) := by
    simp [freshBlocks]
  have hlt : B < blocksFor w e (s.size + 1) := Nat.lt_of_mul_lt_mul_left (a := w) (by omega)
  have hw8 : 2 ≤ w / 8 := by omega
  obtain ⟨d, hd, hdl, hdb⟩ := memcpyB_spec (dst := freshBlocks junk (blocksFor w e (s.size + 1)))
    (src := s.blocks) (n := B) hw0
    (by rw [hlen]; exact Nat.le_trans (Nat.le_of_lt hlt) (Nat.le_mul_of_pos_right _ (by omega)))
    (by rw [← hBdef]; exact Nat.le_mul_of_pos_right _ (by omega))
  rw [hlen] at hdl
  obtain ⟨bs', h2, h3, -, h4, -⟩ := setValue_get_same f.w_pos f.promoted f.pos f.le d s.size v
    (by rw [hdl]; exact hbd)
  -- the first bit of the last old block
  have hk0 : (B - 1) * w + 0 < e * s.size := by
    have hmul : e * (s.size + 1) = e * s.size + e := by ring
    have := f.le
    have h5 : w * B = (B - 1) * w + w := by
      obtain ⟨b, hb⟩ : ∃ b, B = b + 1 := ⟨B - 1, by omega⟩
      rw [hb]; simp; ring
    omega
  obtain ⟨k, hk⟩ : ∃ k, k = (B - 1) * w + 0 := ⟨_, rfl⟩
  rw [← hk] at hk0
  have hj : k / e < s.size := by
    rw [Nat.div_lt_iff_lt_mul f.pos, Nat.mul_comm]; exact hk0
  have hkd := Nat.div_add_mod k e
  have hkm := Nat.mod_lt k f.pos
  have hroom := h.room
  rw [← hBdef] at hroom
  have hje := Nat.mul_le_mul_left e (show k / e + 1 ≤ s.size from hj)
  have hmul2 : e * (k / e + 1) = e * (k / e) + e := by ring
  have hdw : w * B < w * d.length := by rw [hdl]; exact Nat.mul_lt_mul_of_pos_left hlt hw0
  refine ⟨junk, { blocks := bs', size := s.size + 1 }, k / e, hj, ?_, ?_⟩
  · simp only [MBS.pushBack, MBS.reserve, if_neg hcap']
    rw [← hBdef, hd]
    simp only [Out.ok_bind, Out.pure_eq, h2]
  · simp only [MBS.read, hj, show k / e < s.size + 1 by omega, if_true]
    rw [h4 _ (by omega) (by omega)]
    obtain ⟨a, ha, hab⟩ := getValue_bits f.w_pos f.w_le f.pos f.le d (k / e) (by omega)
    obtain ⟨b, hb, hbb⟩ := getValue_bits f.w_pos f.w_le f.pos f.le s.blocks (k / e)
      (by rw [← hBdef]; omega)
    rw [ha, hb]
    intro hab2
    simp only [Out.ok.injEq] at hab2
    subst hab2
    have ht : e * (k / e + 1) - 1 - k < e := by omega
    have e1 := hab (e * (k / e + 1) - 1 - k)
    have e2 := hbb (e * (k / e + 1) - 1 - k)
    rw [e1] at e2
    simp only [ht, decide_true, Bool.true_and] at e2
    rw [show e * (k / e + 1) - 1 - (e * (k / e + 1) - 1 - k) = k by omega, hk,
      packedBit_eq hw0 _ _ _ hw0, packedBit_eq hw0 _ _ _ hw0,
      hdb _ _ (by rw [hlen]; omega) (by omega), if_neg] at e2
    · have : (freshBlocks junk (blocksFor w e (s.size + 1))).getD (B - 1) 0 =
          ~~~ (s.blocks.getD (B - 1) 0) := by
        rw [List.getD_eq_getElem _ _ (by rw [hlen]; omega)]
        simp [freshBlocks, junk]
      rw [this, BitVec.getLsbD_not] at e2
      simp [hw0] at e2
    · obtain ⟨b, hb⟩ : ∃ b, B = b + 1 := ⟨B - 1, by omega⟩
      rw [hb]
      obtain ⟨c, hc⟩ := h8
      have h9 : w / 8 = c := by omega
      have h10 : (w - 1 - 0) / 8 = c - 1 := by omega
      rw [h9, h10]
      have h11 : (b + 1 - 1) * 2 ≤ (b + 1 - 1) * c := Nat.mul_le_mul_left _ (by omega)
      omega

/-- The hypotheses are met: eight 8-bit elements fill a 64-bit block; the ninth push grows. -/
example : Represents 64 8 ({ blocks := [0x0102030405060708#64], size := 8 } : MBS 64)
      [1, 2, 3, 4, 5, 6, 7, 8] ∧
    ({ blocks := [0x0102030405060708#64], size := 8 } : MBS 64).capacity 8 < 8 + 1 := by
  refine ⟨⟨rfl, by decide, fun i hi => ?_⟩, by decide⟩
  have : i < 8 := hi
  match i, this with
  | 0, _ => exact ⟨1#64, by decide +kernel, rfl⟩
  | 1, _ => exact ⟨2#64, by decide +kernel, rfl⟩
  | 2, _ => exact ⟨3#64, by decide +kernel, rfl⟩
  | 3, _ => exact ⟨4#64, by decide +kernel, rfl⟩
  | 4, _ => exact ⟨5#64, by decide +kernel, rfl⟩
  | 5, _ => exact ⟨6#64, by decide +kernel, rfl⟩
  | 6, _ => exact ⟨7#64, by decide +kernel, rfl⟩
  | 7, _ => exact ⟨8#64, by decide +kernel, rfl⟩

/-- Growth on a concrete history: pushing 1..9 (8-bit elements, 64-bit blocks, zeroed fresh memory)
leaves 0 where 1 was pushed. -/
example : (do
    let s ← runHistory 64 8 (mbsEmpty : MBS 64)
      ((List.range 9).map fun i => (SeqOp.push (i + 1), fun _ => 0#64))
    let u ← s.read 64 8 0
    return (s.size, u.toNat) : Out (Nat × Nat)) = .ok (9, 0) := by decide +kernel

/-- A history meeting the hypotheses of `preallocated_is_a_list_partial`. -/
example : specHistory 5 (List.replicate 3 0)
    [.write 1 9, .pop, .push 40, .truncate 2, .push 7] = some [0, 9, 7] := by decide

/-! ## C60: copies -/

/-- C60 (partial): the copy constructor gives an equal, independent sequence when the source has no
spare blocks. -/
theorem copy_ctor_partial {p e : Nat} (f : Fits w p e) (h8 : 8 ∣ w) (b : MBS w) (l : List Nat)
    (junk : Nat → BitVec w) (h : Represents p e b l) (hn : b.size * e ≤ 2 ^ 24)
    (htight : b.blocks.length = blocksFor w e b.size) :
    ∃ s, mbsCopy e junk b = .ok s ∧ Represents p e s l := by
  unfold mbsCopy
  by_cases h0 : 0 < b.size
  · rw [if_pos h0]
    have hc : ¬ b.size ≤ (mbsEmpty : MBS w).capacity e := by simp [MBS.capacity, mbsEmpty]; omega
    simp only [MBS.resize, if_neg hc]
    obtain ⟨d, hd, hl, hk⟩ := memcpyB_blocks (dst := freshBlocks junk (blocksFor w e b.size))
      (src := b.blocks) (b := b.blocks.length) f.w_pos h8 (by simp [freshBlocks, htight])
      (Nat.le_refl _)
    rw [hd]
    refine ⟨_, rfl, represents_congr f h h.size (Nat.le_refl _) (fun _ _ _ => rfl) ?_
      (fun k hk' => hk k ?_)⟩
    · simp only [hl]
      simp only [freshBlocks, List.length_map, List.length_range, ← htight]
      exact h.room
    · have := h.room; rw [← h.size] at hk'; omega
  · rw [if_neg h0]
    have : l = [] := by
      have := h.size
      exact List.length_eq_zero_iff.1 (by omega)
    subst this
    exact ⟨_, rfl, rfl, by simp [mbsEmpty], fun i hi => by simp at hi⟩

/-- … but with spare blocks (after `pop_back` or `reserve`) it writes past the new buffer. -/
theorem copy_ctor_overflows {e : Nat} (hw : 8 ≤ w) (he : 0 < e) (b : MBS w) (junk : Nat → BitVec w)
    (h0 : 0 < b.size) (hspare : blocksFor w e b.size < b.blocks.length) :
    mbsCopy e junk b = .ub := by
  unfold mbsCopy
  rw [if_pos h0]
  have hc : ¬ b.size ≤ (mbsEmpty : MBS w).capacity e := by simp [MBS.capacity, mbsEmpty]; omega
  simp only [MBS.resize, if_neg hc, memcpyB]
  rw [if_neg]
  · rfl
  · simp only [freshBlocks, List.length_map, List.length_range, not_and]
    intro h1
    exfalso
    have := Nat.le_of_mul_le_mul_right h1 (by omega)
    omega

/-- C60: assignment gives the source's sequence, whatever the target was. -/
theorem assign_copies {p e : Nat} (f : Fits w p e) (h8 : 8 ∣ w) (b s : MBS w) (l : List Nat)
    (junk : Nat → BitVec w) (h : Represents p e b l) (hn : b.size * e ≤ 2 ^ 24) :
    ∃ s', s.assign e junk b = .ok s' ∧ Represents p e s' l := by
  unfold MBS.assign
  by_cases h0 : b.size = 0
  · rw [if_pos h0]
    have : l = [] := by
      have := h.size
      exact List.length_eq_zero_iff.1 (by omega)
    subst this
    refine ⟨_, rfl, ?_, ?_, fun i hi => by simp at hi⟩
    · simp [MBS.resize]
    · simp [MBS.resize]
  · rw [if_neg h0]
    have hb := blocksFor_bounds (w := w) f.w_pos hn
    have hroom := h.room
    have hle := blocksFor_le (b := b.blocks.length) f.w_pos hn (by rw [Nat.mul_comm]; exact hroom)
    have hsz : (s.resize e junk b.size).size = b.size := by unfold MBS.resize; split <;> rfl
    have hbl : blocksFor w e b.size ≤ (s.resize e junk b.size).blocks.length := by
      unfold MBS.resize
      split
      · rename_i hc
        rw [le_capacity_iff f.pos] at hc
        exact blocksFor_le f.w_pos hn (by rw [Nat.mul_comm]; exact hc)
      · simp [freshBlocks]
    obtain ⟨d, hd, hl, hk⟩ := memcpyB_blocks (dst := (s.resize e junk b.size).blocks)
      (src := b.blocks) (b := blocksFor w e b.size) f.w_pos h8 hbl hle
    simp only [hsz, hd, Out.ok_bind]
    have h3 := Nat.mul_le_mul_left w hbl
    have h4 : b.size * e = e * b.size := Nat.mul_comm _ _
    refine ⟨_, rfl, represents_congr f h (by simp [hsz, h.size]) (Nat.le_refl _)
      (fun _ _ _ => rfl) ?_ (fun k hk' => hk k ?_)⟩
    · simp only [hl, hsz]; omega
    · rw [← h.size] at hk'; omega

/-- The hypotheses of the overflow are met by an ordinary history: two full 64-bit blocks, one
`pop_back` of the element that needed the second block, copy. -/
example : (match (do
    let s ← (mbsCtor (w := 64) 8 mbsEmpty 9).popBack
    mbsCopy 8 (fun _ => 0#64) s) with | .ub => true | _ => false) = true := by decide +kernel

/-! ## C61: iteration -/

/-- C61: a `begin()`..`end()` loop finishes and visits the elements in order, each once. -/
theorem iterate_visits_all {p e : Nat} (s : MBS w) (l : List Nat) (h : Represents p e s l) (n : Nat)
    (hn : s.size ≤ n) :
    ∃ us, s.iterate p e n 0 = .ok us ∧ us.map (·.toNat) = l := by
  have key : ∀ n i, i ≤ s.size → s.size - i ≤ n →
      ∃ us, s.iterate p e n i = .ok us ∧ us.map (·.toNat) = l.drop i := by
    intro n
    induction n with
    | zero =>
      intro i hi hn
      have : i = s.size := by omega
      subst this
      exact ⟨[], by simp [MBS.iterate], by simp [h.size]⟩
    | succ n ih =>
      intro i hi hn
      unfold MBS.iterate
      by_cases heq : i = s.size
      · rw [if_pos heq]
        exact ⟨[], rfl, by simp [heq, h.size]⟩
      · rw [if_neg heq]
        have hil : i < l.length := by rw [← h.size]; omega
        obtain ⟨u, hu, huv⟩ := h.elem i hil
        simp only [MBS.read, show i < s.size by omega, if_true] at hu
        obtain ⟨us, hus, hum⟩ := ih (i + 1) (by omega) (by omega)
        refine ⟨u :: us, by simp [hu, hus], ?_⟩
        rw [List.map_cons, hum, huv, ← List.drop_eq_getElem_cons hil]
  simpa using key n 0 (Nat.zero_le _) (by omega)

/-- `front()` and `back()` are the first and last element. -/
theorem front_back {p e : Nat} (s : MBS w) (l : List Nat) (h : Represents p e s l) (hne : l ≠ []) :
    (∃ u, s.front p e = .ok u ∧ u.toNat = l.head hne) ∧
    (∃ u, s.back p e = .ok u ∧ u.toNat = l.getLast hne) := by
  have hl : 0 < l.length := List.length_pos_iff.2 hne
  have hs := h.size
  constructor
  · obtain ⟨u, hu, hv⟩ := h.elem 0 hl
    simp only [MBS.read, show 0 < s.size by omega, if_true] at hu
    exact ⟨u, hu, by rw [hv, List.head_eq_getElem]⟩
  · obtain ⟨u, hu, hv⟩ := h.elem (l.length - 1) (by omega)
    simp only [MBS.read, show l.length - 1 < s.size by omega, if_true] at hu
    refine ⟨u, ?_, by rw [hv, List.getLast_eq_getElem]⟩
    simp only [MBS.back]
    rw [if_neg (by omega), hs]
    exact hu

/-- `b[i] = b[j]` copies the element. -/
theorem assignRef_copies {p e : Nat} (f : Fits w p e) (s : MBS w) (l : List Nat)
    (h : Represents p e s l) (i j : Nat) (hi : i < l.length) (hj : j < l.length) :
    ∃ s', s.assignRef p e i j = .ok s' ∧ ∃ u, s'.read p e i = .ok u ∧ u.toNat = l[j] := by
  obtain ⟨u, hu, hv⟩ := h.elem j hj
  obtain ⟨s', h1, u', hu', huv'⟩ := write_read f s h.room i (by rw [h.size]; exact hi) u
  refine ⟨s', by simp [MBS.assignRef, hu, h1], u', hu', ?_⟩
  rw [huv', hv, Nat.mod_eq_of_lt]
  rw [← hv]
  obtain ⟨u2, hu2, hub⟩ := read_bits f s h.room j (by rw [h.size]; exact hj)
  rw [hu] at hu2
  simp only [Out.ok.injEq] at hu2
  subst hu2
  rw [toNat_of_bits f.le (v := u) fun t => ?_]
  · exact Nat.mod_lt _ (Nat.two_pow_pos e)
  · by_cases hte : t < e
    · simp [hte]
    · rw [hub]; simp [hte]

end Heu
