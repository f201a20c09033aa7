import Verif.Props.MultiBitSet
import Verif.Model.MBSIter
import Verif.Spec.MBSIter

/-!
# References and iterators of `multiBitSet` (C112)
-/

namespace Heu
set_option linter.unusedSimpArgs false
set_option linter.unusedVariables false

variable {w : Nat}

/-- The API call for each move. -/
def doMove (r : MRef) : Move → MRef
  | .inc => itInc r
  | .dec => itDec r
  | .postInc => (itIncPost r).1
  | .postDec => (itDecPost r).1
  | .plus k => itPlus r k
  | .minus k => itMinus r k
  | .at k => itAt r k

/-- A sequence of moves. -/
def doMoves (r : MRef) (ms : List Move) : MRef := ms.foldl doMove r

theorem doMove_eq (r : MRef) (m : Move) :
    doMove r m = { r with index := r.index + BitVec.ofInt 64 m.shift } := by
  have h1 : (-1#64) = BitVec.ofInt 64 (-1) := by decide
  cases m <;> simp [doMove, itInc, itDec, itIncPost, itDecPost, itPlus, itMinus, itAt, Move.shift,
    BitVec.sub_eq_add_neg, BitVec.ofInt_neg]

theorem doMoves_eq (r : MRef) (ms : List Move) :
    doMoves r ms = { r with index := r.index + BitVec.ofInt 64 (ms.map Move.shift).sum } := by
  induction ms generalizing r with
  | nil => simp [doMoves]
  | cons m ms ih =>
    have : doMoves r (m :: ms) = doMoves (doMove r m) ms := rfl
    rw [this, ih, doMove_eq]
    simp [BitVec.ofInt_add, BitVec.add_assoc]

private theorem ofInt_natCast (n : Nat) : BitVec.ofInt 64 (n : Int) = BitVec.ofNat 64 n := by
  simp

private theorem ofNat_toNat64 {n : Nat} (h : n < 2 ^ 64) : (BitVec.ofNat 64 n).toNat = n := by
  simpa using Nat.mod_eq_of_lt h

private theorem itEq_iff (a b : MRef) : itEq a b = true ↔ a = b := by
  cases a; cases b; simp [itEq]

private theorem itEq_end {σ : Nat → MBS w} {c k : Nat} (hk : k < 2 ^ 64) (hsz : (σ c).size < 2 ^ 64) :
    itEq { source := some c, index := BitVec.ofNat 64 k } (itEnd σ c) = decide (k = (σ c).size) := by
  rw [Bool.eq_iff_iff, itEq_iff, decide_eq_true_iff]
  simp only [itEnd, MRef.mk.injEq, true_and]
  constructor
  · intro h
    have := congrArg BitVec.toNat h
    rwa [ofNat_toNat64 hk, ofNat_toNat64 hsz] at this
  · intro h; rw [h]

/-- **C112.**  Whatever moves are made, in any order and even if they leave the sequence in between, an
iterator that started at `begin()` and whose moves add up to `d`, `0 ≤ d ≤ size()`, is the same as
`begin() + d`: its `index()` is `d`, it equals `end()` exactly when `d = size()`, that is also when
`isNull()` says so, and for `d < size()` reading through it is reading `b[d]`, whatever the contents. -/
theorem iterator_position {p e : Nat} (σ : Nat → MBS w) (c : Nat) (hsz : (σ c).size < 2 ^ 64)
    (ms : List Move) (d : Nat) (hd : positionAfter 0 ms = d) (hle : d ≤ (σ c).size) :
    itEq (doMoves (itBegin c) ms) (itPlus (itBegin c) d) = true ∧
    itIndex (doMoves (itBegin c) ms) = d ∧
    (itEq (doMoves (itBegin c) ms) (itEnd σ c) = true ↔ d = (σ c).size) ∧
    (itIsNull σ (doMoves (itBegin c) ms) = true ↔ d = (σ c).size) ∧
    (d < (σ c).size → itRead p e σ (doMoves (itBegin c) ms) = (σ c).read p e d) := by
  have hsum : (ms.map Move.shift).sum = d := by simpa [positionAfter] using hd
  have hm : doMoves (itBegin c) ms = { source := some c, index := BitVec.ofNat 64 d } := by
    rw [doMoves_eq, hsum, ofInt_natCast]; simp [itBegin]
  have hdn : (BitVec.ofNat 64 d).toNat = d := ofNat_toNat64 (by omega)
  rw [hm]
  refine ⟨?_, hdn, ?_, ?_, ?_⟩
  · simp [itEq, itPlus, itBegin]
  · rw [itEq_end (by omega) hsz, decide_eq_true_iff]
  · simp only [itIsNull, hdn, decide_eq_true_eq]; omega
  · intro h
    simp [itRead, hdn, MBS.read, h]

/-- The moves `end()` offers: the same, counted back from the end. -/
theorem iterator_from_end {p e : Nat} (σ : Nat → MBS w) (c : Nat) (hsz : (σ c).size < 2 ^ 64)
    (ms : List Move) (d : Nat) (hd : positionAfter (σ c).size ms = d) :
    doMoves (itEnd σ c) ms = itPlus (itBegin c) d := by
  have hsum : (ms.map Move.shift).sum = (d : Int) - (σ c).size := by
    simp only [positionAfter] at hd; omega
  rw [doMoves_eq, hsum]
  simp only [itEnd, itPlus, itBegin, MRef.mk.injEq, true_and, zero_add]
  have h0 : ((d : Nat) : Int) = ((σ c).size : Int) + ((d : Int) - (σ c).size) := by omega
  conv_rhs => rw [h0, BitVec.ofInt_add, ofInt_natCast]
  simp

/-- `it++` and `it--` hand out the position before the move, `++it` and `--it` undo each other, and so do
`+ k` and `- k`, for every iterator (also one outside the sequence). -/
theorem iterator_moves_inverse (r : MRef) (k : Int) :
    (itIncPost r).2 = r ∧ (itIncPost r).1 = itInc r ∧
    (itDecPost r).2 = r ∧ (itDecPost r).1 = itDec r ∧
    itDec (itInc r) = r ∧ itInc (itDec r) = r ∧
    itMinus (itPlus r k) k = r ∧ itPlus (itMinus r k) k = r ∧ itAt r k = itPlus r k := by
  have h1 : ∀ x y : BitVec 64, x + y - y = x := fun x y => by
    apply BitVec.eq_of_toNat_eq
    have := x.isLt; have := y.isLt
    simp only [BitVec.toNat_sub, BitVec.toNat_add]; omega
  have h2 : ∀ x y : BitVec 64, x - y + y = x := fun x y => by
    apply BitVec.eq_of_toNat_eq
    have := x.isLt; have := y.isLt
    simp only [BitVec.toNat_sub, BitVec.toNat_add]; omega
  simp [itIncPost, itDecPost, itInc, itDec, itMinus, itPlus, itAt, h1, h2]

/-- Two iterators compare equal exactly when they are at the same index of the same container. -/
theorem iterator_eq_iff (a b : MRef) :
    itEq a b = true ↔ a.source = b.source ∧ itIndex a = itIndex b := by
  simp [itEq, itIndex, BitVec.toNat_inj]

/-- The world in which container `c` stands for the list `l` and every other is as in `σ`. -/
structure StandsFor (p e : Nat) (σ : Nat → MBS w) (c : Nat) (l : List Nat) (τ : Nat → MBS w) : Prop where
  represents : Represents p e (τ c) l
  others : ∀ c', c' ≠ c → τ c' = σ c'

/-- Writing through an iterator (or a reference) at element `d` of container `c` writes exactly that
element, in that container only, and nothing undefined happens. -/
theorem iterator_write {p e : Nat} (f : Fits w p e) (σ : Nat → MBS w) (c : Nat) (l : List Nat)
    (h : Represents p e (σ c) l) (hsz : l.length < 2 ^ 64) (d : Nat) (hd : d < l.length)
    (v : BitVec w) :
    ∃ τ, itWrite p e σ { source := some c, index := BitVec.ofNat 64 d } v = .ok τ ∧
      StandsFor p e σ c (l.set d (v.toNat % 2 ^ e)) τ := by
  have hdn : (BitVec.ofNat 64 d).toNat = d := ofNat_toNat64 (by omega)
  have hds : d < (σ c).size := by rw [h.size]; exact hd
  obtain ⟨s1, hw1, u, hu, huv⟩ := write_read f (σ c) h.room d hds v
  obtain ⟨s2, hw2, hs, hlen, hframe, -⟩ := write_frame f (σ c) h.room d hds v
  have h12 : s1 = s2 := by rw [hw1] at hw2; simpa using hw2
  subst h12
  have hset : ∃ bs, setValue p e (σ c).blocks d v = .ok bs ∧ s1 = { σ c with blocks := bs } := by
    simp only [MBS.write, hds, if_true] at hw1
    rw [Out.bind_eq_ok] at hw1
    obtain ⟨bs, hbs, hpure⟩ := hw1
    exact ⟨bs, hbs, by simpa using hpure.symm⟩
  obtain ⟨bs, hbs, rfl⟩ := hset
  refine ⟨fun c' => if c' = c then { σ c with blocks := bs } else σ c', ?_, ?_, ?_⟩
  · simp [itWrite, hdn, hbs]
  · simp only [if_true]
    refine ⟨by simp [h.size], ?_, ?_⟩
    · rw [hlen, hs]; exact h.room
    · intro i hi
      rw [List.length_set] at hi
      by_cases hid : i = d
      · subst hid
        exact ⟨u, hu, by rw [huv]; simp⟩
      · obtain ⟨u', hu', huv'⟩ := h.elem i hi
        refine ⟨u', by rw [hframe i hid]; exact hu', ?_⟩
        rw [huv', List.getElem_set_ne (Ne.symm hid)]
  · intro c' hc'; simp [hc']

/-- **C112, writing.**  … and so `*it = v`, after any moves that lead to element `d`, is `b[d] = v`. -/
theorem iterator_writes_element {p e : Nat} (f : Fits w p e) (σ : Nat → MBS w) (c : Nat) (l : List Nat)
    (h : Represents p e (σ c) l) (hsz : l.length < 2 ^ 64) (ms : List Move) (d : Nat)
    (hd : positionAfter 0 ms = d) (hdl : d < l.length) (v : BitVec w) :
    ∃ τ, itWrite p e σ (doMoves (itBegin c) ms) v = .ok τ ∧
      StandsFor p e σ c (l.set d (v.toNat % 2 ^ e)) τ := by
  have hsum : (ms.map Move.shift).sum = d := by simpa [positionAfter] using hd
  have hm : doMoves (itBegin c) ms = { source := some c, index := BitVec.ofNat 64 d } := by
    rw [doMoves_eq, hsum, ofInt_natCast]; simp [itBegin]
  rw [hm]
  exact iterator_write f σ c l h hsz d hdl v

/-- `at`, `front` and `back` are references to their elements. -/
theorem references_to_elements {p e : Nat} (σ : Nat → MBS w) (c : Nat) (l : List Nat)
    (h : Represents p e (σ c) l) (hsz : l.length < 2 ^ 64) (i : Nat) (hi : i < l.length) :
    mbsAt σ c i = .ok (itPlus (itBegin c) i) ∧ refFront c = itBegin c ∧
      refBack σ c = itPlus (itBegin c) (l.length - 1 : Nat) := by
  have his : i < (σ c).size := by rw [h.size]; exact hi
  refine ⟨?_, rfl, ?_⟩
  · simp [mbsAt, his, itPlus, itBegin]
  · simp only [refBack, itPlus, itBegin, h.size, MRef.mk.injEq, true_and]
    apply BitVec.eq_of_toNat_eq
    have h1 : (1#64).toNat = 1 := rfl
    rw [BitVec.toNat_sub, ofInt_natCast, ofNat_toNat64 hsz]
    rw [BitVec.toNat_add, ofNat_toNat64 (n := l.length - 1) (by omega)]
    simp
    omega

/-- What an element of a set holds is below `2^e`. -/
theorem represented_lt {p e : Nat} (f : Fits w p e) {s : MBS w} {l : List Nat}
    (h : Represents p e s l) (i : Nat) (hi : i < l.length) : l[i] < 2 ^ e := by
  obtain ⟨u, hu, hv⟩ := h.elem i hi
  obtain ⟨u2, hu2, hub⟩ := read_bits f s h.room i (by rw [h.size]; exact hi)
  rw [hu] at hu2
  simp only [Out.ok.injEq] at hu2
  subst hu2
  rw [← hv, toNat_of_bits f.le (v := u) fun t => ?_]
  · exact Nat.mod_lt _ (Nat.two_pow_pos e)
  · by_cases hte : t < e
    · simp [hte]
    · rw [hub]; simp [hte]

/-- **C112, filling.**  The loop that assigns `v` through every iterator from `begin()` to `end()`
finishes and leaves `v` modulo `2^e` in every element, touching no other container. -/
theorem iter_fill_loop {p e : Nat} (f : Fits w p e) (σ : Nat → MBS w) (c : Nat) (l : List Nat)
    (h : Represents p e (σ c) l) (hsz : l.length < 2 ^ 64) (v : BitVec w) (n : Nat)
    (hn : l.length ≤ n) :
    ∃ τ, fillLoop p e c v n σ (itBegin c) = .ok τ ∧
      StandsFor p e σ c (List.replicate l.length (v.toNat % 2 ^ e)) τ := by
  have key : ∀ n (τ : Nat → MBS w) (k : Nat), k ≤ l.length → l.length - k ≤ n →
      StandsFor p e σ c (List.replicate k (v.toNat % 2 ^ e) ++ l.drop k) τ →
      ∃ τ', fillLoop p e c v n τ { source := some c, index := BitVec.ofNat 64 k } = .ok τ' ∧
        StandsFor p e σ c (List.replicate l.length (v.toNat % 2 ^ e)) τ' := by
    intro n
    induction n with
    | zero =>
      intro τ k hk hn hs
      have hkl : k = l.length := by omega
      subst hkl
      have hsize : (τ c).size = l.length := by rw [hs.represents.size]; simp
      refine ⟨τ, ?_, by simpa using hs⟩
      simp [fillLoop, itEq, itEnd, hsize]
    | succ n ih =>
      intro τ k hk hn hs
      have hsize : (τ c).size = l.length := by rw [hs.represents.size]; simp; omega
      by_cases hkl : k = l.length
      · subst hkl
        refine ⟨τ, ?_, by simpa using hs⟩
        simp [fillLoop, itEq, itEnd, hsize]
      · have hne : itEq { source := some c, index := BitVec.ofNat 64 k } (itEnd τ c) = false := by
          rw [itEq_end (by omega) (by rw [hsize]; exact hsz), hsize]
          simp [hkl]
        have hlen : (List.replicate k (v.toNat % 2 ^ e) ++ l.drop k).length = l.length := by
          simp; omega
        obtain ⟨τ', hτ', hs'⟩ := iterator_write f τ c _ hs.represents (by rw [hlen]; exact hsz) k
          (by rw [hlen]; omega) v
        have hset : (List.replicate k (v.toNat % 2 ^ e) ++ l.drop k).set k (v.toNat % 2 ^ e) =
            List.replicate (k + 1) (v.toNat % 2 ^ e) ++ l.drop (k + 1) := by
          rw [List.set_append_right _ _ (by simp), List.length_replicate, Nat.sub_self,
            List.drop_eq_getElem_cons (by omega : k < l.length), List.set_cons_zero,
            List.replicate_succ', List.append_assoc]
          rfl
        rw [hset] at hs'
        obtain ⟨τ'', h1, h2⟩ := ih τ' (k + 1) (by omega) (by omega)
          ⟨hs'.represents, fun c' hc' => by rw [hs'.others c' hc', hs.others c' hc']⟩
        refine ⟨τ'', ?_, h2⟩
        unfold fillLoop
        rw [hne]
        simp only [Bool.false_eq_true, if_false, hτ', Out.ok_bind]
        have : itInc { source := some c, index := BitVec.ofNat 64 k } =
            { source := some c, index := BitVec.ofNat 64 (k + 1) } := by
          simp [itInc, BitVec.ofNat_add]
        rw [this]; exact h1
  have := key n σ 0 (by omega) (by omega) ⟨by simpa using h, fun _ _ => rfl⟩
  simpa [itBegin] using this

/-- **C112, backwards.**  Walking from `end()` to `begin()` finishes and visits the elements in reverse
order, each once. -/
theorem iter_back_loop {p e : Nat} (σ : Nat → MBS w) (c : Nat) (l : List Nat)
    (h : Represents p e (σ c) l) (hsz : l.length < 2 ^ 64) (n : Nat) (hn : l.length ≤ n) :
    ∃ us, backLoop p e σ c n (itEnd σ c) = .ok us ∧ us.map (·.toNat) = l.reverse := by
  have key : ∀ k n, k ≤ n → k ≤ l.length →
      ∃ us, backLoop p e σ c n { source := some c, index := BitVec.ofNat 64 k } = .ok us ∧
        us.map (·.toNat) = (l.take k).reverse := by
    intro k
    induction k with
    | zero =>
      intro n _ _
      cases n <;> exact ⟨[], by simp [backLoop, itEq, itBegin], by simp⟩
    | succ k ih =>
      intro n hn hk
      obtain ⟨n, rfl⟩ : ∃ m, n = m + 1 := ⟨n - 1, by omega⟩
      obtain ⟨us, hus, hum⟩ := ih n (by omega) (by omega)
      obtain ⟨u, hu, huv⟩ := h.elem k (by omega)
      have hks : k < (σ c).size := by rw [h.size]; omega
      simp only [MBS.read, hks, if_true] at hu
      refine ⟨u :: us, ?_, ?_⟩
      · unfold backLoop
        have hne : itEq { source := some c, index := BitVec.ofNat 64 (k + 1) } (itBegin c) = false := by
          rw [← Bool.not_eq_true, itEq_iff]
          simp only [itBegin, MRef.mk.injEq, true_and]
          intro hh
          have := congrArg BitVec.toNat hh
          rw [ofNat_toNat64 (by omega)] at this
          simp at this
        have hdec : itDec { source := some c, index := BitVec.ofNat 64 (k + 1) } =
            { source := some c, index := BitVec.ofNat 64 k } := by
          have := (iterator_moves_inverse { source := some c, index := BitVec.ofNat 64 k } 0).2.2.2.2.1
          rw [← this]
          simp [itInc, BitVec.ofNat_add]
        rw [hne]
        simp only [Bool.false_eq_true, if_false, hdec]
        have hr : itRead p e σ { source := some c, index := BitVec.ofNat 64 k } = .ok u := by
          simp only [itRead]
          rw [ofNat_toNat64 (by omega)]; exact hu
        rw [hr, Out.ok_bind, hus, Out.ok_bind]; rfl
      · rw [List.map_cons, hum, huv, List.take_succ_eq_append_getElem (by omega), List.reverse_append]
        rfl
  have := key l.length n hn (le_refl _)
  simpa [itEnd, h.size] using this

/-- **C112, copying.**  The loop assigning `*a = *b` from the beginnings of two different containers of
the same size finishes and makes the first a copy of the second, which (like all others) is unchanged. -/
theorem iter_copy_loop {p e : Nat} (f : Fits w p e) (σ : Nat → MBS w) (c c' : Nat) (hcc : c' ≠ c)
    (l l' : List Nat) (h : Represents p e (σ c) l) (h' : Represents p e (σ c') l')
    (hlen : l'.length = l.length) (hsz : l.length < 2 ^ 64) (n : Nat) (hn : l.length ≤ n) :
    ∃ τ, copyLoop p e c n σ (itBegin c) (itBegin c') = .ok τ ∧ StandsFor p e σ c l' τ := by
  have key : ∀ n (τ : Nat → MBS w) (k : Nat), k ≤ l.length → l.length - k ≤ n →
      StandsFor p e σ c (l'.take k ++ l.drop k) τ →
      ∃ τ', copyLoop p e c n τ { source := some c, index := BitVec.ofNat 64 k }
          { source := some c', index := BitVec.ofNat 64 k } = .ok τ' ∧ StandsFor p e σ c l' τ' := by
    intro n
    induction n with
    | zero =>
      intro τ k hk hn hs
      have hkl : k = l.length := by omega
      subst hkl
      have hsize : (τ c).size = l.length := by rw [hs.represents.size]; simp; omega
      refine ⟨τ, ?_, by simpa [hlen, List.take_of_length_le] using hs⟩
      simp [copyLoop, itEq, itEnd, hsize]
    | succ n ih =>
      intro τ k hk hn hs
      have hl1 : (l'.take k ++ l.drop k).length = l.length := by simp; omega
      have hsize : (τ c).size = l.length := by rw [hs.represents.size, hl1]
      by_cases hkl : k = l.length
      · subst hkl
        refine ⟨τ, ?_, by simpa [hlen, List.take_of_length_le] using hs⟩
        simp [copyLoop, itEq, itEnd, hsize]
      · have hne : itEq { source := some c, index := BitVec.ofNat 64 k } (itEnd τ c) = false := by
          rw [itEq_end (by omega) (by rw [hsize]; exact hsz), hsize]
          simp [hkl]
        have hk' : k < l'.length := by omega
        obtain ⟨u, hu, huv⟩ := h'.elem k hk'
        have hread : itRead p e τ { source := some c', index := BitVec.ofNat 64 k } = .ok u := by
          have hks : k < (σ c').size := by rw [h'.size]; exact hk'
          simp only [MBS.read, hks, if_true] at hu
          simp only [itRead, hs.others c' hcc]
          rw [ofNat_toNat64 (by omega)]; exact hu
        obtain ⟨τ', hτ', hs'⟩ := iterator_write f τ c _ hs.represents (by rw [hl1]; exact hsz) k
          (by rw [hl1]; omega) u
        have hmod : u.toNat % 2 ^ e = l'[k] := by
          rw [huv]; exact Nat.mod_eq_of_lt (represented_lt f h' k hk')
        have hset : (l'.take k ++ l.drop k).set k (u.toNat % 2 ^ e) =
            l'.take (k + 1) ++ l.drop (k + 1) := by
          rw [hmod, List.set_append_right _ _ (by simp), List.length_take, Nat.min_eq_left (by omega),
            Nat.sub_self, List.drop_eq_getElem_cons (by omega : k < l.length), List.set_cons_zero,
            List.take_succ_eq_append_getElem hk', List.append_assoc]
          rfl
        rw [hset] at hs'
        obtain ⟨τ'', h1, h2⟩ := ih τ' (k + 1) (by omega) (by omega)
          ⟨hs'.represents, fun x hx => by rw [hs'.others x hx, hs.others x hx]⟩
        refine ⟨τ'', ?_, h2⟩
        unfold copyLoop
        rw [hne]
        simp only [Bool.false_eq_true, if_false, itAssign, hread, Out.ok_bind, hτ']
        have hi : ∀ x, itInc { source := some x, index := BitVec.ofNat 64 k } =
            { source := some x, index := BitVec.ofNat 64 (k + 1) } := by
          intro x; simp [itInc, BitVec.ofNat_add]
        rw [hi, hi]; exact h1
  have := key n σ 0 (by omega) (by omega) ⟨by simpa using h, fun _ _ => rfl⟩
  simpa [itBegin] using this

/-- A null reference, the conversion of a default-constructed one, is never read. -/
theorem null_reference {p e : Nat} (σ : Nat → MBS w) (i : BitVec 64) (v : BitVec w) :
    itIsNull σ { source := none, index := i } = true ∧
    itRead p e σ { source := none, index := i } = .ub ∧
    itWrite p e σ { source := none, index := i } v = .ub := by
  simp [itIsNull, itRead, itWrite]

/-- The hypotheses are met: two containers of 5-bit elements; moves that leave the sequence on both
sides and come back to element 2. -/
example : positionAfter 0 [.dec, .minus 7, .plus 30, .postInc, .minus 22, .at 1] = (2 : Nat) := by
  decide

/-- Three 5-bit elements in a 64-bit block: 3, 9, 30. -/
def demoBits : Nat → MBS 64 := fun _ =>
  { blocks := [BitVec.ofNat 64 (3 * 2 ^ 59 + 9 * 2 ^ 54 + 30 * 2 ^ 49)], size := 3 }

example : Represents 64 5 (demoBits 0) [3, 9, 30] := by
  refine ⟨rfl, by decide, ?_⟩
  intro i hi
  have : i = 0 ∨ i = 1 ∨ i = 2 := by simp at hi; omega
  rcases this with rfl | rfl | rfl
  · exact ⟨3#64, by decide +kernel, rfl⟩
  · exact ⟨9#64, by decide +kernel, rfl⟩
  · exact ⟨30#64, by decide +kernel, rfl⟩

example : (do
    let us ← backLoop 64 5 demoBits 0 3 (itEnd demoBits 0)
    return us.map (·.toNat) : Out (List Nat)) = .ok [30, 9, 3] := by decide +kernel

end Heu
