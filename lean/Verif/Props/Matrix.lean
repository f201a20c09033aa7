import Verif.Model.Matrix
import Verif.Spec.Matrix
import Mathlib.Tactic.Ring

/-!
# Matrices (C05–C07, C62)
-/

namespace Heu
set_option linter.unusedSimpArgs false
set_option linter.unusedVariables false

variable {α : Type}

/-! ## C05 -/

theorem namesCells_colMajor (rows cols : Nat) : NamesCells rows cols fun r c => rows * c + r where
  inside r c hr hc := by
    have := Nat.mul_le_mul_left rows (show c + 1 ≤ cols from hc)
    rw [Nat.mul_add] at this
    show rows * c + r < rows * cols
    omega
  different r c r' c' hr hc hr' hc' h := by
    have h : rows * c + r = rows * c' + r' := h
    have h1 : (rows * c + r) % rows = r := by rw [Nat.mul_add_mod, Nat.mod_eq_of_lt hr]
    have h2 : (rows * c' + r') % rows = r' := by rw [Nat.mul_add_mod, Nat.mod_eq_of_lt hr']
    have h3 : (rows * c + r) / rows = c := by
      rw [Nat.mul_add_div (by omega), Nat.div_eq_of_lt hr, Nat.add_zero]
    have h4 : (rows * c' + r') / rows = c' := by
      rw [Nat.mul_add_div (by omega), Nat.div_eq_of_lt hr', Nat.add_zero]
    constructor
    · rw [← h1, ← h2, h]
    · rw [← h3, ← h4, h]
  every n hn := by
    have hr : 0 < rows := by
      rcases Nat.eq_zero_or_pos rows with h | h
      · subst h; omega
      · exact h
    refine ⟨n % rows, n / rows, Nat.mod_lt _ hr, ?_, Nat.div_add_mod n rows⟩
    rwa [Nat.div_lt_iff_lt_mul hr, Nat.mul_comm]

/-- C05, dynamic matrix: element addressing is one-to-one onto the cells below `size()`, and `m(r,c)` is
`m[rows*c+r]`. -/
theorem dynamic_addressing (m : DynMat α) :
    NamesCells m.rowNum m.colNum m.idx ∧ m.size = m.rowNum * m.colNum ∧
    (∀ r c, m.get2 r c = m.get (m.rowNum * c + r)) ∧
    (∀ triv r c v, m.set2 triv r c v = m.set triv (m.rowNum * c + r) v) :=
  ⟨namesCells_colMajor _ _, rfl, fun _ _ => rfl, fun _ _ _ _ => rfl⟩

/-- C05, fixed matrix. -/
theorem fixed_addressing {Rows Cols : Nat} (m : FixMat α Rows Cols) :
    NamesCells Rows Cols m.idx ∧ m.arr.length = Rows * Cols ∧
    ∀ r c, m.get2 r c = m.get (Rows * c + r) :=
  ⟨namesCells_colMajor _ _, m.len, fun _ _ => rfl⟩

/-- C05, matrix map. -/
theorem map_addressing (m : MatMap α) :
    NamesCells m.r m.c m.idx ∧ m.size = m.r * m.c ∧ ∀ i j, m.get2 i j = m.get (m.r * j + i) :=
  ⟨namesCells_colMajor _ _, rfl, fun _ _ => rfl⟩

/-! ## C06 -/

/-- Operations on a dynamic matrix. -/
inductive MatOp (α : Type) where
  | resize (r c : Nat)
  | write (r c : Nat) (v : α)
  | writeAt (n : Nat) (v : α)
  | fill (v : α)
  | assign (r c : Nat) (src : Nat → α)

/-- The API call. -/
def MatOp.run (triv : Bool) (dflt : α) (m : DynMat α) : MatOp α → Out (DynMat α)
  | .resize r c => m.resize triv dflt r c
  | .write r c v => m.set2 triv r c v
  | .writeAt n v => m.set triv n v
  | .fill v => m.fill triv v
  | .assign r c src => m.assignFrom triv dflt r c (fun i => .ok (src i))

/-- The arguments are in range (indices inside the shape, shapes representable), and a matrix of
non-trivial elements is not grown beyond its capacity (the code leaves such cells unconstructed, see
`nontrivial_growth_unusable`). -/
def MatOp.Ok (triv : Bool) (m : DynMat α) : MatOp α → Prop
  | .resize r c => r * c < 2 ^ 31 ∧ (triv = true ∨ r * c ≤ m.capacity)
  | .write r c _ => r < m.rowNum ∧ c < m.colNum
  | .writeAt n _ => n < m.size
  | .fill _ => True
  | .assign r c _ => r * c < 2 ^ 31 ∧ (triv = true ∨ r * c ≤ m.capacity)

/-- The memory invariant. -/
structure MatInv (triv : Bool) (m : DynMat α) : Prop where
  fits : m.size ≤ m.capacity
  buffer : m.capacity = m.buf.length
  live : triv = true ∨ ∀ c ∈ m.buf, c.isSome

theorem cellSet_ok {triv : Bool} {buf : List (Option α)} {i : Nat} (v : α) (hi : i < buf.length)
    (hl : triv = true ∨ ∀ c ∈ buf, c.isSome) : cellSet triv buf i v = .ok (buf.set i (some v)) := by
  unfold cellSet
  rw [List.getElem?_eq_getElem hi]
  simp only
  rw [if_pos]
  rcases hl with h | h
  · simp [h]
  · simp [h _ (List.getElem_mem hi)]

theorem live_set {triv : Bool} {buf : List (Option α)} {i : Nat} (v : α)
    (hl : triv = true ∨ ∀ c ∈ buf, c.isSome) :
    triv = true ∨ ∀ c ∈ buf.set i (some v), c.isSome := by
  rcases hl with h | h
  · exact Or.inl h
  · right
    intro c hc
    rcases List.mem_or_eq_of_mem_set hc with h1 | h1
    · exact h c h1
    · simp [h1]

/-- The copying loop: cells `i .. i+k-1` get the source's values, the others stay. -/
theorem assignLoop_spec {triv : Bool} {f : Nat → Out α} {g : Nat → α} :
    ∀ (k i : Nat) (buf : List (Option α)), i + k ≤ buf.length →
      (triv = true ∨ ∀ c ∈ buf, c.isSome) → (∀ j, i ≤ j → j < i + k → f j = .ok (g j)) →
      ∃ buf', DynMat.assignLoop triv f k i buf = .ok buf' ∧ buf'.length = buf.length ∧
        (triv = true ∨ ∀ c ∈ buf', c.isSome) ∧
        ∀ j, buf'[j]? = if i ≤ j ∧ j < i + k then some (some (g j)) else buf[j]? := by
  intro k
  induction k with
  | zero =>
    intro i buf _ hl _
    refine ⟨buf, rfl, rfl, hl, fun j => ?_⟩
    rw [if_neg (by omega)]
  | succ k ih =>
    intro i buf hlen hl hf
    have h1 : DynMat.assignLoop triv f (k + 1) i buf =
        DynMat.assignLoop triv f k (i + 1) (buf.set i (some (g i))) := by
      simp only [DynMat.assignLoop, hf i (Nat.le_refl _) (by omega), Out.ok_bind,
        cellSet_ok (g i) (show i < buf.length by omega) hl]
    obtain ⟨b, hb1, hb2, hb3, hb4⟩ := ih (i + 1) (buf.set i (some (g i))) (by simp; omega)
      (live_set _ hl) (fun j h2 h3 => hf j (by omega) (by omega))
    refine ⟨b, by rw [h1, hb1], by rw [hb2, List.length_set], hb3, fun j => ?_⟩
    rw [hb4, List.getElem?_set]
    by_cases hj : i = j
    · subst hj
      rw [if_neg (by omega), if_pos rfl, if_pos (by omega), if_pos (by omega)]
    · rw [if_neg hj]
      by_cases h2 : i + 1 ≤ j ∧ j < i + 1 + k
      · rw [if_pos h2, if_pos (by omega)]
      · rw [if_neg h2, if_neg (by omega)]

theorem resize_spec {triv : Bool} {dflt : α} {m : DynMat α} (h : MatInv triv m) {r c : Nat}
    (h1 : r * c < 2 ^ 31) (h2 : triv = true ∨ r * c ≤ m.capacity) :
    ∃ m', m.resize triv dflt r c = .ok m' ∧ MatInv triv m' ∧ m'.rowNum = r ∧ m'.colNum = c ∧
      (r * c ≤ m.capacity → m'.buf = m.buf) ∧
      (m.capacity < r * c → m'.buf = List.replicate (r * c) (some dflt)) := by
  unfold DynMat.resize
  simp only [intMul, h1, if_true, Out.ok_bind]
  by_cases h3 : r * c = m.size
  · rw [if_neg (by simpa using h3)]
    refine ⟨_, rfl, ⟨?_, h.buffer, h.live⟩, rfl, rfl, fun _ => rfl, fun h4 => ?_⟩
    · show r * c ≤ m.capacity
      have := h.fits; omega
    · have := h.fits; omega
  · rw [if_pos (by simpa using h3)]
    by_cases h4 : r * c > m.capacity
    · rw [if_pos h4]
      have ht : triv = true := by rcases h2 with h2 | h2; exact h2; omega
      refine ⟨_, rfl, ⟨Nat.le_refl _, by simp [ht], Or.inl ht⟩, rfl, rfl, fun h5 => by omega,
        fun _ => by simp [ht]⟩
    · rw [if_neg h4]
      exact ⟨_, rfl, ⟨by show r * c ≤ m.capacity; omega, h.buffer, h.live⟩, rfl, rfl,
        fun _ => rfl, fun h5 => by omega⟩

/-- C06, one step: an operation with in-range arguments does nothing undefined and keeps the
invariant. -/
theorem matOp_ok {triv : Bool} {dflt : α} {m : DynMat α} (h : MatInv triv m) (op : MatOp α)
    (hop : op.Ok triv m) : ∃ m', op.run triv dflt m = .ok m' ∧ MatInv triv m' := by
  have hset : ∀ n v, n < m.size → ∃ m', m.set triv n v = .ok m' ∧ MatInv triv m' := by
    intro n v hn
    have hn2 : n < m.buf.length := by rw [← h.buffer]; have := h.fits; omega
    refine ⟨{ m with buf := m.buf.set n (some v) }, ?_, h.fits, by simp [h.buffer], live_set v h.live⟩
    simp [DynMat.set, cellSet_ok v hn2 h.live]
  cases op with
  | resize r c =>
    obtain ⟨m', h1, h2, -⟩ := resize_spec (dflt := dflt) h hop.1 hop.2
    exact ⟨m', h1, h2⟩
  | write r c v => exact hset _ v ((dynamic_addressing m).1.inside r c hop.1 hop.2)
  | writeAt n v => exact hset n v hop
  | fill v =>
    obtain ⟨b, h1, h2, h3, -⟩ := assignLoop_spec (f := fun _ => .ok v) (g := fun _ => v) m.size 0 m.buf
      (by rw [← h.buffer]; have := h.fits; omega) h.live (fun _ _ _ => rfl)
    exact ⟨{ m with buf := b }, by simp [MatOp.run, DynMat.fill, h1], h.fits, by simp [h2, h.buffer], h3⟩
  | assign r c src =>
    obtain ⟨m', h1, h2, h3, h4, -⟩ := resize_spec (dflt := dflt) h hop.1 hop.2
    obtain ⟨b, h5, h6, h7, -⟩ := assignLoop_spec (f := fun i => .ok (src i)) (g := src) (r * c) 0 m'.buf
      (by rw [← h2.buffer]; have := h2.fits; simp only [DynMat.size, h3, h4] at this; omega) h2.live
      (fun _ _ _ => rfl)
    exact ⟨{ m' with buf := b }, by simp [MatOp.run, DynMat.assignFrom, h1, h5], h2.fits,
      by simp [h6, h2.buffer], h7⟩

/-- A history of operations. -/
def runMat (triv : Bool) (dflt : α) : DynMat α → List (MatOp α) → Out (DynMat α)
  | m, [] => .ok m
  | m, op :: ops => do
    let m ← op.run triv dflt m
    runMat triv dflt m ops

/-- All operations of a history are in range when they happen. -/
def MatHistoryOk (triv : Bool) (dflt : α) : DynMat α → List (MatOp α) → Prop
  | _, [] => True
  | m, op :: ops => op.Ok triv m ∧ ∀ m', op.run triv dflt m = .ok m' → MatHistoryOk triv dflt m' ops

/-- C06: after any history of in-range operations (from a default-constructed matrix or one constructed
with a shape), nothing undefined happened, `size() <= capacity()`, the capacity is the allocated
buffer, and every in-range element lies inside the buffer. -/
theorem dynamic_matrix_memory_safe_partial (triv : Bool) (dflt : α) (m0 : DynMat α)
    (h0 : m0 = DynMat.empty ∨ ∃ r c, DynMat.ctor triv dflt r c = .ok m0) (ops : List (MatOp α))
    (hok : MatHistoryOk triv dflt m0 ops) :
    ∃ m, runMat triv dflt m0 ops = .ok m ∧ m.size ≤ m.capacity ∧ m.capacity = m.buf.length ∧
      ∀ r c, r < m.rowNum → c < m.colNum → m.idx r c < m.buf.length := by
  have hinit : MatInv triv m0 := by
    rcases h0 with rfl | ⟨r, c, h⟩
    · exact ⟨Nat.le_refl _, rfl, Or.inr (by simp [DynMat.empty])⟩
    · simp only [DynMat.ctor, intMul] at h
      split at h
      · simp only [Out.ok_bind, Out.pure_eq, Out.ok.injEq] at h
        subst h
        refine ⟨Nat.le_refl _, by simp, ?_⟩
        cases triv
        · right; intro c hc; rw [List.mem_replicate] at hc; simp [hc.2]
        · exact Or.inl rfl
      · cases h
  have key : ∀ (ops : List (MatOp α)) (m : DynMat α), MatInv triv m → MatHistoryOk triv dflt m ops →
      ∃ m', runMat triv dflt m ops = .ok m' ∧ MatInv triv m' := by
    intro ops
    induction ops with
    | nil => intro m h _; exact ⟨m, rfl, h⟩
    | cons op ops ih =>
      intro m h hok
      obtain ⟨m1, h1, h2⟩ := matOp_ok (dflt := dflt) h op hok.1
      obtain ⟨m', h3, h4⟩ := ih m1 h2 (hok.2 m1 h1)
      exact ⟨m', by simp [runMat, h1, h3], h4⟩
  obtain ⟨m, h1, h2⟩ := key ops m0 hinit hok
  refine ⟨m, h1, h2.fits, h2.buffer, fun r c hr hc => ?_⟩
  rw [← h2.buffer]
  have := (dynamic_addressing m).1.inside r c hr hc
  have := h2.fits
  simp only [DynMat.size] at this
  omega

/-- The hypotheses are met by a growing and reshaping history. -/
example : MatHistoryOk true (0 : Nat) DynMat.empty
    [.resize 2 3, .write 1 2 7, .resize 3 2, .writeAt 5 1, .resize 4 4, .fill 9, .resize 1 1] := by
  refine ⟨⟨by decide, Or.inl rfl⟩, fun m h => ?_⟩
  cases h
  refine ⟨⟨by decide, by decide⟩, fun m h => ?_⟩
  cases h
  refine ⟨⟨by decide, Or.inl rfl⟩, fun m h => ?_⟩
  cases h
  refine ⟨by simp [MatOp.Ok, DynMat.size], fun m h => ?_⟩
  cases h
  refine ⟨⟨by decide, Or.inl rfl⟩, fun m h => ?_⟩
  cases h
  refine ⟨trivial, fun m h => ?_⟩
  cases h
  exact ⟨⟨by decide, Or.inl rfl⟩, fun m h => trivial⟩

/-- C06 fails for element types with constructors: a `resize` that allocates leaves raw cells, so every
later element assignment (and the destructor) is undefined. -/
theorem nontrivial_growth_unusable (dflt : α) (m : DynMat α) (r c : Nat) (h1 : r * c < 2 ^ 31)
    (hgrow : m.capacity < r * c) (hinv : m.size ≤ m.capacity) :
    ∃ m', m.resize false dflt r c = .ok m' ∧
      (∀ n v, m'.set false n v = .ub) ∧ m'.destroy false = .ub := by
  unfold DynMat.resize
  simp only [intMul, h1, if_true, Out.ok_bind]
  rw [if_pos (by omega), if_pos (by omega)]
  refine ⟨_, rfl, fun n v => ?_, ?_⟩
  · simp only [DynMat.set, cellSet, Bool.false_eq_true, if_false]
    by_cases hn : n < r * c
    · simp [List.getElem?_replicate, hn]
    · simp [List.getElem?_replicate, hn]
  · have h2 : (List.replicate (r * c) (none : Option α)).all (·.isSome) = false := by
      obtain ⟨k, hk⟩ : ∃ k, r * c = k + 1 := ⟨r * c - 1, by omega⟩
      simp [hk, List.replicate_succ]
    simp [DynMat.destroy, destroyAll, h2]

example : (DynMat.empty : DynMat Nat).capacity < 2 * 2 ∧
    (DynMat.empty : DynMat Nat).size ≤ (DynMat.empty : DynMat Nat).capacity := by decide

/-- What `resize` does to the contents: within the capacity the cells stay (in linear order); beyond it
they are value-initialised. -/
theorem resize_contents {dflt : α} {m : DynMat α} (h : MatInv true m) {r c : Nat}
    (h1 : r * c < 2 ^ 31) :
    ∃ m', m.resize true dflt r c = .ok m' ∧ m'.rowNum = r ∧ m'.colNum = c ∧
      (r * c ≤ m.capacity → ∀ n, m'.get n = m.get n) ∧
      (m.capacity < r * c → ∀ n, n < r * c → m'.get n = .ok dflt) := by
  obtain ⟨m', h2, -, h3, h4, h5, h6⟩ := resize_spec (dflt := dflt) h h1 (Or.inl rfl)
  refine ⟨m', h2, h3, h4, fun hc n => by simp [DynMat.get, h5 hc], fun hc n hn => ?_⟩
  simp [DynMat.get, cellGet, h6 hc, List.getElem?_replicate, hn]

/-- Writing one element changes no other. -/
theorem dynamic_write_frame {triv : Bool} {m : DynMat α} (h : MatInv triv m) (r c : Nat) (v : α)
    (hr : r < m.rowNum) (hc : c < m.colNum) :
    ∃ m', m.set2 triv r c v = .ok m' ∧ m'.get2 r c = .ok v ∧
      ∀ r' c', r' < m.rowNum → c' < m.colNum → (r', c') ≠ (r, c) → m'.get2 r' c' = m.get2 r' c' := by
  have hn := (dynamic_addressing m).1.inside r c hr hc
  have hn2 : m.idx r c < m.buf.length := by
    rw [← h.buffer]; have := h.fits; simp only [DynMat.size] at this; omega
  refine ⟨{ m with buf := m.buf.set (m.idx r c) (some v) }, ?_, ?_, ?_⟩
  · simp [DynMat.set2, DynMat.set, cellSet_ok v hn2 h.live]
  · show cellGet (m.buf.set (m.idx r c) (some v)) (m.idx r c) = .ok v
    simp [cellGet, hn2]
  · intro r' c' hr' hc' hne
    show cellGet (m.buf.set (m.idx r c) (some v)) (m.idx r' c') = cellGet m.buf (m.idx r' c')
    have : m.idx r c ≠ m.idx r' c' := by
      intro heq
      obtain ⟨h1, h2⟩ := (dynamic_addressing m).1.different r c r' c' hr hc hr' hc' heq
      exact hne (by rw [h1, h2])
    simp [cellGet, List.getElem?_set_ne this]

/-! ## C07 -/

/-- C07 (partial): `reserve` is right only when asked for exactly the present capacity. -/
theorem reserve_partial (m : DynMat α) : m.reserve m.capacity = .ok m := by
  simp [DynMat.reserve]

/-- C07 is false otherwise: asking for more changes nothing (the capacity stays below the request);
asking for less overflows the new, smaller buffer. -/
theorem reserve_wrong (m : DynMat α) (s : Nat) :
    (m.capacity < s → ∃ m', m.reserve s = .ok m' ∧ m'.capacity < s) ∧
    (s < m.capacity → m.reserve s = .ub) := by
  constructor
  · intro h
    exact ⟨m, by simp [DynMat.reserve, Nat.le_of_lt h], h⟩
  · intro h
    simp only [DynMat.reserve]
    rw [if_neg (by omega), if_neg (by omega)]

example : ∃ m : DynMat Nat, DynMat.ctor true 0 2 2 = .ok m ∧ 1 < m.capacity ∧ m.capacity < 9 :=
  ⟨_, rfl, by decide, by decide⟩

/-! ## C62: copies between matrices -/

/-- C62: assigning a matrix of another kind to a dynamic one gives it the source's shape and elements. -/
theorem assign_from_other {triv : Bool} {dflt : α} {m : DynMat α} (h : MatInv triv m) (r c : Nat)
    (src : Nat → α) (h1 : r * c < 2 ^ 31) (h2 : triv = true ∨ r * c ≤ m.capacity) :
    ∃ m', m.assignFrom triv dflt r c (fun i => .ok (src i)) = .ok m' ∧ m'.rowNum = r ∧ m'.colNum = c ∧
      (∀ n, n < r * c → m'.get n = .ok (src n)) ∧
      ∀ i j, i < r → j < c → m'.get2 i j = .ok (src (r * j + i)) := by
  obtain ⟨m1, h3, h4, h5, h6, -⟩ := resize_spec (dflt := dflt) h h1 h2
  obtain ⟨b, h7, h8, h9, h10⟩ := assignLoop_spec (f := fun i => .ok (src i)) (g := src) (r * c) 0 m1.buf
    (by rw [← h4.buffer]; have := h4.fits; simp only [DynMat.size, h5, h6] at this; omega) h4.live
    (fun _ _ _ => rfl)
  have hget : ∀ n, n < r * c → DynMat.get { m1 with buf := b } n = .ok (src n) := by
    intro n hn
    show cellGet b n = _
    unfold cellGet
    rw [h10, if_pos (by omega)]
  refine ⟨{ m1 with buf := b }, by simp [DynMat.assignFrom, h3, h7], h5, h6, hget, fun i j hi hj => ?_⟩
  have := (namesCells_colMajor r c).inside i j hi hj
  have h11 := hget (r * j + i) this
  simpa [DynMat.get2, DynMat.idx, DynMat.get, h5] using h11

/-- C62: assignment to a fixed matrix copies the elements and requires equal shapes. -/
theorem assign_to_fixed {Rows Cols : Nat} (triv : Bool) (m : FixMat α Rows Cols)
    (hl : triv = true ∨ ∀ c ∈ m.arr, c.isSome) (r c : Nat) (src : Nat → α) :
    ((r = Rows ∧ c = Cols) → ∃ b, m.assignFrom triv r c (fun i => .ok (src i)) = .ok b ∧
      b.length = Rows * Cols ∧ ∀ n, n < Rows * Cols → cellGet b n = .ok (src n)) ∧
    (¬ (r = Rows ∧ c = Cols) → m.assignFrom triv r c (fun i => .ok (src i)) = .ub) := by
  constructor
  · intro h
    obtain ⟨rfl, rfl⟩ := h
    obtain ⟨b, h7, h8, h9, h10⟩ := assignLoop_spec (f := fun i => .ok (src i)) (g := src) (r * c) 0
      m.arr (by rw [m.len]; omega) hl (fun _ _ _ => rfl)
    refine ⟨b, by simp [FixMat.assignFrom, h7], by rw [h8, m.len], fun n hn => ?_⟩
    unfold cellGet
    rw [h10, if_pos (by omega)]
  · intro h
    simp [FixMat.assignFrom, h]

/-- C62: `deepCopyTo` between maps copies shape and elements when the target memory is large enough. -/
theorem map_deep_copy (triv : Bool) (src dst : MatMap α) (g : Nat → α)
    (hsrc : ∀ i, i < src.size → src.get i = .ok (g i)) (hroom : src.size ≤ dst.mem.length)
    (hl : triv = true ∨ ∀ c ∈ dst.mem, c.isSome) :
    ∃ d, src.deepCopyTo triv dst = .ok d ∧ d.r = src.r ∧ d.c = src.c ∧
      ∀ i, i < src.size → d.get i = src.get i := by
  obtain ⟨b, h7, h8, h9, h10⟩ := assignLoop_spec (f := fun i => src.get i) (g := g) src.size 0 dst.mem
    (by omega) hl (fun j _ hj => hsrc j (by omega))
  refine ⟨{ mem := b, r := src.r, c := src.c }, by simp [MatMap.deepCopyTo, h7], rfl, rfl, fun i hi => ?_⟩
  rw [hsrc i hi]
  show cellGet b i = _
  unfold cellGet
  rw [h10, if_pos (by omega)]

/-- C62: the move constructor takes the contents and leaves an empty matrix. -/
theorem move_ctor (src : DynMat α) :
    (src.moveCtor).1 = src ∧ (src.moveCtor).2.rowNum = 0 ∧ (src.moveCtor).2.colNum = 0 ∧ (src.moveCtor).2.size = 0 ∧
      (src.moveCtor).2.capacity = 0 ∧ (∀ i, (src.moveCtor).2.get i = .ub) ∧
      (∀ i, (src.moveCtor).1.get i = src.get i) := ⟨rfl, rfl, rfl, rfl, rfl, fun _ => rfl, fun _ => rfl⟩

/-- C62: copy assignment (of elements with constructors; for the others it does not compile) gives the target the
source's shape and elements, when the target's buffer is large enough for them (otherwise `resize` is undefined, C07). -/
theorem copy_assign_matrix {dflt : α} {m : DynMat α} (h : MatInv false m) (src : DynMat α) (g : Nat → α)
    (h1 : src.rowNum * src.colNum < 2 ^ 31) (h2 : src.rowNum * src.colNum ≤ m.capacity)
    (hsrc : ∀ i, i < src.size → src.get i = .ok (g i)) :
    ∃ m', DynMat.copyAssign dflt src m = .ok m' ∧ m'.rowNum = src.rowNum ∧ m'.colNum = src.colNum ∧
      ∀ i, i < src.size → m'.get i = src.get i := by
  obtain ⟨m1, h3, h4, h5, h6, -⟩ := resize_spec (dflt := dflt) h h1 (Or.inr h2)
  have hsz : m1.size = src.size := by simp [DynMat.size, h5, h6]
  obtain ⟨b, h7, h8, h9, h10⟩ := assignLoop_spec (f := fun i => src.get i) (g := g) m1.size 0 m1.buf
    (by rw [← h4.buffer]; have := h4.fits; omega) h4.live (fun j _ hj => hsrc j (by omega))
  refine ⟨{ m1 with buf := b }, by simp [DynMat.copyAssign, h3, h7], h5, h6, fun i hi => ?_⟩
  rw [hsrc i hi]
  show cellGet b i = _
  unfold cellGet
  rw [h10, if_pos (by omega)]

/-- C62 (partial): the copy constructor is right only if the uninitialised members happened to form a
usable empty matrix. -/
theorem copy_ctor_matrix_partial {dflt : α} (garbage src : DynMat α) (hg : MatInv true garbage)
    (g : Nat → α) (h1 : src.rowNum * src.colNum < 2 ^ 31)
    (hsrc : ∀ i, i < src.size → src.get i = .ok (g i)) :
    ∃ m, DynMat.copyCtor true dflt garbage src = .ok m ∧ m.rowNum = src.rowNum ∧
      m.colNum = src.colNum ∧ ∀ i, i < src.size → m.get i = src.get i := by
  obtain ⟨m1, h3, h4, h5, h6, -⟩ := resize_spec (dflt := dflt) hg h1 (Or.inl rfl)
  have hsz : m1.size = src.size := by simp [DynMat.size, h5, h6]
  obtain ⟨b, h7, h8, h9, h10⟩ := assignLoop_spec (f := fun i => src.get i) (g := g) m1.size 0 m1.buf
    (by rw [← h4.buffer]; have := h4.fits; omega) h4.live (fun j _ hj => hsrc j (by omega))
  refine ⟨{ m1 with buf := b }, by simp [DynMat.copyCtor, h3, h7], h5, h6, fun i hi => ?_⟩
  rw [hsrc i hi]
  show cellGet b i = _
  unfold cellGet
  rw [h10, if_pos (by omega)]

/-- … in general it is undefined: for every non-empty source some content of the uninitialised members
makes it write outside any buffer. -/
theorem copy_ctor_matrix_undefined {dflt : α} (src : DynMat α) (g : Nat → α)
    (h1 : src.rowNum * src.colNum < 2 ^ 31) (hpos : 0 < src.size)
    (hsrc : ∀ i, i < src.size → src.get i = .ok (g i)) :
    ∃ garbage : DynMat α, DynMat.copyCtor true dflt garbage src = .ub := by
  refine ⟨{ buf := [], rowNum := 0, colNum := 0, capacity := src.size }, ?_⟩
  have h2 : src.rowNum * src.colNum = src.size := rfl
  simp only [DynMat.copyCtor, DynMat.resize, intMul, h1, if_true, Out.ok_bind]
  rw [if_pos (by simp only [DynMat.size]; omega), if_neg (by omega)]
  simp only [Out.pure_eq, Out.ok_bind]
  obtain ⟨k, hk⟩ : ∃ k, src.rowNum * src.colNum = k + 1 := ⟨src.size - 1, by omega⟩
  simp only [DynMat.size, hk, DynMat.assignLoop, hsrc 0 hpos, Out.ok_bind, cellSet]
  rfl

/-- The hypotheses of `copy_assign_matrix` are met: a 1x2 matrix over a 2x1 one. -/
example : ∃ m' : DynMat Nat, DynMat.copyAssign 0 ⟨[some 3, some 4], 1, 2, 2⟩ ⟨[some 8, some 9], 2, 1, 2⟩ = .ok m' ∧
    m'.rowNum = 1 ∧ m'.get 0 = .ok 3 ∧ m'.get 1 = .ok 4 := ⟨_, rfl, rfl, rfl, rfl⟩

/-- The hypotheses of the copy theorems are met. -/
example : ∃ m : DynMat Nat, (do
    let m ← DynMat.ctor true 0 2 2
    m.fill true 5) = .ok m ∧ 0 < m.size ∧ ∀ i, i < m.size → m.get i = .ok 5 := by
  refine ⟨_, rfl, by decide, ?_⟩
  intro i hi
  have : i < 4 := hi
  match i, this with
  | 0, _ => rfl
  | 1, _ => rfl
  | 2, _ => rfl
  | 3, _ => rfl

end Heu
