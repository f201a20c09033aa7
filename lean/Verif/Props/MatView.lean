import Verif.Model.MatView
import Verif.Props.Matrix
import Verif.Spec.Matrix

set_option linter.unusedSimpArgs false
set_option linter.unusedVariables false

/-!
# Property C120: matrix views over shared memory; fixed-size matrices
-/

namespace Heu

variable {α : Type}

open Spec

theorem cellGet_of_live {mem : List (Option α)} (h : AllLive mem) {i : Nat} (hi : i < mem.length) :
    ∃ x, cellGet mem i = .ok x ∧ mem[i]? = some (some x) := by
  obtain ⟨x, hx⟩ := Option.isSome_iff_exists.1 (h mem[i] (List.getElem_mem hi))
  refine ⟨x, ?_, ?_⟩
  · unfold cellGet; rw [List.getElem?_eq_getElem hi, hx]
  · rw [List.getElem?_eq_getElem hi, hx]

theorem cellGet_out {mem : List (Option α)} {i : Nat} (hi : mem.length ≤ i) : cellGet mem i = .ub := by
  unfold cellGet; rw [List.getElem?_eq_none hi]

theorem cellSet_out {triv : Bool} {mem : List (Option α)} {i : Nat} (x : α) (hi : mem.length ≤ i) :
    cellSet triv mem i x = .ub := by
  unfold cellSet; rw [List.getElem?_eq_none hi]

/-- **C120** (shared memory).  Writing an element through one view: every view (a shallow copy, or any
other map on the same memory) afterwards reads the new value at the same cell and its old value at every
other cell. -/
theorem view_write (triv : Bool) (v w : View) (mem : List (Option α)) (hl : AllLive mem) (i : Nat)
    (x : α) (hi : v.base + i < mem.length) :
    ∃ mem', v.set triv mem i x = .ok mem' ∧ AllLive mem' ∧ mem'.length = mem.length ∧
      ∀ j, w.get mem' j = if w.base + j = v.base + i then .ok x else w.get mem j := by
  refine ⟨mem.set (v.base + i) (some x), cellSet_ok x hi (.inr hl), ?_, by simp, ?_⟩
  · exact (live_set x (.inr hl) (triv := false)).resolve_left (by simp)
  · intro j
    unfold View.get cellGet
    by_cases h : w.base + j = v.base + i
    · rw [if_pos h, h, List.getElem?_set_self hi]
    · rw [if_neg h, List.getElem?_set_ne (by omega)]

example : ((View.mk' 1 2 2).set true [some 1, some 2, some 3, some 4, some 5] 0 9).satisfies
    (fun m => m == [some 1, some 9, some 3, some 4, some 5]) = true := by decide

/-- A shallow copy is the same view. -/
theorem view_copy (s : View) : s.copy = s := rfl

/-- **C120** (addressing).  `v(i, j)` is element `i + rows * j` of the view (column by column), for reading and for
writing; `resize(r, c)` gives the view `r` rows and `c` columns over the same elements. -/
theorem view_addressing (triv : Bool) (v : View) (mem : List (Option α)) (hl : AllLive mem)
    (h : v.base + v.size ≤ mem.length) :
    (∀ i j, v.get2 mem i j = v.get mem (i + v.r * j)) ∧
    (∀ r c, (v.resize r c).r = r ∧ (v.resize r c).c = c ∧ (v.resize r c).size = r * c ∧
      (∀ k, (v.resize r c).get mem k = v.get mem k) ∧
      ∀ i j, (v.resize r c).get2 mem i j = v.get mem (i + r * j)) ∧
    ∀ i j x, i < v.r → j < v.c → ∃ mem', v.set2 triv mem i j x = .ok mem' ∧ mem'.length = mem.length ∧
      ∀ i' j', i' < v.r → j' < v.c → v.get2 mem' i' j' = if i' = i ∧ j' = j then .ok x else v.get2 mem i' j' := by
  refine ⟨fun i j => by unfold View.get2 View.get; rw [Nat.add_comm i],
    fun r c => ⟨rfl, rfl, rfl, fun k => rfl, fun i j => by
      unfold View.get2 View.get View.resize; simp only; rw [Nat.add_comm i]⟩, fun i j x hi hj => ?_⟩
  have hlt : v.base + (v.r * j + i) < mem.length := by
    have h2 : v.r * (j + 1) ≤ v.r * v.c := Nat.mul_le_mul_left _ hj
    have h3 : v.r * (j + 1) = v.r * j + v.r := Nat.mul_succ _ _
    unfold View.size at h
    omega
  obtain ⟨mem', h1, _, h3, h4⟩ := view_write triv v v mem hl (v.r * j + i) x hlt
  refine ⟨mem', h1, h3, fun i' j' hi' hj' => ?_⟩
  have := h4 (v.r * j' + i')
  unfold View.get at this
  unfold View.get2
  rw [this]
  refine if_congr ?_ rfl rfl
  constructor
  · intro e
    have e' : v.r * j' + i' = v.r * j + i := by omega
    have hmod : i' = i := by
      have := congrArg (· % v.r) e'
      simpa [Nat.mul_add_mod, Nat.mod_eq_of_lt hi, Nat.mod_eq_of_lt hi'] using this
    subst hmod
    have : v.r * j' = v.r * j := by omega
    exact ⟨rfl, Nat.eq_of_mul_eq_mul_left (by omega) this⟩
  · rintro ⟨rfl, rfl⟩; rfl

example : ((View.mk' 1 2 2).set2 true [some 1, some 2, some 3, some 4, some 5] 0 1 9).satisfies
    (fun m => m == [some 1, some 2, some 3, some 9, some 5]) = true := by decide +kernel

theorem fillLoop_spec (triv : Bool) (v : View) (x : α) :
    ∀ (k i : Nat) (mem : List (Option α)), AllLive mem → v.base + i + k ≤ mem.length →
      ∃ mem', View.fillLoop triv v x k i mem = .ok mem' ∧ AllLive mem' ∧ mem'.length = mem.length ∧
        ∀ j, mem'[j]? = if v.base + i ≤ j ∧ j < v.base + i + k then some (some x) else mem[j]? := by
  intro k
  induction k with
  | zero =>
    intro i mem hl _
    exact ⟨mem, rfl, hl, rfl, fun j => by rw [if_neg (by omega)]⟩
  | succ k ih =>
    intro i mem hl hlen
    have hs : v.set triv mem i x = .ok (mem.set (v.base + i) (some x)) := cellSet_ok x (by omega) (.inr hl)
    have hl' : AllLive (mem.set (v.base + i) (some x)) :=
      (live_set x (.inr hl) (triv := false)).resolve_left (by simp)
    obtain ⟨mem', h1, h2, h3, h4⟩ := ih (i + 1) _ hl' (by simp; omega)
    refine ⟨mem', ?_, h2, by simpa using h3, ?_⟩
    · unfold View.fillLoop
      rw [hs, Out.ok_bind, h1]
    · intro j
      rw [h4 j]
      by_cases hj : j = v.base + i
      · subst hj
        rw [if_neg (by omega), if_pos (by omega), List.getElem?_set_self (by omega)]
      · rw [List.getElem?_set_ne (by omega)]
        by_cases h : v.base + (i + 1) ≤ j ∧ j < v.base + (i + 1) + k
        · rw [if_pos h, if_pos (by omega)]
        · rw [if_neg h, if_neg (by omega)]

/-- **C120** (`fill`).  If the view's cells are in the memory, exactly those cells get the value. -/
theorem view_fill (triv : Bool) (v : View) (mem : List (Option α)) (hl : AllLive mem) (x : α)
    (h : v.base + v.size ≤ mem.length) :
    ∃ mem', v.fill triv mem x = .ok mem' ∧ AllLive mem' ∧ mem'.length = mem.length ∧
      ∀ j, mem'[j]? = if v.base ≤ j ∧ j < v.base + v.size then some (some x) else mem[j]? := by
  obtain ⟨mem', h1, h2, h3, h4⟩ := fillLoop_spec triv v x v.size 0 mem hl (by omega)
  exact ⟨mem', h1, h2, h3, fun j => by rw [h4 j]; simp⟩

example : ((View.mk' 1 1 2).fill true [some 1, some 2, some 3, some 4] 9).satisfies
    (fun m => m == [some 1, some 9, some 9, some 4]) = true := by decide

/-- the copying loop after `i` elements -/
theorem copyLoop_spec (triv : Bool) (src dst : View) (mem0 : List (Option α)) :
    ∀ (k i : Nat) (mem : List (Option α)), AllLive mem → mem.length = mem0.length →
      src.base + i + k ≤ mem0.length → dst.base + i + k ≤ mem0.length →
      (∀ j, mem[j]? = if dst.base ≤ j ∧ j < dst.base + i
        then mem0[src.base + copiedFrom src.base dst.base (j - dst.base)]? else mem0[j]?) →
      ∃ mem', View.copyLoop triv src dst k i mem = .ok mem' ∧ AllLive mem' ∧ mem'.length = mem0.length ∧
        ∀ j, mem'[j]? = if dst.base ≤ j ∧ j < dst.base + i + k
          then mem0[src.base + copiedFrom src.base dst.base (j - dst.base)]? else mem0[j]? := by
  intro k
  induction k with
  | zero =>
    intro i mem hl hlen _ _ hm
    exact ⟨mem, rfl, hl, hlen, hm⟩
  | succ k ih =>
    intro i mem hl hlen h1 h2 hm
    obtain ⟨x, hx, hx'⟩ := cellGet_of_live hl (i := src.base + i) (by omega)
    have hs : dst.set triv mem i x = .ok (mem.set (dst.base + i) (some x)) := cellSet_ok x (by omega) (.inr hl)
    have hl' : AllLive (mem.set (dst.base + i) (some x)) :=
      (live_set x (.inr hl) (triv := false)).resolve_left (by simp)
    -- the value read
    have hval : mem0[src.base + copiedFrom src.base dst.base i]? = some (some x) := by
      rw [← hx', hm (src.base + i)]
      unfold copiedFrom
      by_cases hsd : src.base < dst.base
      · rw [if_pos hsd]
        by_cases hin : dst.base ≤ src.base + i
        · rw [if_pos ⟨hin, by omega⟩, if_pos hsd]
          congr 2
          rw [show src.base + i - dst.base = i - (dst.base - src.base) by omega]
          exact Nat.mod_eq_sub_mod (by omega)
        · rw [if_neg (by omega), Nat.mod_eq_of_lt (by omega)]
      · rw [if_neg hsd, if_neg (by omega)]
    obtain ⟨mem', e1, e2, e3, e4⟩ := ih (i + 1) (mem.set (dst.base + i) (some x)) hl' (by simpa using hlen)
      (by omega) (by omega) (by
        intro j
        by_cases hj : j = dst.base + i
        · subst hj
          rw [List.getElem?_set_self (by omega), if_pos (by omega), show dst.base + i - dst.base = i by omega, hval]
        · rw [List.getElem?_set_ne (by omega), hm j]
          by_cases h : dst.base ≤ j ∧ j < dst.base + i
          · rw [if_pos h, if_pos (by omega)]
          · rw [if_neg h, if_neg (by omega)])
    refine ⟨mem', ?_, e2, e3, ?_⟩
    · unfold View.copyLoop View.get
      rw [hx, Out.ok_bind, hs, Out.ok_bind, e1]
    · intro j
      rw [e4 j, show dst.base + (i + 1) + k = dst.base + i + (k + 1) by omega]

/-- **C120** (assignment between views, exactly).  If the source's cells and as many cells from the
target's first on are in the memory, the assignment gives the target the source's shape, writes exactly
those cells and element `k` becomes the old element `copiedFrom … k` of the source. -/
theorem view_assign (triv : Bool) (src dst : View) (mem : List (Option α)) (hl : AllLive mem)
    (h1 : src.base + src.size ≤ mem.length) (h2 : dst.base + src.size ≤ mem.length) :
    ∃ mem', src.deepCopyTo triv dst mem = .ok (⟨dst.base, src.r, src.c⟩, mem') ∧ AllLive mem' ∧
      mem'.length = mem.length ∧
      ∀ j, mem'[j]? = if dst.base ≤ j ∧ j < dst.base + src.size
        then mem[src.base + copiedFrom src.base dst.base (j - dst.base)]? else mem[j]? := by
  obtain ⟨mem', e1, e2, e3, e4⟩ := copyLoop_spec triv src dst mem src.size 0 mem hl rfl (by omega) (by omega)
    (by intro j; rw [if_neg (by omega)])
  refine ⟨mem', ?_, e2, e3, fun j => by rw [e4 j]; simp⟩
  unfold View.deepCopyTo
  rw [e1, Out.ok_bind]

/-- **C120** (faithful assignment).  Unless the target begins strictly inside the source, the target's
elements afterwards are the source's old elements: disjoint views, self-assignment, a target that begins
before the source. -/
theorem view_assign_faithful (triv : Bool) (src dst : View) (mem : List (Option α)) (hl : AllLive mem)
    (h1 : src.base + src.size ≤ mem.length) (h2 : dst.base + src.size ≤ mem.length)
    (hov : dst.base ≤ src.base ∨ src.base + src.size ≤ dst.base) :
    ∃ w mem', src.deepCopyTo triv dst mem = .ok (w, mem') ∧ w.r = src.r ∧ w.c = src.c ∧ w.base = dst.base ∧
      ∀ i, i < src.size → w.get mem' i = src.get mem i := by
  obtain ⟨mem', e1, e2, e3, e4⟩ := view_assign triv src dst mem hl h1 h2
  refine ⟨_, mem', e1, rfl, rfl, rfl, ?_⟩
  intro i hi
  unfold View.get cellGet
  simp only
  rw [e4 (dst.base + i), if_pos (by omega), show dst.base + i - dst.base = i by omega]
  have : copiedFrom src.base dst.base i = i := by
    unfold copiedFrom
    split
    · exact Nat.mod_eq_of_lt (by omega)
    · rfl
  rw [this]

/-- Self-assignment changes nothing. -/
theorem view_self_assign (triv : Bool) (v : View) (mem : List (Option α)) (hl : AllLive mem)
    (h : v.base + v.size ≤ mem.length) : v.deepCopyTo triv v mem = .ok (v, mem) := by
  obtain ⟨mem', e1, e2, e3, e4⟩ := view_assign triv v v mem hl h h
  rw [e1]
  have : mem' = mem := by
    apply List.ext_getElem?
    intro j
    rw [e4 j]
    split
    · unfold copiedFrom
      rw [if_neg (by omega)]
      congr 1
      omega
    · rfl
  rw [this]

/-- Three elements, the target one cell later: everything becomes the first element. -/
theorem view_assign_smears :
    ((View.mk' 0 3 1).deepCopyTo true (View.mk' 1 3 1) [some 1, some 2, some 3, some 4]).satisfies
      (fun p => p.2 == [some 1, some 1, some 1, some 1]) = true := by decide

example : ((View.mk' 0 2 1).deepCopyTo true (View.mk' 2 2 1) [some 1, some 2, some 3, some 4]).satisfies
    (fun p => p == (⟨2, 2, 1⟩, [some 1, some 2, some 1, some 2])) = true := by decide

/-- **C120** (when the assignment is defined).  In a memory of objects: exactly if the source is empty or
both the source's cells and as many cells from the target's pointer on are in the memory.  The shape the
target had plays no role: a smaller target overwrites the cells behind it (`view_assign`). -/
theorem view_assign_defined_iff (triv : Bool) (src dst : View) (mem : List (Option α)) (hl : AllLive mem) :
    src.deepCopyTo triv dst mem ≠ .ub ↔
      src.size = 0 ∨ (src.base + src.size ≤ mem.length ∧ dst.base + src.size ≤ mem.length) := by
  constructor
  · intro h
    by_contra hcon
    rw [not_or] at hcon
    obtain ⟨hc0, hc⟩ := hcon
    apply h
    -- the first element that does not fit
    obtain ⟨k, hk1, hk2, hk3, hk4⟩ : ∃ k, k < src.size ∧ src.base + k ≤ max mem.length (src.base) ∧
        (∀ i, i < k → src.base + i < mem.length ∧ dst.base + i < mem.length) ∧
        (mem.length ≤ src.base + k ∨ mem.length ≤ dst.base + k) := by
      refine ⟨min (mem.length - src.base) (mem.length - dst.base), by omega, by omega, fun i hi => by omega,
        by omega⟩
    have main : ∀ (n i : Nat) (m : List (Option α)), AllLive m → m.length = mem.length → i + n = k →
        ∀ rest, View.copyLoop triv src dst (n + 1 + rest) i m = .ub := by
      intro n
      induction n with
      | zero =>
        intro i m hm hlen hik rest
        have : i = k := by omega
        subst this
        rw [show 0 + 1 + rest = rest + 1 by omega]
        unfold View.copyLoop View.get View.set
        by_cases hs : src.base + i < m.length
        · obtain ⟨x, hx, -⟩ := cellGet_of_live hm hs
          rw [hx, Out.ok_bind, cellSet_out x (by omega), Out.ub_bind]
        · rw [cellGet_out (by omega), Out.ub_bind]
      | succ n ih =>
        intro i m hm hlen hik rest
        obtain ⟨hs, hd⟩ := hk3 i (by omega)
        obtain ⟨x, hx, -⟩ := cellGet_of_live hm (i := src.base + i) (by omega)
        rw [show n + 1 + 1 + rest = (n + 1 + rest) + 1 by omega]
        unfold View.copyLoop View.get View.set
        rw [hx, Out.ok_bind, cellSet_ok x (by omega) (.inr hm), Out.ok_bind]
        exact ih (i + 1) _ ((live_set x (.inr hm) (triv := false)).resolve_left (by simp)) (by simpa using hlen)
          (by omega) rest
    unfold View.deepCopyTo
    have := main k 0 mem hl rfl (by omega) (src.size - 1 - k)
    rw [show k + 1 + (src.size - 1 - k) = src.size by omega] at this
    rw [this, Out.ub_bind]
  · rintro (h | h)
    · unfold View.deepCopyTo
      rw [h]
      simp [View.copyLoop]
    · obtain ⟨mem', e1, -⟩ := view_assign triv src dst mem hl h.1 h.2
      rw [e1]; simp

/-- A target with one element takes two and destroys its neighbour; at the end of the memory it is
undefined. -/
example : ((View.mk' 0 2 1).deepCopyTo true (View.mk' 2 1 1) [some 1, some 2, some 3, some 4]).satisfies
      (fun p => p.2 == [some 1, some 2, some 1, some 2]) = true ∧
    (View.mk' 0 2 1).deepCopyTo true (View.mk' 3 1 1) [some 1, some 2, some 3, some 4] = .ub := by
  constructor <;> decide

/-! ## Fixed-size matrices -/

section Fixed
variable {Rows Cols : Nat}

/-- **C120** (fixed-size matrices).  On a matrix whose cells hold objects: `fill` sets every cell; copy
construction and copy assignment give exactly the source's cells; writing `m(r,c)` changes that element
only; `resize` accepts only the matrix's own shape. -/
theorem fixed_matrix_ops (triv : Bool) (dflt : α) (m src : FixMat α Rows Cols) (hm : AllLive m.arr)
    (hs : AllLive src.arr) :
    (∀ x, m.fill triv x = .ok (List.replicate (Rows * Cols) (some x))) ∧
    FixMat.copyAssign triv (src := m) (m := src) = .ok m.arr ∧
    m.copyCtor triv dflt = .ok m.arr ∧
    (∀ r c x, r < Rows → c < Cols → ∃ a, m.set2 triv r c x = .ok a ∧ a.length = Rows * Cols ∧
      ∀ r' c', r' < Rows → c' < Cols →
        cellGet a (Rows * c' + r') = if r' = r ∧ c' = c then .ok x else m.get2 r' c') ∧
    (∀ r c, m.resize r c ≠ .ub ↔ r = Rows ∧ c = Cols) := by
  have copy : ∀ buf : List (Option α), AllLive buf → buf.length = Rows * Cols →
      DynMat.assignLoop triv (fun i => m.get i) (Rows * Cols) 0 buf = .ok m.arr := by
    intro buf hb hbl
    have hg : ∀ j, ∃ x, j < Rows * Cols → m.get j = .ok x ∧ m.arr[j]? = some (some x) := by
      intro j
      by_cases hj : j < Rows * Cols
      · obtain ⟨x, hx⟩ := cellGet_of_live hm (i := j) (by rw [m.len]; exact hj)
        exact ⟨x, fun _ => hx⟩
      · exact ⟨dflt, fun h => absurd h hj⟩
    choose g hg using hg
    obtain ⟨b', e1, e2, -, e4⟩ := assignLoop_spec (triv := triv) (f := fun i => m.get i) (g := g)
      (Rows * Cols) 0 buf (by omega) (.inr hb) (fun j _ hj => (hg j (by omega)).1)
    rw [e1]
    congr 1
    apply List.ext_getElem?
    intro j
    rw [e4 j]
    by_cases hj : j < Rows * Cols
    · rw [if_pos (by omega), (hg j hj).2]
    · rw [if_neg (by omega), List.getElem?_eq_none (by omega), List.getElem?_eq_none (by rw [m.len]; omega)]
  refine ⟨fun x => ?_, copy src.arr hs src.len, ?_, ?_, ?_⟩
  · unfold FixMat.fill
    obtain ⟨b', e1, e2, -, e4⟩ := assignLoop_spec (triv := triv) (f := fun _ => .ok x) (g := fun _ => x)
      (Rows * Cols) 0 m.arr (by rw [m.len]; omega) (.inr hm) (fun _ _ _ => rfl)
    rw [e1]
    congr 1
    apply List.ext_getElem?
    intro j
    rw [e4 j]
    by_cases hj : j < Rows * Cols
    · rw [if_pos (by omega), List.getElem?_replicate, if_pos hj]
    · rw [if_neg (by omega), List.getElem?_eq_none (by rw [m.len]; omega), List.getElem?_eq_none (by simp; omega)]
  · unfold FixMat.copyCtor
    split
    · rfl
    · refine copy _ ?_ (by simp)
      intro c hc
      rw [(List.mem_replicate.1 hc).2]; rfl
  · intro r c x hr hc
    have hN := namesCells_colMajor Rows Cols
    have hin := hN.inside r c hr hc
    refine ⟨m.arr.set (Rows * c + r) (some x), cellSet_ok x (by rw [m.len]; exact hin) (.inr hm), by simp [m.len], ?_⟩
    intro r' c' hr' hc'
    unfold FixMat.get2 cellGet FixMat.idx
    by_cases h : r' = r ∧ c' = c
    · obtain ⟨rfl, rfl⟩ := h
      rw [List.getElem?_set_self (by rw [m.len]; exact hin)]
      simp
    · have hne : Rows * c + r ≠ Rows * c' + r' := by
        intro he
        have := hN.different r c r' c' hr hc hr' hc' he
        exact h ⟨this.1.symm, this.2.symm⟩
      rw [List.getElem?_set_ne hne, if_neg h]
  · intro r c
    unfold FixMat.resize
    split <;> simp [*]

example : (⟨[some 1, some 2, some 3, some 4], rfl⟩ : FixMat Nat 2 2).set2 true 1 0 9 =
    .ok [some 1, some 9, some 3, some 4] := by decide

end Fixed

end Heu
