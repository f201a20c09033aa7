import Verif.Spec.MatHeap
import Verif.Props.Matrix

/-!
# Matrices on a heap: one object at a time
-/

set_option linter.unusedVariables false
set_option linter.unusedSimpArgs false

namespace Heu
open Spec

variable {α : Type}

/-- Two outcomes agree: both undefined, or both fine with related results. -/
inductive OutRel {β γ : Type} (R : β → γ → Prop) : Out β → Out γ → Prop
  | ok {b c} : R b c → OutRel R (.ok b) (.ok c)
  | ub : OutRel R .ub .ub
  | timeout : OutRel R .timeout .timeout

theorem OutRel.bind {β γ β' γ' : Type} {R : β → γ → Prop} {S : β' → γ' → Prop} {x : Out β} {y : Out γ}
    {f : β → Out β'} {g : γ → Out γ'} (h : OutRel R x y) (hfg : ∀ b c, R b c → OutRel S (f b) (g c)) :
    OutRel S (x.bind f) (y.bind g) := by
  cases h with
  | ok h => exact hfg _ _ h
  | ub => exact .ub
  | timeout => exact .timeout

/-- The memory of one object has changed from pointer `p` in `h` to pointer `q` in `h'`, and nothing else. -/
structure ObjStep (p q : Option Nat) (h h' : BlockHeap α) : Prop where
  frame : ∀ a, p ≠ some a → ∀ cells, h[a]? = some (some cells) → h'[a]? = some (some cells)
  fresh : ∀ a, q = some a → p = some a ∨ h[a]? = none
  back : ∀ (a : Nat) (cells : List α), h'[a]? = some (some cells) →
    q = some a ∨ (p ≠ some a ∧ h[a]? = some (some cells))

theorem ObjStep.refl (p : Option Nat) (h : BlockHeap α) : ObjStep p p h h :=
  ⟨fun _ _ _ hc => hc, fun _ hq => Or.inl hq, fun a cells hc => by
    by_cases hp : p = some a
    · exact Or.inl hp
    · exact Or.inr ⟨hp, hc⟩⟩

theorem ObjStep.trans {p q r : Option Nat} {h h' h'' : BlockHeap α} (s : ObjStep p q h h') (t : ObjStep q r h' h'')
    (hh : ∀ a : Nat, h'[a]? = none → h[a]? = none) : ObjStep p r h h'' where
  frame a hp cells hc := by
    refine t.frame a ?_ cells (s.frame a hp cells hc)
    intro hq
    rcases s.fresh a hq with h1 | h1
    · exact hp h1
    · rw [hc] at h1; cases h1
  fresh a hr := by
    rcases t.fresh a hr with h1 | h1
    · exact s.fresh a h1
    · exact Or.inr (hh a h1)
  back a cells hc := by
    rcases t.back a cells hc with h1 | ⟨h1, h2⟩
    · exact Or.inl h1
    · rcases s.back a cells h2 with h3 | h3
      · exact absurd h3 h1
      · exact Or.inr h3

theorem objStep_alloc (cells : List α) (h : BlockHeap α) :
    ObjStep none (some (heapAlloc cells h).1) h (heapAlloc cells h).2 where
  frame a _ c hc := by
    have : a < h.length := by
      by_contra hlt
      rw [List.getElem?_eq_none (by omega)] at hc
      cases hc
    rw [heapAlloc, List.getElem?_append_left this]
    exact hc
  fresh a ha := by
    right
    have : a = h.length := (Option.some.inj ha).symm
    rw [this]
    exact List.getElem?_eq_none (Nat.le_refl _)
  back a c hc := by
    by_cases hlt : a < h.length
    · right
      rw [heapAlloc, List.getElem?_append_left hlt] at hc
      exact ⟨by simp, hc⟩
    · left
      have : a < (h ++ [some cells]).length := by
        by_contra hge
        rw [heapAlloc, List.getElem?_eq_none (by simpa using hge)] at hc
        cases hc
      simp only [List.length_append, List.length_singleton] at this
      have : a = h.length := by omega
      rw [this]
      rfl

theorem objStep_free {a : Nat} {h : BlockHeap α} : ObjStep (some a) none h (h.set a none) where
  frame b hb c hc := by
    rw [List.getElem?_set_ne (by rintro rfl; exact hb rfl)]
    exact hc
  fresh b hb := by cases hb
  back b c hc := by
    right
    by_cases hab : a = b
    · subst hab
      rw [List.getElem?_set] at hc
      split at hc
      · split at hc <;> cases hc
      · exact absurd rfl ‹_›
    · rw [List.getElem?_set_ne hab] at hc
      exact ⟨by simpa using hab, hc⟩

theorem objStep_store (p : Option Nat) (h : BlockHeap α) (cells : List α) :
    ObjStep p p h (heapStore h p cells) := by
  cases p with
  | none => exact ObjStep.refl _ _
  | some a =>
    refine ⟨fun b hb c hc => ?_, fun b hb => Or.inl hb, fun b c hc => ?_⟩
    · rw [heapStore, List.getElem?_set_ne (by rintro rfl; exact hb rfl)]
      exact hc
    · by_cases hab : a = b
      · exact Or.inl (by rw [hab])
      · rw [heapStore, List.getElem?_set_ne hab] at hc
        exact Or.inr ⟨by simpa using hab, hc⟩

/-- An object with its memory in order. -/
def ValidObj (o : MatObj) (h : MatHeap α) : Prop :=
  (o.dataPtr = none ∧ o.capacity = 0) ∨
    ∃ a cells, o.dataPtr = some a ∧ h[a]? = some (some cells) ∧ cells.length = o.capacity

/-- What is seen of an object. -/
def viewOf (h : MatHeap α) (o : MatObj) : DynMat α :=
  { buf := heapCells h o.dataPtr, rowNum := o.rowNum, colNum := o.colNum, capacity := o.capacity }

theorem matView_some {w : MatWorld α} {i : Nat} {o : MatObj} (h : w.objs i = some o) :
    matView w i = some (viewOf w.heap o) := by
  simp [matView, h, viewOf]

theorem matView_none {w : MatWorld α} {i : Nat} (h : w.objs i = none) : matView w i = none := by
  simp [matView, h]

theorem heapCells_of {β : Type} {h : BlockHeap β} {a : Nat} {cells : List β} (hc : h[a]? = some (some cells)) :
    heapCells h (some a) = cells := by
  simp [heapCells, hc]

theorem heapCells_length {o : MatObj} {h : MatHeap α} (hv : ValidObj o h) :
    (heapCells h o.dataPtr).length = o.capacity := by
  rcases hv with ⟨h1, h2⟩ | ⟨a, cells, h1, h2, h3⟩
  · rw [h1, h2]; rfl
  · rw [h1, heapCells_of h2, h3]

/-- Releasing the buffer of a valid object never fails by itself. -/
theorem heapFree_valid {β : Type} {a n : Nat} {h : BlockHeap β} {cells : List β} (hc : h[a]? = some (some cells))
    (hn : cells.length = n) : heapFree a n h = .ok (h.set a none) := by
  simp [heapFree, hc, hn]

/-- Replacing object `i` by one whose memory has changed as `ObjStep` says keeps the memory in order and changes the
view of `i` only. -/
theorem put_ok {w : MatWorld α} (hw : MemoryOk w) {i : Nat} {o' : Option MatObj} {h' : MatHeap α}
    (hs : ObjStep ((w.objs i).bind (·.dataPtr)) (o'.bind (·.dataPtr)) w.heap h')
    (hv : ∀ o, o' = some o → ValidObj o h') :
    MemoryOk (({ w with heap := h' } : MatWorld α).put i o') ∧
      matView (({ w with heap := h' } : MatWorld α).put i o') = (matView w).put i (o'.map (viewOf h')) := by
  have hother : ∀ k o, k ≠ i → w.objs k = some o → ∀ a, o.dataPtr = some a →
      (w.objs i).bind (·.dataPtr) ≠ some a ∧ o'.bind (·.dataPtr) ≠ some a := by
    intro k o hk ho a ha
    obtain ⟨cells, hcells⟩ : ∃ cells, w.heap[a]? = some (some cells) := by
      rcases hw.owns k o ho with ⟨h1, _⟩ | ⟨b, cells, h1, h2, _⟩
      · rw [ha] at h1; cases h1
      · rw [ha] at h1; cases h1; exact ⟨cells, h2⟩
    have h1 : (w.objs i).bind (·.dataPtr) ≠ some a := by
      intro hp
      cases hoi : w.objs i with
      | none => rw [hoi] at hp; cases hp
      | some oi =>
        rw [hoi] at hp
        exact hw.separate i k oi o a (Ne.symm hk) hoi ho hp ha
    refine ⟨h1, fun hq => ?_⟩
    rcases hs.fresh a hq with h2 | h2
    · exact h1 h2
    · rw [hcells] at h2; cases h2
  constructor
  · refine ⟨?_, ?_, ?_⟩
    · intro k o ho
      by_cases hk : k = i
      · subst hk
        simp only [MatWorld.put, if_true] at ho
        exact hv o ho
      · simp only [MatWorld.put, if_neg hk] at ho
        rcases hw.owns k o ho with h1 | ⟨a, cells, h1, h2, h3⟩
        · exact Or.inl h1
        · exact Or.inr ⟨a, cells, h1, hs.frame a (hother k o hk ho a h1).1 cells h2, h3⟩
    · intro k l ok ol a hkl hk hl hka hla
      by_cases hki : k = i
      · subst hki
        simp only [MatWorld.put, if_true] at hk
        simp only [MatWorld.put, if_neg (Ne.symm hkl)] at hl
        refine (hother l ol (Ne.symm hkl) hl a hla).2 ?_
        rw [hk]
        exact hka
      · simp only [MatWorld.put, if_neg hki] at hk
        by_cases hli : l = i
        · subst hli
          simp only [MatWorld.put, if_true] at hl
          refine (hother k ok hki hk a hka).2 ?_
          rw [hl]
          exact hla
        · simp only [MatWorld.put, if_neg hli] at hl
          exact hw.separate k l ok ol a hkl hk hl hka hla
    · intro a cells hc
      rcases hs.back a cells hc with h1 | ⟨h1, h2⟩
      · cases o' with
        | none => cases h1
        | some o => exact ⟨i, o, by simp [MatWorld.put], h1⟩
      · obtain ⟨k, o, hk, ho⟩ := hw.noLeak a cells h2
        have hki : k ≠ i := by
          rintro rfl
          rw [hk] at h1
          exact h1 ho
        exact ⟨k, o, by simp [MatWorld.put, hki, hk], ho⟩
  · funext k
    by_cases hk : k = i
    · subst hk
      simp only [matView, MatWorld.put, MatValues.put, if_true]
      rfl
    · simp only [matView, MatWorld.put, MatValues.put, if_neg hk]
      cases ho : w.objs k with
      | none => rfl
      | some o =>
        simp only [Option.map_some]
        have : heapCells h' o.dataPtr = heapCells w.heap o.dataPtr := by
          rcases hw.owns k o ho with ⟨h1, _⟩ | ⟨a, cells, h1, h2, h3⟩
          · rw [h1]; rfl
          · rw [h1, heapCells_of h2, heapCells_of (hs.frame a (hother k o hk ho a h1).1 cells h2)]
        rw [this]

/-! ### The pieces of the operations -/

theorem cellSet_length {triv : Bool} {buf b : List (Option α)} {i : Nat} {v : α} (h : cellSet triv buf i v = .ok b) :
    b.length = buf.length := by
  unfold cellSet at h
  split at h
  · split at h
    · rw [← Out.ok.inj h]; simp
    · cases h
  · cases h

theorem assignLoop_length {triv : Bool} {f : Nat → Out α} : ∀ (k i : Nat) (buf b : List (Option α)),
    DynMat.assignLoop triv f k i buf = .ok b → b.length = buf.length
  | 0, _, buf, b, h => by rw [DynMat.assignLoop] at h; rw [← Out.ok.inj h]
  | k + 1, i, buf, b, h => by
    rw [DynMat.assignLoop] at h
    obtain ⟨v, hv, h⟩ := Out.bind_eq_ok.1 h
    obtain ⟨b', hb', h⟩ := Out.bind_eq_ok.1 h
    rw [assignLoop_length k (i + 1) b' b h, cellSet_length hb']

theorem viewOf_store {o : MatObj} {h : MatHeap α} (hv : ValidObj o h) {cells : List (Option α)}
    (hl : cells.length = (heapCells h o.dataPtr).length) :
    viewOf (heapStore h o.dataPtr cells) o = { viewOf h o with buf := cells } ∧ ValidObj o (heapStore h o.dataPtr cells) := by
  have hlen := heapCells_length hv
  rcases hv with ⟨h1, h2⟩ | ⟨a, c, h1, h2, h3⟩
  · have : cells = [] := by
      rw [h1] at hl
      exact List.eq_nil_of_length_eq_zero hl
    subst this
    refine ⟨?_, Or.inl ⟨h1, h2⟩⟩
    simp [viewOf, h1, heapStore, heapCells]
  · have ha : a < h.length := by
      by_contra hge
      rw [List.getElem?_eq_none (by omega)] at h2
      cases h2
    have hset : (h.set a (some cells))[a]? = some (some cells) := by
      rw [List.getElem?_set_self ha]
    refine ⟨?_, Or.inr ⟨a, cells, h1, ?_, by omega⟩⟩
    · simp only [viewOf, h1, heapStore]
      rw [heapCells_of hset]
    · rw [h1]; exact hset

/-- Assigning elements on the heap is assigning them in the value. -/
theorem assignCells_rel {triv : Bool} {f g : Nat → Out α} (hfg : ∀ k, f k = g k) {k : Nat} {o : MatObj} {h : MatHeap α}
    (hv : ValidObj o h) :
    OutRel (fun h' m => m = viewOf h' o ∧ ObjStep o.dataPtr o.dataPtr h h' ∧ ValidObj o h')
      (MatWorld.assignCells triv f k o h)
      ((DynMat.assignLoop triv g k 0 (viewOf h o).buf).bind fun b => .ok { viewOf h o with buf := b }) := by
  have : f = g := funext hfg
  subst this
  unfold MatWorld.assignCells
  show OutRel _ ((DynMat.assignLoop triv f k 0 (heapCells h o.dataPtr)).bind _) _
  rcases hc : DynMat.assignLoop triv f k 0 (heapCells h o.dataPtr) with cells | _ | _
  · have hl := assignLoop_length _ _ _ _ hc
    obtain ⟨h1, h2⟩ := viewOf_store hv hl
    show OutRel _ (.ok _) (Out.bind (DynMat.assignLoop triv f k 0 (heapCells h o.dataPtr)) _)
    rw [hc]
    exact .ok ⟨h1.symm, objStep_store _ _ _, h2⟩
  · show OutRel _ .ub (Out.bind (DynMat.assignLoop triv f k 0 (heapCells h o.dataPtr)) _)
    rw [hc]
    exact .ub
  · show OutRel _ .timeout (Out.bind (DynMat.assignLoop triv f k 0 (heapCells h o.dataPtr)) _)
    rw [hc]
    exact .timeout

/-- A fresh block is a valid buffer. -/
theorem valid_alloc (cells : List (Option α)) (h : MatHeap α) (r c n : Nat) (hn : cells.length = n) :
    ValidObj { dataPtr := some (heapAlloc cells h).1, rowNum := r, colNum := c, capacity := n } (heapAlloc cells h).2 ∧
    heapCells (heapAlloc cells h).2 (some (heapAlloc cells h).1) = cells := by
  have : (heapAlloc cells h).2[(heapAlloc cells h).1]? = some (some cells) := by
    simp [heapAlloc]
  exact ⟨Or.inr ⟨_, cells, rfl, this, hn⟩, heapCells_of this⟩

/-- `resize` on the heap is `resize` of the value. -/
theorem resizeObj_rel {triv : Bool} {dflt : α} {r c : Nat} {o : MatObj} {h : MatHeap α} (hv : ValidObj o h) :
    OutRel (fun p m => m = viewOf p.2 p.1 ∧ ObjStep o.dataPtr p.1.dataPtr h p.2 ∧ ValidObj p.1 p.2)
      (MatWorld.resizeObj triv dflt r c o h) ((viewOf h o).resize triv dflt r c) := by
  unfold MatWorld.resizeObj DynMat.resize
  rcases hn : intMul r c with n | _ | _
  · simp only [Out.ok_bind]
    by_cases h1 : n ≠ o.rowNum * o.colNum
    · rw [if_pos h1, if_pos (show n ≠ (viewOf h o).size from h1)]
      by_cases h2 : n > o.capacity
      · rw [if_pos h2, if_pos (show n > (viewOf h o).capacity from h2)]
        have hbuf : (if triv = true then (List.replicate n (none : Option α)).map (fun _ => some dflt) else List.replicate n none) =
            List.replicate n (if triv = true then some dflt else none) := by
          cases triv <;> simp
        rcases hv with ⟨hp, hcap⟩ | ⟨a, cells, hp, ha, hl⟩
        · simp only [hp, Out.ok_bind]
          obtain ⟨v1, v2⟩ := valid_alloc (List.replicate n (if triv = true then some dflt else none)) h r c n (by simp)
          refine .ok ⟨?_, objStep_alloc _ _, v1⟩
          simp only [viewOf, v2]
          rw [← hbuf]
        · simp only [hp, heapFree_valid ha hl, Out.ok_bind]
          obtain ⟨v1, v2⟩ := valid_alloc (List.replicate n (if triv = true then some dflt else none)) (h.set a none) r c n (by simp)
          refine .ok ⟨?_, objStep_free.trans (objStep_alloc _ _) (fun b hb => ?_), v1⟩
          · simp only [viewOf, v2]
            rw [← hbuf]
          · rw [List.getElem?_eq_none_iff] at hb ⊢
            simpa using hb
      · rw [if_neg h2, if_neg (show ¬ n > (viewOf h o).capacity from h2)]
        exact .ok ⟨rfl, ObjStep.refl _ _, hv⟩
    · rw [if_neg h1, if_neg (show ¬ n ≠ (viewOf h o).size from h1)]
      exact .ok ⟨rfl, ObjStep.refl _ _, hv⟩
  · exact .ub
  · exact .timeout

/-- Releasing the buffer on the heap is destroying the value. -/
theorem release_rel {triv : Bool} {o : MatObj} {h : MatHeap α} (hv : ValidObj o h) :
    OutRel (fun h' (_ : Unit) => ObjStep o.dataPtr none h h' ∧ ∀ a : Nat, h'[a]? = none → h[a]? = none)
      (MatWorld.release triv o h) ((viewOf h o).destroy triv) := by
  unfold MatWorld.release DynMat.destroy
  rcases hv with ⟨hp, hcap⟩ | ⟨a, cells, hp, ha, hl⟩
  · rw [hp]
    cases triv
    · simp only [Bool.false_eq_true, if_false, viewOf, hp, heapCells, destroyAll]
      exact .ok ⟨ObjStep.refl _ _, fun _ h => h⟩
    · exact .ok ⟨ObjStep.refl _ _, fun _ h => h⟩
  · have hset : ∀ b : Nat, (h.set a none)[b]? = none → h[b]? = none := by
      intro b hb
      rw [List.getElem?_eq_none_iff] at hb ⊢
      simpa using hb
    rw [hp]
    cases triv
    · simp only [Bool.false_eq_true, if_false, viewOf, hp]
      show OutRel _ ((destroyAll false (heapCells h (some a))).bind _) _
      rcases destroyAll false (heapCells h (some a)) with _ | _ | _
      · show OutRel _ (heapFree a o.capacity h) _
        rw [heapFree_valid ha hl]
        exact .ok ⟨objStep_free, hset⟩
      · exact .ub
      · exact .timeout
    · simp only [if_true]
      show OutRel _ (heapFree a o.capacity h) _
      rw [heapFree_valid ha hl]
      exact .ok ⟨objStep_free, hset⟩

end Heu
