import Verif.Spec.BitHeap
import Verif.Lemmas.MatHeap
import Verif.Props.MultiBitSet

/-!
# Bit containers on a heap: one object at a time
-/

set_option linter.unusedVariables false
set_option linter.unusedSimpArgs false

namespace Heu
open Spec

variable {w : Nat}

/-- An object with its memory in order. -/
def ValidBit (o : BitObj) (h : BlockHeap (BitVec w)) : Prop :=
  (o.data = none ∧ o.nblocks = 0) ∨
    ∃ a cells, o.known = true ∧ o.data = some a ∧ h[a]? = some (some cells) ∧ cells.length = o.nblocks

/-- The value of an object. -/
def mbsOf (h : BlockHeap (BitVec w)) (o : BitObj) : MBS w := { blocks := heapCells h o.data, size := o.size }

/-- What is seen of an object. -/
def bitViewOf (h : BlockHeap (BitVec w)) (o : BitObj) : Option (MBS w) := if o.known then some (mbsOf h o) else none

theorem bitView_some {x : BitWorld w} {i : Nat} {o : BitObj} (h : x.objs i = some o) :
    bitView x i = some (bitViewOf x.heap o) := by
  simp [bitView, h, bitViewOf, mbsOf]

theorem bitView_none {x : BitWorld w} {i : Nat} (h : x.objs i = none) : bitView x i = none := by
  simp [bitView, h]

theorem bitCells_length {o : BitObj} {h : BlockHeap (BitVec w)} (hv : ValidBit o h) :
    (heapCells h o.data).length = o.nblocks := by
  rcases hv with ⟨h1, h2⟩ | ⟨a, cells, _, h1, h2, h3⟩
  · rw [h1, h2]; rfl
  · rw [h1, heapCells_of h2, h3]

/-- Replacing object `i` by one whose memory has changed as `ObjStep` says keeps the memory in order and changes the
view of `i` only. -/
theorem bit_put_ok {x : BitWorld w} (hw : BitMemoryOk x) {i : Nat} {o' : Option BitObj} {h' : BlockHeap (BitVec w)}
    (hs : ObjStep ((x.objs i).bind (·.data)) (o'.bind (·.data)) x.heap h')
    (hv : ∀ o, o' = some o → ValidBit o h') :
    BitMemoryOk (({ x with heap := h' } : BitWorld w).put i o') ∧
      bitView (({ x with heap := h' } : BitWorld w).put i o') = (bitView x).put i (o'.map (bitViewOf h')) := by
  have hother : ∀ k o, k ≠ i → x.objs k = some o → ∀ a, o.data = some a →
      (x.objs i).bind (·.data) ≠ some a ∧ o'.bind (·.data) ≠ some a := by
    intro k o hk ho a ha
    obtain ⟨cells, hcells⟩ : ∃ cells, x.heap[a]? = some (some cells) := by
      rcases hw.owns k o ho with ⟨h1, _⟩ | ⟨b, cells, _, h1, h2, _⟩
      · rw [ha] at h1; cases h1
      · rw [ha] at h1; cases h1; exact ⟨cells, h2⟩
    have h1 : (x.objs i).bind (·.data) ≠ some a := by
      intro hp
      cases hoi : x.objs i with
      | none => rw [hoi] at hp; cases hp
      | some oi =>
        rw [hoi] at hp
        exact hw.separate i k oi o a (Ne.symm hk) hoi ho hp ha
    refine ⟨h1, fun hq => ?_⟩
    rcases hs.fresh a hq with h2 | h2
    · exact h1 h2
    · rw [hcells] at h2; cases h2
  constructor
  · refine ⟨?_, ?_, ?_⟩
    · intro k o ho
      by_cases hk : k = i
      · subst hk
        simp only [BitWorld.put, if_true] at ho
        exact hv o ho
      · simp only [BitWorld.put, if_neg hk] at ho
        rcases hw.owns k o ho with h1 | ⟨a, cells, h0, h1, h2, h3⟩
        · exact Or.inl h1
        · exact Or.inr ⟨a, cells, h0, h1, hs.frame a (hother k o hk ho a h1).1 cells h2, h3⟩
    · intro k l ok ol a hkl hk hl hka hla
      by_cases hki : k = i
      · subst hki
        simp only [BitWorld.put, if_true] at hk
        simp only [BitWorld.put, if_neg (Ne.symm hkl)] at hl
        refine (hother l ol (Ne.symm hkl) hl a hla).2 ?_
        rw [hk]
        exact hka
      · simp only [BitWorld.put, if_neg hki] at hk
        by_cases hli : l = i
        · subst hli
          simp only [BitWorld.put, if_true] at hl
          refine (hother k ok hki hk a hka).2 ?_
          rw [hl]
          exact hla
        · simp only [BitWorld.put, if_neg hli] at hl
          exact hw.separate k l ok ol a hkl hk hl hka hla
    · intro a cells hc
      rcases hs.back a cells hc with h1 | ⟨h1, h2⟩
      · cases o' with
        | none => cases h1
        | some o => exact ⟨i, o, by simp [BitWorld.put], h1⟩
      · obtain ⟨k, o, hk, ho⟩ := hw.noLeak a cells h2
        have hki : k ≠ i := by
          rintro rfl
          rw [hk] at h1
          exact h1 ho
        exact ⟨k, o, by simp [BitWorld.put, hki, hk], ho⟩
  · funext k
    by_cases hk : k = i
    · subst hk
      simp only [bitView, BitWorld.put, BitValues.put, if_true]
      rfl
    · simp only [bitView, BitWorld.put, BitValues.put, if_neg hk]
      cases ho : x.objs k with
      | none => rfl
      | some o =>
        simp only [Option.map_some]
        have : heapCells h' o.data = heapCells x.heap o.data := by
          rcases hw.owns k o ho with ⟨h1, _⟩ | ⟨a, cells, _, h1, h2, h3⟩
          · rw [h1]; rfl
          · rw [h1, heapCells_of h2, heapCells_of (hs.frame a (hother k o hk ho a h1).1 cells h2)]
        rw [this]

/-! ### The pieces of the operations -/

/-- How an operation on one object may change it and the heap. -/
structure BitStep (o o' : BitObj) (h h' : BlockHeap (BitVec w)) (s : MBS w) : Prop where
  known : o'.known = o.known
  value : s = mbsOf h' o'
  step : ObjStep o.data o'.data h h'
  valid : ValidBit o' h'
  grows : ∀ a : Nat, h'[a]? = none → h[a]? = none

theorem getElem?_lt {β : Type} {l : List β} {a : Nat} {x : β} (h : l[a]? = some x) : a < l.length := by
  by_contra hge
  rw [List.getElem?_eq_none (by omega)] at h
  cases h

/-- Allocating new blocks and releasing the old ones. -/
theorem realloc_step {o : BitObj} {h : BlockHeap (BitVec w)} (hk : o.known = true) (hv : ValidBit o h)
    (cells : List (BitVec w)) (sz : Nat) :
    ∃ h', bitFree false o.data o.nblocks (h ++ [some cells]) = .ok h' ∧
      BitStep o { o with data := some h.length, nblocks := cells.length, size := sz } h h' ⟨cells, sz⟩ := by
  have hnew : (h ++ [some cells])[h.length]? = some (some cells) := by simp
  rcases hv with ⟨h1, h2⟩ | ⟨a, c, _, h1, h2, h3⟩
  · refine ⟨h ++ [some cells], by rw [h1]; rfl, rfl, ?_, ?_, Or.inr ⟨_, cells, hk, rfl, hnew, rfl⟩, ?_⟩
    · simp only [mbsOf, heapCells_of hnew]
    · rw [h1]
      exact objStep_alloc cells h
    · intro b hb
      rw [List.getElem?_eq_none_iff] at hb ⊢
      simp at hb
      omega
  · have ha := getElem?_lt h2
    have hset : (h ++ [some cells]).set a none = h.set a none ++ [some cells] := by
      rw [List.set_append_left _ _ ha]
    have hlen : (h.set a none).length = h.length := List.length_set ..
    have hnew' : (h.set a none ++ [some cells])[h.length]? = some (some cells) := by
      rw [← hlen]; simp
    refine ⟨h.set a none ++ [some cells], ?_, rfl, ?_, ?_, Or.inr ⟨_, cells, hk, rfl, hnew', rfl⟩, ?_⟩
    · rw [h1]
      show heapFree a o.nblocks (h ++ [some cells]) = _
      rw [heapFree_valid (by rw [List.getElem?_append_left ha]; exact h2) h3, hset]
    · simp only [mbsOf, heapCells_of hnew']
    · rw [h1]
      refine objStep_free.trans (q := none) (r := some h.length) ?_ (fun b hb => ?_)
      · have := objStep_alloc cells (h.set a none)
        simp only [heapAlloc, hlen] at this
        exact this
      · rw [List.getElem?_eq_none_iff] at hb ⊢
        rw [hlen] at hb
        exact hb
    · intro b hb
      rw [List.getElem?_eq_none_iff] at hb ⊢
      simp at hb
      omega

theorem memcpyB_length {dst src d : List (BitVec w)} {n : Nat} (h : memcpyB dst src n = .ok d) : d.length = dst.length := by
  unfold memcpyB at h
  split at h
  · rw [← Out.ok.inj h]; simp
  · cases h

/-- Copying into freshly allocated blocks. -/
theorem bitCopy_fresh {o : BitObj} {h : BlockHeap (BitVec w)} (hv : ValidBit o h) (cells : List (BitVec w)) (n : Nat) :
    bitCopy false (some h.length) o.data n (h ++ [some cells]) =
      (memcpyB cells (heapCells h o.data) n).bind fun d => .ok (h ++ [some d]) := by
  have hnew : (h ++ [some cells])[h.length]? = some (some cells) := by simp
  have hsrc : heapCells (h ++ [some cells]) o.data = heapCells h o.data := by
    rcases hv with ⟨h1, h2⟩ | ⟨a, c, _, h1, h2, h3⟩
    · rw [h1]; rfl
    · have ha := getElem?_lt h2
      rw [h1, heapCells_of h2, heapCells_of (by rw [List.getElem?_append_left ha]; exact h2)]
  simp only [bitCopy, Bool.false_and, cond_false, heapCells_of hnew, hsrc]
  show Out.bind _ _ = _
  congr 1
  funext d
  simp only [heapStore]
  rw [List.set_append_right _ _ (Nat.le_refl _)]
  simp

/-- Storing blocks back into an object. -/
theorem store_step {o : BitObj} {h : BlockHeap (BitVec w)} (hv : ValidBit o h) {cells : List (BitVec w)}
    (hl : cells.length = (heapCells h o.data).length) :
    BitStep o o h (heapStore h o.data cells) ⟨cells, o.size⟩ := by
  rcases hv with ⟨h1, h2⟩ | ⟨a, c, hk, h1, h2, h3⟩
  · have : cells = [] := by
      rw [h1] at hl
      exact List.eq_nil_of_length_eq_zero hl
    subst this
    refine ⟨rfl, ?_, objStep_store _ _ _, ?_, ?_⟩
    · simp [mbsOf, h1, heapCells]
    · exact Or.inl ⟨h1, h2⟩
    · rw [h1]; exact fun _ h => h
  · have ha := getElem?_lt h2
    have hset : (h.set a (some cells))[a]? = some (some cells) := by
      rw [List.getElem?_set_self ha]
    refine ⟨rfl, ?_, objStep_store _ _ _, Or.inr ⟨a, cells, hk, h1, ?_, ?_⟩, ?_⟩
    · simp only [mbsOf, h1, heapStore]
      rw [heapCells_of hset]
    · rw [h1]; exact hset
    · rw [hl, h1, heapCells_of h2, h3]
    · rw [h1]
      intro b hb
      simp only [heapStore] at hb
      rw [List.getElem?_eq_none_iff] at hb ⊢
      simpa using hb

theorem BitStep.refl {o : BitObj} {h : BlockHeap (BitVec w)} (hv : ValidBit o h) (n : Nat) :
    BitStep o { o with size := n } h h ⟨heapCells h o.data, n⟩ :=
  ⟨rfl, rfl, ObjStep.refl _ _, hv, fun _ h => h⟩

theorem BitStep.trans {o1 o2 o3 : BitObj} {h1 h2 h3 : BlockHeap (BitVec w)} {s t : MBS w} (a : BitStep o1 o2 h1 h2 s)
    (b : BitStep o2 o3 h2 h3 t) : BitStep o1 o3 h1 h3 t :=
  ⟨by rw [b.known, a.known], b.value, a.step.trans b.step a.grows, b.valid, fun _ h => a.grows _ (b.grows _ h)⟩

theorem capacityObj_eq {o : BitObj} {h : BlockHeap (BitVec w)} (hv : ValidBit o h) (e : Nat) :
    BitWorld.capacityObj w e o = (mbsOf h o).capacity e := by
  simp only [BitWorld.capacityObj, MBS.capacity, mbsOf, bitCells_length hv]

theorem resizeObj_rel_bit {o : BitObj} {h : BlockHeap (BitVec w)} (hk : o.known = true) (hv : ValidBit o h) (e n : Nat)
    (junk : Nat → BitVec w) :
    ∃ o' h', BitWorld.resizeObj false e junk n o h = .ok (o', h') ∧
      BitStep o o' h h' ((mbsOf h o).resize e junk n) ∧ o'.size = n := by
  unfold BitWorld.resizeObj MBS.resize
  rw [capacityObj_eq hv]
  by_cases hc : n ≤ (mbsOf h o).capacity e
  · rw [if_pos hc, if_pos hc]
    exact ⟨_, _, rfl, BitStep.refl hv n, rfl⟩
  · rw [if_neg hc, if_neg hc]
    obtain ⟨h', e1, s1⟩ := realloc_step hk hv (freshBlocks junk (blocksFor w e n)) n
    refine ⟨{ o with data := some h.length, nblocks := blocksFor w e n, size := n }, h', ?_, ?_, rfl⟩
    · simp only [heapAlloc, e1, Out.ok_bind]
      rfl
    · have : (freshBlocks junk (blocksFor w e n)).length = blocksFor w e n := by simp [freshBlocks]
      rw [this] at s1
      exact s1

/-- What the results of an operation on one object have in common. -/
def BitRel (o : BitObj) (h : BlockHeap (BitVec w)) (sz : Nat) (r : BitObj × BlockHeap (BitVec w)) (s : MBS w) : Prop :=
  BitStep o r.1 h r.2 s ∧ r.1.size = sz

/-- Replacing the blocks by copies in new memory. -/
theorem moved_rel {o : BitObj} {h : BlockHeap (BitVec w)} (hk : o.known = true) (hv : ValidBit o h) (nb n : Nat)
    (junk : Nat → BitVec w) :
    OutRel (BitRel o h o.size)
      ((bitCopy false (some h.length) o.data n (h ++ [some (freshBlocks junk nb)])).bind fun h1 =>
        (bitFree false o.data o.nblocks h1).bind fun h2 => .ok ({ o with data := some h.length, nblocks := nb }, h2))
      ((memcpyB (freshBlocks junk nb) (mbsOf h o).blocks n).bind fun d => .ok { mbsOf h o with blocks := d }) := by
  rw [bitCopy_fresh hv]
  show OutRel _ (Out.bind (Out.bind (memcpyB (freshBlocks junk nb) (mbsOf h o).blocks n) _) _) _
  rcases hm : memcpyB (freshBlocks junk nb) (mbsOf h o).blocks n with d | _ | _
  · obtain ⟨h', e1, s1⟩ := realloc_step hk hv d o.size
    have hd : d.length = nb := by rw [memcpyB_length hm]; simp [freshBlocks]
    simp only [Out.bind, e1]
    rw [hd] at s1
    exact .ok ⟨s1, rfl⟩
  · exact .ub
  · exact .timeout

theorem reserveObj_rel {o : BitObj} {h : BlockHeap (BitVec w)} (hk : o.known = true) (hv : ValidBit o h) (e n : Nat)
    (junk : Nat → BitVec w) :
    OutRel (BitRel o h o.size) (BitWorld.reserveObj false e junk n o h) ((mbsOf h o).reserve e junk n) := by
  unfold BitWorld.reserveObj MBS.reserve
  rw [capacityObj_eq hv]
  by_cases hc : n ≤ (mbsOf h o).capacity e
  · rw [if_pos hc, if_pos hc]
    exact .ok ⟨BitStep.refl hv o.size, rfl⟩
  · rw [if_neg hc, if_neg hc]
    have := moved_rel hk hv (blocksFor w e n) o.nblocks junk
    rw [← show (mbsOf h o).blocks.length = o.nblocks from bitCells_length hv] at this ⊢
    exact this

theorem shrinkObj_rel {o : BitObj} {h : BlockHeap (BitVec w)} (hk : o.known = true) (hv : ValidBit o h) (e : Nat)
    (junk : Nat → BitVec w) :
    OutRel (BitRel o h o.size) (BitWorld.shrinkObj false e junk o h) ((mbsOf h o).shrinkToFit e junk) := by
  unfold BitWorld.shrinkObj MBS.shrinkToFit
  have hl : (mbsOf h o).blocks.length = o.nblocks := bitCells_length hv
  show OutRel _ (if blocksFor w e o.size = o.nblocks then _ else _)
    (if blocksFor w e o.size = (mbsOf h o).blocks.length then _ else _)
  rw [hl]
  by_cases hc : blocksFor w e o.size = o.nblocks
  · rw [if_pos hc, if_pos hc]
    exact .ok ⟨BitStep.refl hv o.size, rfl⟩
  · rw [if_neg hc, if_neg hc]
    exact moved_rel hk hv (blocksFor w e o.size) _ junk

theorem setValue_length {p e : Nat} {bs bs' : List (BitVec w)} {k : Nat} {v : BitVec w}
    (h : setValue p e bs k v = .ok bs') : bs'.length = bs.length := by
  have store : ∀ {l l' : List (BitVec w)} {i b}, storeB l i b = .ok l' → l'.length = l.length := by
    intro l l' i b h
    unfold storeB at h
    split at h
    · rw [← Out.ok.inj h]; simp
    · cases h
  unfold setValue at h
  dsimp only at h
  split at h
  · obtain ⟨_, _, h⟩ := Out.bind_eq_ok.1 h
    obtain ⟨_, _, h⟩ := Out.bind_eq_ok.1 h
    obtain ⟨_, h1, h⟩ := Out.bind_eq_ok.1 h
    obtain ⟨_, _, h⟩ := Out.bind_eq_ok.1 h
    obtain ⟨_, _, h⟩ := Out.bind_eq_ok.1 h
    rw [store h, store h1]
  · obtain ⟨_, _, h⟩ := Out.bind_eq_ok.1 h
    obtain ⟨_, _, h⟩ := Out.bind_eq_ok.1 h
    obtain ⟨_, h1, h⟩ := Out.bind_eq_ok.1 h
    obtain ⟨_, _, h⟩ := Out.bind_eq_ok.1 h
    obtain ⟨_, _, h⟩ := Out.bind_eq_ok.1 h
    obtain ⟨_, h2, h⟩ := Out.bind_eq_ok.1 h
    obtain ⟨_, _, h⟩ := Out.bind_eq_ok.1 h
    obtain ⟨_, _, h⟩ := Out.bind_eq_ok.1 h
    obtain ⟨_, h3, h⟩ := Out.bind_eq_ok.1 h
    obtain ⟨_, _, h⟩ := Out.bind_eq_ok.1 h
    obtain ⟨_, _, h⟩ := Out.bind_eq_ok.1 h
    rw [store h, store h3, store h2, store h1]

theorem setObj_rel {p e : Nat} {o : BitObj} {h : BlockHeap (BitVec w)} (hv : ValidBit o h) (k : Nat) (v : BitVec w) :
    OutRel (fun h' s => BitStep o o h h' s) (BitWorld.setObj p e o k v h)
      ((setValue p e (mbsOf h o).blocks k v).bind fun bs => .ok ⟨bs, o.size⟩) := by
  unfold BitWorld.setObj
  show OutRel _ (Out.bind (setValue p e (mbsOf h o).blocks k v) _) _
  rcases hm : setValue p e (mbsOf h o).blocks k v with d | _ | _
  · exact .ok (store_step hv (setValue_length hm))
  · exact .ub
  · exact .timeout

/-- Copying into an object's own blocks. -/
theorem bitCopy_rel {o : BitObj} {h : BlockHeap (BitVec w)} (hv : ValidBit o h) (src : Option Nat) (n : Nat) :
    OutRel (fun h' s => BitStep o o h h' s) (bitCopy false o.data src n h)
      ((memcpyB (mbsOf h o).blocks (heapCells h src) n).bind fun bs => .ok ⟨bs, o.size⟩) := by
  simp only [bitCopy, Bool.false_and, cond_false]
  show OutRel _ (Out.bind (memcpyB (mbsOf h o).blocks (heapCells h src) n) _) _
  rcases hm : memcpyB (mbsOf h o).blocks (heapCells h src) n with d | _ | _
  · exact .ok (store_step hv (memcpyB_length hm))
  · exact .ub
  · exact .timeout

theorem releaseObj_rel {o : BitObj} {h : BlockHeap (BitVec w)} (hv : ValidBit o h) :
    ∃ h', BitWorld.releaseObj o h = .ok h' ∧ ObjStep o.data none h h' := by
  unfold BitWorld.releaseObj
  rcases hv with ⟨h1, h2⟩ | ⟨a, c, hk, h1, h2, h3⟩
  · rw [h1]
    exact ⟨h, rfl, ObjStep.refl _ _⟩
  · rw [h1]
    exact ⟨_, heapFree_valid h2 h3, objStep_free⟩

end Heu
