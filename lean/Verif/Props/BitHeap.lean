import Verif.Lemmas.BitHeap

/-!
# C141: the memory of bit containers
-/

set_option linter.unusedVariables false
set_option linter.unusedSimpArgs false

namespace Heu
open Spec

variable {w : Nat}

/-- A world and the values it shows. -/
def ShowsBits (x : BitWorld w) (v : BitValues w) : Prop := v = bitView x ∧ BitMemoryOk x

theorem bitMemoryOk_start : BitMemoryOk (BitWorld.start : BitWorld w) :=
  ⟨(fun _ _ h => by cases h), (fun _ _ _ _ _ _ h => by cases h), (fun a cells h => by simp [BitWorld.start] at h)⟩

theorem bit_obj_cases (x : BitWorld w) (i : Nat) :
    (x.obj i = .ub ∧ (bitView x).get i = .ub) ∨
      ∃ o, x.objs i = some o ∧ o.known = true ∧ x.obj i = .ok o ∧ (bitView x).get i = .ok (mbsOf x.heap o) := by
  cases ho : x.objs i with
  | none => left; simp [BitWorld.obj, BitValues.get, ho, bitView_none ho]
  | some o =>
    cases hk : o.known with
    | false => left; simp [BitWorld.obj, BitValues.get, ho, bitView_some ho, bitViewOf, hk]
    | true => right; exact ⟨o, rfl, hk, by simp [BitWorld.obj, ho, hk], by simp [BitValues.get, bitView_some ho, bitViewOf, hk]⟩

theorem shows_of_step {x : BitWorld w} (hw : BitMemoryOk x) {i : Nat} {o o' : BitObj} {h' : BlockHeap (BitVec w)} {s : MBS w}
    (hi : x.objs i = some o) (hk : o.known = true) (hs : BitStep o o' x.heap h' s) :
    ShowsBits (({ x with heap := h' } : BitWorld w).put i (some o')) ((bitView x).put i (some (some s))) := by
  obtain ⟨h1, h2⟩ := bit_put_ok hw (i := i) (o' := some o') (h' := h') (by rw [hi]; exact hs.step)
    (by intro o ho; rw [← Option.some.inj ho]; exact hs.valid)
  refine ⟨?_, h1⟩
  rw [h2]
  congr 1
  have : o'.known = true := by rw [hs.known, hk]
  simp [bitViewOf, this, hs.value]

theorem shows_of_new {x : BitWorld w} (hw : BitMemoryOk x) {i : Nat} {o o' : BitObj} {h' : BlockHeap (BitVec w)} {s : MBS w}
    (hi : x.objs i = none) (ho : o.data = none) (hk : o.known = true) (hs : BitStep o o' x.heap h' s) :
    ShowsBits (({ x with heap := h' } : BitWorld w).put i (some o')) ((bitView x).put i (some (some s))) := by
  obtain ⟨h1, h2⟩ := bit_put_ok hw (i := i) (o' := some o') (h' := h') (by rw [hi]; have := hs.step; rw [ho] at this; exact this)
    (by intro o ho; rw [← Option.some.inj ho]; exact hs.valid)
  refine ⟨?_, h1⟩
  rw [h2]
  congr 1
  have : o'.known = true := by rw [hs.known, hk]
  simp [bitViewOf, this, hs.value]

theorem bit_put_same {x : BitWorld w} {i : Nat} {o : BitObj} (h : x.objs i = some o) (h' : BlockHeap (BitVec w)) :
    ({ x with heap := h' } : BitWorld w).put i (some o) = { x with heap := h' } := by
  simp only [BitWorld.put]
  congr 1
  funext k
  by_cases hk : k = i
  · subst hk; simp [h]
  · simp [hk]

/-- The blocks of another object are not changed by an operation on one object. -/
theorem other_cells {x : BitWorld w} (hw : BitMemoryOk x) {i j : Nat} {oi oj o' : BitObj} {h' : BlockHeap (BitVec w)}
    {s : MBS w} (hij : i ≠ j) (hi : ∀ o, x.objs i = some o → o.data = oi.data) (hj : x.objs j = some oj)
    (hnone : x.objs i = none → oi.data = none)
    (hs : BitStep oi o' x.heap h' s) : heapCells h' oj.data = heapCells x.heap oj.data := by
  rcases hw.owns j oj hj with ⟨h1, _⟩ | ⟨a, cells, _, h1, h2, h3⟩
  · rw [h1]; rfl
  · rw [h1, heapCells_of h2, heapCells_of (hs.step.frame a ?_ cells h2)]
    intro hoi
    cases ho : x.objs i with
    | none => rw [hnone ho] at hoi; cases hoi
    | some o => exact hw.separate i j o oj a hij ho hj (by rw [hi o ho]; exact hoi) h1

/-- One call on the heap is one step on the values: undefined in the same cases, with the same values afterwards, and
the memory stays in order. -/
theorem bit_call_refines (p e : Nat) {x : BitWorld w} (hw : BitMemoryOk x) (c : BitCall w) :
    OutRel ShowsBits (x.call false p e c) (BitValues.step p e (bitView x) c) := by
  have hempty : ∀ h : BlockHeap (BitVec w), ValidBit BitWorld.emptyObj h := fun h => Or.inl ⟨rfl, rfl⟩
  cases c with
  | create i =>
    simp only [BitWorld.call, BitValues.step]
    cases hi : x.objs i with
    | none =>
      rw [bitView_none hi]
      exact .ok (shows_of_new hw hi rfl rfl (BitStep.refl (hempty _) 0))
    | some o => rw [bitView_some hi]; exact .ub
  | createSize i n =>
    simp only [BitWorld.call, BitValues.step]
    cases hi : x.objs i with
    | some o => rw [bitView_some hi]; exact .ub
    | none =>
      rw [bitView_none hi]
      by_cases hn : n = 0
      · simp only [if_pos hn, Option.isNone_none, if_true]
        obtain ⟨h1, h2⟩ := bit_put_ok hw (i := i) (o' := some { known := false, data := none, nblocks := 0, size := 0 })
          (h' := x.heap) (by rw [hi]; exact ObjStep.refl _ _)
          (by intro o ho; rw [← Option.some.inj ho]; exact Or.inl ⟨rfl, rfl⟩)
        exact .ok ⟨h2.symm, h1⟩
      · simp only [if_neg hn, Option.isNone_none, if_true]
        obtain ⟨h', e1, s1⟩ := realloc_step (o := BitWorld.emptyObj) rfl (hempty x.heap)
          (List.replicate (blocksFor w e n) 0#w) n
        have := shows_of_new hw hi rfl rfl s1
        rw [← Out.ok.inj e1] at this
        simp only [mbsCtor, if_neg hn, heapAlloc]
        simp only [List.length_replicate] at this
        exact .ok this
  | copyCreate i j junk =>
    simp only [BitWorld.call, BitValues.step]
    cases hi : x.objs i with
    | some o => rw [bitView_some hi]; exact .ub
    | none =>
      rw [bitView_none hi]
      simp only [Option.isNone_none, if_true]
      rcases bit_obj_cases x j with ⟨h1, h2⟩ | ⟨b, hj, hk, h1, h2⟩
      · rw [h1, h2]; exact .ub
      · rw [h1, h2]
        simp only [Out.ok_bind]
        show OutRel _ _ (Out.bind (mbsCopy e junk (mbsOf x.heap b)) _)
        unfold mbsCopy
        by_cases hb : 0 < b.size
        · rw [if_pos hb, if_pos (show 0 < (mbsOf x.heap b).size from hb)]
          obtain ⟨o', h', e1, s1, hsz⟩ := resizeObj_rel_bit (o := BitWorld.emptyObj) rfl (hempty x.heap) e b.size junk
          rw [e1]
          simp only [Out.ok_bind]
          have hij : i ≠ j := by rintro rfl; rw [hi] at hj; cases hj
          have hc := bitCopy_rel s1.valid b.data (b.nblocks * (w / 8))
          rw [other_cells hw hij (by intro o ho; rw [hi] at ho; cases ho) hj (fun _ => rfl) s1] at hc
          have hlen : (heapCells x.heap b.data).length = b.nblocks := bitCells_length (hw.owns j b hj)
          have hval : (mbsEmpty : MBS w).resize e junk b.size = mbsOf h' o' := by
            rw [← s1.value]; rfl
          show OutRel _ (Out.bind (bitCopy false o'.data b.data (b.nblocks * (w / 8)) h') _)
            (Out.bind (Out.bind (memcpyB ((mbsEmpty : MBS w).resize e junk b.size).blocks (heapCells x.heap b.data)
              ((heapCells x.heap b.data).length * (w / 8))) _) _)
          rw [hlen, hval]
          generalize hB : memcpyB (mbsOf h' o').blocks (heapCells x.heap b.data) (b.nblocks * (w / 8)) = B at hc
          generalize bitCopy false o'.data b.data (b.nblocks * (w / 8)) h' = A at hc
          cases B with
          | ok d =>
            simp only [Out.bind] at hc ⊢
            cases hc with
            | ok hc =>
              refine .ok (shows_of_new hw hi rfl rfl (s1.trans ?_))
              rw [show ((mbsEmpty : MBS w).resize e junk (mbsOf x.heap b).size).size = o'.size from congrArg MBS.size hval]
              exact hc
          | ub => simp only [Out.bind] at hc ⊢; cases hc; exact .ub
          | timeout => simp only [Out.bind] at hc ⊢; cases hc; exact .timeout
        · rw [if_neg hb, if_neg (show ¬ 0 < (mbsOf x.heap b).size from hb)]
          exact .ok (shows_of_new hw hi rfl rfl (BitStep.refl (hempty _) 0))
  | assign i j junk =>
    simp only [BitWorld.call, BitValues.step]
    rcases bit_obj_cases x j with ⟨h1, h2⟩ | ⟨b, hj, hkj, h1, h2⟩
    · rw [h2, h1]
      rcases bit_obj_cases x i with ⟨h3, h4⟩ | ⟨o, hi, hki, h3, h4⟩
      · rw [h3]; exact .ub
      · rw [h3]; exact .ub
    · rw [h2, h1]
      rcases bit_obj_cases x i with ⟨h3, h4⟩ | ⟨o, hi, hki, h3, h4⟩
      · rw [h3]
        simp only [Out.ub_bind, Out.bind, BitValues.change, h4]
        exact .ub
      · rw [h3]
        simp only [Out.ok_bind, Out.bind, BitValues.change, h4]
        have hvi := hw.owns i o hi
        by_cases hb : b.size = 0
        · rw [if_pos hb]
          obtain ⟨o', h', e1, s1, hsz⟩ := resizeObj_rel_bit hki hvi e 0 junk
          rw [e1]
          have := shows_of_step hw hi hki s1
          by_cases hij : i = j
          · subst hij
            have hob : b = o := by rw [hi] at hj; exact (Option.some.inj hj).symm
            subst hob
            simp only [if_true, selfAssigned, if_pos (show (mbsOf x.heap b).size = 0 from hb)]
            have hr : (mbsOf x.heap b).resize e junk 0 = mbsOf x.heap b := by
              simp only [MBS.resize, Nat.zero_le, if_true, mbsOf, hb]
            rw [hr] at this
            exact .ok this
          · rw [if_neg hij]
            simp only [MBS.assign, if_pos (show (mbsOf x.heap b).size = 0 from hb)]
            exact .ok this
        · rw [if_neg hb]
          obtain ⟨o', h', e1, s1, hsz⟩ := resizeObj_rel_bit hki hvi e b.size junk
          rw [e1]
          simp only [Out.ok_bind]
          have hc := bitCopy_rel s1.valid (if i = j then o'.data else b.data) (blocksFor w e o'.size * (w / 8))
          have hsrc : heapCells h' (if i = j then o'.data else b.data) =
              if i = j then (mbsOf h' o').blocks else (mbsOf x.heap b).blocks := by
            by_cases hij : i = j
            · rw [if_pos hij, if_pos hij]; rfl
            · rw [if_neg hij, if_neg hij]
              exact other_cells hw hij (by intro q hq; rw [hi] at hq; rw [Option.some.inj hq]) hj
                (fun hn => by rw [hi] at hn; cases hn) s1
          have hgoal : (if i = j then selfAssigned e junk (mbsOf x.heap o) else (mbsOf x.heap o).assign e junk (mbsOf x.heap b)) =
              (memcpyB (mbsOf h' o').blocks (heapCells h' (if i = j then o'.data else b.data))
                (blocksFor w e o'.size * (w / 8))).bind fun d => .ok ⟨d, o'.size⟩ := by
            rw [hsrc]
            by_cases hij : i = j
            · subst hij
              have hob : b = o := by rw [hi] at hj; exact (Option.some.inj hj).symm
              subst hob
              simp only [if_true, selfAssigned, if_neg (show ¬ (mbsOf x.heap b).size = 0 from hb)]
              rw [show (mbsOf x.heap b).size = b.size from rfl, s1.value, hsz]
              rw [show (mbsOf h' o').size = b.size from hsz]
            · rw [if_neg hij, if_neg hij]
              simp only [MBS.assign]
              rw [if_neg (show ¬ (mbsOf x.heap b).size = 0 from hb), show (mbsOf x.heap b).size = b.size from rfl, s1.value]
              rfl
          rw [hgoal]
          generalize memcpyB (mbsOf h' o').blocks (heapCells h' (if i = j then o'.data else b.data))
            (blocksFor w e o'.size * (w / 8)) = B at hc
          show OutRel _ (Out.bind (bitCopy false o'.data (if i = j then o'.data else b.data) (blocksFor w e o'.size * (w / 8)) h') _) _
          generalize bitCopy false o'.data (if i = j then o'.data else b.data) (blocksFor w e o'.size * (w / 8)) h' = A at hc
          cases B with
          | ok d =>
            simp only [Out.bind] at hc ⊢
            cases hc with
            | ok hc => exact .ok (shows_of_step hw hi hki (s1.trans hc))
          | ub => simp only [Out.bind] at hc ⊢; cases hc; exact .ub
          | timeout => simp only [Out.bind] at hc ⊢; cases hc; exact .timeout
  | resize i n junk =>
    simp only [BitWorld.call, BitValues.step, BitValues.change]
    rcases bit_obj_cases x i with ⟨h3, h4⟩ | ⟨o, hi, hki, h3, h4⟩
    · rw [h3, h4]; exact .ub
    · rw [h3, h4]
      obtain ⟨o', h', e1, s1, hsz⟩ := resizeObj_rel_bit hki (hw.owns i o hi) e n junk
      simp only [Out.ok_bind, Out.bind, e1]
      exact .ok (shows_of_step hw hi hki s1)
  | reserve i n junk =>
    simp only [BitWorld.call, BitValues.step, BitValues.change]
    rcases bit_obj_cases x i with ⟨h3, h4⟩ | ⟨o, hi, hki, h3, h4⟩
    · rw [h3, h4]; exact .ub
    · rw [h3, h4]
      simp only [Out.ok_bind]
      exact (reserveObj_rel hki (hw.owns i o hi) e n junk).bind fun r s hs => .ok (shows_of_step hw hi hki hs.1)
  | shrink i junk =>
    simp only [BitWorld.call, BitValues.step, BitValues.change]
    rcases bit_obj_cases x i with ⟨h3, h4⟩ | ⟨o, hi, hki, h3, h4⟩
    · rw [h3, h4]; exact .ub
    · rw [h3, h4]
      simp only [Out.ok_bind]
      exact (shrinkObj_rel hki (hw.owns i o hi) e junk).bind fun r s hs => .ok (shows_of_step hw hi hki hs.1)
  | push i v junk =>
    simp only [BitWorld.call, BitValues.step, BitValues.change]
    rcases bit_obj_cases x i with ⟨h3, h4⟩ | ⟨o, hi, hki, h3, h4⟩
    · rw [h3, h4]; exact .ub
    · rw [h3, h4]
      simp only [Out.ok_bind]
      unfold MBS.pushBack
      show OutRel _ (Out.bind (BitWorld.reserveObj false e junk (o.size + 1) o x.heap) _)
        (Out.bind (Out.bind ((mbsOf x.heap o).reserve e junk (o.size + 1)) _) _)
      have hr := reserveObj_rel hki (hw.owns i o hi) e (o.size + 1) junk
      generalize (mbsOf x.heap o).reserve e junk (o.size + 1) = B at hr ⊢
      generalize BitWorld.reserveObj false e junk (o.size + 1) o x.heap = A at hr ⊢
      cases hr with
      | ub => exact .ub
      | timeout => exact .timeout
      | ok hr =>
        rename_i r s
        obtain ⟨s1, hsz⟩ := hr
        have hset := setObj_rel (p := p) (e := e) s1.valid r.1.size v
        rw [← s1.value] at hset
        have hss : s.size = r.1.size := by rw [s1.value]; rfl
        show OutRel _ (Out.bind (BitWorld.setObj p e r.1 r.1.size v r.2) _) (Out.bind (Out.bind (setValue p e s.blocks s.size v) _) _)
        rw [hss]
        generalize setValue p e s.blocks r.1.size v = B at hset ⊢
        generalize BitWorld.setObj p e r.1 r.1.size v r.2 = A at hset ⊢
        cases B with
        | ub => simp only [Out.bind] at hset ⊢; cases hset; exact .ub
        | timeout => simp only [Out.bind] at hset ⊢; cases hset; exact .timeout
        | ok bs =>
          simp only [Out.bind] at hset ⊢
          cases hset with
          | ok hset =>
            have h5 := s1.trans hset
            refine .ok (shows_of_step hw hi hki ?_)
            refine ⟨h5.known, ?_, h5.step, h5.valid, h5.grows⟩
            have := congrArg MBS.blocks h5.value
            simp only [mbsOf] at this ⊢
            rw [← this]
  | pop i =>
    simp only [BitWorld.call, BitValues.step, BitValues.change]
    rcases bit_obj_cases x i with ⟨h3, h4⟩ | ⟨o, hi, hki, h3, h4⟩
    · rw [h3, h4]; exact .ub
    · rw [h3, h4]
      simp only [Out.ok_bind, Out.bind, MBS.popBack]
      rw [show (mbsOf x.heap o).size = o.size from rfl]
      by_cases hs : 0 < o.size
      · rw [if_pos hs, if_pos hs]
        exact .ok (shows_of_step hw hi hki (BitStep.refl (hw.owns i o hi) (o.size - 1)))
      · rw [if_neg hs, if_neg hs]; exact .ub
  | clear i =>
    simp only [BitWorld.call, BitValues.step, BitValues.change]
    rcases bit_obj_cases x i with ⟨h3, h4⟩ | ⟨o, hi, hki, h3, h4⟩
    · rw [h3, h4]; exact .ub
    · rw [h3, h4]
      obtain ⟨h', e1, s1⟩ := releaseObj_rel (hw.owns i o hi)
      simp only [Out.ok_bind, Out.bind, e1]
      obtain ⟨k1, k2⟩ := bit_put_ok hw (i := i) (o' := some BitWorld.emptyObj) (h' := h') (by rw [hi]; exact s1)
        (by intro q hq; rw [← Option.some.inj hq]; exact hempty _)
      exact .ok ⟨k2.symm, k1⟩
  | write i k v =>
    simp only [BitWorld.call, BitValues.step, BitValues.change]
    rcases bit_obj_cases x i with ⟨h3, h4⟩ | ⟨o, hi, hki, h3, h4⟩
    · rw [h3, h4]; exact .ub
    · rw [h3, h4]
      simp only [Out.ok_bind, Out.bind, MBS.write]
      rw [show (mbsOf x.heap o).size = o.size from rfl]
      by_cases hs : k < o.size
      · rw [if_pos hs, if_pos hs]
        have hset := setObj_rel (p := p) (e := e) (hw.owns i o hi) k v
        show OutRel _ (Out.bind (BitWorld.setObj p e o k v x.heap) _)
          (Out.bind (Out.bind (setValue p e (mbsOf x.heap o).blocks k v) _) _)
        refine OutRel.bind (R := fun h' s => BitStep o o x.heap h' s) hset fun h' s hs => ?_
        have := shows_of_step hw hi hki hs
        rw [bit_put_same hi] at this
        exact .ok this
      · rw [if_neg hs, if_neg hs]; exact .ub
  | writeRef i k j l =>
    simp only [BitWorld.call, BitValues.step, BitValues.change]
    rcases bit_obj_cases x i with ⟨h3, h4⟩ | ⟨o, hi, hki, h3, h4⟩
    · rw [h3, h4]
      rcases bit_obj_cases x j with ⟨h1, h2⟩ | ⟨b, hj, hkj, h1, h2⟩
      · rw [h2]; exact .ub
      · rw [h2]; exact .ub
    · rw [h3, h4]
      rcases bit_obj_cases x j with ⟨h1, h2⟩ | ⟨b, hj, hkj, h1, h2⟩
      · rw [h2, h1]; exact .ub
      · rw [h2, h1]
        simp only [Out.ok_bind, Out.bind, MBS.write, MBS.read]
        rw [show (mbsOf x.heap o).size = o.size from rfl, show (mbsOf x.heap b).size = b.size from rfl]
        by_cases hk : k < o.size
        · by_cases hl : l < b.size
          · rw [if_pos ⟨hk, hl⟩, if_pos hk, if_pos hl]
            show OutRel _ (Out.bind (getValue p e (mbsOf x.heap b).blocks l) _)
              (Out.bind (Out.bind (getValue p e (mbsOf x.heap b).blocks l) _) _)
            rcases getValue p e (mbsOf x.heap b).blocks l with v | _ | _
            · have hset := setObj_rel (p := p) (e := e) (hw.owns i o hi) k v
              simp only [Out.bind, if_pos hk]
              show OutRel _ (Out.bind (BitWorld.setObj p e o k v x.heap) _)
                (Out.bind (Out.bind (setValue p e (mbsOf x.heap o).blocks k v) _) _)
              refine OutRel.bind (R := fun h' s => BitStep o o x.heap h' s) hset fun h' s hs => ?_
              have := shows_of_step hw hi hki hs
              rw [bit_put_same hi] at this
              exact .ok this
            · exact .ub
            · exact .timeout
          · rw [if_neg (fun h => hl h.2), if_pos hk, if_neg hl]; exact .ub
        · rw [if_neg (fun h => hk h.1), if_neg hk]; exact .ub
  | destroy i =>
    simp only [BitWorld.call, BitValues.step]
    rcases bit_obj_cases x i with ⟨h3, h4⟩ | ⟨o, hi, hki, h3, h4⟩
    · rw [h3, h4]; exact .ub
    · rw [h3, h4]
      obtain ⟨h', e1, s1⟩ := releaseObj_rel (hw.owns i o hi)
      simp only [Out.ok_bind, Out.bind, e1]
      obtain ⟨k1, k2⟩ := bit_put_ok hw (i := i) (o' := none) (h' := h') (by rw [hi]; exact s1)
        (by intro q hq; cases hq)
      exact .ok ⟨k2.symm, k1⟩

/-- C141: programs with any number of bit containers behave as if every container were a value of its own, whatever is
constructed, copied, assigned, resized and destroyed in whatever order: they are undefined in exactly the cases in which the
same operations on separate containers are, the contents are the same, and the memory is in order all the time. -/
theorem bits_are_values (p e : Nat) (cs : List (BitCall w)) :
    OutRel ShowsBits (BitWorld.run false p e BitWorld.start cs) (BitValues.run p e (fun _ => none) cs) := by
  have gen : ∀ (cs : List (BitCall w)) (x : BitWorld w), BitMemoryOk x →
      OutRel ShowsBits (BitWorld.run false p e x cs) (BitValues.run p e (bitView x) cs) := by
    intro cs
    induction cs with
    | nil => intro x hx; exact .ok ⟨rfl, hx⟩
    | cons c cs ih =>
      intro x hx
      refine OutRel.bind (bit_call_refines p e hx c) ?_
      rintro x' v ⟨rfl, hx'⟩
      exact ih x' hx'
  exact gen cs BitWorld.start bitMemoryOk_start

/-- C141: the memory is in order after every program. -/
theorem bit_memory_in_order (p e : Nat) (cs : List (BitCall w)) (x : BitWorld w)
    (h : BitWorld.run false p e BitWorld.start cs = .ok x) : BitMemoryOk x := by
  have := bits_are_values p e cs
  rw [h] at this
  generalize BitValues.run p e (fun _ => none) cs = y at this
  cases this with
  | ok h => exact h.2

/-- C141: when all containers are gone, so is their memory. -/
theorem bit_no_leak_at_end (p e : Nat) (cs : List (BitCall w)) (x : BitWorld w)
    (h : BitWorld.run false p e BitWorld.start cs = .ok x) (hall : ∀ i, x.objs i = none) : ∀ b ∈ x.heap, b = none := by
  intro b hb
  obtain ⟨a, ha, hab⟩ := List.mem_iff_getElem.1 hb
  cases b with
  | none => rfl
  | some cells =>
    obtain ⟨i, o, ho, _⟩ := (bit_memory_in_order p e cs x h).noLeak a cells (by rw [List.getElem?_eq_getElem ha, hab])
    rw [hall i] at ho
    cases ho

/-- C141: an operation on one container leaves every other one as it is. -/
theorem bit_others_untouched (p e : Nat) (cs : List (BitCall w)) (c : BitCall w) (x x' : BitWorld w)
    (h : BitWorld.run false p e BitWorld.start cs = .ok x) (hc : x.call false p e c = .ok x') (k : Nat)
    (hk : k ≠ BitCall.target c) : bitView x' k = bitView x k := by
  have hr := bit_call_refines p e (bit_memory_in_order p e cs x h) c
  rw [hc] at hr
  generalize hs : BitValues.step p e (bitView x) c = y at hr
  cases hr with
  | ok hr =>
  obtain ⟨rfl, _⟩ := hr
  have put : ∀ (i : Nat) (m : Option (Option (MBS w))), k ≠ i → ((bitView x).put i m) k = bitView x k := by
    intro i m hki
    simp [BitValues.put, hki]
  have change : ∀ (i : Nat) (f : MBS w → Out (MBS w)), k ≠ i → (bitView x).change i f = .ok (bitView x') →
      bitView x' k = bitView x k := by
    intro i f hki h
    obtain ⟨s, _, h⟩ := Out.bind_eq_ok.1 h
    obtain ⟨s', _, h⟩ := Out.bind_eq_ok.1 h
    rw [← Out.ok.inj h, put _ _ hki]
  cases c with
  | create i =>
    simp only [BitValues.step] at hs
    split at hs
    · rw [← Out.ok.inj hs, put i _ hk]
    · cases hs
  | createSize i n =>
    simp only [BitValues.step] at hs
    split at hs
    · rw [← Out.ok.inj hs, put i _ hk]
    · cases hs
  | copyCreate i j junk =>
    simp only [BitValues.step] at hs
    split at hs
    · obtain ⟨s, _, h⟩ := Out.bind_eq_ok.1 hs
      obtain ⟨s', _, h⟩ := Out.bind_eq_ok.1 h
      rw [← Out.ok.inj h, put i _ hk]
    · cases hs
  | assign i j junk =>
    obtain ⟨s, _, h⟩ := Out.bind_eq_ok.1 hs
    exact change _ _ hk h
  | resize i n junk => exact change _ _ hk hs
  | reserve i n junk => exact change _ _ hk hs
  | shrink i junk => exact change _ _ hk hs
  | push i v junk => exact change _ _ hk hs
  | pop i => exact change _ _ hk hs
  | clear i => exact change _ _ hk hs
  | write i k v => exact change _ _ hk hs
  | writeRef i k j l =>
    obtain ⟨s, _, h⟩ := Out.bind_eq_ok.1 hs
    exact change _ _ hk h
  | destroy i =>
    obtain ⟨s, _, h⟩ := Out.bind_eq_ok.1 hs
    rw [← Out.ok.inj h, put i _ hk]

/-! ### Legal programs -/

/-- A container with room for its elements, and not too many of them. -/
structure BitOk (e : Nat) (s : MBS w) : Prop where
  room : e * s.size ≤ w * s.blocks.length
  small : s.size * e ≤ 2 ^ 24

/-- All objects are usable containers. -/
def BitsOk (e : Nat) (v : BitValues w) : Prop := ∀ i m, v i = some m → ∃ s, m = some s ∧ BitOk e s

theorem bitsOk_put {e : Nat} {v : BitValues w} (hv : BitsOk e v) (i : Nat) (s : MBS w) (hs : BitOk e s) :
    BitsOk e (v.put i (some (some s))) := by
  intro k m hk
  by_cases hki : k = i
  · simp only [BitValues.put, if_pos hki] at hk
    exact ⟨s, (Option.some.inj hk).symm, hs⟩
  · simp only [BitValues.put, if_neg hki] at hk
    exact hv k m hk

theorem bits_of {e : Nat} {v : BitValues w} (hv : BitsOk e v) {i : Nat} {s : MBS w} (h : v i = some (some s)) :
    BitOk e s := by
  obtain ⟨t, ht, ok⟩ := hv i _ h
  rw [Option.some.inj ht]
  exact ok

theorem resize_bitOk {e n : Nat} (hw : 0 < w) (he : 0 < e) {s : MBS w} (hs : BitOk e s) (junk : Nat → BitVec w)
    (hn : n * e ≤ 2 ^ 24) : BitOk e (s.resize e junk n) ∧ (s.resize e junk n).size = n ∧
      blocksFor w e n ≤ (s.resize e junk n).blocks.length := by
  unfold MBS.resize
  by_cases hc : n ≤ s.capacity e
  · rw [if_pos hc]
    have h1 := (le_capacity_iff he s n).1 hc
    exact ⟨⟨h1, hn⟩, rfl, blocksFor_le hw hn (by rw [Nat.mul_comm]; exact h1)⟩
  · rw [if_neg hc]
    have := (blocksFor_bounds (w := w) hw hn).1
    refine ⟨⟨?_, hn⟩, rfl, by simp [freshBlocks]⟩
    simp only [freshBlocks, List.length_map, List.length_range]
    rw [Nat.mul_comm]
    exact this

theorem reserve_bitOk {e n : Nat} (hw : 8 ≤ w) (he : 0 < e) {s : MBS w} (hs : BitOk e s) (junk : Nat → BitVec w)
    (hn : n * e ≤ 2 ^ 24) : ∃ s', s.reserve e junk n = .ok s' ∧ BitOk e s' ∧ s'.size = s.size ∧
      e * n ≤ w * s'.blocks.length := by
  unfold MBS.reserve
  by_cases hc : n ≤ s.capacity e
  · rw [if_pos hc]
    exact ⟨s, rfl, hs, rfl, (le_capacity_iff he s n).1 hc⟩
  · rw [if_neg hc]
    rw [le_capacity_iff he] at hc
    have hb := (blocksFor_bounds (w := w) (by omega) hn).1
    rw [Nat.mul_comm n e] at hb
    have hlt : s.blocks.length ≤ blocksFor w e n :=
      Nat.le_of_lt (Nat.lt_of_mul_lt_mul_left (a := w) (by omega))
    have hlen : (freshBlocks junk (blocksFor w e n)).length = blocksFor w e n := by simp [freshBlocks]
    have h8 : 1 ≤ w / 8 := (Nat.le_div_iff_mul_le (by omega)).2 (by omega)
    obtain ⟨d, hd, hl, _⟩ := memcpyB_spec (dst := freshBlocks junk (blocksFor w e n)) (src := s.blocks)
      (n := s.blocks.length) (by omega)
      (by rw [hlen]; exact Nat.le_trans hlt (Nat.le_mul_of_pos_right _ h8)) (Nat.le_mul_of_pos_right _ h8)
    have hrm := hs.room
    have hmul := Nat.mul_le_mul_left w hlt
    refine ⟨{ s with blocks := d }, by rw [hd]; rfl, ⟨?_, hs.small⟩, rfl, ?_⟩
    · simp only [hl, hlen]; omega
    · simp only [hl, hlen]; exact hb

theorem legal_bit_step {p e : Nat} (f : BlockType w p e) (h8 : 8 ∣ w) {v : BitValues w} (hv : BitsOk e v) (c : BitCall w)
    (hc : LegalBitCall e v c) : ∃ v', BitValues.step p e v c = .ok v' ∧ BitsOk e v' := by
  have he := f.pos
  have hw : 8 ≤ w := Nat.le_of_dvd (by have := f.le; omega) h8
  have hw0 : 0 < w := by omega
  have hwp : w ≤ p := by rcases f.promoted with h | h <;> omega
  have get : ∀ {i : Nat} {s : MBS w}, v i = some (some s) → v.get i = .ok s := by
    intro i s h
    simp [BitValues.get, h]
  have change : ∀ {i : Nat} {s s' : MBS w} {g : MBS w → Out (MBS w)}, v i = some (some s) → g s = .ok s' → BitOk e s' →
      ∃ v', v.change i g = .ok v' ∧ BitsOk e v' := by
    intro i s s' g h1 h2 h3
    exact ⟨_, by simp only [BitValues.change, get h1, Out.bind, h2], bitsOk_put hv i s' h3⟩
  cases c with
  | create i =>
    rw [BitValues.step, show v i = none from hc]
    exact ⟨_, rfl, bitsOk_put hv _ _ ⟨by simp [mbsEmpty], by simp [mbsEmpty]⟩⟩
  | createSize i n =>
    obtain ⟨h1, h2, h3⟩ := hc
    rw [BitValues.step, h1]
    simp only [Option.isNone_none, if_true, if_neg h2]
    refine ⟨_, rfl, bitsOk_put hv _ _ ?_⟩
    rw [mbsCtor_pos _ h2]
    refine ⟨?_, h3⟩
    have := (blocksFor_bounds (w := w) hw0 h3).1
    simp only [List.length_replicate]
    rw [Nat.mul_comm]
    exact this
  | copyCreate i j junk =>
    obtain ⟨h1, b, h2, h3⟩ := hc
    have hb := bits_of hv h2
    rw [BitValues.step, h1, get h2]
    simp only [Option.isNone_none, if_true, Out.bind, mbsCopy]
    by_cases h0 : 0 < b.size
    · rw [if_pos h0]
      have h3 : b.blocks.length = blocksFor w e b.size := by
        rcases h3 with h3 | h3
        · omega
        · exact h3
      obtain ⟨hr, hsz, hbl⟩ := resize_bitOk (s := (mbsEmpty : MBS w)) hw0 he ⟨by simp [mbsEmpty], by simp [mbsEmpty]⟩ junk hb.small
      obtain ⟨d, hd, hl, _⟩ := memcpyB_blocks (dst := ((mbsEmpty : MBS w).resize e junk b.size).blocks) (src := b.blocks)
        (b := b.blocks.length) hw0 h8 (by rw [h3]; exact hbl) (Nat.le_refl _)
      simp only [hd, Out.ok_bind]
      refine ⟨_, rfl, bitsOk_put hv _ _ ⟨?_, hr.small⟩⟩
      have := hr.room
      simp only [hl]
      exact this
    · rw [if_neg h0]
      exact ⟨_, rfl, bitsOk_put hv _ _ ⟨by simp [mbsEmpty], by simp [mbsEmpty]⟩⟩
  | assign i j junk =>
    obtain ⟨s, b, h1, h2⟩ := hc
    have hs := bits_of hv h1
    have hb := bits_of hv h2
    rw [BitValues.step, get h2]
    simp only [Out.bind]
    by_cases hij : i = j
    · subst hij
      simp only [if_true]
      by_cases h0 : s.size = 0
      · exact change h1 (by rw [selfAssigned, if_pos h0]) hs
      · obtain ⟨hr, hsz, hbl⟩ := resize_bitOk hw0 he hs junk hs.small
        obtain ⟨d, hd, hl, _⟩ := memcpyB_blocks (dst := (s.resize e junk s.size).blocks) (src := (s.resize e junk s.size).blocks)
          (b := blocksFor w e s.size) hw0 h8 hbl hbl
        refine change h1 (s' := { s.resize e junk s.size with blocks := d }) ?_ ⟨?_, hr.small⟩
        · rw [selfAssigned, if_neg h0]
          simp only [hd, Out.bind]
        · simp only [hl]; exact hr.room
    · simp only [if_neg hij]
      by_cases h0 : b.size = 0
      · exact change h1 (by rw [MBS.assign, if_pos h0]) (resize_bitOk hw0 he hs junk (n := 0) (by simp)).1
      · obtain ⟨hr, hsz, hbl⟩ := resize_bitOk hw0 he hs junk hb.small
        obtain ⟨d, hd, hl, _⟩ := memcpyB_blocks (dst := (s.resize e junk b.size).blocks) (src := b.blocks)
          (b := blocksFor w e b.size) hw0 h8 hbl
          (blocksFor_le hw0 hb.small (by rw [Nat.mul_comm]; exact hb.room))
        refine change h1 (s' := { s.resize e junk b.size with blocks := d }) ?_ ⟨?_, hr.small⟩
        · rw [MBS.assign, if_neg h0]
          simp only [hsz, hd, Out.ok_bind]
          rfl
        · simp only [hl]; exact hr.room
  | resize i n junk =>
    obtain ⟨h0, s, h1⟩ := hc
    exact change h1 rfl (resize_bitOk hw0 he (bits_of hv h1) junk h0).1
  | reserve i n junk =>
    obtain ⟨h0, s, h1⟩ := hc
    obtain ⟨s', e1, ok, _⟩ := reserve_bitOk hw he (bits_of hv h1) junk h0
    exact change h1 e1 ok
  | shrink i junk =>
    obtain ⟨s, h1⟩ := hc
    have hs := bits_of hv h1
    by_cases hb : blocksFor w e s.size = s.blocks.length
    · exact change h1 (s' := s) (by simp only [MBS.shrinkToFit, if_pos hb]) hs
    · have hlen : (freshBlocks junk (blocksFor w e s.size)).length = blocksFor w e s.size := by simp [freshBlocks]
      obtain ⟨d, hd, hl, _⟩ := memcpyB_blocks (dst := freshBlocks junk (blocksFor w e s.size)) (src := s.blocks)
        (b := blocksFor w e s.size) hw0 h8 (by rw [hlen])
        (blocksFor_le hw0 hs.small (by rw [Nat.mul_comm]; exact hs.room))
      refine change h1 (s' := { s with blocks := d }) ?_ ⟨?_, hs.small⟩
      · simp only [MBS.shrinkToFit, if_neg hb]
        rw [Nat.mul_comm (w / 8), hd]
        rfl
      · have := (blocksFor_bounds (w := w) hw0 hs.small).1
        simp only [hl, hlen]
        rw [Nat.mul_comm]
        exact this
  | push i x junk =>
    obtain ⟨s, h1, h2⟩ := hc
    obtain ⟨s', e1, ok, hsz, hrm⟩ := reserve_bitOk hw he (bits_of hv h1) junk h2
    obtain ⟨bs, e2, hl, _⟩ := setValue_bits_gen hw0 f.promoted f.pos f.le s'.blocks s.size x hrm
    refine change h1 (s' := { blocks := bs, size := s.size + 1 }) ?_ ⟨?_, h2⟩
    · simp only [MBS.pushBack, e1, Out.ok_bind, hsz, e2]
      rfl
    · simp only [hl]; exact hrm
  | pop i =>
    obtain ⟨s, h1, h2⟩ := hc
    have hs := bits_of hv h1
    refine change h1 (s' := { s with size := s.size - 1 }) (by simp only [MBS.popBack, if_pos h2]) ⟨?_, ?_⟩
    · exact Nat.le_trans (Nat.mul_le_mul_left e (Nat.sub_le _ _)) hs.room
    · exact Nat.le_trans (Nat.mul_le_mul_right e (Nat.sub_le _ _)) hs.small
  | clear i =>
    obtain ⟨s, h1⟩ := hc
    exact change h1 rfl ⟨by simp [MBS.clear], by simp [MBS.clear]⟩
  | write i k x =>
    obtain ⟨s, h1, h2⟩ := hc
    have hs := bits_of hv h1
    obtain ⟨s', e1, hsz, hl, _⟩ := write_frame_any f s hs.room k h2 x
    exact change h1 e1 ⟨by rw [hsz, hl]; exact hs.room, by rw [hsz]; exact hs.small⟩
  | writeRef i k j l =>
    obtain ⟨s, b, h1, h2, h3, h4⟩ := hc
    have hs := bits_of hv h1
    have hb := bits_of hv h2
    rw [BitValues.step, get h2]
    simp only [Out.bind]
    obtain ⟨x, hx, _⟩ := getValue_bits hw0 hwp f.pos f.le b.blocks l
      (Nat.le_trans (Nat.mul_le_mul_left e h4) hb.room)
    obtain ⟨s', e1, hsz, hl, _⟩ := write_frame_any f s hs.room k h3 x
    refine change h1 (s' := s') ?_ ⟨by rw [hsz, hl]; exact hs.room, by rw [hsz]; exact hs.small⟩
    simp only [if_pos h3, MBS.read, if_pos h4, hx, e1]
  | destroy i =>
    obtain ⟨s, h1⟩ := hc
    rw [BitValues.step, get h1]
    refine ⟨_, rfl, ?_⟩
    intro k m hk
    by_cases hki : k = i
    · simp only [BitValues.put, if_pos hki] at hk
      cases hk
    · simp only [BitValues.put, if_neg hki] at hk
      exact hv k m hk

/-- C141 (partial): a legal program (any number of containers, any block type) does nothing undefined: no block is released
twice or used after its release, no access is out of range; and every container has memory of its own with room for its
elements.  (Missing: what `LegalBitCall` excludes, see below.) -/
theorem legal_bit_program_safe_partial {p e : Nat} (f : BlockType w p e) (h8 : 8 ∣ w) (cs : List (BitCall w))
    (h : LegalBitProgram p e (fun _ => none) cs) :
    ∃ x, BitWorld.run false p e BitWorld.start cs = .ok x ∧ BitMemoryOk x ∧
      ∀ i m, bitView x i = some m → ∃ s, m = some s ∧ e * s.size ≤ w * s.blocks.length := by
  have gen : ∀ (cs : List (BitCall w)) (v : BitValues w), BitsOk e v → LegalBitProgram p e v cs →
      ∃ v', BitValues.run p e v cs = .ok v' ∧ BitsOk e v' := by
    intro cs
    induction cs with
    | nil => intro v hv _; exact ⟨v, rfl, hv⟩
    | cons c cs ih =>
      rintro v hv ⟨h1, h2⟩
      obtain ⟨v1, e1, hv1⟩ := legal_bit_step f h8 hv c h1
      obtain ⟨v2, e2, hv2⟩ := ih v1 hv1 (h2 v1 e1)
      refine ⟨v2, ?_, hv2⟩
      rw [BitValues.run, e1]
      exact e2
  obtain ⟨v, hrun, hv⟩ := gen cs (fun _ => none) (by intro i m h; cases h) h
  have hr := bits_are_values p e cs
  rw [hrun] at hr
  generalize hx : BitWorld.run false p e BitWorld.start cs = y at hr
  cases hr with
  | ok hr =>
    obtain ⟨rfl, hm⟩ := hr
    refine ⟨_, rfl, hm, fun i m hi => ?_⟩
    obtain ⟨s, hs, ok⟩ := hv i m hi
    exact ⟨s, hs, ok.room⟩

/-! ### What is not legal -/

/-- C141 fails for `multiBitSet b(0)`: the members are never set, so whatever is done to that object next, be it its
destruction, is undefined. -/
theorem size_zero_fatal (strict : Bool) (p e : Nat) (x : BitWorld w) (i : Nat) (hi : x.objs i = none) (c : BitCall w)
    (hc : BitCall.target c = i) :
    ((x.call strict p e (.createSize i 0)).bind fun x => x.call strict p e c) = .ub := by
  subst hc
  cases c <;> simp only [BitCall.target] at hi <;>
    simp [BitWorld.call, BitCall.target, hi, Out.bind, BitWorld.put, BitWorld.obj]

/-- C141 fails for copies of containers with spare blocks (after `pop_back`, `reserve`, `resize` to less): the copy
constructor writes past its new blocks. -/
theorem copy_spare_undefined (hw : 8 ≤ w) {p e : Nat} (he : 0 < e) (cs : List (BitCall w)) (x : BitWorld w) (i j : Nat)
    (b : MBS w) (junk : Nat → BitVec w) (h : BitWorld.run false p e BitWorld.start cs = .ok x)
    (hj : bitView x j = some (some b)) (h0 : 0 < b.size) (hspare : blocksFor w e b.size < b.blocks.length) :
    x.call false p e (.copyCreate i j junk) = .ub := by
  have hr := bit_call_refines p e (bit_memory_in_order p e cs x h) (.copyCreate i j junk)
  have hu : BitValues.step p e (bitView x) (.copyCreate i j junk) = .ub := by
    simp only [BitValues.step, BitValues.get, hj, Out.bind, copy_ctor_overflows hw he b junk h0 hspare]
    split <;> rfl
  rw [hu] at hr
  generalize x.call false p e (.copyCreate i j junk) = y at hr
  cases hr
  rfl

/-- Assigning a container to itself keeps it, if it has room for its elements and at most 2^24 bits ... -/
theorem self_assign_keeps {p e : Nat} (he : 0 < e) (h8 : 8 ∣ w) (hw : 0 < w) (cs : List (BitCall w)) (x : BitWorld w) (i : Nat)
    (s : MBS w) (junk : Nat → BitVec w) (h : BitWorld.run false p e BitWorld.start cs = .ok x)
    (hi : bitView x i = some (some s)) (hroom : e * s.size ≤ w * s.blocks.length) (hn : s.size * e ≤ 2 ^ 24) :
    ∃ x', x.call false p e (.assign i i junk) = .ok x' ∧ bitView x' = bitView x := by
  have hr := bit_call_refines p e (bit_memory_in_order p e cs x h) (.assign i i junk)
  have hsame : (bitView x).put i (some (some s)) = bitView x := by
    funext k
    by_cases hk : k = i
    · subst hk; simp [BitValues.put, hi]
    · simp [BitValues.put, hk]
  have hself : selfAssigned e junk s = .ok s := by
    unfold selfAssigned
    by_cases h0 : s.size = 0
    · rw [if_pos h0]
    · rw [if_neg h0]
      have hres : s.resize e junk s.size = s := by
        unfold MBS.resize
        rw [if_pos ((le_capacity_iff he s s.size).2 hroom)]
      simp only [hres]
      have hle : blocksFor w e s.size ≤ s.blocks.length := blocksFor_le hw hn (by rw [Nat.mul_comm]; exact hroom)
      obtain ⟨d, hd, hl, hb⟩ := memcpyB_spec (dst := s.blocks) (src := s.blocks) (n := blocksFor w e s.size * (w / 8)) hw
        (Nat.mul_le_mul_right _ hle) (Nat.mul_le_mul_right _ hle)
      rw [hd]
      simp only [Out.bind]
      have : d = s.blocks := by
        refine List.ext_getElem hl fun k h1 h2 => ?_
        refine BitVec.eq_of_getLsbD_eq fun t ht => ?_
        have := hb k t h2 ht
        rw [ite_self, List.getD_eq_getElem _ _ h1, List.getD_eq_getElem _ _ h2] at this
        exact this
      rw [this]
  have hu : BitValues.step p e (bitView x) (.assign i i junk) = .ok (bitView x) := by
    simp only [BitValues.step, BitValues.get, BitValues.change, hi, Out.bind, if_true, hself, hsame]
  rw [hu] at hr
  generalize x.call false p e (.assign i i junk) = y at hr
  cases hr with
  | ok hr => exact ⟨_, rfl, hr.1.symm⟩

/-- ... but one whose memory is too small for its size (above 2^24 bits, C04) loses its contents: they are whatever the new
memory holds. -/
theorem self_assign_loses {p e : Nat} (cs : List (BitCall w)) (x : BitWorld w) (i : Nat)
    (s : MBS w) (junk : Nat → BitVec w) (h : BitWorld.run false p e BitWorld.start cs = .ok x)
    (hi : bitView x i = some (some s)) (h0 : s.capacity e < s.size) (h8 : 8 ∣ w) (hw : 0 < w) :
    ∃ x', x.call false p e (.assign i i junk) = .ok x' ∧
      bitView x' i = some (some ⟨freshBlocks junk (blocksFor w e s.size), s.size⟩) := by
  have hr := bit_call_refines p e (bit_memory_in_order p e cs x h) (.assign i i junk)
  have hself : selfAssigned e junk s = .ok ⟨freshBlocks junk (blocksFor w e s.size), s.size⟩ := by
    unfold selfAssigned
    rw [if_neg (by omega)]
    have hres : s.resize e junk s.size = ⟨freshBlocks junk (blocksFor w e s.size), s.size⟩ := by
      unfold MBS.resize
      rw [if_neg (by omega)]
    simp only [hres]
    generalize hF : freshBlocks junk (blocksFor w e s.size) = F
    have hlen : F.length = blocksFor w e s.size := by rw [← hF]; simp [freshBlocks]
    obtain ⟨d, hd, hl, hb⟩ := memcpyB_spec (dst := F) (src := F) (n := blocksFor w e s.size * (w / 8)) hw
      (by rw [hlen]) (by rw [hlen])
    rw [hd]
    simp only [Out.bind]
    have : d = F := by
      refine List.ext_getElem hl fun k h1 h2 => ?_
      refine BitVec.eq_of_getLsbD_eq fun t ht => ?_
      have := hb k t h2 ht
      rw [ite_self, List.getD_eq_getElem _ _ h1, List.getD_eq_getElem _ _ h2] at this
      exact this
    rw [this]
  have hu : BitValues.step p e (bitView x) (.assign i i junk) =
      .ok ((bitView x).put i (some (some ⟨freshBlocks junk (blocksFor w e s.size), s.size⟩))) := by
    simp only [BitValues.step, BitValues.get, BitValues.change, hi, Out.bind, if_true, hself]
  rw [hu] at hr
  generalize x.call false p e (.assign i i junk) = y at hr
  cases hr with
  | ok hr =>
    refine ⟨_, rfl, ?_⟩
    rw [← hr.1]
    simp [BitValues.put]

/-! ### By the letter of the standards -/

/-- Whatever the first computes, the second computes too. -/
def Implies {β : Type} (A B : Out β) : Prop := ∀ r, A = .ok r → B = .ok r

theorem Implies.refl {β : Type} (A : Out β) : Implies A A := fun _ h => h

theorem Implies.bind {β γ : Type} {A B : Out β} {f g : β → Out γ} (h : Implies A B) (hf : ∀ b, Implies (f b) (g b)) :
    Implies (A.bind f) (B.bind g) := by
  intro r hr
  obtain ⟨b, hb, hr⟩ := Out.bind_eq_ok.1 hr
  rw [h b hb]
  exact hf b r hr

theorem bitFree_implies (q : Option Nat) (n : Nat) (h : BlockHeap (BitVec w)) : Implies (bitFree true q n h) (bitFree false q n h) := by
  intro r hr
  cases q with
  | none => cases hr
  | some a => exact hr

theorem bitCopy_implies (d s : Option Nat) (n : Nat) (h : BlockHeap (BitVec w)) : Implies (bitCopy true d s n h) (bitCopy false d s n h) := by
  intro r hr
  unfold bitCopy at hr
  cases hc : (true && (d == none || s == none || (d == s && n != 0))) with
  | true => rw [hc] at hr; cases hr
  | false => rw [hc] at hr; exact hr

theorem resizeObj_implies (e : Nat) (junk : Nat → BitVec w) (n : Nat) (o : BitObj) (h : BlockHeap (BitVec w)) :
    Implies (BitWorld.resizeObj true e junk n o h) (BitWorld.resizeObj false e junk n o h) := by
  unfold BitWorld.resizeObj
  split
  · exact Implies.refl _
  · exact (bitFree_implies _ _ _).bind fun _ => Implies.refl _

theorem reserveObj_implies (e : Nat) (junk : Nat → BitVec w) (n : Nat) (o : BitObj) (h : BlockHeap (BitVec w)) :
    Implies (BitWorld.reserveObj true e junk n o h) (BitWorld.reserveObj false e junk n o h) := by
  unfold BitWorld.reserveObj
  split
  · exact Implies.refl _
  · exact (bitCopy_implies _ _ _ _).bind fun _ => (bitFree_implies _ _ _).bind fun _ => Implies.refl _

theorem shrinkObj_implies (e : Nat) (junk : Nat → BitVec w) (o : BitObj) (h : BlockHeap (BitVec w)) :
    Implies (BitWorld.shrinkObj true e junk o h) (BitWorld.shrinkObj false e junk o h) := by
  unfold BitWorld.shrinkObj
  dsimp only
  split
  · exact Implies.refl _
  · exact (bitCopy_implies _ _ _ _).bind fun _ => (bitFree_implies _ _ _).bind fun _ => Implies.refl _

theorem bit_call_implies (p e : Nat) (x : BitWorld w) (c : BitCall w) : Implies (x.call true p e c) (x.call false p e c) := by
  cases c with
  | create i => exact Implies.refl _
  | createSize i n => exact Implies.refl _
  | copyCreate i j junk =>
    simp only [BitWorld.call]
    cases x.objs i with
    | some _ => exact Implies.refl _
    | none =>
      refine (Implies.refl (x.obj j)).bind fun b => ?_
      split
      · exact (resizeObj_implies _ _ _ _ _).bind fun r => (bitCopy_implies _ _ _ _).bind fun _ => Implies.refl _
      · exact Implies.refl _
  | assign i j junk =>
    refine (Implies.refl (x.obj i)).bind fun o => (Implies.refl (x.obj j)).bind fun b => ?_
    dsimp only
    split
    · exact (resizeObj_implies _ _ _ _ _).bind fun r => Implies.refl _
    · exact (resizeObj_implies _ _ _ _ _).bind fun r => (bitCopy_implies _ _ _ _).bind fun _ => Implies.refl _
  | resize i n junk =>
    exact (Implies.refl (x.obj i)).bind fun o => (resizeObj_implies _ _ _ _ _).bind fun r => Implies.refl _
  | reserve i n junk =>
    exact (Implies.refl (x.obj i)).bind fun o => (reserveObj_implies _ _ _ _ _).bind fun r => Implies.refl _
  | shrink i junk =>
    exact (Implies.refl (x.obj i)).bind fun o => (shrinkObj_implies _ _ _ _).bind fun r => Implies.refl _
  | push i v junk =>
    exact (Implies.refl (x.obj i)).bind fun o => (reserveObj_implies _ _ _ _ _).bind fun r => Implies.refl _
  | pop i => exact Implies.refl _
  | clear i => exact Implies.refl _
  | write i k v => exact Implies.refl _
  | writeRef i k j l => exact Implies.refl _
  | destroy i => exact Implies.refl _

/-- C141: a program that is right by the letter of the standards is right on the common implementations, with the same
result; so everything above holds of it. -/
theorem strict_is_lenient (p e : Nat) (cs : List (BitCall w)) (x : BitWorld w)
    (h : BitWorld.run true p e BitWorld.start cs = .ok x) : BitWorld.run false p e BitWorld.start cs = .ok x := by
  have gen : ∀ (cs : List (BitCall w)) (y : BitWorld w), Implies (BitWorld.run true p e y cs) (BitWorld.run false p e y cs) := by
    intro cs
    induction cs with
    | nil => intro y; exact Implies.refl _
    | cons c cs ih => intro y; exact (bit_call_implies p e y c).bind fun z => ih z
  exact gen cs _ x h

/-- C141 fails by the letter of the standards: a default-constructed container cannot be given its first elements
(`deallocate(nullptr, 0)`), and so no non-empty container can be copied by the copy constructor. -/
theorem strict_first_growth_undefined (p e : Nat) (x : BitWorld w) (i : Nat) (hi : x.objs i = none) (junk : Nat → BitVec w) :
    (∀ v, ((x.call true p e (.create i)).bind fun x => x.call true p e (.push i v junk)) = .ub) ∧
    (∀ n, 0 < n → ((x.call true p e (.create i)).bind fun x => x.call true p e (.resize i n junk)) = .ub) ∧
    (∀ n, 0 < n → ((x.call true p e (.create i)).bind fun x => x.call true p e (.reserve i n junk)) = .ub) ∧
    (∀ j b, x.obj j = .ok b → 0 < b.size → x.call true p e (.copyCreate i j junk) = .ub) := by
  have hcap : BitWorld.capacityObj w e BitWorld.emptyObj = 0 := by simp [BitWorld.capacityObj, BitWorld.emptyObj]
  have hobj : (x.put i (some BitWorld.emptyObj)).obj i = .ok BitWorld.emptyObj := by
    simp [BitWorld.obj, BitWorld.put, BitWorld.emptyObj]
  have hres : ∀ n h, 0 < n → BitWorld.resizeObj true e junk n BitWorld.emptyObj h = .ub := by
    intro n h hn
    rw [BitWorld.resizeObj, hcap, if_neg (by omega)]
    rfl
  have hrsv : ∀ n h, 0 < n → BitWorld.reserveObj true e junk n BitWorld.emptyObj h = .ub := by
    intro n h hn
    rw [BitWorld.reserveObj, hcap, if_neg (by omega)]
    rfl
  refine ⟨fun v => ?_, fun n hn => ?_, fun n hn => ?_, fun j b hb h0 => ?_⟩
  · simp only [BitWorld.call, hi, Out.bind, hobj, Out.ok_bind]
    rw [hrsv _ _ (Nat.succ_pos _)]
    rfl
  · simp only [BitWorld.call, hi, Out.bind, hobj, Out.ok_bind]
    rw [hres _ _ hn]
    rfl
  · simp only [BitWorld.call, hi, Out.bind, hobj, Out.ok_bind]
    rw [hrsv _ _ hn]
    rfl
  · simp only [BitWorld.call, hi, hb, Out.ok_bind, if_pos h0]
    rw [hres _ _ h0]
    rfl

/-- ... and assigning a non-empty container to itself is a `memcpy` onto itself. -/
theorem strict_self_assign_undefined {p e : Nat} (he : 0 < e) (hw : 8 ≤ w) (x : BitWorld w) (i : Nat) (o : BitObj)
    (hi : x.obj i = .ok o) (h0 : 0 < o.size) (hn : o.size * e ≤ 2 ^ 24) (junk : Nat → BitVec w) :
    x.call true p e (.assign i i junk) = .ub := by
  have hpos : 0 < blocksFor w e o.size * (w / 8) := by
    have h1 := (blocksFor_bounds (w := w) (by omega) hn).1
    have h2 : 0 < o.size * e := Nat.mul_pos h0 he
    have h3 : 0 < blocksFor w e o.size := by
      by_contra hz
      rw [Nat.eq_zero_of_not_pos hz] at h1
      omega
    exact Nat.mul_pos h3 ((Nat.le_div_iff_mul_le (by omega)).2 (by omega))
  have hcopy : ∀ q h, bitCopy (w := w) true q q (blocksFor w e o.size * (w / 8)) h = .ub := by
    intro q h
    have : (q == none || q == none || (q == q && (blocksFor w e o.size * (w / 8)) != 0)) = true := by
      have : blocksFor w e o.size * (w / 8) ≠ 0 := by omega
      simp [this]
    simp only [bitCopy, this, Bool.and_true, cond_true]
  simp only [BitWorld.call, hi, Out.ok_bind, if_neg (show ¬ o.size = 0 by omega), if_true]
  have hsz : ∀ o' h, BitWorld.resizeObj true e junk o.size o x.heap = .ok (o', h) → o'.size = o.size := by
    intro o' h hr
    unfold BitWorld.resizeObj at hr
    split at hr
    · have := congrArg Prod.fst (Out.ok.inj hr)
      exact (congrArg BitObj.size this).symm
    · obtain ⟨h1, _, hr⟩ := Out.bind_eq_ok.1 hr
      have := congrArg Prod.fst (Out.ok.inj hr)
      exact (congrArg BitObj.size this).symm
  show Out.bind (BitWorld.resizeObj true e junk o.size o x.heap) _ = _
  rcases hr : BitWorld.resizeObj true e junk o.size o x.heap with ⟨o', h'⟩ | _ | _
  · simp only [Out.bind, hsz o' h' hr, hcopy]
    rfl
  · rfl
  · exfalso
    unfold BitWorld.resizeObj at hr
    split at hr
    · cases hr
    · dsimp only at hr
      generalize hf : bitFree true o.data o.nblocks (heapAlloc (freshBlocks junk (blocksFor w e o.size)) x.heap).2 = y at hr
      cases y with
      | ok z => cases hr
      | ub => cases hr
      | timeout =>
        unfold bitFree heapFree at hf
        split at hf
        · cases hf
        · split at hf
          · split at hf <;> cases hf
          · cases hf

/-! ### The hypotheses are met -/

/-- Three containers of 5-bit elements: growth, a copy, an assignment, an element copied across, destruction in another
order. -/
def demoBitProgram : List (BitCall 64) :=
  [.create 0, .createSize 1 14, .write 1 12 (45#64), .push 0 (7#64) (fun _ => 3#64), .copyCreate 2 1 (fun _ => 9#64),
   .assign 0 1 (fun _ => 1#64), .writeRef 2 3 0 12, .pop 1, .pop 1, .shrink 1 (fun _ => 5#64), .assign 1 1 (fun _ => 6#64), .clear 1,
   .destroy 2, .destroy 0, .destroy 1]

example : ∃ x, BitWorld.run false 64 5 BitWorld.start demoBitProgram = .ok x ∧ x.heap.length = 5 ∧ ∀ b ∈ x.heap, b = none :=
  ⟨_, rfl, by decide +kernel, by decide +kernel⟩

example : BlockType 64 64 5 ∧ LegalBitProgram (w := 64) 64 5 (fun _ => none)
    [.createSize 0 14, .copyCreate 1 0 (fun _ => 0#64), .push 1 (3#64) (fun _ => 0#64), .assign 0 0 (fun _ => 0#64),
     .destroy 0] := by
  refine ⟨⟨by decide, by decide, Or.inl rfl⟩, ⟨rfl, by decide, by decide⟩, fun v hv => ?_⟩
  rw [← Out.ok.inj hv]
  refine ⟨⟨rfl, _, rfl, Or.inr (by decide +kernel)⟩, fun v hv => ?_⟩
  obtain ⟨_, h1, hv⟩ := Out.bind_eq_ok.1 hv
  obtain ⟨s, h2, hv⟩ := Out.bind_eq_ok.1 hv
  have hs : s.size = 14 := by
    rw [← Out.ok.inj h1] at h2
    rw [← Out.ok.inj h2]
    decide +kernel
  rw [← Out.ok.inj hv]
  refine ⟨⟨s, rfl, by rw [hs]; decide⟩, fun v hv => ?_⟩
  obtain ⟨_, h3, hv⟩ := Out.bind_eq_ok.1 hv
  obtain ⟨t, h4, hv⟩ := Out.bind_eq_ok.1 hv
  rw [← Out.ok.inj hv]
  refine ⟨⟨_, _, rfl, rfl⟩, fun v hv => ?_⟩
  obtain ⟨_, h5, hv⟩ := Out.bind_eq_ok.1 hv
  obtain ⟨_, h6, hv⟩ := Out.bind_eq_ok.1 hv
  obtain ⟨_, h7, hv⟩ := Out.bind_eq_ok.1 hv
  rw [← Out.ok.inj hv]
  exact ⟨⟨_, rfl⟩, fun v hv => trivial⟩

/-- A reachable container with spare blocks: nine bytes in two 64-bit blocks, one popped. -/
example : ∃ x b, BitWorld.run false 64 8 BitWorld.start [.createSize 0 9, .pop 0] = .ok x ∧
    bitView x 0 = some (some (b : MBS 64)) ∧ 0 < b.size ∧ blocksFor 64 8 b.size < b.blocks.length :=
  ⟨_, _, rfl, rfl, by decide +kernel, by decide +kernel⟩

/-- A reachable container too small for its size: 2^24 + 1 bits. -/
example : ∃ x s, BitWorld.run false 64 1 BitWorld.start [.createSize 0 (2 ^ 24 + 1)] = .ok x ∧
    bitView x 0 = some (some (s : MBS 64)) ∧ s.capacity 1 < s.size := by
  have h := bits_are_values (w := 64) 64 1 [.createSize 0 (2 ^ 24 + 1)]
  have hv : BitValues.run 64 1 (fun _ => none) [.createSize (w := 64) 0 (2 ^ 24 + 1)] =
      .ok (BitValues.put (fun _ => none) 0 (some (some (mbsCtor 1 mbsEmpty (2 ^ 24 + 1))))) := by
    simp only [BitValues.run, BitValues.step, Option.isNone_none, if_true, Out.bind]
    rw [if_neg (by decide)]
  rw [hv] at h
  generalize BitWorld.run false 64 1 BitWorld.start [.createSize (w := 64) 0 (2 ^ 24 + 1)] = y at h
  cases h with
  | ok h =>
    refine ⟨_, mbsCtor 1 mbsEmpty (2 ^ 24 + 1), rfl, ?_, ?_⟩
    · rw [← h.1]; rfl
    · rw [(capacity_too_small mbsEmpty).1]
      exact (capacity_too_small mbsEmpty).2

end Heu
