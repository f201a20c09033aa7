import Verif.Lemmas.MatHeap

/-!
# C135: the memory of dynamic matrices
-/

set_option linter.unusedVariables false
set_option linter.unusedSimpArgs false

namespace Heu
open Spec

variable {α : Type}

/-- A world and the values it shows. -/
def ShowsValues (w : MatWorld α) (v : MatValues α) : Prop := v = matView w ∧ MemoryOk w

theorem memoryOk_start : MemoryOk (MatWorld.start : MatWorld α) :=
  ⟨(fun _ _ h => by cases h), (fun _ _ _ _ _ _ h => by cases h), (fun a cells h => by simp [MatWorld.start] at h)⟩

/-- Moving an object's members to a place that holds no memory, and clearing it. -/
theorem move_ok {w : MatWorld α} (hw : MemoryOk w) {i j : Nat} {oj : MatObj} (hj : w.objs j = some oj)
    (hi : ∀ o, w.objs i = some o → o.dataPtr = none) (hij : i ≠ j) (f : Nat → Option MatObj)
    (hf : f = fun k => if k = j then some { dataPtr := none, rowNum := 0, colNum := 0, capacity := 0 }
      else if k = i then some oj else w.objs k) :
    MemoryOk ({ objs := f, heap := w.heap } : MatWorld α) ∧
      matView ({ objs := f, heap := w.heap } : MatWorld α) =
        ((matView w).put i (some (viewOf w.heap oj))).put j (some DynMat.empty) := by
  have fj : f j = some { dataPtr := none, rowNum := 0, colNum := 0, capacity := 0 } := by rw [hf]; simp
  have fi : f i = some oj := by rw [hf]; simp [hij]
  have fk : ∀ k, k ≠ j → k ≠ i → f k = w.objs k := by
    intro k h1 h2
    rw [hf]
    simp [h1, h2]
  constructor
  · refine ⟨?_, ?_, ?_⟩
    · intro k o ho
      dsimp only at ho
      by_cases hkj : k = j
      · subst hkj
        rw [fj] at ho
        rw [← Option.some.inj ho]
        exact Or.inl ⟨rfl, rfl⟩
      · by_cases hki : k = i
        · subst hki
          rw [fi] at ho
          rw [← Option.some.inj ho]
          exact hw.owns j oj hj
        · rw [fk k hkj hki] at ho
          exact hw.owns k o ho
    · intro k l ok ol a hkl hk hl hka hla
      dsimp only at hk hl
      by_cases hkj : k = j
      · subst hkj
        rw [fj] at hk
        rw [← Option.some.inj hk] at hka
        cases hka
      by_cases hlj : l = j
      · subst hlj
        rw [fj] at hl
        rw [← Option.some.inj hl] at hla
        cases hla
      by_cases hki : k = i
      · subst hki
        rw [fi] at hk
        rw [← Option.some.inj hk] at hka
        rw [fk l hlj (Ne.symm hkl)] at hl
        exact hw.separate j l oj ol a (Ne.symm hlj) hj hl hka hla
      · rw [fk k hkj hki] at hk
        by_cases hli : l = i
        · subst hli
          rw [fi] at hl
          rw [← Option.some.inj hl] at hla
          exact hw.separate k j ok oj a hkj hk hj hka hla
        · rw [fk l hlj hli] at hl
          exact hw.separate k l ok ol a hkl hk hl hka hla
    · intro a cells hc
      obtain ⟨k, o, hk, ho⟩ := hw.noLeak a cells hc
      by_cases hkj : k = j
      · subst hkj
        rw [hj] at hk
        exact ⟨i, oj, fi, by rw [Option.some.inj hk]; exact ho⟩
      · by_cases hki : k = i
        · subst hki
          rw [hi o hk] at ho
          cases ho
        · exact ⟨k, o, by dsimp only; rw [fk k hkj hki, hk], ho⟩
  · funext k
    simp only [matView, MatValues.put]
    by_cases hkj : k = j
    · subst hkj
      rw [fj]
      simp [DynMat.empty, heapCells]
    · by_cases hki : k = i
      · subst hki
        rw [fi, if_neg hkj, if_pos rfl]
        rfl
      · rw [fk k hkj hki, if_neg hkj, if_neg hki]

/-- One call on the heap is one step on the values: undefined in the same cases, with the same values afterwards, and
the memory stays in order. -/
theorem call_refines (triv : Bool) (dflt : α) {w : MatWorld α} (hw : MemoryOk w) (c : MatCall α) :
    OutRel ShowsValues (w.call triv dflt c) (MatValues.step triv dflt (matView w) c) := by
  cases c with
  | create i =>
    simp only [MatWorld.call, MatValues.step]
    cases hi : w.objs i with
    | none =>
      rw [matView_none hi]
      obtain ⟨h1, h2⟩ := put_ok hw (i := i) (o' := some { dataPtr := none, rowNum := 0, colNum := 0, capacity := 0 })
        (h' := w.heap) (by rw [hi]; exact ObjStep.refl _ _)
        (by intro o ho; rw [← Option.some.inj ho]; exact Or.inl ⟨rfl, rfl⟩)
      exact .ok ⟨h2.symm, h1⟩
    | some o => rw [matView_some hi]; exact .ub
  | createShape i r c =>
    simp only [MatWorld.call, MatValues.step]
    cases hi : w.objs i with
    | some o => rw [matView_some hi]; exact .ub
    | none =>
      rw [matView_none hi]
      unfold DynMat.ctor
      rcases hn : intMul r c with n | _ | _
      · obtain ⟨v1, v2⟩ := valid_alloc (List.replicate n (if triv = true then none else some dflt)) w.heap r c n (by simp)
        obtain ⟨h1, h2⟩ := put_ok hw (i := i)
          (o' := some { dataPtr := some (heapAlloc (List.replicate n (if triv = true then none else some dflt)) w.heap).1,
                        rowNum := r, colNum := c, capacity := n })
          (h' := (heapAlloc (List.replicate n (if triv = true then none else some dflt)) w.heap).2)
          (by rw [hi]; exact objStep_alloc _ _)
          (by intro o ho; rw [← Option.some.inj ho]; exact v1)
        refine .ok ⟨?_, h1⟩
        refine Eq.trans ?_ h2.symm
        simp only [Option.map_some, viewOf, v2]
      · exact .ub
      · exact .timeout
  | moveCreate i j =>
    simp only [MatWorld.call, MatValues.step]
    cases hi : w.objs i with
    | some o => rw [matView_some hi]; exact .ub
    | none =>
      cases hj : w.objs j with
      | none => rw [matView_none hi, matView_none hj]; exact .ub
      | some oj =>
        rw [matView_none hi, matView_some hj]
        have hij : i ≠ j := by
          rintro rfl
          rw [hi] at hj
          cases hj
        obtain ⟨h1, h2⟩ := move_ok hw hj (by intro o ho; rw [hi] at ho; cases ho) hij _ rfl
        exact .ok ⟨h2.symm, h1⟩
  | moveAssign i j =>
    simp only [MatWorld.call, MatValues.step, MatWorld.moveAssignEnd]
    cases hi : w.objs i with
    | none => exact .ub
    | some oi =>
      cases hj : w.objs j with
      | none => exact .ub
      | some oj =>
        have := release_rel (triv := triv) (hw.owns i oi hi)
        show OutRel _ (((MatWorld.release triv oi w.heap).bind _).bind _) _
        revert this
        unfold DynMat.destroy destroyAll
        intro this
        generalize MatWorld.release triv oi w.heap = x at this ⊢
        cases x with
        | ok h => exact .ub
        | ub => exact .ub
        | timeout =>
          exfalso
          cases triv
          · simp only [Bool.false_eq_true, if_false, Bool.false_or] at this
            split at this <;> cases this
          · simp only [if_true] at this
            cases this
  | copyAssign i j =>
    simp only [MatWorld.call, MatValues.step]
    cases hi : w.objs i with
    | none => rw [matView_none hi]; exact .ub
    | some oi =>
      cases hj : w.objs j with
      | none => rw [matView_none hj, matView_some hi]; exact .ub
      | some oj =>
        rw [matView_some hi, matView_some hj]
        cases triv with
        | true => exact .ub
        | false =>
          simp only [Bool.false_eq_true, if_false]
          unfold DynMat.copyAssign
          show OutRel _ ((MatWorld.resizeObj false dflt oj.rowNum oj.colNum oi w.heap).bind _)
            (Out.bind (Out.bind ((viewOf w.heap oi).resize false dflt oj.rowNum oj.colNum) _) _)
          have hr := resizeObj_rel (triv := false) (dflt := dflt) (r := oj.rowNum) (c := oj.colNum) (hw.owns i oi hi)
          revert hr
          rcases hx : MatWorld.resizeObj false dflt oj.rowNum oj.colNum oi w.heap with ⟨o, h⟩ | _ | _
          · rcases hy : (viewOf w.heap oi).resize false dflt oj.rowNum oj.colNum with m | _ | _ <;> intro hr
            · cases hr with
              | ok hr =>
              obtain ⟨rfl, hs, hv⟩ := hr
              dsimp only at hs hv
              -- the source's cells are those it had, or the target's own
              have hsrc : ∀ k, cellGet (heapCells h (if i = j then o.dataPtr else oj.dataPtr)) k =
                  (viewOf w.heap oj).get k := by
                intro k
                unfold DynMat.get
                congr 1
                by_cases hij : i = j
                · rw [if_pos hij]
                  subst hij
                  rw [hi] at hj
                  cases hj
                  -- resizing to the own shape changes nothing
                  unfold MatWorld.resizeObj at hx
                  rcases hn : intMul oi.rowNum oi.colNum with n | _ | _
                  · rw [hn] at hx
                    have hnn : n = oi.rowNum * oi.colNum := by
                      unfold intMul at hn
                      split at hn
                      · exact (Out.ok.inj hn).symm
                      · cases hn
                    simp only [Out.ok_bind, ne_eq, hnn, not_true, if_false] at hx
                    have := Out.ok.inj hx
                    have e1 : oi = o := congrArg Prod.fst this
                    have e2 : w.heap = h := congrArg Prod.snd this
                    rw [← e1, ← e2]
                    rfl
                  · rw [hn] at hx; cases hx
                  · rw [hn] at hx; cases hx
                · rw [if_neg hij]
                  show heapCells h oj.dataPtr = heapCells w.heap oj.dataPtr
                  rcases hw.owns j oj hj with ⟨h1, _⟩ | ⟨a, cells, h1, h2, h3⟩
                  · rw [h1]; rfl
                  · rw [h1, heapCells_of h2]
                    refine heapCells_of (hs.frame a ?_ cells h2)
                    intro hp
                    exact hw.separate i j oi oj a hij hi hj hp h1
              have ha := assignCells_rel (triv := false) hsrc (k := o.rowNum * o.colNum) hv
              show OutRel _ (Out.bind (MatWorld.assignCells false _ (o.rowNum * o.colNum) o h) _)
                (Out.bind (Out.bind (DynMat.assignLoop false _ (o.rowNum * o.colNum) 0 (viewOf h o).buf) _) _)
              refine OutRel.bind ha ?_
              rintro h' m ⟨rfl, hs', hv'⟩
              have hst : ObjStep oi.dataPtr o.dataPtr w.heap h' := by
                refine ⟨fun a hp cells hc => ?_, hs.fresh, fun a cells hc => ?_⟩
                · refine hs'.frame a ?_ cells (hs.frame a hp cells hc)
                  intro hq
                  rcases hs.fresh a hq with h1 | h1
                  · exact hp h1
                  · rw [hc] at h1; cases h1
                · rcases hs'.back a cells hc with h1 | ⟨h1, h2⟩
                  · exact Or.inl h1
                  · rcases hs.back a cells h2 with h3 | h3
                    · exact Or.inl h3
                    · exact Or.inr h3
              obtain ⟨h1, h2⟩ := put_ok hw (i := i) (o' := some o) (h' := h') (by rw [hi]; exact hst)
                (by intro o' ho; rw [← Option.some.inj ho]; exact hv')
              exact .ok ⟨h2.symm, h1⟩
            · cases hr
            · cases hr
          · rcases hy : (viewOf w.heap oi).resize false dflt oj.rowNum oj.colNum with m | _ | _ <;> intro hr
            · cases hr
            · exact .ub
            · cases hr
          · rcases hy : (viewOf w.heap oi).resize false dflt oj.rowNum oj.colNum with m | _ | _ <;> intro hr
            · cases hr
            · cases hr
            · exact .timeout
  | assign i r c src =>
    simp only [MatWorld.call, MatValues.step]
    cases hi : w.objs i with
    | none => rw [matView_none hi]; exact .ub
    | some o =>
      rw [matView_some hi]
      unfold DynMat.assignFrom
      have key : OutRel (fun p m => m = viewOf p.2 p.1 ∧ ObjStep o.dataPtr p.1.dataPtr w.heap p.2 ∧ ValidObj p.1 p.2)
          ((MatWorld.resizeObj triv dflt r c o w.heap).bind fun p =>
            (MatWorld.assignCells triv (fun k => .ok (src k)) (r * c) p.1 p.2).bind fun h => .ok (p.1, h))
          (((viewOf w.heap o).resize triv dflt r c).bind fun m =>
            (DynMat.assignLoop triv (fun k => .ok (src k)) (r * c) 0 m.buf).bind fun b => .ok { m with buf := b }) := by
        refine OutRel.bind (resizeObj_rel (hw.owns i o hi)) ?_
        rintro ⟨o', h'⟩ m ⟨rfl, hs, hv⟩
        dsimp only at hs hv ⊢
        have ha := assignCells_rel (triv := triv) (f := fun k => .ok (src k)) (fun _ => rfl) (k := r * c) hv
        generalize MatWorld.assignCells triv (fun k => .ok (src k)) (r * c) o' h' = x at ha ⊢
        generalize (DynMat.assignLoop triv (fun k => .ok (src k)) (r * c) 0 (viewOf h' o').buf).bind
          (fun b => Out.ok { viewOf h' o' with buf := b }) = y at ha ⊢
        cases ha with
        | ub => exact .ub
        | timeout => exact .timeout
        | ok ha =>
          obtain ⟨rfl, hs', hv'⟩ := ha
          refine .ok ⟨rfl, ⟨fun a hp cells hc => ?_, hs.fresh, fun a cells hc => ?_⟩, hv'⟩
          · refine hs'.frame a ?_ cells (hs.frame a hp cells hc)
            intro hq
            rcases hs.fresh a hq with h1 | h1
            · exact hp h1
            · rw [hc] at h1; cases h1
          · rcases hs'.back a cells hc with h1 | ⟨h1, h2⟩
            · exact Or.inl h1
            · rcases hs.back a cells h2 with h3 | h3
              · exact Or.inl h3
              · exact Or.inr h3
      have := OutRel.bind (S := ShowsValues)
        (f := fun p : MatObj × MatHeap α => .ok (({ w with heap := p.2 } : MatWorld α).put i (some p.1)))
        (g := fun m => .ok ((matView w).put i (some m))) key (by
          rintro ⟨o', h'⟩ m ⟨rfl, hs, hv⟩
          obtain ⟨h1, h2⟩ := put_ok hw (i := i) (o' := some o') (h' := h') (by rw [hi]; exact hs)
            (by intro o'' ho; rw [← Option.some.inj ho]; exact hv)
          exact .ok ⟨h2.symm, h1⟩)
      refine Eq.mp (congrArg (fun x => OutRel ShowsValues x _) (Eq.symm ?_)) this
      show (MatWorld.resizeObj triv dflt r c o w.heap).bind _ = _
      rcases MatWorld.resizeObj triv dflt r c o w.heap with ⟨o', h'⟩ | _ | _
      · show (MatWorld.assignCells triv (fun k => .ok (src k)) (r * c) o' h').bind _ =
          Out.bind (Out.bind (MatWorld.assignCells triv (fun k => .ok (src k)) (r * c) o' h') _) _
        rcases MatWorld.assignCells triv (fun k => .ok (src k)) (r * c) o' h' with h'' | _ | _ <;> rfl
      · rfl
      · rfl
  | resize i r c =>
    simp only [MatWorld.call, MatValues.step]
    cases hi : w.objs i with
    | none => rw [matView_none hi]; exact .ub
    | some o =>
      rw [matView_some hi]
      refine OutRel.bind (resizeObj_rel (hw.owns i o hi)) ?_
      rintro ⟨o', h'⟩ m ⟨rfl, hs, hv⟩
      obtain ⟨h1, h2⟩ := put_ok hw (i := i) (o' := some o') (h' := h') (by rw [hi]; exact hs)
        (by intro o'' ho; rw [← Option.some.inj ho]; exact hv)
      exact .ok ⟨h2.symm, h1⟩
  | write i r c v =>
    simp only [MatWorld.call, MatValues.step]
    cases hi : w.objs i with
    | none => rw [matView_none hi]; exact .ub
    | some o =>
      rw [matView_some hi]
      unfold DynMat.set2 DynMat.set
      show OutRel _ ((cellSet triv (heapCells w.heap o.dataPtr) (o.rowNum * c + r) v).bind _)
        (Out.bind ((cellSet triv (heapCells w.heap o.dataPtr) (o.rowNum * c + r) v).bind _) _)
      rcases hc : cellSet triv (heapCells w.heap o.dataPtr) (o.rowNum * c + r) v with cells | _ | _
      · obtain ⟨h1, h2⟩ := viewOf_store (hw.owns i o hi) (cellSet_length hc)
        obtain ⟨h3, h4⟩ := put_ok hw (i := i) (o' := some o) (h' := heapStore w.heap o.dataPtr cells)
          (by rw [hi]; exact objStep_store _ _ _) (by intro o'' ho; rw [← Option.some.inj ho]; exact h2)
        have hsame : (({ w with heap := heapStore w.heap o.dataPtr cells } : MatWorld α).put i (some o)) =
            { w with heap := heapStore w.heap o.dataPtr cells } := by
          simp only [MatWorld.put]
          congr 1
          funext k
          by_cases hk : k = i
          · rw [if_pos hk, hk, hi]
          · rw [if_neg hk]
        rw [hsame] at h3 h4
        refine .ok ⟨?_, h3⟩
        rw [h4, Option.map_some, h1]
      · exact .ub
      · exact .timeout
  | fill i v =>
    simp only [MatWorld.call, MatValues.step]
    cases hi : w.objs i with
    | none => rw [matView_none hi]; exact .ub
    | some o =>
      rw [matView_some hi]
      unfold DynMat.fill
      refine OutRel.bind (assignCells_rel (triv := triv) (fun _ => rfl) (hw.owns i o hi)) ?_
      rintro h' m ⟨rfl, hs, hv⟩
      obtain ⟨h3, h4⟩ := put_ok hw (i := i) (o' := some o) (h' := h')
        (by rw [hi]; exact hs) (by intro o'' ho; rw [← Option.some.inj ho]; exact hv)
      have hsame : (({ w with heap := h' } : MatWorld α).put i (some o)) = { w with heap := h' } := by
        simp only [MatWorld.put]
        congr 1
        funext k
        by_cases hk : k = i
        · rw [if_pos hk, hk, hi]
        · rw [if_neg hk]
      rw [hsame] at h3 h4
      exact .ok ⟨h4.symm, h3⟩
  | destroy i =>
    simp only [MatWorld.call, MatValues.step]
    cases hi : w.objs i with
    | none => rw [matView_none hi]; exact .ub
    | some o =>
      rw [matView_some hi]
      refine OutRel.bind (release_rel (hw.owns i o hi)) ?_
      rintro h' _ ⟨hs, _⟩
      obtain ⟨h1, h2⟩ := put_ok hw (i := i) (o' := none) (h' := h') (by rw [hi]; exact hs) (by intro o ho; cases ho)
      exact .ok ⟨h2.symm, h1⟩

/-- C135: a program on matrices that own heap buffers behaves as the same program on matrices that are independent
values: undefined in exactly the same cases, and otherwise every variable shows the same shape, capacity and elements;
and the memory is always in order. -/
theorem matrices_are_values (triv : Bool) (dflt : α) (cs : List (MatCall α)) :
    OutRel ShowsValues (MatWorld.run triv dflt MatWorld.start cs) (MatValues.run triv dflt (fun _ => none) cs) := by
  have gen : ∀ (cs : List (MatCall α)) (w : MatWorld α), MemoryOk w →
      OutRel ShowsValues (MatWorld.run triv dflt w cs) (MatValues.run triv dflt (matView w) cs) := by
    intro cs
    induction cs with
    | nil => intro w hw; exact .ok ⟨rfl, hw⟩
    | cons c cs ih =>
      intro w hw
      rw [MatWorld.run, MatValues.run]
      refine OutRel.bind (call_refines triv dflt hw c) ?_
      rintro w' v ⟨rfl, hw'⟩
      exact ih w' hw'
  have := gen cs MatWorld.start memoryOk_start
  have hs : matView (MatWorld.start : MatWorld α) = fun _ => none := by
    funext i
    rfl
  rwa [hs] at this

/-- C135: after any program, every matrix owns a live block of exactly its capacity, no block has two owners, none is
without one. -/
theorem memory_in_order (triv : Bool) (dflt : α) (cs : List (MatCall α)) (w : MatWorld α)
    (h : MatWorld.run triv dflt MatWorld.start cs = .ok w) : MemoryOk w := by
  have := matrices_are_values triv dflt cs
  rw [h] at this
  generalize MatValues.run triv dflt (fun _ => none) cs = y at this
  cases this with
  | ok h => exact h.2

/-- C135: when all matrices are gone, all memory has been released. -/
theorem nothing_leaks (triv : Bool) (dflt : α) (cs : List (MatCall α)) (w : MatWorld α)
    (h : MatWorld.run triv dflt MatWorld.start cs = .ok w) (hall : ∀ i, w.objs i = none) :
    ∀ b ∈ w.heap, b = none := by
  intro b hb
  obtain ⟨a, ha, hab⟩ := List.mem_iff_getElem.1 hb
  cases b with
  | none => rfl
  | some cells =>
    obtain ⟨i, o, ho, _⟩ := (memory_in_order triv dflt cs w h).noLeak a cells (by rw [List.getElem?_eq_getElem ha, hab])
    rw [hall i] at ho
    cases ho

/-- C135: an operation on some matrices leaves every other one as it is. -/
theorem others_untouched (triv : Bool) (dflt : α) (cs : List (MatCall α)) (c : MatCall α) (w w' : MatWorld α)
    (h : MatWorld.run triv dflt MatWorld.start cs = .ok w) (hc : w.call triv dflt c = .ok w') (k : Nat)
    (hk : ¬ Touches c k) :
    matView w' k = matView w k := by
  have hr := call_refines triv dflt (memory_in_order triv dflt cs w h) c
  rw [hc] at hr
  generalize hs : MatValues.step triv dflt (matView w) c = y at hr
  cases hr with
  | ok hr =>
  obtain ⟨rfl, _⟩ := hr
  have fin : ∀ {i : Nat} {m : Option (DynMat α)} {x : Out (DynMat α)}, k ≠ i →
      (x.bind fun m => .ok ((matView w).put i (some m))) = .ok (matView w') → matView w' k = matView w k := by
    intro i m x hki hx
    obtain ⟨m, _, hm⟩ := Out.bind_eq_ok.1 hx
    rw [← Out.ok.inj hm]
    simp [MatValues.put, hki]
  cases c with
  | create i =>
    simp only [MatValues.step] at hs
    split at hs
    · rw [← Out.ok.inj hs]; simp [MatValues.put, show k ≠ i from hk]
    · cases hs
  | createShape i r c =>
    simp only [MatValues.step] at hs
    split at hs
    · exact fin (m := none) hk hs
    · cases hs
  | moveCreate i j =>
    simp only [MatValues.step] at hs
    split at hs
    · rw [← Out.ok.inj hs]; simp [MatValues.put, show k ≠ i from fun h => hk (Or.inl h), show k ≠ j from fun h => hk (Or.inr h)]
    · cases hs
  | moveAssign i j => cases hs
  | copyAssign i j =>
    simp only [MatValues.step] at hs
    split at hs
    · split at hs
      · cases hs
      · exact fin (m := none) hk hs
    · cases hs
  | assign i r c src =>
    simp only [MatValues.step] at hs
    split at hs
    · exact fin (m := none) hk hs
    · cases hs
  | resize i r c =>
    simp only [MatValues.step] at hs
    split at hs
    · exact fin (m := none) hk hs
    · cases hs
  | write i r c v =>
    simp only [MatValues.step] at hs
    split at hs
    · exact fin (m := none) hk hs
    · cases hs
  | fill i v =>
    simp only [MatValues.step] at hs
    split at hs
    · exact fin (m := none) hk hs
    · cases hs
  | destroy i =>
    simp only [MatValues.step] at hs
    split at hs
    · obtain ⟨u, _, hu⟩ := Out.bind_eq_ok.1 hs
      rw [← Out.ok.inj hu]
      simp [MatValues.put, show k ≠ i from hk]
    · cases hs

/-! ### Legal programs -/

/-- All values have their memory in order. -/
def ValuesOk (triv : Bool) (v : MatValues α) : Prop := ∀ i m, v i = some m → MatInv triv m

theorem valuesOk_put {triv : Bool} {v : MatValues α} (hv : ValuesOk triv v) (i : Nat) (m : Option (DynMat α))
    (hm : ∀ m', m = some m' → MatInv triv m') : ValuesOk triv (v.put i m) := by
  intro k m' hk
  by_cases hki : k = i
  · simp only [MatValues.put, if_pos hki] at hk
    exact hm m' hk
  · simp only [MatValues.put, if_neg hki] at hk
    exact hv k m' hk

theorem inv_empty (triv : Bool) : MatInv triv (DynMat.empty : DynMat α) :=
  ⟨by simp [DynMat.empty, DynMat.size], rfl, Or.inr (by simp [DynMat.empty])⟩

theorem legal_step (triv : Bool) (dflt : α) {v : MatValues α} (hv : ValuesOk triv v) (c : MatCall α)
    (hc : LegalCall triv v c) : ∃ v', MatValues.step triv dflt v c = .ok v' ∧ ValuesOk triv v' := by
  have viaOp : ∀ (i : Nat) (m : DynMat α) (op : MatOp α), v i = some m → op.Ok triv m →
      ∃ v', ((op.run triv dflt m).bind fun m => .ok (v.put i (some m))) = .ok v' ∧ ValuesOk triv v' := by
    intro i m op hi hop
    obtain ⟨m', h1, h2⟩ := matOp_ok (dflt := dflt) (hv i m hi) op hop
    refine ⟨v.put i (some m'), by rw [h1]; rfl, valuesOk_put hv _ _ ?_⟩
    intro m'' h
    rw [← Option.some.inj h]
    exact h2
  cases c with
  | create i =>
    rw [MatValues.step, show v i = none from hc]
    exact ⟨_, rfl, valuesOk_put hv _ _ (by intro m h; rw [← Option.some.inj h]; exact inv_empty triv)⟩
  | createShape i r c =>
    obtain ⟨h1, h2⟩ := hc
    rw [MatValues.step, h1]
    simp only [DynMat.ctor, intMul, if_pos h2, Out.ok_bind]
    refine ⟨_, rfl, valuesOk_put hv _ _ ?_⟩
    intro m h
    rw [← Option.some.inj h]
    refine ⟨Nat.le_refl _, by simp, ?_⟩
    cases triv
    · right
      intro c hc
      have := List.eq_of_mem_replicate hc
      simp [this]
    · exact Or.inl rfl
  | moveCreate i j =>
    obtain ⟨h1, m, h2⟩ := hc
    rw [MatValues.step, h1, h2]
    refine ⟨_, rfl, valuesOk_put (valuesOk_put hv _ _ ?_) _ _ ?_⟩
    · intro m' h
      rw [← Option.some.inj h]
      exact hv j m h2
    · intro m' h
      rw [← Option.some.inj h]
      exact inv_empty triv
  | moveAssign i j => exact absurd hc id
  | copyAssign i j =>
    obtain ⟨rfl, m, src, h1, h2, h3, h4⟩ := hc
    rw [MatValues.step, h1, h2]
    simp only [Bool.false_eq_true, if_false]
    have hm := hv i m h1
    have hs := hv j src h2
    obtain ⟨m1, e1, i1, r1, c1, b1, _⟩ := resize_spec (dflt := dflt) hm h3 (Or.inr h4)
    have hlive : ∀ c ∈ src.buf, c.isSome = true := hs.live.resolve_left (by simp)
    have hget : ∀ k, 0 ≤ k → k < 0 + m1.size → (fun k => src.get k) k = .ok ((src.buf[k]?.getD none).getD dflt) := by
      intro k _ hk
      have hk' : k < src.buf.length := by
        have h5 := hs.fits
        have h6 := hs.buffer
        have : m1.size = src.size := by simp [DynMat.size, r1, c1]
        omega
      have hsome := hlive _ (List.getElem_mem hk')
      obtain ⟨x, hx⟩ := Option.isSome_iff_exists.1 hsome
      simp only [DynMat.get, cellGet, List.getElem?_eq_getElem hk', hx, Option.getD_some]
    have hfit : 0 + m1.size ≤ m1.buf.length := by
      have := i1.fits
      have := i1.buffer
      omega
    obtain ⟨b, e2, l2, live2, _⟩ := assignLoop_spec (triv := false) m1.size 0 m1.buf hfit i1.live hget
    refine ⟨v.put i (some { m1 with buf := b }), ?_, valuesOk_put hv _ _ ?_⟩
    · simp only [DynMat.copyAssign, e1, Out.ok_bind, e2]
      rfl
    · intro m' h
      rw [← Option.some.inj h]
      exact ⟨i1.fits, by rw [l2]; exact i1.buffer, live2⟩
  | assign i r c src =>
    obtain ⟨m, h1, h2⟩ := hc
    rw [MatValues.step, h1]
    exact viaOp i m (.assign r c src) h1 h2
  | resize i r c =>
    obtain ⟨m, h1, h2⟩ := hc
    rw [MatValues.step, h1]
    exact viaOp i m (.resize r c) h1 h2
  | write i r c x =>
    obtain ⟨m, h1, h2⟩ := hc
    rw [MatValues.step, h1]
    exact viaOp i m (.write r c x) h1 h2
  | fill i x =>
    obtain ⟨m, h1⟩ := hc
    rw [MatValues.step, h1]
    exact viaOp i m (.fill x) h1 trivial
  | destroy i =>
    obtain ⟨m, h1⟩ := hc
    rw [MatValues.step, h1]
    refine ⟨v.put i none, ?_, valuesOk_put hv _ _ (by intro m h; cases h)⟩
    have hm := hv i m h1
    cases triv
    · have : ∀ c ∈ m.buf, c.isSome = true := hm.live.resolve_left (by simp)
      have hall : m.buf.all (·.isSome) = true := by
        rw [List.all_eq_true]
        exact this
      simp [DynMat.destroy, destroyAll, hall, Out.bind]
    · rfl

/-- C135: a legal program (any number of matrices; construction, moves, assignments, resizing, element access,
destruction, in any order) does nothing undefined: no buffer is released twice or used after its release, no access is
out of range; and its matrices have buffers of their own that hold their elements. -/
theorem legal_program_safe_partial (triv : Bool) (dflt : α) (cs : List (MatCall α))
    (h : LegalProgram triv dflt (fun _ => none) cs) :
    ∃ w, MatWorld.run triv dflt MatWorld.start cs = .ok w ∧ MemoryOk w ∧
      ∀ i m, matView w i = some m → m.size ≤ m.capacity ∧ m.buf.length = m.capacity := by
  have gen : ∀ (cs : List (MatCall α)) (v : MatValues α), ValuesOk triv v → LegalProgram triv dflt v cs →
      ∃ v', MatValues.run triv dflt v cs = .ok v' ∧ ValuesOk triv v' := by
    intro cs
    induction cs with
    | nil => intro v hv _; exact ⟨v, rfl, hv⟩
    | cons c cs ih =>
      rintro v hv ⟨h1, h2⟩
      obtain ⟨v1, e1, hv1⟩ := legal_step triv dflt hv c h1
      obtain ⟨v2, e2, hv2⟩ := ih v1 hv1 (h2 v1 e1)
      refine ⟨v2, ?_, hv2⟩
      rw [MatValues.run, e1]
      exact e2
  obtain ⟨v, e, hv⟩ := gen cs (fun _ => none) (by intro i m h; cases h) h
  have hr := matrices_are_values triv dflt cs
  rw [e] at hr
  generalize hx : MatWorld.run triv dflt MatWorld.start cs = x at hr
  cases hr with
  | ok hr =>
    obtain ⟨rfl, hm⟩ := hr
    refine ⟨_, rfl, hm, fun i m hi => ?_⟩
    have := hv i m hi
    exact ⟨this.fits, this.buffer.symm⟩

/-! ### What is not legal -/

/-- C135 fails for move assignment: it is undefined in every state (its body ends without `return`) ... -/
theorem move_assign_undefined (triv : Bool) (dflt : α) (cs : List (MatCall α)) (w : MatWorld α)
    (h : MatWorld.run triv dflt MatWorld.start cs = .ok w) (i j : Nat) : w.call triv dflt (.moveAssign i j) = .ub := by
  have hr := call_refines triv dflt (memory_in_order triv dflt cs w h) (.moveAssign i j)
  rw [show MatValues.step triv dflt (matView w) (.moveAssign i j) = .ub from rfl] at hr
  generalize w.call triv dflt (.moveAssign i j) = x at hr
  cases hr
  rfl

/-- ... although up to its closing brace it is right: the target has the source's value, the source is empty, the
target's old buffer is released and nothing leaks; a matrix moved to itself is empty. -/
theorem move_assign_end (dflt : α) (cs : List (MatCall α)) (w : MatWorld α)
    (h : MatWorld.run true dflt MatWorld.start cs = .ok w) (i j : Nat) (m src : DynMat α) (hi : matView w i = some m)
    (hj : matView w j = some src) :
    ∃ w', MatWorld.moveAssignEnd true i j w = .ok w' ∧ MemoryOk w' ∧
      matView w' = ((matView w).put i (some src)).put j (some DynMat.empty) := by
  have hw := memory_in_order true dflt cs w h
  obtain ⟨oi, hoi⟩ : ∃ oi, w.objs i = some oi := by
    cases ho : w.objs i with
    | none => rw [matView_none ho] at hi; cases hi
    | some oi => exact ⟨oi, rfl⟩
  obtain ⟨oj, hoj⟩ : ∃ oj, w.objs j = some oj := by
    cases ho : w.objs j with
    | none => rw [matView_none ho] at hj; cases hj
    | some oj => exact ⟨oj, rfl⟩
  have hsrc : viewOf w.heap oj = src := by
    rw [matView_some hoj] at hj
    exact Option.some.inj hj
  have hrel := release_rel (triv := true) (hw.owns i oi hoi)
  rw [show (viewOf w.heap oi).destroy true = .ok () from rfl] at hrel
  generalize hx : MatWorld.release true oi w.heap = x at hrel
  cases hrel with
  | ok hrel =>
  rename_i h' _
  obtain ⟨hs, _⟩ := hrel
  -- first the target becomes an empty matrix
  obtain ⟨h1, h2⟩ := put_ok hw (i := i) (o' := some { dataPtr := none, rowNum := 0, colNum := 0, capacity := 0 }) (h' := h')
    (by rw [hoi]; exact hs) (by intro o ho; rw [← Option.some.inj ho]; exact Or.inl ⟨rfl, rfl⟩)
  simp only [MatWorld.moveAssignEnd, hoi, hoj, hx, Out.ok_bind]
  by_cases hij : i = j
  · subst hij
    have hself : ({ objs := fun k => if k = i then some { dataPtr := none, rowNum := 0, colNum := 0, capacity := 0 }
          else if k = i then some { dataPtr := oj.dataPtr, rowNum := oj.rowNum, colNum := oj.colNum, capacity := oj.capacity }
          else w.objs k, heap := h' } : MatWorld α) =
        ({ w with heap := h' } : MatWorld α).put i (some { dataPtr := none, rowNum := 0, colNum := 0, capacity := 0 }) := by
      simp only [MatWorld.put]
      congr 1
      funext k
      by_cases hk : k = i <;> simp [hk]
    refine ⟨_, rfl, ?_, ?_⟩
    · rw [hself]
      exact h1
    · rw [hself, h2]
      funext k
      by_cases hk : k = i <;> simp [MatValues.put, hk, viewOf, DynMat.empty, heapCells]
  · have hj' : (({ w with heap := h' } : MatWorld α).put i
        (some { dataPtr := none, rowNum := 0, colNum := 0, capacity := 0 })).objs j = some oj := by
      simp [MatWorld.put, Ne.symm hij, hoj]
    obtain ⟨h3, h4⟩ := move_ok h1 (i := i) hj'
      (by intro o ho; simp only [MatWorld.put, if_true] at ho; rw [← Option.some.inj ho]) hij _ rfl
    have hobj : (fun k => if k = j then some ({ dataPtr := none, rowNum := 0, colNum := 0, capacity := 0 } : MatObj)
          else if k = i then some oj
          else (({ w with heap := h' } : MatWorld α).put i
            (some { dataPtr := none, rowNum := 0, colNum := 0, capacity := 0 })).objs k) =
        fun k => if k = j then some { dataPtr := none, rowNum := 0, colNum := 0, capacity := 0 }
          else if k = i then some { dataPtr := oj.dataPtr, rowNum := oj.rowNum, colNum := oj.colNum, capacity := oj.capacity }
          else w.objs k := by
      funext k
      by_cases hk : k = i <;> simp [MatWorld.put, hk]
    rw [hobj] at h3 h4
    refine ⟨_, rfl, h3, ?_⟩
    refine h4.trans ?_
    have hv : viewOf h' oj = src := by
      have := congrFun h2 j
      rw [matView_some hj'] at this
      rw [show (matView w).put i _ j = matView w j from by simp [MatValues.put, Ne.symm hij], hj] at this
      exact Option.some.inj this
    rw [h2]
    show ((MatValues.put (MatValues.put (matView w) i _) i (some (viewOf h' oj))).put j _) = _
    rw [hv]
    funext k
    by_cases hk : k = j <;> by_cases hk' : k = i <;> simp [MatValues.put, hk, hk']

/-- C135 fails for elements with constructors: a matrix that has grown cannot even be destroyed. -/
theorem nontrivial_growth_fatal (dflt : α) (r c : Nat) (h : 0 < r * c) (h2 : r * c < 2 ^ 31) :
    MatWorld.run false dflt MatWorld.start [.create 0, .resize 0 r c, .destroy 0] = .ub := by
  have hr := matrices_are_values false dflt [.create 0, .resize 0 r c, .destroy 0]
  have : MatValues.run false dflt (fun _ => none) [.create 0, .resize 0 r c, .destroy 0] = .ub := by
    obtain ⟨m', e1, _, e2⟩ := nontrivial_growth_unusable dflt (DynMat.empty : DynMat α) r c h2
      (by simpa [DynMat.empty] using h) (by simp [DynMat.empty, DynMat.size])
    simp only [MatValues.run, MatValues.step, Out.bind, MatValues.put, if_true, e1, e2]
  rw [this] at hr
  generalize MatWorld.run false dflt MatWorld.start [.create 0, .resize 0 r c, .destroy 0] = x at hr
  cases hr
  rfl

-- non-vacuity: a program with three matrices, a move, growth, shrinking and destruction in another order
def demoMatProgram : List (MatCall Nat) :=
  [.create 0, .createShape 1 2 3, .fill 1 5, .resize 0 2 2, .write 0 1 1 7, .moveCreate 2 1, .resize 1 1 1, .write 1 0 0 9,
   .assign 0 3 3 (fun k => k), .destroy 2, .destroy 0, .destroy 1]

example : ∃ w, MatWorld.run true 0 MatWorld.start demoMatProgram = .ok w ∧ w.heap.length = 4 ∧ ∀ b ∈ w.heap, b = none :=
  ⟨_, rfl, rfl, by decide⟩

example : LegalProgram true 0 (fun _ => none) [.createShape 0 1 2, .moveCreate (α := Nat) 1 0, .resize 0 2 2, .destroy 1] := by
  refine ⟨⟨rfl, by decide⟩, fun v hv => ?_⟩
  rw [← Out.ok.inj hv]
  refine ⟨⟨rfl, _, rfl⟩, fun v hv => ?_⟩
  rw [← Out.ok.inj hv]
  refine ⟨⟨_, rfl, by decide, Or.inl rfl⟩, fun v hv => ?_⟩
  rw [← Out.ok.inj hv]
  exact ⟨⟨_, rfl⟩, fun v hv => trivial⟩

end Heu
