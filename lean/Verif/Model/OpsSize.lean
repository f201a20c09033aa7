import Verif.Model.Box

/-!
# The default operators and the sizes of the containers they write to

`HeuristicFlow/src/Genetic/Miscellaneous4GA.hpp` lines 35-85 and 330-450.  `Model/Box` computes the
children's entries; here the children are existing containers that are written entry by entry, so that a
write past the end is visible.  The parents and the children are four different objects (that is how
`GABase::crossover` calls the operator).
-/

namespace Heu

/-- `c->operator[](i) = x`: writing past the end is undefined.
(`Miscellaneous4GA.hpp` lines 40-44, 76-84 and 435-439.) -/
def writeAt {α : Type} (c : List α) (i : Nat) (x : α) : Out (List α) :=
  if i < c.length then .ok (c.set i x) else .ub

/-- `p->operator[](i)`: reading past the end is undefined.  (`Miscellaneous4GA.hpp` lines 40-44, 76-84 and 435-439.) -/
def readEntry {α : Type} (p : List α) (i : Nat) : Out α :=
  match p[i]? with
  | some x => .ok x
  | none => .ub

/-- One pass of an entry-wise crossover: read both parents' entry `i`, write both children's.
(`Miscellaneous4GA.hpp` lines 40-44, 76-84 and 435-439.) -/
def crossStep {α : Type} (f g : Nat → α → α → α) (p1 p2 : List α) (c : List α × List α) (i : Nat) :
    Out (List α × List α) := do
  let a ← readEntry p1 i
  let b ← readEntry p2 i
  let c1 ← writeAt c.1 i (f i a b)
  let c2 ← writeAt c.2 i (g i a b)
  .ok (c1, c2)

/-- The loop `for (size_t i = 0; i < p1->size(); i++)` of `imp_cFunNd` for std containers
(`Miscellaneous4GA.hpp` lines 40-44), `imp_cFunSwapNs` for Eigen vectors (lines 76-84) and `cFunRandNs`
(lines 435-439). -/
def crossLoop {α : Type} (f g : Nat → α → α → α) (p1 p2 c1 c2 : List α) : Out (List α × List α) :=
  (List.range p1.length).foldlM (crossStep f g p1 p2) (c1, c2)

/-- `imp_cFunNd` for std containers, `Miscellaneous4GA.hpp` lines 35-45, exact arithmetic. -/
def cFunNdStd {α : Type} [Field α] (r : α) (p1 p2 c1 c2 : List α) : Out (List α × List α) :=
  crossLoop (fun _ a b => r * a + (1 - r) * b) (fun _ a b => r * b + (1 - r) * a) p1 p2 c1 c2

/-- `imp_cFunNd` for Eigen vectors, `Miscellaneous4GA.hpp` lines 62-69: Eigen asserts that the operands
have the same size; the assignment resizes the child (a dynamic vector). -/
def cFunNdEigen {α : Type} [Field α] (r : α) (p1 p2 _c1 _c2 : List α) : Out (List α × List α) :=
  if p1.length = p2.length then
    .ok (List.zipWith (fun a b => r * a + (1 - r) * b) p1 p2,
         List.zipWith (fun b a => r * b + (1 - r) * a) p2 p1)
  else .ub

/-- `imp_cFunSwapNs` for Eigen vectors, `Miscellaneous4GA.hpp` lines 71-85; `idx` is `randIdx(N)`. -/
def cFunSwapNsInto {α : Type} (idx : Nat) (p1 p2 c1 c2 : List α) : Out (List α × List α) :=
  crossLoop (fun i a b => if i < idx then a else b) (fun i a b => if i < idx then b else a) p1 p2 c1 c2

/-- `cFunRandNs`, `Miscellaneous4GA.hpp` lines 431-440; `u i`, `w i` are the two draws of entry `i`. -/
def cFunRandNsInto {α κ : Type} [LT κ] [DecidableLT κ] (r : κ) (u w : Nat → κ) (p1 p2 c1 c2 : List α) :
    Out (List α × List α) :=
  crossLoop (fun i a b => if u i < r then a else b) (fun i a b => if w i < r then b else a) p1 p2 c1 c2

/-- `Heu_PRIVATE_IMP_cFunX`, `Miscellaneous4GA.hpp` lines 396-398, before the fixed-size operator `op`
(`cFunXd` lines 395-405, `cFunSwapXs` 422-426, `cFunRandXs` 447-450): the first child gets the first
parent's size, the second child the second parent's.  `rs n c` is what `c.resize(n)` leaves (std::vector
keeps the common prefix, Eigen vectors of another size have arbitrary entries). -/
def crossX {α : Type} (rs : Nat → List α → List α)
    (op : List α → List α → List α → List α → Out (List α × List α)) (p1 p2 c1 c2 : List α) :
    Out (List α × List α) :=
  op p1 p2 (rs p1.length c1) (rs p2.length c2)

/-- `GADefaults<Var_t,void>::iFunNd`, `Miscellaneous4GA.hpp` lines 350-361 (and `iFunNf`, lines 374-377):
every existing entry becomes `randD(min, max)`; the size is not changed.  Exact arithmetic; `u i` is
entry `i`'s draw. -/
def iFunNd {α : Type} [Field α] (mn mx : α) (u : Nat → α) (p : List α) : List α :=
  p.mapIdx fun i _ => randDRange (u i) mn mx

/-- The same in IEEE arithmetic of format `F`.  (`Miscellaneous4GA.hpp` lines 350-361.) -/
def iFunNdFl (F : Fmt) (mn mx : Fl) (u : Nat → Fl) (p : List Fl) : List Fl :=
  p.mapIdx fun i _ => randDRangeFl F (u i) mn mx

end Heu
