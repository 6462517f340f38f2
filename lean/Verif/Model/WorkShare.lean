import Verif.Model.TreeWalk
import Verif.Model.MpiDomains
import Verif.Model.Vec
import Mathlib.Algebra.BigOperators.Fin

/-!
# How the work is measured and divided among the processes
(src/Headers/InlineFuncs.h:395-443, src/Tree/Tree.cpp:1687-1731, 1775-1787, src/Tree/HydroTree.cpp:1554-1618,
src/Tree/KDTree.cpp:1264-1318)

Numbers are elements of an ordered field. Left out: the messages printed and the assertions (which are off in the usual build).
-/

set_option autoImplicit false

namespace Gandalf.Work

open Function

variable {n : ℕ} {α : Type*} [Field α] [LinearOrder α]

/-- the factor of one dimension, InlineFuncs.h:415-433; `b` is "box 2", `h` is "box 1". In the last branch, reached when two
edges are equal, the code prints "Should never get here!!" and multiplies nothing. -/
def overlap1 (bmin bmax hmin hmax : α) : α :=
  if hmax ≤ bmin ∨ hmin ≥ bmax then 0
  else if hmin > bmin ∧ hmax < bmax then hmax - hmin
  else if hmin < bmin ∧ hmax > bmax then bmax - bmin
  else if hmin < bmin ∧ hmax < bmax then hmax - bmin
  else if hmin > bmin ∧ hmax > bmax then bmax - hmin
  else 1

/-- `FractionalBoxOverlap`, InlineFuncs.h:398-443 -/
def fracOverlap (b h : Box n α) : α :=
  if ∏ k, (h.max k - h.min k) > 0 then
    (∏ k, overlap1 (b.min k) (b.max k) (h.min k) (h.max k)) / ∏ k, (h.max k - h.min k)
  else 0

/-- the numbers in the code: `small_number`, the literal 0.999999999999999999 (which a compiler rounds to 1),
`1 - small_number` (rounded to 1, too) and `worktol` -/
structure Tol (α : Type*) where
  small : α
  full : α
  last : α
  work : α

/-- what `ComputeWorkInBox` reads of a pruned tree -/
structure Pruned (n : ℕ) (α : Type*) where
  links : Walk.Links
  Ncell : ℕ
  hbox : ℕ → Box n α
  work : ℕ → α

/-- body of the loop of `ComputeWorkInBox`, Tree.cpp:1699-1729; `abort` is the exception of line 1726 -/
def body (T : Tol α) (P : Pruned n α) (b : Box n α) (c : ℕ) (s : α) : Walk.Act α :=
  let f := fracOverlap b (P.hbox c)
  if f < T.small ∨ f > T.full then .next (s + f * P.work c)
  else if (P.links.copen c).isSome then .open_ s
  else if f ≥ T.small ∧ f ≤ T.last then .next (s + f * P.work c)
  else .abort

/-- `ComputeWorkInBox`, Tree.cpp:1687-1731; `none`: an exception, or a walk without end -/
def workInBox (T : Tol α) (P : Pruned n α) (b : Box n α) : Option α :=
  match Walk.walk P.links P.Ncell (body T P b) P.Ncell 0 0 with
  | .done s => some s
  | _ => none

/-- the sum over the processes, HydroTree.cpp:1589-1596 -/
def sumWork (T : Tol α) (Ps : List (Pruned n α)) (b : Box n α) : Option α :=
  Ps.foldl (fun s P => s.bind fun s => (workInBox T P b).map fun w => s + w) (some 0)

/-- the iteration of `FindLoadBalancingDivision`, HydroTree.cpp:1582-1615; `wl r`, `wr r` are the work on the two sides of `r`.
Without any work the fraction is not a number, no comparison holds and the loop is left. -/
def loop (wl wr : α → Option α) (tol : α) : (fuel : ℕ) → (rmin rmax r : α) → Option α
  | 0, _, _, _ => none
  | fuel + 1, rmin, rmax, r =>
    match wl r, wr r with
    | some l, some w =>
      if l + w = 0 then some r
      else if l / (l + w) < 1 / 2 - tol then
        if |l / (l + w) - 1 / 2| > tol then loop wl wr tol fuel r rmax (1 / 2 * (r + rmax)) else some (1 / 2 * (r + rmax))
      else if l / (l + w) > 1 / 2 + tol then
        if |l / (l + w) - 1 / 2| > tol then loop wl wr tol fuel rmin r (1 / 2 * (rmin + r)) else some (1 / 2 * (rmin + r))
      else some r
    | _, _ => none

/-- `FindLoadBalancingDivision`, HydroTree.cpp:1554-1618 -/
def findDivision (T : Tol α) (Ps : List (Pruned n α)) (fuel : ℕ) (k : Fin n) (rold : α) (b : Box n α) : Option α :=
  loop (fun r => sumWork T Ps (Mpi.leftBox b k r)) (fun r => sumWork T Ps (Mpi.rightBox b k r)) T.work fuel (b.min k) (b.max k)
    rold

/-- `AddWorkCost`, Tree.cpp:1775-1787: the list of cells as pairs of the index and the copy of `Nactive`; `nact` is the member of
the cells of the tree -/
def addWork (twork : α) (l : List (ℕ × ℕ)) (nact : ℕ → ℕ) (work : ℕ → α) : ℕ → α :=
  l.foldl (fun w x => update w x.1 (w x.1 + twork * (nact x.1 : α) / ((l.map Prod.snd).sum : ℕ))) work

/-- `KDTree::UpdateWorkCounters`, KDTree.cpp:1264-1318 (`N` the numbers of particles in the cells) -/
def updateWork (t : KD.Links) (ltot : ℕ) (N : ℕ → ℕ) : (fuel c : ℕ) → (ℕ → α) → Option (ℕ → α)
  | 0, _, _ => none
  | fuel + 1, c, w =>
    if t.level c < ltot then
      match t.c1 c, t.c2 c with
      | some a, some b =>
        (updateWork t ltot N fuel a w).bind fun w => (updateWork t ltot N fuel b w).map fun w =>
          update w c ((if N a > 0 then w a else 0) + if N b > 0 then w b else 0)
      | _, _ => none
    else some w

end Gandalf.Work
