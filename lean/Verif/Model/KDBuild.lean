import Verif.Model.QuickSelect
import Verif.Model.KDStructure
import Verif.Model.LeafList

/-!
# Model of `KDTree::BuildTree` / `DivideTreeCell`  (src/Tree/KDTree.cpp:220-313, 442-595)

Only the assignment of particles to cells is modelled here; the physical cell properties computed by
`StockCellProperties` are in `Verif.Model.KDStock`.
* The split dimension is an arbitrary function `kdiv` of the cell (the code chooses the longest side
  of the cell box, lines 490-498; with MPI the box is recomputed first, lines 475-488).
* `coord k i` is `partdata[i].r[k]`.
* The parameter `ilast` of the C++ routine is carried as `iend = ilast + 1`.
* The two recursive calls are executed one after the other (lines 563-572). With OpenMP they may run
  concurrently; C03's frame statement shows they touch disjoint data.
* `none` = undefined behaviour (a `-1` used as an index) or fuel exhausted.
-/

set_option autoImplicit false

namespace Gandalf.KD

/-- The mutable data of the build. -/
structure Build where
  N : ℕ → ℕ
  ifirst : ℕ → Option ℕ
  ilast : ℕ → Option ℕ
  ids : ℕ → ℕ
  inext : ℕ → Option ℕ

/-- `for (j=cell.ifirst; j<cell.ilast; j++) inext[ids[j]] = ids[j+1];`, KDTree.cpp:463;
`m = ilast - j` turns remain. -/
def linkLoop (ids : ℕ → ℕ) : (m j : ℕ) → (ℕ → Option ℕ) → (ℕ → Option ℕ)
  | 0, _, inext => inext
  | m + 1, j, inext => linkLoop ids m (j + 1) (Function.update inext (ids j) (some (ids (j + 1))))

/-- The part of `StockCellProperties` for leaves that changes lists and counts,
KDTree.cpp:829, 861-873, 877-907 (`cell.N++` for each live particle). -/
def stockLeafLists (dead : ℕ → Bool) (s : Build) (c fuel : ℕ) : Option Build := do
  let r ← LeafList.compact dead s.inext (s.ifirst c) (s.ilast c) fuel
  let l ← LeafList.traverse r.inext r.iaux fuel r.ifirst
  some { s with
    inext := r.inext
    ifirst := Function.update s.ifirst c r.ifirst
    ilast := Function.update s.ilast c r.iaux
    N := Function.update s.N c (l.filter fun i => !dead i).length }

/-- Leaf branch of `DivideTreeCell`, KDTree.cpp:457-473. -/
def divideLeaf (dead : ℕ → Bool) (s : Build) (c : ℕ) : Option Build :=
  if 0 < s.N c then
    match s.ifirst c, s.ilast c with
    | some a, some b =>
      let inext := linkLoop s.ids (b - a) a s.inext
      stockLeafLists dead { s with
        inext := inext
        ifirst := Function.update s.ifirst c (some (s.ids a))
        ilast := Function.update s.ilast c (some (s.ids b)) } c (s.N c)
    | _, _ => none
  else
    stockLeafLists dead { s with
        ifirst := Function.update s.ifirst c none
        ilast := Function.update s.ilast c none } c 0

/-- Child set-up, KDTree.cpp:514-518 and 528-533: count always, range only if not empty. -/
def setChild (s : Build) (c n first last : ℕ) : Build :=
  if n ≠ 0 then
    { s with
      N := Function.update s.N c n
      ifirst := Function.update s.ifirst c (some first)
      ilast := Function.update s.ilast c (some last) }
  else { s with N := Function.update s.N c n }

/-- Joining the particle lists of the two children, KDTree.cpp:578-584. -/
def joinChildren (s : Build) (c c1 c2 : ℕ) : Option Build :=
  if 0 < s.N c1 then
    match s.ilast c1 with
    | some x => some { s with
        ifirst := Function.update s.ifirst c (s.ifirst c1)
        inext := Function.update s.inext x (s.ifirst c2) }
    | none => none
  else some { s with ifirst := Function.update s.ifirst c (s.ifirst c2) }

/-- `DivideTreeCell`, KDTree.cpp:442-595. -/
def divide {κ : Type*} {α : Type} [LinearOrder α] (t : Links) (ltot : ℕ) (coord : κ → ℕ → α) (kdiv : ℕ → κ)
    (dead : ℕ → Bool) : (fuel : ℕ) → (ifirst iend c : ℕ) → Build → Option Build
  | 0, _, _, _, _ => none
  | fuel + 1, ifirst, iend, c, s =>
    if t.level c = ltot then divideLeaf dead s c
    else
      match s.ifirst c, s.ilast c, t.c1 c, t.c2 c with
      | some a, some b, some c1, some c2 => do
        -- line 505
        let q ← QuickSelect.quickSelect (coord (kdiv c)) (b - a + 1) s.ids a b (a + s.N c / 2)
        let s1 := { s with ids := q.1 }
        -- lines 514-519
        let n := s1.N c
        let s2 := setChild s1 c1 (n / 2) ifirst (ifirst + n / 2 - 1)
        -- lines 528-533
        let s3 := setChild s2 c2 (s2.N c - s2.N c1) (ifirst + n / 2) (iend - 1)
        -- lines 569-572
        let s4 ← divide t ltot coord kdiv dead fuel ifirst (ifirst + s3.N c / 2) c1 s3
        let s5 ← divide t ltot coord kdiv dead fuel (ifirst + s4.N c / 2) iend c2 s4
        -- lines 578-585
        let s6 ← joinChildren s5 c c1 c2
        let s7 := { s6 with ilast := Function.update s6.ilast c (s6.ilast c2) }
        -- assertion of line 589
        if s7.ifirst c = none ∧ s7.ilast c = none then none
        else
          -- StockCellProperties of an internal cell, line 987
          some { s7 with N := Function.update s7.N c (s7.N c1 + s7.N c2) }
      | _, _, _, _ => none

/-- `inext` initialisation of lines 282-283: `inext[i] = i+1` for `ifirst ≤ i < ilast`,
`inext[ilast] = -1`. -/
def initNext (first n : ℕ) (inext : ℕ → Option ℕ) : ℕ → Option ℕ := fun i =>
  if first ≤ i ∧ i + 1 < first + n then some (i + 1)
  else if i + 1 = first + n ∧ first ≤ i then none else inext i

/-- `BuildTree`, KDTree.cpp:272-310, after `CreateTreeStructure` has produced `t`
(which also resets `N`, `ifirst`, `ilast` of all cells, lines 391-393).
`Ntot = Npart = n` particles starting at `first`; arrays hold arbitrary previous contents. -/
def buildTree {κ : Type*} {α : Type} [LinearOrder α] (t : Links) (ltot : ℕ) (coord : κ → ℕ → α)
    (kdiv : ℕ → κ) (dead : ℕ → Bool) (first n : ℕ) (ids : ℕ → ℕ) (inext : ℕ → Option ℕ) :
    Option Build :=
  let s : Build :=
    if 0 < n then
      { N := Function.update (fun _ => 0) 0 n
        ifirst := Function.update (fun _ => none) 0 (some first)
        ilast := Function.update (fun _ => none) 0 (some (first + n - 1))
        ids := fun i => if first ≤ i ∧ i < first + n then i else ids i
        inext := initNext first n inext }
    else
      { N := fun _ => 0, ifirst := fun _ => none, ilast := fun _ => none, ids := ids,
        inext := inext }
  if 0 < n then divide t ltot coord kdiv dead (ltot + 1) first (first + n) 0 s else some s

end Gandalf.KD
