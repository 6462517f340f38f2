import Verif.Model.MpiDomains
import Verif.Model.KDBuild

/-!
# The first distribution of the particles among the processes
(src/Mpi/MpiTree.cpp:230-424, src/Mpi/MpiKDTreeDecomposition.cpp:56-275)

Executed by the root process before the first step. `r i` is the position of particle `i` in the array of the root process.
The tree links are those of `CreateTreeStructure` (see `Model/MpiDomains`). The two recursive calls run one after the other
(lines 334-337; with OpenMP they may run at the same time on disjoint parts of the arrays). The messages are assumed to
arrive as sent. `none` = an index -1 is used or fuel exhausted.
-/

set_option autoImplicit false

namespace Gandalf.Mpi

variable {n : ℕ} {α : Type*}

/-- What `DivideTreeCell` changes: fields of the cells and the arrays `ids`, `inext`. -/
structure Split (n : ℕ) (α : Type*) where
  N : ℕ → ℕ
  ifirst : ℕ → Option ℕ
  ilast : ℕ → Option ℕ
  ids : ℕ → ℕ
  inext : ℕ → Option ℕ
  D : Division n α
  nodes : ℕ → List ℕ

section
variable [LinearOrder α]

/-- The loop MpiTree.cpp:393-402, started at `j`; `m = right - j` turns remain. Unlike the loop of the KD tree it moves only
what is strictly below the pivot. -/
def belowLoop (key : ℕ → α) (rpivot : α) : (m : ℕ) → (ids : ℕ → ℕ) → (j jguess : ℕ) → (ℕ → ℕ) × ℕ
  | 0, ids, _, jguess => (ids, jguess)
  | m + 1, ids, j, jguess =>
    if key (ids j) < rpivot then
      belowLoop key rpivot m (QuickSelect.swap ids j jguess) (j + 1) (jguess + 1)
    else belowLoop key rpivot m ids (j + 1) jguess

/-- One turn of the `do` loop, MpiTree.cpp:379-409: new ids, `jguess`, `rpivot`. -/
def selectPass (key : ℕ → α) (ids : ℕ → ℕ) (left right : ℕ) : (ℕ → ℕ) × ℕ × α :=
  let jguess := (left + right) / 2
  let rpivot := key (ids jguess)
  let p := belowLoop key rpivot (right - left) (QuickSelect.swap ids jguess right) left left
  (QuickSelect.swap p.1 right p.2, p.2, rpivot)

/-- `MpiTree::QuickSelect`, MpiTree.cpp:361-424. -/
def select (key : ℕ → α) : (fuel : ℕ) → (ids : ℕ → ℕ) → (left right jpivot : ℕ) → Option ((ℕ → ℕ) × α)
  | 0, _, _, _, _ => none
  | fuel + 1, ids, left, right, jpivot =>
    if left ≤ jpivot ∧ jpivot ≤ right then
      let q := selectPass key ids left right
      if q.2.1 < jpivot then select key fuel q.1 (q.2.1 + 1) right jpivot
      else if jpivot < q.2.1 then select key fuel q.1 left (q.2.1 - 1) jpivot
      else some (q.1, q.2.2)
    else none
end

section
variable [Field α] [LinearOrder α]

/-- Direction of the division, MpiTree.cpp:243-244, 268-275. -/
def longSide [NeZero n] (b : Box n α) : Fin n :=
  ((List.finRange n).foldl
    (fun (s : α × Fin n) k => if b.max k - b.min k > s.1 then (b.max k - b.min k, k) else s) (0, 0)).2

/-- Leaf branch of `DivideTreeCell`, MpiTree.cpp:249-263. -/
def splitLeaf (t : KD.Links) (s : Split n α) (c : ℕ) : Option (Split n α) :=
  if 0 < s.N c then
    match s.ifirst c, s.ilast c with
    | some a, some b =>
      some { s with
        inext := Function.update (KD.linkLoop s.ids (b - a) a s.inext) (s.ids b) none
        ifirst := Function.update s.ifirst c (some (s.ids a))
        ilast := Function.update s.ilast c (some (s.ids b))
        nodes := Function.update s.nodes c [t.c2g c] }
    | _, _ => none
  else
    some { s with
      ifirst := Function.update s.ifirst c none
      ilast := Function.update s.ilast c none
      nodes := Function.update s.nodes c [t.c2g c] }

/-- Box, number and range of a child, MpiTree.cpp:284-290 and 293-299. -/
def setSide (s : Split n α) (c child m first last : ℕ) : Split n α :=
  { s with
    D := { s.D with box := Function.update s.D.box child (s.D.box c) }
    N := Function.update s.N child m
    ifirst := if m ≠ 0 then Function.update s.ifirst child (some first) else s.ifirst
    ilast := if m ≠ 0 then Function.update s.ilast child (some last) else s.ilast }

/-- The faces at the division, MpiTree.cpp:304-310. -/
def setFaces (big : α) (s : Split n α) (c1 c2 : ℕ) (k : Fin n) (r : α) : Split n α :=
  if 0 < s.N c1 ∧ 0 < s.N c2 then
    let b := Function.update s.D.box c1 ⟨(s.D.box c1).min, Function.update (s.D.box c1).max k r⟩
    { s with
      D := { s.D with box := Function.update b c2 ⟨Function.update (b c2).min k r, (b c2).max⟩ } }
  else if 0 < s.N c2 then
    let b : Box n α := ⟨(s.D.box c1).min, Function.update (s.D.box c1).max k (-big)⟩
    { s with
      D := { s.D with box := Function.update s.D.box c1 b } }
  else s

/-- `DivideTreeCell` of a cell with children before the recursive calls, MpiTree.cpp:265-310; the result of `QuickSelect` is
given. `iend = ilast + 1`. -/
def splitCell (big : α) (s : Split n α) (ifirst iend c c1 c2 : ℕ) (k : Fin n) (q : (ℕ → ℕ) × α) : Split n α :=
  let s := { s with
    ids := q.1
    D := { s.D with
      k := Function.update s.D.k c k
      r := Function.update s.D.r c q.2 } }
  let s := setSide s c c1 (s.N c / 2) ifirst (ifirst + s.N c / 2 - 1)
  let s := setSide s c c2 (s.N c - s.N c1) (ifirst + s.N c / 2) (iend - 1)
  setFaces big s c1 c2 k q.2

/-- `MpiTree::DivideTreeCell`, MpiTree.cpp:234-351. -/
def divideTree [NeZero n] (t : KD.Links) (ltot : ℕ) (r : ℕ → Vec n α) (big : α) :
    (fuel : ℕ) → (ifirst iend c : ℕ) → Split n α → Option (Split n α)
  | 0, _, _, _, _ => none
  | fuel + 1, ifirst, iend, c, s =>
    if t.level c = ltot then splitLeaf t s c
    else
      match s.ifirst c, s.ilast c, t.c1 c, t.c2 c with
      | some a, some b, some c1, some c2 =>
        let k := longSide (s.D.box c)
        (select (fun i => r i k) (b - a + 1) s.ids a b (a + s.N c / 2)).bind fun q =>
        let s1 := splitCell big s ifirst iend c c1 c2 k q
        (divideTree t ltot r big fuel ifirst (ifirst + s1.N c / 2) c1 s1).bind fun s2 =>
        (divideTree t ltot r big fuel (ifirst + s2.N c / 2) iend c2 s2).bind fun s3 =>
        some { s3 with nodes := Function.update s3.nodes c (s3.nodes c1 ++ s3.nodes c2) }
      | _, _, _, _ => none

/-- The root process before the division, MpiKDTreeDecomposition.cpp:113-120 and MpiTree.cpp:187-196; `D` holds whatever was in
the memory of the cells. -/
def splitInit (simbox : Box n α) (N : ℕ) (D : Division n α) (ids : ℕ → ℕ) (inext : ℕ → Option ℕ) : Split n α where
  N := Function.update (fun _ => 0) 0 N
  ifirst := Function.update (fun _ => none) 0 (some 0)
  ilast := Function.update (fun _ => none) 0 (if N = 0 then none else some (N - 1))
  ids := fun i => if i < N then i else ids i
  inext := fun i => if i < N then (if i + 1 < N then some (i + 1) else none) else inext i
  D := { D with box := Function.update D.box 0 simbox }
  nodes := fun _ => []

/-- The division on the root process, MpiKDTreeDecomposition.cpp:123; `L = ltot`. -/
def firstSplit [NeZero n] (t : KD.Links) (L : ℕ) (r : ℕ → Vec n α) (big : α) (simbox : Box n α) (N : ℕ) (D : Division n α)
    (ids : ℕ → ℕ) (inext : ℕ → Option ℕ) : Option (Split n α) :=
  divideTree t L r big (L + 1) 0 N 0 (splitInit simbox N D ids inext)

/-- The list `mpinode[inode].ids`, MpiKDTreeDecomposition.cpp:152-159: the particles sent to `inode` (171-172; the root keeps
its own, 182-186). -/
def nodeIds (t : KD.Links) (s : Split n α) (fuel inode : ℕ) : Option (List ℕ) :=
  LeafList.traverse s.inext (s.ilast (t.g2c inode)) fuel (s.ifirst (t.g2c inode))

/-- Particles of a process afterwards: what the root sends (lines 171-172) arrives and is copied in order (230-254); the root
copies its own to the front of its array through a buffer (182-186) and keeps `Nhydro = mpinode[0].Nhydro` of them. -/
def afterSplit {P : Type*} (part : ℕ → P) (lists : ℕ → List ℕ) (inode : ℕ) : List P :=
  if inode = 0 then
    let l := lists 0
    let arr : ℕ → P := fun i => if h : i < l.length then part l[i] else part i
    (List.range l.length).map arr
  else (lists inode).map part
end

end Gandalf.Mpi
