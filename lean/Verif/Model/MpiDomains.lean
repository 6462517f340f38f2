import Verif.Model.KDStructure
import Verif.Model.TreeSearch
import Verif.Model.Box

/-!
# Model of the domain decomposition tree (src/Mpi/MpiTree.cpp, src/Mpi/MpiKDTreeDecomposition.cpp)

`MpiTree::ComputeTreeSize` (MpiTree.cpp:132-155) computes the smallest `ltot` with `2^ltot ≥ Nmpi`, the
loop being that of `KDTree::ComputeTreeSize` with one particle per leaf: `KD.computeLtot 1 Nmpi`.
`MpiTree::CreateTreeStructure` (MpiTree.cpp:164-225) fills the links by the same statements as
`KDTree::CreateTreeStructure` (there is no `copen`; `c1` has the same value): `KD.createTreeStructure`.

Numbers are elements of an ordered field.
-/

set_option autoImplicit false

namespace Gandalf.Mpi

variable {n : ℕ} {α : Type*}

/-- The fields of the cells that belong to the division of space. -/
structure Division (n : ℕ) (α : Type*) where
  box : ℕ → Box n α
  k : ℕ → Fin n
  r : ℕ → α

/-- Box of the first child, MpiTree.cpp:491-493. -/
def leftBox (b : Box n α) (k : Fin n) (r : α) : Box n α := ⟨b.min, Function.update b.max k r⟩

/-- Box of the second child, MpiTree.cpp:496-498. -/
def rightBox (b : Box n α) (k : Fin n) (r : α) : Box n α := ⟨Function.update b.min k r, b.max⟩

/-- Body of the loop of `UpdateBoundingBoxes`, MpiTree.cpp:483-498; `none` = write through `c2 = -1`. -/
def updStep (t : KD.Links) (ltot : ℕ) (D : Division n α) (c : ℕ) : Option (Division n α) :=
  if t.level c = ltot then some D
  else (t.c2 c).map fun c2 =>
    let b1 := Function.update D.box (c + 1) (leftBox (D.box c) (D.k c) (D.r c))
    { D with box := Function.update b1 c2 (rightBox (b1 c) (D.k c) (D.r c)) }

/-- `m` turns of the loop from cell `c`. -/
def updLoop (t : KD.Links) (ltot : ℕ) : (m c : ℕ) → Division n α → Option (Division n α)
  | 0, _, D => some D
  | m + 1, c, D => (updStep t ltot D c).bind (updLoop t ltot m (c + 1))

/-- `MpiTree::UpdateBoundingBoxes`, MpiTree.cpp:471-500. -/
def updateBoundingBoxes (t : KD.Links) (ltot : ℕ) (D : Division n α) : Option (Division n α) :=
  updLoop t ltot (KD.ncellOf ltot) 0 D

section
variable [LinearOrder α]

/-- `MpiTree::FindCell`, MpiTree.cpp:432-462, `fuel` turns of the loop. -/
def findCell (t : KD.Links) (ltot : ℕ) (D : Division n α) (rp : Vec n α) : (fuel c : ℕ) → Option ℕ
  | 0, _ => none
  | fuel + 1, c =>
    if t.level c < ltot then
      if rp (D.k c) < (D.box (c + 1)).max (D.k c) then findCell t ltot D rp fuel (c + 1)
      else (t.c2 c).bind (findCell t ltot D rp fuel)
    else some c
end

section
variable [Field α] [LinearOrder α]

/-- The iteration of `FindLoadBalancingDivision`, HydroTree.cpp:1582-1615.  `frac r` is `workfrac` for a
division at `r` (`workleft/(workleft+workright)` from the pruned trees); `tol` is `worktol`. -/
def bisect (frac : α → α) (tol : α) : (fuel : ℕ) → (rmin rmax r : α) → Option α
  | 0, _, _, _ => none
  | fuel + 1, rmin, rmax, r =>
    if frac r < 1 / 2 - tol then
      if |frac r - 1 / 2| > tol then bisect frac tol fuel r rmax (1 / 2 * (r + rmax))
      else some (1 / 2 * (r + rmax))
    else if frac r > 1 / 2 + tol then
      if |frac r - 1 / 2| > tol then bisect frac tol fuel rmin r (1 / 2 * (rmin + r))
      else some (1 / 2 * (rmin + r))
    else some r

/-- `FindLoadBalancingDivision`, HydroTree.cpp:1554-1618, with the work fraction of cell `c` for a
division at `r` given by `frac c r`. -/
def findDivision (frac : ℕ → α → α) (tol : α) (fuel : ℕ) (c : ℕ) (k : Fin n) (rold : α) (b : Box n α) :
    Option α := bisect (frac c) tol fuel (b.min k) (b.max k) rold

/-- Body of the loop over cells of level `l`, MpiKDTreeDecomposition.cpp:327-361. -/
def balanceCell (t : KD.Links) (find : ℕ → Fin n → α → Box n α → Option α) (l : ℕ) (D : Division n α)
    (c : ℕ) : Option (Division n α) :=
  if t.level c ≠ l then some D
  else
    let k := D.k c
    let b := D.box c
    let r1 := if b.min k ≥ D.r c ∨ b.max k ≤ D.r c then 1 / 2 * (b.min k + b.max k) else D.r c
    (find c k r1 b).map fun r2 => { D with r := Function.update D.r c r2 }

/-- `m` turns of the loop over cells from cell `c`. -/
def balanceCells (t : KD.Links) (find : ℕ → Fin n → α → Box n α → Option α) (l : ℕ) :
    (m c : ℕ) → Division n α → Option (Division n α)
  | 0, _, D => some D
  | m + 1, c, D => (balanceCell t find l D c).bind (balanceCells t find l m (c + 1))

/-- One turn of the loop over levels, MpiKDTreeDecomposition.cpp:324-376. -/
def balanceLevel (t : KD.Links) (ltot : ℕ) (find : ℕ → Fin n → α → Box n α → Option α) (D : Division n α)
    (l : ℕ) : Option (Division n α) :=
  (balanceCells t find l (KD.ncellOf ltot) 0 D).bind (updateBoundingBoxes t ltot)

/-- `m` turns of the loop over levels from level `l`. -/
def balanceLevels (t : KD.Links) (ltot : ℕ) (find : ℕ → Fin n → α → Box n α → Option α) :
    (m l : ℕ) → Division n α → Option (Division n α)
  | 0, _, D => some D
  | m + 1, l, D => (balanceLevel t ltot find D l).bind (balanceLevels t ltot find m (l + 1))

/-- The division of space made by `LoadBalancing`, MpiKDTreeDecomposition.cpp:314-379, from the particle
bounding box `partbox`. -/
def loadBalance (t : KD.Links) (ltot : ℕ) (find : ℕ → Fin n → α → Box n α → Option α) (partbox : Box n α)
    (D : Division n α) : Option (Division n α) :=
  balanceLevels t ltot find ltot 0 { D with box := Function.update D.box 0 partbox }

/-- `mpinode[inode].domain`, MpiKDTreeDecomposition.cpp:368-374. -/
def domainOf (t : KD.Links) (D : Division n α) (inode : ℕ) : Box n α := D.box (t.g2c inode)

/-- `rbox` of a process, MpiNode.cpp:110-128 (only the particle positions). -/
def rboxOf (big : α) (pos : List (Vec n α)) : Box n α :=
  pos.foldl (fun b r => ⟨fun k => min (b.min k) (r k), fun k => max (b.max k) (r k)⟩)
    ⟨fun _ => big, fun _ => -big⟩

/-- `partbox`, MpiControl.cpp:343-351. -/
def partboxOf (simbox : Box n α) (rboxes : List (Box n α)) : Box n α :=
  rboxes.foldl (fun b r => ⟨fun k => min (b.min k) (r.min k), fun k => max (b.max k) (r.max k)⟩) simbox
end

/-- Numbers of particles in the leaf cells after `DivideTreeCell`, MpiTree.cpp:283-300: the first child
gets `N/2` particles, the second the others. -/
def leafCounts : (d N : ℕ) → List ℕ
  | 0, N => [N]
  | d + 1, N => leafCounts d (N / 2) ++ leafCounts d (N - N / 2)

noncomputable section

/-- Body of the loop of `FindBoxOverlapParticles`, Tree.cpp:1568-1605. -/
def _root_.Gandalf.Tree.boxPartsBody (T : Tree n) (P : KD.Parts n) (nodebox : Box n ℝ) (pfuel : ℕ) (c : ℕ)
    (s : List ℕ) : Walk.Act (List ℕ) :=
  if boxOverlap (T.cell c).bb nodebox then
    if T.links.copen c ≠ none then .open_ s
    else if (T.cell c).N = 0 then .next s
    else
      match T.leafList pfuel c with
      | none => .open_ s
      | some l => .next (s ++ l.filter fun i => particleInBox (P.r i) nodebox)
  else .next s

/-- `Tree::FindBoxOverlapParticles`, Tree.cpp:1556-1608. -/
def _root_.Gandalf.Tree.boxParts (T : Tree n) (P : KD.Parts n) (nodebox : Box n ℝ) (pfuel fuel : ℕ) :
    Walk.Res (List ℕ) :=
  Walk.walk T.links T.Ncell (T.boxPartsBody P nodebox pfuel) fuel 0 []

/-- The list `particles_to_transfer[q]` of process `p`, MpiKDTreeDecomposition.cpp:388-400 and
HydroTree.cpp:1480-1494: the particles the tree search finds in the domain of `q`, if that overlaps the
particle box of `p`. -/
def transferOf (dom : ℕ → Box n ℝ) (rbox : ℕ → Box n ℝ) (T : ℕ → Tree n)
    (P : ℕ → KD.Parts n) (pfuel fuel : ℕ) (p q : ℕ) : List ℕ :=
  if q = p then []
  else if boxesOverlap (dom q) (rbox p) then
    match (T p).boxParts (P p) (dom q) pfuel fuel with
    | .done l => l
    | _ => []
  else []

end

end Gandalf.Mpi
