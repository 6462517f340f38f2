import Verif.Model.TreeSearch
import Verif.Model.MpiPack

/-!
# Model of the pruned trees sent to other processes
(src/Tree/Tree.cpp:1158-1549; src/Tree/HydroTree.cpp:1044-1230, 1244-1352)
-/

set_option autoImplicit false

namespace Gandalf.Pruned
open Walk

variable {n : ℕ}

/-- A cell of the table: links, level and the remaining fields. -/
structure Cell (β : Type*) where
  copen : Option ℕ
  cnext : Option ℕ
  level : ℕ
  data : β

/-- Variables of `CreatePrunedTreeForMpiNode`: `newCellIds`, `prunedcells`, `Nprunedcell`,
`leaf_indices`, `leaf_indices_local`. -/
structure State (β : Type*) where
  newIds : ℕ → Option ℕ
  cells : ℕ → Cell β
  N : ℕ
  leaves : List ℕ
  localLeaves : List ℕ

variable {β : Type*}

/-- Body of the walk, Tree.cpp:1199-1271, with the decision of lines 1225-1264 given by `opn`. -/
def pruneBody (celldata : ℕ → Cell β) (opn : ℕ → Bool) (Nmax c : ℕ) (s : State β) : Act (State β) :=
  if s.N = Nmax then .abort
  else if opn c then
    .open_ { s with
      newIds := Function.update s.newIds c (some s.N)
      cells := Function.update s.cells s.N (celldata c)
      N := s.N + 1 }
  else
    .next { s with
      newIds := Function.update s.newIds c (some s.N)
      cells := Function.update s.cells s.N { celldata c with copen := none }
      N := s.N + 1
      leaves := s.leaves ++ [s.N]
      localLeaves := s.localLeaves ++ [c] }

/-- What the function gives back: `-1`, an exception, a walk that does not end, or the tree. -/
inductive Out (β : Type*) where
  | full : Out β
  | raise : Out β
  | stuck : Out β
  | ok (cells : ℕ → Cell β) (N : ℕ) (leaves localLeaves : List ℕ) : Out β

/-- The new links of a cell, Tree.cpp:1281-1282. -/
def relink (newIds : ℕ → Option ℕ) (c : Cell β) : Cell β :=
  { c with
    copen := c.copen.bind newIds
    cnext := c.cnext.bind newIds }

/-- The check of the new links, Tree.cpp:1283, `cnext <= 0 || copen >= cnext`, where `-1` is `none`. -/
def badLinks (c : Cell β) : Bool :=
  match c.cnext with
  | none => true
  | some x => x = 0 || (match c.copen with | none => false | some y => decide (x ≤ y))

/-- `CreatePrunedTreeForMpiNode`, Tree.cpp:1158-1311, on a pruned tree whose table held `old`. -/
def create (celldata : ℕ → Cell β) (Ncell Ncellmax : ℕ) (opn : ℕ → Bool) (Nmax : ℕ) (old : ℕ → Cell β)
    (fuel : ℕ) : Out β :=
  match walk ⟨fun c => (celldata c).copen, fun c => (celldata c).cnext⟩ Ncell
      (pruneBody celldata opn Nmax) fuel 0 ⟨fun _ => none, old, 0, [], []⟩ with
  | .stuck => .stuck
  | .fail => .full
  | .done s =>
    let ids := Function.update (Function.update s.newIds Ncell (some s.N)) Ncellmax (some s.N)
    if (List.range s.N).any fun c => badLinks (relink ids (s.cells c)) then .raise
    else .ok (fun c => if c < s.N then relink ids (s.cells c) else s.cells c) s.N s.leaves s.localLeaves

/-- Vector from the node box to a cell, Tree.cpp:1217-1222 and 1211-1219. -/
noncomputable def edgeVec (d : Domain n ℝ) (hbox : Box n ℝ) (x : Vec n ℝ) : Vec n ℝ :=
  let rnode : Vec n ℝ := fun k => 0.5 * (hbox.min k + hbox.max k)
  let rsize : Vec n ℝ := fun k => hbox.max k - rnode k
  let dr := (nearestPeriodicVector d fun k => x k - rnode k).1
  fun k => if dr k > rsize k then dr k - rsize k else if dr k < -rsize k then dr k + rsize k else 0

open Classical in
/-- The cascade of decisions, Tree.cpp:1225-1264: `true` if the cell is opened. -/
noncomputable def pruneOpen (T : Tree n) (level : ℕ → ℕ) (d : Domain n ℝ) (kernrange macfactor : ℝ)
    (hbox : Box n ℝ) (localNode : Bool) (lmin lmax : ℕ) (c : ℕ) : Bool :=
  let dr := edgeVec d hbox (T.cell c).rcell
  let drsqd := dot dr dr
  if localNode = true ∧ level c = lmin then false
  else if level c = lmax ∨ T.links.copen c = none then false
  else if level c < lmin ∧ T.links.copen c ≠ none then true
  else if drsqd ≤ ((T.cell c).rmax + kernrange * (T.cell c).hmax) ^ 2 ∨
      (¬(drsqd > (T.cell c).cdistsqd ∧ drsqd > T.mac c * macfactor) ∧ (T.cell c).N > 0) then true
  else false

/-! ### Updating the leaves -/

/-- `UpdateLeafCells`, Tree.cpp:1318-1335. -/
def updateLeaves (localcells : ℕ → Cell β) (cells : ℕ → Cell β) : List (ℕ × ℕ) → (ℕ → Cell β)
  | [] => cells
  | (ileaf, ilocal) :: l => updateLeaves localcells (Function.update cells ileaf
      { localcells ilocal with
        copen := (cells ileaf).copen
        cnext := (cells ileaf).cnext }) l

/-- `CopyLeafCells` to the buffer, Tree.cpp:1359-1377: the cells in the message. -/
def leavesOut (cells : ℕ → Cell β) (leaves : List ℕ) : List (Cell β) := leaves.map cells

/-- The list of leaves made by the receiver, Tree.cpp:1349-1358. -/
def scanLeaves (cells : ℕ → Cell β) (Ncell : ℕ) : List ℕ :=
  (List.range Ncell).filter fun c => (cells c).copen.isNone

/-- `CopyLeafCells` from the buffer, Tree.cpp:1359-1377; `none` if the message is too short. -/
def leavesIn : List ℕ → List (Cell β) → (ℕ → Cell β) → Option ((ℕ → Cell β) × List (Cell β))
  | [], m, cells => some (cells, m)
  | _ :: _, [], _ => none
  | j :: l, x :: m, cells => leavesIn l m (Function.update cells j x)

/-! ### Memory -/

/-- `KDTree::GetMaxCellNumber`, KDTree.h:146 -/
def kdMaxCells (level : ℕ) : ℕ := 2 ^ (level + 1) - 1

/-- `OctTree::GetMaxCellNumber`, OctTree.h:155 -/
def octMaxCells (n level : ℕ) : ℕ := (2 ^ n) ^ level

/-- The retry loop of `BuildPrunedTree`, HydroTree.cpp:1119-1141, with `attempt` the call of
`CreatePrunedTreeForMpiNode` for a given size: the size at which it succeeded, and its result. -/
def retry (attempt : ℕ → Out β) : (fuel maxCells : ℕ) → Option (ℕ × Out β)
  | 0, _ => none
  | fuel + 1, m =>
    match attempt m with
    | .full => retry attempt fuel (2 * m)
    | r => some (m, r)

/-! ### Walks on pruned trees -/

open Classical in
/-- `ComputeDistantGravityInteractionList`, body of the loop Tree.cpp:1410-1476. -/
noncomputable def distantBody (T : Tree n) (d : Domain n ℝ) (kernrange : ℝ) (gmac : Tree.Mac)
    (macerror : ℝ) (cell : KD.Props n) (c : ℕ) (s : List ℕ) : Act (List ℕ) :=
  let dr := (nearestPeriodicVector d fun k => (T.cell c).rcell k - cell.rcell k).1
  let drsqd := dot dr dr
  let hrangemax := cell.rmax + kernrange * cell.hmax
  if drsqd ≤ ((T.cell c).rmax + hrangemax) ^ 2 ∨
     drsqd ≤ (cell.rmax + (T.cell c).rmax + kernrange * (T.cell c).hmax) ^ 2 then
    if T.links.copen c ≠ none then .open_ s
    else if (T.cell c).N = 0 then .next s
    else .abort
  else if (T.cell c).N = 0 then .next s
  else if !T.openCellForGravity gmac macerror c drsqd cell.macfactor cell.amin then .next (s ++ [c])
  else if T.links.copen c ≠ none then .open_ s
  else .abort

/-- `ComputeDistantGravityInteractionList`, Tree.cpp:1387-1480; `.fail` is `-1`, otherwise the cells whose
moments were added. -/
noncomputable def distantWalk (T : Tree n) (d : Domain n ℝ) (kernrange : ℝ) (gmac : Tree.Mac)
    (macerror : ℝ) (cell : KD.Props n) (s : List ℕ) (fuel : ℕ) : Res (List ℕ) :=
  walk T.links T.Ncell (distantBody T d kernrange gmac macerror cell) fuel 0 s

open Classical in
/-- `ComputeHydroTreeCellOverlap`, body of the loop Tree.cpp:1507-1543; `.abort` is `return true`. -/
noncomputable def overlapBody (T : Tree n) (d : Domain n ℝ) (kernrange : ℝ) (cell : KD.Props n) (c : ℕ)
    (s : Unit) : Act Unit :=
  let dr := (nearestPeriodicVector d fun k => (T.cell c).rcell k - cell.rcell k).1
  let drsqd := dot dr dr
  if drsqd ≤ ((T.cell c).rmax + cell.rmax + kernrange * cell.hmax) ^ 2 ∨
     drsqd ≤ (cell.rmax + (T.cell c).rmax + kernrange * (T.cell c).hmax) ^ 2 then
    if T.links.copen c ≠ none then .open_ s
    else if (T.cell c).N = 0 then .next s
    else .abort
  else .next s

/-- `ComputeHydroTreeCellOverlap`, Tree.cpp:1491-1549; `.fail` is `true`, `.done ()` is `false`. -/
noncomputable def overlapWalk (T : Tree n) (d : Domain n ℝ) (kernrange : ℝ) (cell : KD.Props n)
    (fuel : ℕ) : Res Unit :=
  walk T.links T.Ncell (overlapBody T d kernrange cell) fuel 0 ()

end Gandalf.Pruned
