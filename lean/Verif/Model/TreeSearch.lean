import Verif.Model.TreeWalk
import Verif.Model.KDStock
import Verif.Model.Box

/-!
# Tree searches (src/Tree/Tree.cpp)

Each walk is the loop `Walk.walk` with its own body. Result arrays such as
`neiblist[Nneib++] = i` are lists growing at the end. A leaf whose particle list does not end within
`pfuel` links makes the body "open" the leaf, i.e. the walk `stuck` (an endless loop in C++).
-/

set_option autoImplicit false

namespace Gandalf
open Walk

/-- The finished tree as the searches see it: links, cells, particle lists. `mac` is the field
`TreeCell::mac` of the eigenvalue criterion. `Nend` is the value of `cnext` that leads out of the
tree: `Ncell` in a KD-tree (KDTree.cpp:406, 417), `Ncellmax` in an oct-tree (OctTree.cpp:245). -/
structure Tree (n : ℕ) where
  links : Walk.Links
  Ncell : ℕ
  Nend : ℕ
  Nleafmax : ℕ
  cell : ℕ → KD.Props n
  mac : ℕ → ℝ
  ifirst : ℕ → Option ℕ
  ilast : ℕ → Option ℕ
  inext : ℕ → Option ℕ

variable {n : ℕ}

namespace Tree

/-- the particles of a leaf, `i = ifirst; while (i != -1) { …; if (i == ilast) break; i = inext[i]; }` -/
def leafList (T : Tree n) (pfuel : ℕ) (c : ℕ) : Option (List ℕ) :=
  LeafList.traverse T.inext (T.ilast c) pfuel (T.ifirst c)

noncomputable section

/-- squared distance, `DotProduct(dr,dr,ndim)` of `dr = x - y` -/
def distsqd (x y : Vec n ℝ) : ℝ := dot (fun k => x k - y k) (fun k => x k - y k)

/-- the bounding and smoothing boxes of a cell -/
def _root_.Gandalf.KD.Props.bb (c : KD.Props n) : Box n ℝ := ⟨c.bbmin, c.bbmax⟩
def _root_.Gandalf.KD.Props.hb (c : KD.Props n) : Box n ℝ := ⟨c.hmin, c.hmx⟩

/-- `ComputeGatherNeighbourList` around a point, body of the loop Tree.cpp:231-273. -/
def gatherPointBody (T : Tree n) (P : KD.Parts n) (rp : Vec n ℝ) (rsearch : ℝ) (Nneibmax pfuel : ℕ)
    (c : ℕ) (s : List ℕ) : Act (List ℕ) :=
  if distsqd (T.cell c).rcell rp < (rsearch + (T.cell c).rmax) * (rsearch + (T.cell c).rmax) then
    if T.links.copen c ≠ none then .open_ s
    else if (T.cell c).N = 0 then .next s
    else if s.length + T.Nleafmax < Nneibmax then
      match T.leafList pfuel c with
      | none => .open_ s
      | some l => .next (s ++ l.filter fun i =>
          decide (distsqd (P.r i) rp < rsearch * rsearch) && !P.dead i)
    else .abort
  else .next s

/-- `ComputeGatherNeighbourList` around a point, Tree.cpp:208-280. `s` holds the `Nneib` entries
present on entry. -/
def gatherPoint (T : Tree n) (P : KD.Parts n) (rp : Vec n ℝ) (rsearch : ℝ) (Nneibmax pfuel : ℕ)
    (s : List ℕ) (fuel : ℕ) : Res (List ℕ) :=
  walk T.links T.Ncell (T.gatherPointBody P rp rsearch Nneibmax pfuel) fuel 0 s

/-- `gatherboxmin/max`, Tree.cpp:319-320 -/
def gatherBox (kernrange : ℝ) (cell : KD.Props n) (hmax : ℝ) : Box n ℝ :=
  ⟨fun k => cell.bbmin k - kernrange * hmax, fun k => cell.bbmax k + kernrange * hmax⟩

/-- `ComputeGatherNeighbourList` for a cell, body of the loop Tree.cpp:326-362. -/
def gatherCellBody (T : Tree n) (gbox : Box n ℝ) (Nneibmax pfuel : ℕ) (c : ℕ) (s : List ℕ) :
    Act (List ℕ) :=
  if boxOverlap gbox (T.cell c).bb then
    if T.links.copen c ≠ none then .open_ s
    else if (T.cell c).N = 0 then .next s
    else if s.length + T.Nleafmax < Nneibmax then
      match T.leafList pfuel c with
      | none => .open_ s
      | some l => .next (s ++ l)
    else .abort
  else .next s

/-- The trimming loop at the end of the searches,
`for (j=Nneib; j<Ntemp; j++) { i = neiblist[j]; if (keep i) neiblist[Nneib++] = i; }`
(Tree.cpp:370-377, 475-489) on the array itself: `m` turns left, reading at `j`, writing at `nn`. -/
def trimLoop (keep : ℕ → Bool) : (m j nn : ℕ) → (ℕ → ℕ) → (ℕ → ℕ) × ℕ
  | 0, _, nn, a => (a, nn)
  | m + 1, j, nn, a =>
    if keep (a j) then trimLoop keep m (j + 1) (nn + 1) (Function.update a nn (a j))
    else trimLoop keep m (j + 1) nn a

/-- array view of a list, `rest` beyond its end -/
def arrayOf (l : List ℕ) (rest : ℕ → ℕ) (i : ℕ) : ℕ := (l[i]?).getD (rest i)

/-- Trimming applied to the list `found` whose first `N0` entries were there before the call. -/
def trimList (keep : ℕ → Bool) (N0 : ℕ) (found : List ℕ) : List ℕ :=
  let r := trimLoop keep (found.length - N0) N0 N0 (arrayOf found fun _ => 0)
  (List.range r.2).map r.1

/-- `ComputeGatherNeighbourList` for a cell, Tree.cpp:291-381. -/
def gatherCell (T : Tree n) (P : KD.Parts n) (kernrange : ℝ) (cell : KD.Props n) (hmax : ℝ)
    (Nneibmax pfuel : ℕ) (s : List ℕ) (fuel : ℕ) : Res (List ℕ) :=
  match walk T.links T.Ncell (T.gatherCellBody (gatherBox kernrange cell hmax) Nneibmax pfuel)
      fuel 0 s with
  | .stuck => .stuck
  | .fail => .fail
  | .done found => .done (trimList (fun i => !P.dead i &&
      decide (distsqd (P.r i) cell.rcell < (cell.rmax + kernrange * hmax) ^ 2)) s.length found)

/-- `ComputeNeighbourList` into an array, body of the loop Tree.cpp:427-467. -/
def neighbourBody (T : Tree n) (cell : KD.Props n) (Nneibmax pfuel : ℕ) (c : ℕ) (s : List ℕ) :
    Act (List ℕ) :=
  if boxOverlap cell.bb (T.cell c).hb || boxOverlap cell.hb (T.cell c).bb then
    if T.links.copen c ≠ none then .open_ s
    else if (T.cell c).N = 0 then .next s
    else if s.length + T.Nleafmax < Nneibmax then
      match T.leafList pfuel c with
      | none => .open_ s
      | some l => .next (s ++ l)
    else .abort
  else .next s

/-- `ComputeNeighbourList` into an array, Tree.cpp:394-493 (only the ids, not the copied particles). -/
def neighbourList (T : Tree n) (P : KD.Parts n) (kernrange : ℝ) (cell : KD.Props n)
    (Nneibmax pfuel : ℕ) (s : List ℕ) (fuel : ℕ) : Res (List ℕ) :=
  match walk T.links T.Ncell (T.neighbourBody cell Nneibmax pfuel) fuel 0 s with
  | .stuck => .stuck
  | .fail => .fail
  | .done found => .done (trimList (fun i => !P.dead i &&
      (decide (distsqd (P.r i) cell.rcell < (cell.rmax + kernrange * cell.hmax) ^ 2) ||
       decide (distsqd (P.r i) cell.rcell <
        (cell.rmax + kernrange * P.h i) * (cell.rmax + kernrange * P.h i)))) s.length found)

/-- `ComputeNeighbourList` / `ComputeNeighbourAndGhostList` with a neighbour manager, bodies of the
loops Tree.cpp:514-547 and 580-612. The state is the manager's `tempneib` / `tempperneib`. -/
def managerBody (T : Tree n) (overlap : Box n ℝ → Box n ℝ → Bool) (cell : KD.Props n) (pfuel : ℕ)
    (c : ℕ) (s : List ℕ) : Act (List ℕ) :=
  if overlap cell.bb (T.cell c).hb || overlap cell.hb (T.cell c).bb then
    if T.links.copen c ≠ none then .open_ s
    else if (T.cell c).N = 0 then .next s
    else
      match T.leafList pfuel c with
      | none => .open_ s
      | some l => .next (s ++ l)
  else .next s

/-- `ComputeNeighbourList(cell, neibmanager)`, Tree.cpp:502-552. -/
def neighbourWalk (T : Tree n) (cell : KD.Props n) (pfuel : ℕ) (s : List ℕ) (fuel : ℕ) :
    Res (List ℕ) :=
  walk T.links T.Ncell (T.managerBody boxOverlap cell pfuel) fuel 0 s

/-- `ComputeNeighbourAndGhostList`, Tree.cpp:562-617. `junk`: see `periodicBoxOverlap`. -/
def ghostNeighbourWalk (T : Tree n) (d : Domain n ℝ) (junk : Vec n ℝ) (cell : KD.Props n)
    (pfuel : ℕ) (s : List ℕ) (fuel : ℕ) : Res (List ℕ) :=
  walk T.links T.Ncell (T.managerBody (periodicBoxOverlap d junk) cell pfuel) fuel 0 s

/-- `MAC_Type`, Tree.h:52-56 -/
inductive Mac where
  | geometric | gadget2 | eigenmac

/-- `open_cell_for_gravity`, Tree.h:413-432. -/
def openCellForGravity (T : Tree n) (gmac : Mac) (macerror : ℝ) (c : ℕ) (drsqd macfactor amag : ℝ) :
    Bool :=
  if drsqd < (T.cell c).cdistsqd then true
  else
    match gmac with
    | .eigenmac => decide (drsqd < T.mac c * macfactor)
    | .gadget2 => decide (drsqd * drsqd * amag * macerror <
        (T.cell c).rmax * (T.cell c).rmax * (T.cell c).m)
    | .geometric => false

/-- The three lists of a neighbour manager filled by the gravity walk: `tempperneib`,
`tempdirectneib` and the cells whose multipole moments were added to `gravcell`. -/
structure GravLists where
  neib : List ℕ
  direct : List ℕ
  cells : List ℕ

/-- `ComputeGravityInteractionAndGhostList`, body of the loop Tree.cpp:650-729. -/
def gravityBody (T : Tree n) (d : Domain n ℝ) (kernrange : ℝ) (gmac : Mac) (macerror : ℝ)
    (cell : KD.Props n) (pfuel : ℕ) (c : ℕ) (s : GravLists) : Act GravLists :=
  let dr := ghostNearest d (fun k => (T.cell c).rcell k - cell.rcell k)
  let drsqd := dot dr dr
  if drsqd ≤ ((T.cell c).rmax + cell.rmax + kernrange * cell.hmax) ^ 2 ∨
     drsqd ≤ (cell.rmax + (T.cell c).rmax + kernrange * (T.cell c).hmax) ^ 2 then
    if T.links.copen c ≠ none then .open_ s
    else if (T.cell c).N = 0 then .next s
    else
      match T.leafList pfuel c with
      | none => .open_ s
      | some l => .next { s with neib := s.neib ++ l }
  else if (T.cell c).N = 0 then .next s
  else if !T.openCellForGravity gmac macerror c drsqd cell.macfactor cell.amin then
    if T.links.copen c = none ∧ (T.cell c).N = 1 then
      .next { s with direct := s.direct ++ (T.ifirst c).toList }
    else .next { s with cells := s.cells ++ [c] }
  else if T.links.copen c ≠ none then .open_ s
  else
    match T.leafList pfuel c with
    | none => .open_ s
    | some l => .next { s with direct := s.direct ++ l }

/-- `ComputeGravityInteractionAndGhostList`, Tree.cpp:628-735. -/
def gravityWalk (T : Tree n) (d : Domain n ℝ) (kernrange : ℝ) (gmac : Mac) (macerror : ℝ)
    (cell : KD.Props n) (pfuel : ℕ) (s : GravLists) (fuel : ℕ) : Res GravLists :=
  walk T.links T.Ncell (T.gravityBody d kernrange gmac macerror cell pfuel) fuel 0 s

/-- `ComputeStarGravityInteractionList`, body of the loop Tree.cpp:787-873. -/
def starGravityBody (T : Tree n) (P : KD.Parts n) (kernrange : ℝ) (rs : Vec n ℝ) (hs : ℝ)
    (Nneibmax Ndirectmax Ngravcellmax pfuel : ℕ) (c : ℕ) (s : GravLists) : Act GravLists :=
  let drsqd := distsqd (T.cell c).rcell rs
  let hrangemax := kernrange * hs
  if drsqd < (0.5 * hrangemax + (T.cell c).rmax + 0.5 * kernrange * (T.cell c).hmax) ^ 2 then
    if T.links.copen c ≠ none then .open_ s
    else if s.neib.length + T.Nleafmax ≤ Nneibmax then
      match T.leafList pfuel c with
      | none => .open_ s
      | some l => .next { s with neib := s.neib ++ l.filter fun i => !P.dead i }
    else .abort
  else if drsqd > (T.cell c).cdistsqd ∧ (T.cell c).N > 0 then
    if T.links.copen c = none ∧ (T.cell c).N = 1 ∧ s.direct.length + s.neib.length < Ndirectmax then
      .next { s with direct := s.direct ++ (T.ifirst c).toList.filter fun i => !P.dead i }
    else if s.cells.length < Ngravcellmax ∧ (T.cell c).N > 0 then
      .next { s with cells := s.cells ++ [c] }
    else .abort
  else if drsqd ≤ (T.cell c).cdistsqd ∧ (T.cell c).N > 0 then
    if T.links.copen c ≠ none then .open_ s
    else if s.direct.length + T.Nleafmax ≤ Ndirectmax then
      match T.leafList pfuel c with
      | none => .open_ s
      | some l => .next { s with direct := s.direct ++ l.filter fun i => !P.dead i }
    else .abort
  else .next s

/-- `ComputeStarGravityInteractionList`, Tree.cpp:748-885. -/
def starGravityWalk (T : Tree n) (P : KD.Parts n) (kernrange : ℝ) (rs : Vec n ℝ) (hs : ℝ)
    (Nneibmax Ndirectmax Ngravcellmax pfuel fuel : ℕ) : Res GravLists :=
  walk T.links T.Ncell
    (T.starGravityBody P kernrange rs hs Nneibmax Ndirectmax Ngravcellmax pfuel) fuel 0 ⟨[], [], []⟩

end
end Tree
end Gandalf
