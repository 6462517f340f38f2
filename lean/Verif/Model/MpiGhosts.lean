import Verif.Model.MpiDomains

/-!
# Which particles a process sends to another as ghosts
(src/Tree/Tree.cpp:1611-1678, src/Tree/HydroTree.cpp:1431-1452, src/Mpi/MpiNode.cpp:98-141, src/Mpi/MpiControl.cpp:1002-1051)

Left out: the messages themselves (C41, C43).
-/

set_option autoImplicit false

namespace Gandalf

noncomputable section

variable {n : ℕ}

/-- "maximum cell bounding box depending on particle velocities", Tree.cpp:1634-1639 -/
def Mpi.scatterBox (tghost grange : ℝ) (c : KD.Props n) : Box n ℝ where
  min k := c.bbmin k + min 0 (c.v k * tghost) - grange * c.hmax
  max k := c.bbmax k + max 0 (c.v k * tghost) + grange * c.hmax

/-- body of the loop of `FindBoxGhostParticles`, Tree.cpp:1630-1673 -/
def Tree.ghostBody (T : Tree n) (tghost grange : ℝ) (box : Box n ℝ) (pfuel : ℕ) (c : ℕ) (s : List ℕ) : Walk.Act (List ℕ) :=
  if boxOverlap (Mpi.scatterBox tghost grange (T.cell c)) box then
    if T.links.copen c ≠ none then .open_ s
    else if (T.cell c).N = 0 then .next s
    else
      match T.leafList pfuel c with
      | none => .open_ s
      | some l => .next (s ++ l)
  else .next s

/-- `Tree::FindBoxGhostParticles`, Tree.cpp:1615-1678; `s` is the list so far -/
def Tree.boxGhosts (T : Tree n) (tghost grange : ℝ) (box : Box n ℝ) (pfuel fuel : ℕ) (s : List ℕ) : Option (List ℕ) :=
  match Walk.walk T.links T.Ncell (T.ghostBody tghost grange box pfuel) fuel 0 s with
  | .done l => some l
  | _ => none

namespace Mpi

/-- `ghost_range`, Hydrodynamics.h:52 -/
def ghostRange : ℝ := 5 / 2

/-- `HydroTree::SearchMpiGhostParticles`, HydroTree.cpp:1436-1452: `T` is the tree of the particles, `G` that of their periodic and
mirror images -/
def searchGhosts (T G : Tree n) (kernrange tghost : ℝ) (box : Box n ℝ) (pfuel fuel : ℕ) : Option (List ℕ) :=
  (T.boxGhosts tghost (2 * ghostRange * kernrange) box pfuel fuel []).bind
    (G.boxGhosts tghost (2 * ghostRange * kernrange) box pfuel fuel)

/-- `hbox` of a process from positions and smoothing lengths, MpiNode.cpp:112-128 -/
def hboxOf (big kernrange : ℝ) (l : List (Vec n ℝ × ℝ)) : Box n ℝ :=
  l.foldl (fun b x => ⟨fun k => min (b.min k) (x.1 k - 2 * kernrange * x.2), fun k => max (b.max k) (x.1 k + 2 * kernrange * x.2)⟩)
    ⟨fun _ => big, fun _ => -big⟩

/-- what the search for ghosts reads of a process; `parts` are the indices that entered its boxes -/
structure Proc (n : ℕ) where
  T : Tree n
  G : Tree n
  P : KD.Parts n
  parts : List ℕ

def Proc.rbox (p : Proc n) (big : ℝ) : Box n ℝ := rboxOf big (p.parts.map p.P.r)

def Proc.hbox (p : Proc n) (big kernrange : ℝ) : Box n ℝ := hboxOf big kernrange (p.parts.map fun i => (p.P.r i, p.P.h i))

/-- the list process `p` makes for process `q`, MpiControl.cpp:1023-1051 -/
def ghostsTo (big kernrange tghost : ℝ) (pfuel fuel : ℕ) (p q : Proc n) : Option (List ℕ) :=
  if boxesOverlap (q.hbox big kernrange) (p.hbox big kernrange) then
    searchGhosts p.T p.G kernrange tghost (q.rbox big) pfuel fuel
  else some []

end Mpi
end
end Gandalf
