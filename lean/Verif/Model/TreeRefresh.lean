import Verif.Model.TreeSearch
import Verif.Model.KDStock
import Verif.Model.OctStock

/-!
# What is refreshed in a tree between two builds

`UpdateHmaxValues` (src/Tree/KDTree.cpp:1128-1208, src/Tree/OctTree.cpp:736-816), the two `UpdateActiveParticleCounters`
(KDTree.cpp:1217-1254, OctTree.cpp:824-859), the lists of active cells and particles (src/Tree/Tree.cpp:60-115),
the two `ExtrapolateCellProperties` (KDTree.cpp:1092-1118, Tree.cpp:172-198) and the choice between building,
stocking and extrapolating in `HydroTree::BuildTree` (src/Tree/HydroTree.cpp:310-372). The two recursive calls of
`UpdateHmaxValues` run one after the other. Cells imported by MPI are not modelled.
-/

set_option autoImplicit false

namespace Gandalf.KD

variable {n : ℕ}

/-- Zeroing, KDTree.cpp:1162-1164. -/
def hZero (cfg : Cfg) (c : Props n) : Props n :=
  { c with
    hmax := 0
    hmin := fun _ => cfg.big
    hmx := fun _ => -cfg.big }

/-- One particle of a leaf, KDTree.cpp:1174-1182 and OctTree.cpp:769-777. -/
noncomputable def hLeafBody (cfg : Cfg) (P : Parts n) (c : Props n) (i : ℕ) : Props n :=
  { c with
    hmax := max c.hmax (P.h i)
    hmin := fun k => if P.r i k - cfg.kernrange * P.h i < c.hmin k
      then P.r i k - cfg.kernrange * P.h i else c.hmin k
    hmx := fun k => if P.r i k + cfg.kernrange * P.h i > c.hmx k
      then P.r i k + cfg.kernrange * P.h i else c.hmx k }

/-- A leaf, KDTree.cpp:1162-1185 and OctTree.cpp:758-780; `l` are the particles the loop runs through. -/
noncomputable def hLeaf (cfg : Cfg) (P : Parts n) (l : List ℕ) (c : Props n) : Props n :=
  l.foldl (hLeafBody cfg P) (hZero cfg c)

/-- One child, KDTree.cpp:1193-1197 and 1198-1202, OctTree.cpp:796-800. -/
noncomputable def hChild (ch c : Props n) : Props n :=
  if ch.N > 0 then
    { c with
      hmax := max c.hmax ch.hmax
      hmin := fun k => min (ch.hmin k) (c.hmin k)
      hmx := fun k => max (ch.hmx k) (c.hmx k) }
  else c

/-- An inner cell, KDTree.cpp:1162-1164 and 1191-1202. -/
noncomputable def hInner (cfg : Cfg) (c1 c2 c : Props n) : Props n := hChild c2 (hChild c1 (hZero cfg c))

/-- The part of `UpdateHmaxValues` after the recursion, KDTree.cpp:1161-1207. -/
noncomputable def updHmaxCell (cfg : Cfg) (P : Parts n) (t : Links) (ltot pfuel c : ℕ) (s : TState n) :
    Option (TState n) :=
  if t.level c = ltot then
    match LeafList.traverse s.inext (s.ilast c) pfuel (s.ifirst c) with
    | none => none
    | some l => some { s with cell := Function.update s.cell c (hLeaf cfg P l (s.cell c)) }
  else
    match t.c1 c, t.c2 c with
    | some c1, some c2 =>
      some { s with cell := Function.update s.cell c (hInner cfg (s.cell c1) (s.cell c2) (s.cell c)) }
    | _, _ => none

/-- `KDTree::UpdateHmaxValues`, KDTree.cpp:1128-1208. `none`: the recursion or a particle list does not end within the
fuel, or a child is missing. -/
noncomputable def updHmax (cfg : Cfg) (P : Parts n) (t : Links) (ltot pfuel : ℕ) : (fuel : ℕ) → (c : ℕ) →
    TState n → Option (TState n)
  | 0, _, _ => none
  | fuel + 1, c, s =>
    if t.level c = ltot then updHmaxCell cfg P t ltot pfuel c s
    else
      match t.c1 c, t.c2 c with
      | some c1, some c2 => do
        let s1 ← updHmax cfg P t ltot pfuel fuel c1 s
        let s2 ← updHmax cfg P t ltot pfuel fuel c2 s1
        updHmaxCell cfg P t ltot pfuel c s2
      | _, _ => none

/-- `ExtrapolateCellProperties` for one cell, KDTree.cpp:1105-1110 and Tree.cpp:185-190. -/
def extrapolateCell (dt : ℝ) (c : Props n) : Props n :=
  { c with
    r := fun k => c.r k + c.v k * dt
    rcell := fun k => c.rcell k + c.v k * dt
    bbmin := fun k => c.bbmin k + c.v k * dt
    bbmax := fun k => c.bbmax k + c.v k * dt
    hmin := fun k => c.hmin k + c.v k * dt
    hmx := fun k => c.hmx k + c.v k * dt }

/-- `ExtrapolateCellProperties`, KDTree.cpp:1092-1118 and Tree.cpp:172-198. -/
def extrapolate (dt : ℝ) (Ncell : ℕ) (s : TState n) : TState n :=
  { s with cell := fun c => if c < Ncell then extrapolateCell dt (s.cell c) else s.cell c }

/-- what `HydroTree::BuildTree` does to the tree in a step -/
inductive Upkeep where
  | build | stock | extrapolate
  deriving DecidableEq

/-- The choice in `HydroTree::BuildTree`, HydroTree.cpp:332, 352 and 360. -/
def upkeep (rebuild : Bool) (nstep ntreebuildstep ntreestockstep : ℕ) : Upkeep :=
  if nstep % ntreebuildstep = 0 ∨ rebuild = true then .build
  else if nstep % ntreestockstep = 0 then .stock
  else .extrapolate

end Gandalf.KD

namespace Gandalf.Oct
open KD

variable {n : ℕ}

/-- `OctTree::UpdateHmaxValues` for one cell, OctTree.cpp:755-805. -/
noncomputable def updHmaxCell (cfg : Cfg) (P : Parts n) (L : Walk.Links) (pfuel kfuel : ℕ) (s : TState n) (c : ℕ) :
    Option (TState n) :=
  match L.copen c with
  | none =>
    match LeafList.traverse s.inext (s.ilast c) pfuel (s.ifirst c) with
    | none => none
    | some l => some { s with cell := Function.update s.cell c (hLeaf cfg P l (s.cell c)) }
  | some c1 =>
    match L.cnext c with
    | none => none
    | some cend =>
      match kids L cend kfuel c1 with
      | none => none
      | some ks => some { s with
          cell := Function.update s.cell c
            ((ks.map s.cell).foldl (fun a ch => hChild ch a) (hZero cfg (s.cell c))) }

/-- `OctTree::UpdateHmaxValues`, OctTree.cpp:736-816, over the cells `cs` in the order of `order`. -/
noncomputable def updHmax (cfg : Cfg) (P : Parts n) (L : Walk.Links) (pfuel kfuel : ℕ) (cs : List ℕ) (s : TState n) :
    Option (TState n) :=
  match cs with
  | [] => some s
  | c :: cs =>
    match updHmaxCell cfg P L pfuel kfuel s c with
    | none => none
    | some s' => updHmax cfg P L pfuel kfuel cs s'

end Gandalf.Oct

namespace Gandalf.Tree

variable {n : ℕ}

/-- The test for a particle that counts: `i < Ntot`, active, not dead (KDTree.cpp:1242, Tree.cpp:72). -/
def counts (P : KD.Parts n) (Ntot i : ℕ) : Bool := decide (i < Ntot) && P.active i && !P.dead i

/-- The new `Nactive` of a cell: zero unless `leaf`, else the number of particles of its list which pass `test`;
KDTree.cpp:1234-1246 with `leaf = (level == ltot)` and `test = counts`, OctTree.cpp:840-851 with
`leaf = (copen == -1)` and `test = active`. -/
def countLeaf (T : Tree n) (leaf : Bool) (test : ℕ → Bool) (pfuel c : ℕ) : Option ℕ :=
  if leaf then (T.leafList pfuel c).map fun l => (l.filter test).length else some 0

/-- The loop over the first `m` cells, KDTree.cpp:1233-1248 and OctTree.cpp:839-853. -/
def updActive (leaf : ℕ → Bool) (test : ℕ → Bool) (pfuel : ℕ) : (m : ℕ) → Tree n → Option (Tree n)
  | 0, T => some T
  | m + 1, T => do
    let T1 ← updActive leaf test pfuel m T
    let N ← T1.countLeaf (leaf m) test pfuel m
    some { T1 with cell := Function.update T1.cell m { T1.cell m with Nactive := N } }

/-- `ComputeActiveParticleList`, Tree.cpp:60-81. -/
def activeList (T : Tree n) (P : KD.Parts n) (Ntot pfuel c : ℕ) : Option (List ℕ) :=
  (T.leafList pfuel c).map fun l => l.filter (counts P Ntot)

/-- `ComputeActiveCellList` and `ComputeActiveCellPointers`, Tree.cpp:102-106 and 151-155. -/
def activeCells (T : Tree n) : List ℕ :=
  (List.range T.Ncell).filter fun c =>
    decide ((T.cell c).N ≤ T.Nleafmax) && decide (T.links.copen c = none) && decide (0 < (T.cell c).Nactive)

end Gandalf.Tree
