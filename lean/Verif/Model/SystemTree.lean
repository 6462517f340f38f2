import Verif.Common
import Verif.Model.Vec
import Mathlib.Analysis.SpecialFunctions.Pow.Real
import Mathlib.Analysis.Real.Pi.Bounds
import Mathlib.Analysis.SpecialFunctions.Sqrt

/-! # The nearest-neighbour tree of the stars and the sub-systems found on it

`Nbody/NbodySystemTree.cpp`. The tree and the lists are kept as in the code: arrays indexed by node,
stars first. `big` stands for `big_number`, `eps` for `small_number_dp`. -/

set_option autoImplicit false

namespace Gandalf.SysTree

open Function

/-! ### The tree -/

/-- a node of the tree, `NNTreeCell`, Headers/NbodySystemTree.h:50-74, with the members that
`CreateNbodySystemTree` sets. `-1` is `none`; the two children are one pair. `radius` is left out
(it is not read by the functions modelled here). -/
structure Node (n : ℕ) (α : Type) where
  child : Option (ℕ × ℕ)
  parent : Option ℕ
  nearest : Option ℕ
  rsqd : α
  ncomp : ℕ
  nstar : ℕ
  rpos : Vec n α

/-- `Nnode` and `NNtree` -/
structure State (n : ℕ) (α : Type) where
  nnode : ℕ
  node : ℕ → Node n α

section Build
variable {n : ℕ} {α : Type} [Field α] [LinearOrder α]

/-- squared distance, NbodySystemTree.cpp:191-192 -/
def distSq (a b : Vec n α) : α := dot (fun k => a k - b k) (fun k => a k - b k)

/-- nodes of the stars and blank nodes after them, NbodySystemTree.cpp:133-163 -/
def init (big : α) (N : ℕ) (r : ℕ → Vec n α) : State n α where
  nnode := N
  node i := { child := none, parent := none, nearest := none, rsqd := big
              ncomp := if i < N then 1 else 0, nstar := if i < N then 1 else 0, rpos := r i }

/-- nodes without a parent, NbodySystemTree.cpp:172-175 -/
def freeList (s : State n α) : List ℕ :=
  (List.range s.nnode).filter fun i => (s.node i).parent.isNone

/-- one candidate `j` for the nearest node of `i`, NbodySystemTree.cpp:188-196 -/
def closer (s : State n α) (i : ℕ) (acc : Option ℕ × α) (j : ℕ) : Option ℕ × α :=
  if i = j then acc
  else if distSq (s.node i).rpos (s.node j).rpos < acc.2 then
    (some j, distSq (s.node i).rpos (s.node j).rpos)
  else acc

/-- nearest node of `i` and its squared distance, NbodySystemTree.cpp:184-197 -/
def nearestOf (big : α) (s : State n α) (f : List ℕ) (i : ℕ) : Option ℕ × α :=
  f.foldl (closer s i) (none, big)

/-- nearest node of every node of the list, NbodySystemTree.cpp:182-198. The loop reads positions
only, so all nodes are set at once. -/
def setNearest (big : α) (s : State n α) (f : List ℕ) : State n α where
  nnode := s.nnode
  node i := if i ∈ f then
      { s.node i with
        nearest := (nearestOf big s f i).1
        rsqd := (nearestOf big s f i).2 }
    else s.node i

/-- the pairs `ii < jj` of a list in the order of NbodySystemTree.cpp:204-208 -/
def pairs {β : Type} : List β → List (β × β)
  | [] => []
  | i :: l => l.map (fun j => (i, j)) ++ pairs l

/-- node `Nnode` made of `i` and `j`, NbodySystemTree.cpp:213-223 -/
def merge (s : State n α) (i j : ℕ) : State n α where
  nnode := s.nnode + 1
  node := update (update (update s.node i { s.node i with parent := some s.nnode })
      j { s.node j with parent := some s.nnode })
    s.nnode { s.node s.nnode with
      child := some (i, j)
      nstar := (s.node i).nstar + (s.node j).nstar
      ncomp := (s.node i).ncomp + (s.node j).ncomp
      rpos := fun k => 1 / 2 * ((s.node i).rpos k + (s.node j).rpos k) }

/-- NbodySystemTree.cpp:212-227 -/
def tryMerge (s : State n α) (p : ℕ × ℕ) : State n α :=
  if (s.node p.1).nearest = some p.2 ∧ (s.node p.2).nearest = some p.1 then merge s p.1 p.2 else s

/-- one round of the loop for the list of free nodes, NbodySystemTree.cpp:182-231 -/
def pass (big : α) (s : State n α) : State n α :=
  (pairs (freeList s)).foldl tryMerge (setNearest big s (freeList s))

/-- the loop, NbodySystemTree.cpp:169-234; `none`: still running after `fuel` rounds -/
def loop (big : α) (nmax : ℕ) : ℕ → State n α → Option (State n α)
  | 0, _ => none
  | fuel + 1, s =>
    if s.nnode < nmax then
      if (freeList s).length = 1 then some s else loop big nmax fuel (pass big s)
    else some s

/-- `CreateNbodySystemTree`, NbodySystemTree.cpp:120-245; `nmax` is `Nnodemax`, at least `2*N`
(`AllocateMemory`, NbodySystemTree.cpp:76-92) -/
def create (big : α) (nmax fuel N : ℕ) (r : ℕ → Vec n α) : Option (State n α) :=
  loop big nmax fuel (init big N r)

end Build

/-! ### Sub-systems -/

/-- a star, `StarParticle`; accelerations and their derivatives, which are averaged exactly as `v`,
and `h` are left out -/
structure Star (n : ℕ) where
  m : ℝ
  r : Vec n ℝ
  v : Vec n ℝ
  gpot : ℝ

/-- a pointer `NbodyParticle*` in a list: into `stardata` or into `system` -/
inductive Body where
  | star (i : ℕ)
  | system (s : ℕ)
deriving DecidableEq

/-- `SystemParticle`, as set in NbodySystemTree.cpp:409-444 -/
structure Sys (n : ℕ) where
  inode : ℕ
  m : ℝ
  r : Vec n ℝ
  v : Vec n ℝ
  gpeInt : ℝ
  dtInt : ℝ
  ncomp : ℕ
  children : List Body

/-- the members of a node set by `BuildSubSystems` -/
structure Cell (n : ℕ) where
  m : ℝ
  r : Vec n ℝ
  v : Vec n ℝ
  gpe : ℝ
  gpeInt : ℝ
  ncomp : ℕ
  list : List Body

/-- an entry of `orbit`, `BinaryOrbit` -/
structure Orbit (n : ℕ) where
  ichild1 : ℕ
  ichild2 : ℕ
  m : ℝ
  r : Vec n ℝ
  v : Vec n ℝ
  binen : ℝ
  sma : ℝ
  period : ℝ
  ecc : ℝ
  q : ℝ
  kind : String

/-- nodes, `system[0..Nsystem-1]`, the list `nbodydata`, and the list `orbit` -/
structure Subs (n : ℕ) where
  cell : ℕ → Cell n
  sys : ℕ → Sys n
  nsys : ℕ
  nbody : List Body
  orbits : List (Orbit n)

section Subsystems
variable {n : ℕ}

/-- mass of a body -/
def bodyM (stars : ℕ → Star n) (sys : ℕ → Sys n) : Body → ℝ
  | .star i => (stars i).m
  | .system s => (sys s).m

/-- position of a body -/
def bodyR (stars : ℕ → Star n) (sys : ℕ → Sys n) : Body → Vec n ℝ
  | .star i => (stars i).r
  | .system s => (sys s).r

/-- velocity of a body -/
def bodyV (stars : ℕ → Star n) (sys : ℕ → Sys n) : Body → Vec n ℝ
  | .star i => (stars i).v
  | .system s => (sys s).v

/-- node of a star, NbodySystemTree.cpp:298-312 -/
noncomputable def leaf (st : Star n) (c : ℕ) : Cell n :=
  { m := st.m, r := st.r, v := st.v, gpe := 1 / 2 * st.m * st.gpot, gpeInt := 0, ncomp := 1
    list := [Body.star c] }

/-- node of two nodes before the lists are looked at, NbodySystemTree.cpp:318-336 -/
noncomputable def join (a b : Cell n) : Cell n :=
  { m := a.m + b.m
    r := fun k => (a.m * a.r k + b.m * b.r k) / (a.m + b.m)
    v := fun k => (a.m * a.v k + b.m * b.v k) / (a.m + b.m)
    gpe := a.gpe + b.gpe, gpeInt := 0, ncomp := a.ncomp + b.ncomp, list := [] }

/-- energy of a pair, NbodySystemTree.cpp:379-382 -/
noncomputable def pairEnergy (eps m1 m2 : ℝ) (r1 r2 : Vec n ℝ) : ℝ :=
  m1 * m2 * (1 / (Real.sqrt (distSq r2 r1) + eps))

/-- `gpe_internal`, NbodySystemTree.cpp:375-384 -/
noncomputable def internal (eps : ℝ) (M : Body → ℝ) (R : Body → Vec n ℝ) (l : List Body) : ℝ :=
  ((pairs l).map fun p => pairEnergy eps (M p.1) (M p.2) (R p.1) (R p.2)).sum

/-- `ketot`, NbodySystemTree.cpp:365-370 -/
noncomputable def kinetic (M : Body → ℝ) (V : Body → Vec n ℝ) (v : Vec n ℝ) (l : List Body) : ℝ :=
  (l.map fun b => 1 / 2 * M b * distSq (V b) v).sum

/-- `tcross`, NbodySystemTree.cpp:371, 388 -/
noncomputable def tcross (m gpeInt ketot : ℝ) : ℝ :=
  Real.sqrt (m * m / gpeInt) / Real.sqrt (2 * ketot / m)

/-- the condition for a new system, NbodySystemTree.cpp:405 -/
def Hard (soft gpe gpeInt : ℝ) : Prop := |gpe - gpeInt| < soft * gpe

/-- angular momentum of the relative orbit, NbodySystemTree.cpp:629-638. Any other number of
dimensions than 2 and 3 gives zero. -/
def angmomSq (mu : ℝ) : (n : ℕ) → Vec n ℝ → Vec n ℝ → ℝ
  | 2, dr, dv => (mu * (dr 0 * dv 1 - dr 1 * dv 0)) * (mu * (dr 0 * dv 1 - dr 1 * dv 0))
  | 3, dr, dv =>
    let L : Vec 3 ℝ := ![mu * (dr 1 * dv 2 - dr 2 * dv 1), mu * (dr 2 * dv 0 - dr 0 * dv 2),
      mu * (dr 0 * dv 1 - dr 1 * dv 0)]
    dot L L
  | _, _, _ => 0

/-- type of a system, NbodySystemTree.cpp:660-671 -/
def kind (N c1 c2 : ℕ) : String :=
  if c1 < N ∧ c2 < N then "binary" else if c1 < N ∨ c2 < N then "triple" else "quadruple"

open Classical in
/-- `ComputeNewBinaryOrbit`, NbodySystemTree.cpp:608-675; `none`: not bound, nothing recorded -/
noncomputable def newOrbit (eps : ℝ) (N c1 c2 : ℕ) (cell cell1 cell2 : Cell n) : Option (Orbit n) :=
  let mu := cell1.m * cell2.m / cell.m
  let dv : Vec n ℝ := fun k => cell1.v k - cell2.v k
  let dr : Vec n ℝ := fun k => cell1.r k - cell2.r k
  let L := angmomSq mu n dr dv
  let binen := 1 / 2 * dot dv dv - cell.m * (1 / (Real.sqrt (dot dr dr) + eps))
  if 0 ≤ binen then none
  else
    let sma := -(1 / 2) * cell.m / binen
    some { ichild1 := c1, ichild2 := c2, m := cell.m, r := cell.r, v := cell.v, binen := binen
           sma := sma
           period := 2 * Real.pi * Real.sqrt (sma ^ 3 / cell.m)
           ecc := Real.sqrt (max 0 (1 - L / (cell.m * sma * mu * mu)))
           q := if cell2.m < cell1.m then cell2.m / cell1.m else cell1.m / cell2.m
           kind := kind N c1 c2 }

/-- `Ncompmax`, Headers/SystemParticle.h:33 -/
def ncompMax : ℕ := 4

/-- the node `c` with the merged list, NbodySystemTree.cpp:353-388 -/
noncomputable def merged (eps : ℝ) (M : Body → ℝ) (R : Body → Vec n ℝ) (a b : Cell n) : Cell n :=
  { join a b with
    list := a.list ++ b.list
    gpeInt := internal eps M R (a.list ++ b.list) }

/-- the new system particle of node `c`, NbodySystemTree.cpp:409-444 -/
noncomputable def newSys (M : Body → ℝ) (V : Body → Vec n ℝ) (c : ℕ) (x : Cell n) : Sys n :=
  { inode := c, m := x.m, r := x.r, v := x.v, gpeInt := x.gpeInt
    dtInt := tcross x.m x.gpeInt (kinetic M V x.v x.list)
    ncomp := x.ncomp, children := x.list }

open Classical in
/-- node `c` of the children `c1`, `c2`, NbodySystemTree.cpp:317-484 -/
noncomputable def stockNode (eps soft : ℝ) (N : ℕ) (stars : ℕ → Star n) (S : Subs n) (c c1 c2 : ℕ) :
    Subs n :=
  let a := S.cell c1
  let b := S.cell c2
  let M := bodyM stars S.sys
  let R := bodyR stars S.sys
  let V := bodyV stars S.sys
  if a.ncomp + b.ncomp ≤ ncompMax then
    let x := merged eps M R a b
    if Hard soft x.gpe x.gpeInt then
      { cell := update S.cell c { x with
          ncomp := 1
          list := [Body.system S.nsys]
          gpe := x.gpe - x.gpeInt
          gpeInt := 0 }
        sys := update S.sys S.nsys (newSys M V c x)
        nsys := S.nsys + 1
        nbody := S.nbody
        orbits := if x.ncomp = 2 then S.orbits ++ (newOrbit eps N c1 c2 x a b).toList else S.orbits }
    else { S with cell := update S.cell c x }
  else
    { S with
      cell := update (update (update S.cell c1 { a with list := [] }) c2 { b with list := [] })
        c (join a b)
      nbody := S.nbody ++ a.list ++ b.list }

/-- the loop over the nodes, NbodySystemTree.cpp:289-487. A node that is not a star has two
children (theorem `C77_tree`); the other case does nothing. -/
noncomputable def stock (eps soft : ℝ) (N : ℕ) (stars : ℕ → Star n) (child : ℕ → Option (ℕ × ℕ))
    (S : Subs n) (c : ℕ) : Subs n :=
  if c < N then { S with cell := update S.cell c (leaf (stars c) c) }
  else match child c with
    | some p => stockNode eps soft N stars S c p.1 p.2
    | none => S

/-- `BuildSubSystems`, NbodySystemTree.cpp:255-512, from nodes `cell0` and systems `sys0` with any
contents -/
noncomputable def build (eps soft : ℝ) (N nnode : ℕ) (stars : ℕ → Star n)
    (child : ℕ → Option (ℕ × ℕ)) (cell0 : ℕ → Cell n) (sys0 : ℕ → Sys n) : Subs n :=
  let S := (List.range nnode).foldl (stock eps soft N stars child) ⟨cell0, sys0, 0, [], []⟩
  { S with nbody := S.nbody ++ (S.cell (nnode - 1)).list }

/-! ### Perturbers -/

/-- `Npertmax`, Headers/SystemParticle.h:34 -/
def npertMax : ℕ := 4

/-- what the search for perturbers reads of a node -/
structure PNode (n : ℕ) where
  m : ℝ
  r : Vec n ℝ
  ncomp : ℕ
  body : Body
  child1 : ℕ
  child2 : ℕ
  parent : ℕ
  nearest : ℕ

/-- energy with node `caux`, NbodySystemTree.cpp:857-859 -/
noncomputable def pull (ms : ℝ) (rs : Vec n ℝ) (x : PNode n) : ℝ :=
  ms * x.m / Real.sqrt (distSq rs x.r)

open Classical in
/-- the inner loop over the stack (top first), NbodySystemTree.cpp:852-882; `none`: still running
after `fuel` rounds. The stack and the list of perturbers are returned. -/
noncomputable def inspect (hard gpeInt ms : ℝ) (rs : Vec n ℝ) (nnode : ℕ) (t : ℕ → PNode n) :
    ℕ → List ℕ → List Body → Option (List ℕ × List Body)
  | 0, _, _ => none
  | _ + 1, [], pert => some ([], pert)
  | fuel + 1, caux :: st, pert =>
    let st' := if hard * gpeInt < pull ms rs (t caux) then
        if (t caux).ncomp = 1 ∧ caux ≠ nnode - 1 then st
        else (t caux).child2 :: (t caux).child1 :: st
      else st
    let pert' := if hard * gpeInt < pull ms rs (t caux) ∧ ((t caux).ncomp = 1 ∧ caux ≠ nnode - 1)
        ∧ pert.length < npertMax then pert ++ [(t caux).body] else pert
    if st' ≠ [] ∧ pert'.length < npertMax then inspect hard gpeInt ms rs nnode t fuel st' pert'
    else some (st', pert')

/-- the outer loop from node `c`, NbodySystemTree.cpp:841-885 -/
noncomputable def climb (hard gpeInt ms : ℝ) (rs : Vec n ℝ) (nnode : ℕ) (t : ℕ → PNode n) :
    ℕ → ℕ → List ℕ → List Body → Option (List Body)
  | 0, _, _, _ => none
  | fuel + 1, c, st, pert =>
    (inspect hard gpeInt ms rs nnode t fuel ((t c).nearest :: st) pert).bind fun p =>
      if p.2 ≠ [] ∧ p.2.length < npertMax ∧ (t c).parent < nnode - 1 then
        climb hard gpeInt ms rs nnode t fuel (t c).parent p.1 p.2
      else some p.2

/-- perturbers of one system, `FindPerturberLists`, NbodySystemTree.cpp:819-888 -/
noncomputable def perturbers (hard : ℝ) (nnode fuel : ℕ) (t : ℕ → PNode n) (s : Sys n) :
    Option (List Body) :=
  if s.inode = nnode - 1 then some []
  else climb hard s.gpeInt (t s.inode).m s.r nnode t fuel s.inode [] []

end Subsystems

end Gandalf.SysTree
