import Verif.Model.TreeSearch
import Mathlib.Analysis.SpecialFunctions.Pow.Real

/-!
# Limits on time steps from distant particles, Tree.cpp:888-1039, and the time step of the meshless schemes,
MfvIntegration.cpp:8-34

`near` is `GhostNeighbourFinder::NearestPeriodicVector`, `img i` are the positions and velocities of the images that
`ConstructAllGhosts` makes of particle `i` (in an open box: `id` and the particle itself).  The signal speeds `vsig_max` of the active
particles of a cell are a function of the number of the particle.  `dt_min` is made anew whenever they change, so that it is a function of them.
-/

set_option autoImplicit false

noncomputable section

namespace Gandalf.Signal
open Walk KD

variable {n : ℕ}

/-- the signal speed that a pair asks for, Tree.cpp:1003-1016; `r`, `v`, `h`, `c` of the active particle, primes for the other one -/
def term (small : ℝ) (r v : Vec n ℝ) (h c : ℝ) (r' v' : Vec n ℝ) (c' : ℝ) : ℝ :=
  (c + c' - dot (fun k => r k - r' k) (fun k => v k - v' k) / (√(dot (fun k => r k - r' k) fun k => r k - r' k) + small)) * h
    / max (√(dot (fun k => r k - r' k) fun k => r k - r' k)) h

open Classical in
/-- one image of particle `i` for active particle `j`, Tree.cpp:1003-1018 -/
def touch (small : ℝ) (P : Parts n) (j i : ℕ) (vs : ℕ → ℝ) (g : Vec n ℝ × Vec n ℝ) : ℕ → ℝ :=
  if 0 < dot (fun k => P.r j k - g.1 k) (fun k => P.r j k - g.1 k) then
    Function.update vs j (max (vs j) (term small (P.r j) (P.v j) (P.h j) (P.sound j) g.1 g.2 (P.sound i)))
  else vs

/-- one particle of a leaf, Tree.cpp:996-1020 -/
def visit (small : ℝ) (P : Parts n) (img : ℕ → List (Vec n ℝ × Vec n ℝ)) (act : List ℕ) (vs : ℕ → ℝ) (i : ℕ) : ℕ → ℝ :=
  act.foldl (fun vs j => (img i).foldl (touch small P j i) vs) vs

open Classical in
/-- `dt_min`, Tree.cpp:916-923, 1026-1033 -/
def dtMin (big : ℝ) (P : Parts n) (act : List ℕ) (vs : ℕ → ℝ) : ℝ :=
  act.foldl (fun d j => if 0 < vs j then max d (P.h j / vs j) else big) 0

/-- `dr`, Tree.cpp:907-909, 933-937 -/
def sepCells (near : Vec n ℝ → Vec n ℝ) (cell other : Props n) : Vec n ℝ :=
  near fun k => 1 / 2 * (other.bbmax k + other.bbmin k) - 1 / 2 * (cell.bbmax k + cell.bbmin k)

/-- `width`, Tree.cpp:910, 940 -/
def width (cell other : Props n) (k : Fin n) : ℝ :=
  1 / 2 * (cell.bbmax k - cell.bbmin k) + 1 / 2 * (other.bbmax k - other.bbmin k)

open Classical in
/-- `drk`, Tree.cpp:953, 959 -/
def gapVec (near : Vec n ℝ → Vec n ℝ) (cell other : Props n) (k : Fin n) : ℝ :=
  if 0 < sepCells near cell other k then sepCells near cell other k - width cell other k else sepCells near cell other k + width cell other k

open Classical in
/-- the velocity difference that goes with it, Tree.cpp:956, 962 -/
def gapVel (near : Vec n ℝ → Vec n ℝ) (cell other : Props n) (k : Fin n) : ℝ :=
  if 0 < sepCells near cell other k then other.vmin k - cell.vmax k else other.vmax k - cell.vmin k

/-- `rmin`, Tree.cpp:950-965 -/
def rmin (near : Vec n ℝ → Vec n ℝ) (cell other : Props n) : ℝ := √(dot (gapVec near cell other) (gapVec near cell other))

/-- `vsig` of two cells, Tree.cpp:966-968 -/
def cellSignal (small : ℝ) (near : Vec n ℝ → Vec n ℝ) (cell other : Props n) : ℝ :=
  cell.maxsound + other.maxsound - dot (gapVec near cell other) (gapVel near cell other) / (rmin near cell other + small)

/-- whether a cell is opened, Tree.cpp:943-972 -/
def opens (small : ℝ) (near : Vec n ℝ → Vec n ℝ) (dt : ℝ) (cell other : Props n) : Prop :=
  (∀ k, |sepCells near cell other k| < width cell other k) ∨ rmin near cell other < dt * cellSignal small near cell other

/-- what a walk needs to know -/
structure Setup (n : ℕ) where
  small : ℝ
  big : ℝ
  near : Vec n ℝ → Vec n ℝ
  img : ℕ → List (Vec n ℝ × Vec n ℝ)
  /-- `IAmPruned` -/
  pruned : Bool

open Classical in
/-- one cell, Tree.cpp:929-1036 -/
def body (S : Setup n) (T : Tree n) (P : Parts n) (pfuel : ℕ) (cell : Props n) (act : List ℕ) (c : ℕ) (vs : ℕ → ℝ) : Act (ℕ → ℝ) :=
  if opens S.small S.near (dtMin S.big P act vs) cell (T.cell c) then
    if T.links.copen c ≠ none then .open_ vs
    else if (T.cell c).N = 0 then .next vs
    else if S.pruned then .abort
    else match T.leafList pfuel c with
      | none => .open_ vs
      | some l => .next (l.foldl (visit S.small P S.img act) vs)
  else .next vs

/-- `ComputeSignalVelocityFromDistantInteractions`, Tree.cpp:898-1039: `fail` is the value `true` (the cell has to be exported) -/
def signalWalk (S : Setup n) (T : Tree n) (P : Parts n) (pfuel : ℕ) (cell : Props n) (act : List ℕ) (vs : ℕ → ℝ) (fuel : ℕ) : Res (ℕ → ℝ) :=
  walk T.links T.Ncell (body S T P pfuel cell act) fuel 0 vs

/-- an open box -/
def openSetup (P : Parts n) (small big : ℝ) (pruned : Bool) : Setup n := ⟨small, big, id, fun i => [(P.r i, P.v i)], pruned⟩

/-- a box with periodic boundaries and no mirrors: `NearestPeriodicVector` between the centres of cells, and of each particle the image
nearest to the centre `rcell` of the active cell, GhostNeighbours.hpp:119-138, 277-293 -/
def boxSetup (d : Domain n ℝ) (cell : Props n) (P : Parts n) (small big : ℝ) (pruned : Bool) : Setup n :=
  ⟨small, big, ghostNearest d,
    fun i => [(fun k => cell.rcell k + ghostNearest d (fun k => P.r i k - cell.rcell k) k, P.v i)], pruned⟩

open Classical in
/-- `MfvIntegration::Timestep`, MfvIntegration.cpp:15-33; `anorm` is the norm of `a0` with `small_number` under the root -/
def timestep (hydroForces selfGravity : Bool) (courant accel visc viscMult big anorm h vsig : ℝ) : ℝ :=
  let cfl := if 0 < visc then min (2 * courant * h / vsig) (viscMult * (1 / 2) * h * h / visc) else 2 * courant * h / vsig
  if hydroForces then min cfl (accel * √(h / anorm)) else if selfGravity then accel * √(h / anorm) else big

end Gandalf.Signal
