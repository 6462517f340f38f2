import Verif.Model.NbodyForces
import Verif.Model.Multipole
import Verif.Model.TreeSearch

/-!
# Gravity of the gas on the stars (src/Tree/HydroTree.cpp:552-654, `CalculateDirectHydroForces` of src/Nbody)

Over `ℝ`. A gas particle enters the sums with the formulas of a star (`Stars.smoothAcc` and so on with `small_number`
absent), which are the same. `ew m dr` is `Ewald::CalculatePeriodicCorrection` (acceleration and potential); `none`
if `simbox.PeriodicGravity` is off. Where a gas particle lies on the star the code divides by zero. OpenMP threads do
not share anything but the arrays read.
-/

set_option autoImplicit false

namespace Gandalf.StarGas

open Stars KD

variable {n : ℕ}

/-- the members of gas particle `j` used here -/
def gas (P : Parts n) (j : ℕ) : Star n := ⟨P.r j, P.v j, fun _ => 0, fun _ => 0, P.m j, P.h j, 0, false⟩

/-- what is added to the star: potential, acceleration and its rate -/
def add (s : Star n) (g : ℝ) (a j : Fin n → ℝ) : Star n :=
  { s with
    gpot := s.gpot + g
    a := fun k => s.a k + a k
    adot := fun k => s.adot k + j k }

/-- the periodic correction, NbodyLeapfrogKDK.cpp:195-200, NbodyHermite4.cpp:202-207 -/
noncomputable def ewald (ew : Option (ℝ → Vec n ℝ → Vec n ℝ × ℝ)) (d : Domain n ℝ) (s g : Star n) : Star n :=
  match ew with
  | none => s
  | some f => add s (f g.m (sep d s.r g.r)).2 (f g.m (sep d s.r g.r)).1 fun _ => 0

/-- one neighbour, NbodyHermite4.cpp:182-207; NbodyLeapfrogKDK.cpp:178-200 and NbodyLeapfrogDKD.cpp:178-201 leave out
`adot` (`herm = false`) -/
noncomputable def near (herm : Bool) (K : Kernel) (d : Domain n ℝ) (ew : Option (ℝ → Vec n ℝ → Vec n ℝ × ℝ))
    (P : Parts n) (s : Star n) (j : ℕ) : Star n :=
  ewald ew d (add s (smoothPot K 0 d s (gas P j)) (smoothAcc K 0 d s (gas P j))
    (if herm then smoothJerk K 0 d s (gas P j) else fun _ => 0)) (gas P j)

/-- one particle beyond the kernels, NbodyHermite4.cpp:218-240, NbodyLeapfrogKDK.cpp:210-231 -/
noncomputable def direct (herm : Bool) (d : Domain n ℝ) (ew : Option (ℝ → Vec n ℝ → Vec n ℝ × ℝ))
    (P : Parts n) (s : Star n) (j : ℕ) : Star n :=
  ewald ew d (add s (directPot d s (gas P j)) (directAcc d s (gas P j))
    (if herm then directJerk d s (gas P j) else fun _ => 0)) (gas P j)

/-- `CalculateDirectHydroForces`, NbodyHermite4.cpp:151-247, NbodyLeapfrogKDK.cpp:151-239 -/
noncomputable def hydroForces (herm : Bool) (K : Kernel) (d : Domain n ℝ)
    (ew : Option (ℝ → Vec n ℝ → Vec n ℝ × ℝ)) (P : Parts n) (nb dr : List ℕ) (s : Star n) : Star n :=
  dr.foldl (direct herm d ew P) (nb.foldl (near herm K d ew P) s)

/-- the parameter `multipole`, HydroTree.cpp:631-636 (the fast versions do the same here) -/
inductive Order where
  | monopole
  | quadrupole

/-- the forces of the cells, HydroTree.cpp:631-636 -/
noncomputable def cellForces (o : Order) (eps : ℝ) (T : Tree n) (cs : List ℕ) (s : Star n) : Star n :=
  let f : Multipole.Field n := ⟨s.gpot, s.a⟩
  let g := match o with
    | .monopole => Multipole.cellMonopoleForces eps s.r (cs.map fun c => Multipole.ofCell (T.cell c)) f
    | .quadrupole => Multipole.cellQuadrupoleForces eps s.r (cs.map fun c => Multipole.ofCell (T.cell c)) f
  { s with
    gpot := g.gpot
    a := g.a }

/-- the search and its repetition with twice the room for cells, HydroTree.cpp:613-625: both lists of particles have
room for `Ntot`. `none`: still running after `tries` repetitions, or the walk itself does not end. -/
noncomputable def findLists (T : Tree n) (P : Parts n) (kernrange : ℝ) (rs : Vec n ℝ) (hs : ℝ) (Ntot pfuel fuel : ℕ) :
    (tries : ℕ) → (Ngravcellmax : ℕ) → Option Tree.GravLists
  | 0, _ => none
  | tries + 1, M =>
    match T.starGravityWalk P kernrange rs hs Ntot Ntot M pfuel fuel with
    | .done L => some L
    | .fail => findLists T P kernrange rs hs Ntot pfuel fuel tries (2 * M)
    | .stuck => none

/-- the turn of the loop for one active star, HydroTree.cpp:604-636 -/
noncomputable def starForces (herm : Bool) (o : Order) (eps : ℝ) (K : Kernel) (d : Domain n ℝ)
    (ew : Option (ℝ → Vec n ℝ → Vec n ℝ × ℝ)) (T : Tree n) (P : Parts n) (Ntot pfuel fuel tries M : ℕ)
    (s : Star n) : Option (Star n) :=
  (findLists T P K.kernrange s.r s.h Ntot pfuel fuel tries M).map fun L =>
    cellForces o eps T L.cells (hydroForces herm K d ew P L.neib L.direct s)

/-- `UpdateAllStarGasForces`, HydroTree.cpp:569-640: only active stars -/
noncomputable def updateAll (herm : Bool) (o : Order) (eps : ℝ) (K : Kernel) (d : Domain n ℝ)
    (ew : Option (ℝ → Vec n ℝ → Vec n ℝ × ℝ)) (T : Tree n) (P : Parts n) (Ntot pfuel fuel tries M : ℕ)
    (stars : List (Star n)) : Option (List (Star n)) :=
  stars.mapM fun s => if s.active then starForces herm o eps K d ew T P Ntot pfuel fuel tries M s else some s

end Gandalf.StarGas
