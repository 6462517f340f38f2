import Verif.Model.TreeSearch
import Verif.Model.NeighbourManager
import Verif.Model.SphForces
import Verif.Model.Multipole

/-!
# The force loop with self-gravity (src/GradhSph/GradhSphTree.cpp, `UpdateAllSphForces`)

One active cell: tree walk, neighbour manager, the three neighbour lists of each active particle, distant cells. One
thread, no stars (lines 600-607), no Ewald correction (lines 558-580), no MPI work counters. `gpot_hydro` (lines 595-598)
is a copy of `gpot` and left out, as is `levelneib` of the neighbours (lines 622-629, C54).
-/

set_option autoImplicit false

namespace Gandalf.GravLoop

open Sph Multipole

variable {n : ℕ}

/-! ### particle types -/

/-- `ParticleTypeInfo`, Headers/Particle.h:81-97 (without the number of particles) -/
structure TypeInfo where
  hydro_forces : Bool := false
  self_gravity : Bool := false
  drag_forces : Bool := false
  hmask : ℕ → Bool := fun _ => false
  hydromask : ℕ → Bool := fun _ => false
  dragmask : ℕ → Bool := fun _ => false

/-- the members of `ParticleTypeRegister`, Headers/Particle.h:107-123 -/
structure Register where
  types : ℕ → TypeInfo
  gravmask : ℕ → Bool

/-- `ParticleTypeRegister::ParticleTypeRegister`, Common/Particle.cpp:31-71. The types are numbered as in `parttype`,
Headers/Particle.h:43: gas 0, icm 1, cdm 2, dust 3, boundary 4. `hydro`: `hydro_forces` is set; `dustGrav`: `dust_forces`
is `full_twofluid`. -/
def register (hydro dustGrav : Bool) : Register where
  types := fun t =>
    if t = 0 then
      { hydro_forces := hydro
        self_gravity := true
        drag_forces := true
        hmask := fun s => s == 0 || s == 2
        hydromask := fun s => hydro && s == 0
        dragmask := fun s => s == 3 }
    else if t = 2 then
      { self_gravity := true
        hmask := fun s => s == 0 || s == 2 }
    else if t = 3 then
      { self_gravity := true
        drag_forces := true
        hmask := fun s => s == 3
        dragmask := fun s => s == 0 }
    else {}
  gravmask := fun t => t == 0 || t == 2 || (t == 3 && dustGrav)

/-! ### the loop -/

/-- the parameter `multipole` -/
inductive Multi
  | monopole
  | quadrupole
  | fastMonopole
  | fastQuadrupole
  deriving DecidableEq

/-- what the loop reads: parameters, kernel, `small_number`, pressures of the equation of state, the domain, the types,
the particle array once as the neighbour manager sees it (`part`) and once as the force routines see it (`sys`), and the
contents of memory outside the vectors -/
structure Env (n : ℕ) where
  par : Par
  K : Kernel
  sm : ℝ
  eosP : ℕ → ℝ
  d : Domain n ℝ
  reg : Register
  mp : Multi
  part : ℕ → NPart n ℝ
  sys : ℕ → Part n
  junk : NPart n ℝ

/-- the entry `x` of the manager as the force routines see it (`HydroParticle`): the particle with the position the
manager has given it -/
def Env.entry (E : Env n) (u : NM n ℝ) (t : TrimSt n ℝ) (x : ℕ) : Part n :=
  { E.sys (u.neibIdx.getD x 0) with
    r := (t.neibdata.getD x E.junk).r }

/-- forces of the distant cells on one particle: GradhSphTree.cpp:549-556, and 588-593 for the fast variants (there the
check of `self_gravity` is in NeighbourSearch.h:789 and 822); `rc` is the centre of mass of the active cell,
NeighbourSearch.h:778 and 811 -/
noncomputable def cellForces (mp : Multi) (sm : ℝ) (rc : Vec n ℝ) (cells : List (Moment n)) (p : Part n) : Part n :=
  let s : Field n := ⟨p.gpot, p.atree⟩
  let s := match mp with
    | .monopole => cellMonopoleForces sm p.r cells s
    | .quadrupole => cellQuadrupoleForces sm p.r cells s
    | .fastMonopole => fastMonopoleForces rc p.r cells s
    | .fastQuadrupole => fastQuadrupoleForces sm rc p.r cells s
  { p with
    gpot := s.gpot
    atree := s.a }

/-- `GetParticleNeibGravity` for particle `i`, NeighbourManager.h:340-357 with the mask of GradhSphTree.cpp:529-531 -/
noncomputable def Env.lists (E : Env n) (u : NM n ℝ) (i : ℕ) : TrimSt n ℝ :=
  u.trim E.d (E.reg.types (E.part i).ptype).hydromask E.reg.gravmask false true E.junk (E.part i)

/-- body of the loop over the active particles, GradhSphTree.cpp:507-515 and 527-583, with the fast multipoles of
588-593. `sphdata` of `ComputeSphGravForces` is the particle array. -/
noncomputable def Env.forces (E : Env n) (rc : Vec n ℝ) (cells : List (Moment n)) (u : NM n ℝ) (i : ℕ) : Part n :=
  let t := E.lists u i
  let p := startGrav E.K (E.sys i)
  let p := if t.culled = [] then p
    else hydroGravForces E.par E.K E.sm (E.eosP i) p (t.culled.map (E.entry u t))
  if (E.reg.types (E.part i).ptype).self_gravity then
    let p := gravForces E.K E.sm E.sys p (t.smooth.map (E.entry u t))
    let p := directGravForces E.sm p (t.direct.map (E.entry u t))
    cellForces E.mp E.sm rc cells p
  else p

/-- the loop over the active particles, GradhSphTree.cpp:527-583: the manager is changed by each trim -/
noncomputable def Env.loop (E : Env n) (rc : Vec n ℝ) (cells : List (Moment n)) : NM n ℝ → List ℕ → List (ℕ × Part n)
  | _, [] => []
  | u, i :: act => (i, addGrav (zeroAcc (E.sys i)) (E.forces rc cells u i)) ::
      E.loop rc cells (u.afterTrim (E.lists u i)) act

/-- one active cell of `UpdateAllSphForces`, GradhSphTree.cpp:498-620: the active particles with their new values.
`none`: the walk does not come to an end. `cell` is the copy of the cell, `act` the list of its active particles. -/
noncomputable def Env.updateCell (E : Env n) (T : Tree n) (gmac : Tree.Mac) (macerror : ℝ) (kernrange : ℝ)
    (cell : KD.Props n) (seen : NPart n ℝ → Fin n → Side → ℝ) (act : List ℕ) (pfuel fuel : ℕ) :
    Option (List (ℕ × Part n)) :=
  match T.gravityWalk E.d kernrange gmac macerror cell pfuel ⟨[], [], []⟩ fuel with
  | .done s => some (E.loop cell.r (s.cells.map fun c => ofCell (T.cell c))
      (NM.endSearch E.d kernrange E.reg.gravmask seen E.junk
        ⟨cell.rcell, cell.bb, cell.hb, cell.rmax, cell.hmax⟩ E.part s.neib [] s.direct true) act)
  | _ => none

end Gandalf.GravLoop
