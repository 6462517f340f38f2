import Verif.Model.Vec
import Verif.Model.Kernel

/-!
# Grad-h SPH forces (src/GradhSph/GradhSph.cpp, src/GradhSph/GradhSphTree.cpp, src/Hydrodynamics/Sph.cpp)

Over `ℝ`. Loops over the neighbour list are folds in the order of the code. `eos->Pressure(parti)` is a
number handed in. Distant-cell gravity, the Ewald correction, stars and MPI exports are left out; the
assertions are not modelled.
-/

set_option autoImplicit false

namespace Gandalf.Sph

variable {n N : ℕ}

/-- Headers/Sph.h:50 -/
inductive AVisc
  | noav | mon97 | mon97mm97 | mon97cd2010
  deriving DecidableEq

/-- Headers/Sph.h:51 -/
inductive ACond
  | noac | wadsley2008 | price2008
  deriving DecidableEq

/-- Headers/Sph.h:52 -/
inductive TDAVisc
  | notdav | mm97 | cd2010
  deriving DecidableEq

/-- members of `Sph` used here, Headers/Sph.h:144-150 -/
structure Par where
  avisc : AVisc
  acond : ACond
  tdavisc : TDAVisc
  alpha_visc : ℝ
  alpha_visc_min : ℝ
  beta_visc : ℝ

/-- members of `GradhSphParticle` used here (Headers/Particle.h:130-365); the neighbour copies
`HydroForcesParticle` (Headers/Particle.h:313-364) carry a part of them -/
structure Part (n : ℕ) where
  r : Vec n ℝ
  v : Vec n ℝ
  m : ℝ
  h : ℝ
  hfactor : ℝ
  rho : ℝ
  pressure : ℝ
  invomega : ℝ
  zeta : ℝ
  sound : ℝ
  u : ℝ
  alpha : ℝ
  level : ℕ
  levelneib : ℕ
  a : Vec n ℝ
  atree : Vec n ℝ
  gpot : ℝ
  dudt : ℝ
  div_v : ℝ
  dalphadt : ℝ

/-- `drmag`, GradhSph.cpp:391 (`sm = 0`), 506 and 622 (`sm = small_number`) -/
noncomputable def drmag (sm : ℝ) (dr : Vec n ℝ) : ℝ := √(dot dr dr + sm)

/-- the scaled separation: GradhSph.cpp:392 divides when `drmag > 0`, 507-508 and 623-624 always multiply
by the inverse (`1/0` does not occur there as `small_number > 0`) -/
noncomputable def unit (sm : ℝ) (dr : Vec n ℝ) (k : Fin n) : ℝ :=
  if 0 < drmag sm dr then dr k / drmag sm dr else dr k

/-- `dvdr`, GradhSph.cpp:397-398, 509 -/
noncomputable def dvdr (sm : ℝ) (p q : Part n) : ℝ :=
  dot q.v (unit sm fun k => q.r k - p.r k) - dot p.v (unit sm fun k => q.r k - p.r k)

/-- distance of a pair -/
noncomputable def dist (sm : ℝ) (p q : Part n) : ℝ := drmag sm fun k => q.r k - p.r k

/-- `wkerni`, GradhSph.cpp:394, 514 (and `wkernj` with the arguments swapped, 395, 515) -/
noncomputable def wkern (K : Kernel) (sm : ℝ) (p q : Part n) : ℝ := p.hfactor * K.w1 (dist sm p q * (1 / p.h))

/-- pressure term of `paux`, GradhSph.cpp:404-405, 518-519 -/
noncomputable def presPaux (K : Kernel) (sm : ℝ) (p q : Part n) : ℝ :=
  p.pressure * p.invomega / (p.rho * p.rho) * wkern K sm p q +
    q.pressure * q.invomega / (q.rho * q.rho) * wkern K sm q p

/-- `winvrho`, GradhSph.cpp:411, 525 -/
noncomputable def winvrho (K : Kernel) (sm : ℝ) (p q : Part n) : ℝ :=
  0.25 * (wkern K sm p q + wkern K sm q p) * (1 / p.rho + 1 / q.rho)

/-- the alpha of a pair: `alpha_visc` or `alpha_mean`, GradhSph.cpp:414-424, 528-538; `none`: no viscosity -/
noncomputable def pairAlpha (par : Par) (p q : Part n) : Option ℝ :=
  match par.avisc with
  | .noav => none
  | .mon97 => some par.alpha_visc
  | .mon97mm97 => some (0.5 * (p.alpha + q.alpha))
  | .mon97cd2010 => some (0.5 * (p.alpha + q.alpha))

/-- `vsignal`, GradhSph.cpp:415, 421 -/
noncomputable def vsignal (par : Par) (sm : ℝ) (al : ℝ) (p q : Part n) : ℝ :=
  p.sound + q.sound - par.beta_visc * al * dvdr sm p q

/-- what the viscosity takes off `paux`, GradhSph.cpp:416, 422 -/
noncomputable def viscPaux (par : Par) (K : Kernel) (sm : ℝ) (p q : Part n) : ℝ :=
  if dvdr sm p q < 0 then
    match pairAlpha par p q with
    | none => 0
    | some al => al * vsignal par sm al p q * dvdr sm p q * winvrho K sm p q
  else 0

/-- what the viscosity takes off `dudt`, GradhSph.cpp:417, 423 -/
noncomputable def viscHeat (par : Par) (K : Kernel) (sm : ℝ) (p q : Part n) : ℝ :=
  if dvdr sm p q < 0 then
    match pairAlpha par p q with
    | none => 0
    | some al => 0.5 * q.m * al * vsignal par sm al p q * dvdr sm p q * dvdr sm p q * winvrho K sm p q
  else 0

/-- what the conductivity adds to `dudt`, GradhSph.cpp:427-435, 541-549 -/
noncomputable def condHeat (par : Par) (K : Kernel) (sm : ℝ) (p q : Part n) : ℝ :=
  if dvdr sm p q < 0 then
    match par.acond with
    | .noac => 0
    | .wadsley2008 => q.m * dvdr sm p q * (q.u - p.u) * (1 / p.rho * wkern K sm p q + 1 / q.rho * wkern K sm q p)
    | .price2008 => 0.5 * q.m * (p.u - q.u) * winvrho K sm p q * (1 / p.rho + 1 / q.rho) * √|p.pressure - q.pressure|
  else 0

/-- body of the neighbour loop of `ComputeSphHydroForces`, GradhSph.cpp:384-447 (`sm = 0`), and the hydro
part of that of `ComputeSphHydroGravForces`, GradhSph.cpp:498-555 and 568-569 (`sm = small_number`) -/
noncomputable def pairHydro (par : Par) (K : Kernel) (sm : ℝ) (p q : Part n) : Part n :=
  { p with
    div_v := p.div_v - q.m * dvdr sm p q * wkern K sm p q
    dudt := p.dudt - viscHeat par K sm p q + condHeat par K sm p q
    a := fun k => p.a k + q.m * unit sm (fun k => q.r k - p.r k) k * (presPaux K sm p q - viscPaux par K sm p q)
    levelneib := max p.levelneib q.level }

/-- second `paux`, GradhSph.cpp:560-562 and 630-633 -/
noncomputable def gravPaux (K : Kernel) (sm : ℝ) (p q : Part n) : ℝ :=
  0.5 * (1 / p.h * (1 / p.h) * K.wgrav (dist sm p q * (1 / p.h)) + p.zeta * wkern K sm p q +
    1 / q.h * (1 / q.h) * K.wgrav (dist sm q p * (1 / q.h)) + q.zeta * wkern K sm q p)

/-- `gaux`, GradhSph.cpp:564-565 and 634-635 -/
noncomputable def gravGaux (K : Kernel) (sm : ℝ) (p q : Part n) : ℝ :=
  0.5 * (1 / p.h * K.wpot (dist sm p q * (1 / p.h)) + 1 / q.h * K.wpot (dist sm q p * (1 / q.h)))

/-- smoothed gravity of one pair, GradhSph.cpp:560-565, 630-639 -/
noncomputable def pairGrav (K : Kernel) (sm : ℝ) (p q : Part n) : Part n :=
  { p with
    atree := fun k => p.atree k + q.m * unit sm (fun k => q.r k - p.r k) k * gravPaux K sm p q
    gpot := p.gpot + q.m * gravGaux K sm p q }

/-- body of the loop of `ComputeDirectGravForces`, GradhSph.cpp:674-681 -/
noncomputable def pairDirect (sm : ℝ) (p q : Part n) : Part n :=
  { p with
    atree := fun k => p.atree k + q.m * (q.r k - p.r k) * (1 / dist sm p q) ^ 3
    gpot := p.gpot + q.m * (1 / dist sm p q) }

/-- end of both force routines up to `dalphadt`, GradhSph.cpp:452-453, 577-578 -/
noncomputable def finish (eosP : ℝ) (p : Part n) : Part n :=
  { p with
    div_v := p.div_v * (1 / p.rho)
    dudt := p.dudt - eosP * (p.div_v * (1 / p.rho)) * (1 / p.rho) * p.invomega }

/-- `dalphadt` at the end of the force routines, GradhSph.cpp:454-457: `x = -div_v`;
GradhSph.cpp:579-582 (self-gravity): `x = div_v` -/
noncomputable def setDalphadt (par : Par) (x : ℝ) (p : Part n) : Part n :=
  if par.tdavisc = .mm97 then
    { p with
      dalphadt := 0.1 * p.sound * (par.alpha_visc_min - p.alpha) * (1 / p.h) + max x 0 * (par.alpha_visc - p.alpha) }
  else p

/-- `GradhSph::ComputeSphHydroForces`, GradhSph.cpp:360-460 -/
noncomputable def hydroForces (par : Par) (K : Kernel) (eosP : ℝ) (p : Part n) (nb : List (Part n)) : Part n :=
  let p := finish eosP (nb.foldl (pairHydro par K 0) p)
  setDalphadt par (-p.div_v) p

/-- `GradhSph::ComputeSphHydroGravForces`, GradhSph.cpp:473-585 -/
noncomputable def hydroGravForces (par : Par) (K : Kernel) (sm eosP : ℝ) (p : Part n) (nb : List (Part n)) : Part n :=
  let p := finish eosP (nb.foldl (fun p q => pairGrav K sm (pairHydro par K sm p q) q) p)
  setDalphadt par p.div_v p

/-- `GradhSph::ComputeSphGravForces`, GradhSph.cpp:598-647. The level that enters `levelneib` is that of
`sphdata[j]`, with `j` the position in the neighbour list. -/
noncomputable def gravForces (K : Kernel) (sm : ℝ) (sphdata : ℕ → Part n) (p : Part n) (nb : List (Part n)) : Part n :=
  nb.zipIdx.foldl (fun p q =>
    { pairGrav K sm p q.1 with
      levelneib := max p.levelneib (sphdata q.2).level }) p

/-- `GradhSphBase::ComputeDirectGravForces`, GradhSph.cpp:656-690 -/
noncomputable def directGravForces (sm : ℝ) (p : Part n) (nb : List (Part n)) : Part n :=
  nb.foldl (pairDirect sm) p

/-- `Sph::ZeroAccelerations` for an active particle, Sph.cpp:128-138 (`dalphadt` is not touched) -/
def zeroAcc (p : Part n) : Part n :=
  { p with
    levelneib := 0
    div_v := 0
    dudt := 0
    gpot := 0
    a := fun _ => 0
    atree := fun _ => 0 }

/-- the local copy of an active particle, GradhSphTree.cpp:334-342 -/
def startHydro (p : Part n) : Part n :=
  { p with
    div_v := 0
    dudt := 0
    dalphadt := 0
    gpot := 0
    levelneib := 0
    a := fun _ => 0 }

/-- adding the local copy to the main array, GradhSphTree.cpp:396-406 -/
def addHydro (p act : Part n) : Part n :=
  { p with
    a := fun k => p.a k + act.a k + act.atree k
    atree := fun k => p.atree k + act.atree k
    gpot := p.gpot + act.gpot
    dudt := p.dudt + act.dudt
    dalphadt := p.dalphadt + act.dalphadt
    div_v := p.div_v + act.div_v
    levelneib := max p.levelneib act.levelneib }

/-- the local copy in `UpdateAllSphForces`, GradhSphTree.cpp:505-515 -/
noncomputable def startGrav (K : Kernel) (p : Part n) : Part n :=
  { p with
    div_v := 0
    dudt := 0
    levelneib := 0
    gpot := p.m / p.h * K.wpot 0
    a := fun _ => 0
    atree := fun _ => 0 }

/-- adding the local copy to the main array in `UpdateAllSphForces`, GradhSphTree.cpp:610-620: `dalphadt` is
not among the members added -/
def addGrav (p act : Part n) : Part n :=
  { p with
    a := fun k => p.a k + act.a k + act.atree k
    atree := fun k => p.atree k + act.atree k
    gpot := p.gpot + act.gpot
    dudt := p.dudt + act.dudt
    div_v := p.div_v + act.div_v
    levelneib := max p.levelneib act.levelneib }

/-- a periodic image of a particle: position shifted, everything else the same
(`GhostNeighbourFinder`, Tree/GhostNeighbours.hpp; C14) -/
def image (q : Part n) (s : Vec n ℝ) : Part n :=
  { q with
    r := fun k => q.r k + s k }

/-- neighbour list of a particle: particle numbers with the shift of the image -/
abbrev Neibs (n N : ℕ) := List (Fin N × Vec n ℝ)

/-- the neighbour copies -/
def copies (sys : Fin N → Part n) (l : Neibs n N) : List (Part n) := l.map fun x => image (sys x.1) x.2

/-- `ZeroAccelerations` and `UpdateAllSphHydroForces` with every particle active, GradhSphTree.cpp:279-430;
no stars. `eosP i` is `eos->Pressure` of particle `i`. -/
noncomputable def updateHydro (par : Par) (K : Kernel) (eosP : Fin N → ℝ) (nb : Fin N → Neibs n N)
    (sys : Fin N → Part n) (i : Fin N) : Part n :=
  addHydro (zeroAcc (sys i)) (hydroForces par K (eosP i) (startHydro (zeroAcc (sys i))) (copies sys (nb i)))

/-- `ZeroAccelerations` and `UpdateAllSphForces` with every particle active, GradhSphTree.cpp:440-640: no
distant cells, no stars, no Ewald correction. `hyd`, `smo` and `dir` are the three lists of
`GetParticleNeibGravity` -/
noncomputable def updateGrav (par : Par) (K : Kernel) (sm : ℝ) (eosP : Fin N → ℝ) (sphdata : ℕ → Part n)
    (hyd smo dir : Fin N → Neibs n N) (sys : Fin N → Part n) (i : Fin N) : Part n :=
  let p := startGrav K (zeroAcc (sys i))
  let p := if hyd i = [] then p else hydroGravForces par K sm (eosP i) p (copies sys (hyd i))
  let p := gravForces K sm sphdata p (copies sys (smo i))
  let p := directGravForces sm p (copies sys (dir i))
  addGrav (zeroAcc (sys i)) p

/-- time-dependent viscosity step, SphLeapfrogKDK.cpp:111, SphLeapfrogDKD.cpp:120 -/
noncomputable def advanceAlpha (par : Par) (timestep : ℝ) (p : Part n) : Part n :=
  if par.tdavisc ≠ .notdav then
    { p with
      alpha := p.alpha + p.dalphadt * timestep }
  else p

/-- end of `ComputeCullenAndDehnenViscosity`, Headers/Sph.h:418-455, from `ddivdt` and `f_balsara` on
(`bad`: the gradients are unreliable, 413-417) -/
noncomputable def cullenDehnen (par : Par) (bad : Bool) (ddivdt fBalsara : ℝ) (p : Part n) : Part n :=
  let loc : ℝ :=
    if bad then par.alpha_visc
    else if ddivdt < 0 then
      min (10 * p.h * p.h / (p.sound * p.sound) * fBalsara * (-ddivdt)) par.alpha_visc
    else 0
  let al := if p.alpha < loc then loc else p.alpha
  { p with
    alpha := al
    dalphadt := 0.1 * p.sound * (max par.alpha_visc_min loc - al) * (1 / p.h) }

/-- one time step as far as the time-dependent viscosity goes: forces, then the advance
(SphSimulation.cpp:700-714 and the call of `AdvanceParticles`, all particles active, nothing else changes) -/
noncomputable def stepAlpha (par : Par) (K : Kernel) (eosP : Fin N → ℝ) (nb : Fin N → Neibs n N) (timestep : ℝ)
    (sys : Fin N → Part n) (i : Fin N) : Part n :=
  advanceAlpha par timestep (updateHydro par K eosP nb sys i)

/-- what the force routine for the active particle `i` does to the `levelneib` buffer of its thread:
`neibpart[j].levelneib = max(neibpart[j].levelneib, parti.level)` and its propagation, GradhSph.cpp:446,
GradhSphTree.cpp:370-377, and the particle's own entry, GradhSph.cpp:445, GradhSphTree.cpp:405. (The code
collects the first over the active particles of a cell before it writes to the buffer.) -/
def levelActive (sys : Fin N → Part n) (nb : Fin N → Neibs n N) (lev : Fin N → ℕ) (i : Fin N) : Fin N → ℕ :=
  let lev := (nb i).foldl (fun lev x => Function.update lev x.1 (max (lev x.1) (sys i).level)) lev
  Function.update lev i (max (lev i) ((nb i).foldl (fun l x => max l (sys x.1).level) 0))

/-- the buffer of a thread that deals with the active particles `acts`, GradhSphTree.cpp:322-408 -/
def levelThread (sys : Fin N → Part n) (nb : Fin N → Neibs n N) (acts : List (Fin N)) : Fin N → ℕ :=
  acts.foldl (levelActive sys nb) fun _ => 0

/-- `levelneib` of all particles after the loop, GradhSphTree.cpp:413-419; `old` is the value before, zero for
the active ones (Sph.cpp:131) -/
def levelLoop (sys : Fin N → Part n) (nb : Fin N → Neibs n N) (old : Fin N → ℕ) (threads : List (List (Fin N)))
    (i : Fin N) : ℕ :=
  threads.foldl (fun l acts => max l (levelThread sys nb acts i)) (old i)

end Gandalf.Sph
