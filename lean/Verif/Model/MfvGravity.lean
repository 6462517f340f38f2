import Verif.Model.Vec
import Verif.Model.Kernel

/-!
# Gravity of the meshless schemes

`MeshlessFV/MfvCommon.cpp` 375-519, `MeshlessFV/MeshlessFVTree.cpp` 661-843, `MeshlessFV/MeshlessFV.cpp` 296-312 and the
place of these in the main loops, `MeshlessFV/MfvMusclSimulation.cpp` 156-181 and `MeshlessFV/MfvRungeKuttaSimulation.cpp`
123-126. Over `ℝ`. The neighbour lists are handed in (C08, C09, C14), likewise the field of distant cells (C30) and the
periodic correction (C32), which are added between the direct sum and the stars. Dust drag, MPI and assertions are left out.
-/

set_option autoImplicit false

namespace Gandalf.MfvGrav

noncomputable section

variable {n N : ℕ}

/-- members of `MeshlessFVParticle` used here, Headers/Particle.h:130-365; `selfgrav` is `types[ptype].self_gravity` -/
structure Part (n : ℕ) where
  r : Vec n ℝ
  m : ℝ
  h : ℝ
  zeta : ℝ
  hfactor : ℝ
  selfgrav : Bool
  active : Bool
  a : Vec n ℝ
  atree : Vec n ℝ
  gpot : ℝ
  gpot_hydro : ℝ

/-- members of `NbodyParticle` used here -/
structure Star (n : ℕ) where
  r : Vec n ℝ
  m : ℝ
  h : ℝ

/-- one round of the loop of `ComputeSmoothedGravForces`, MfvCommon.cpp:400-424 -/
def smooth1 (K : Kernel) (sm : ℝ) (p q : Part n) : Part n :=
  let invh_i := 1 / p.h
  let invm := 1 / p.m
  let mj := q.m
  let invh_j := 1 / q.h
  let dr : Vec n ℝ := fun k => q.r k - p.r k
  let drmag := √(dot dr dr + sm)
  let invdrmag := 1 / drmag
  let dr' : Vec n ℝ := fun k => dr k * invdrmag
  let paux := 0.5 * (mj * invh_i * invh_i * K.wgrav (drmag * invh_i) +
                     mj * invh_j * invh_j * K.wgrav (drmag * invh_j) +
                     invm * p.zeta * p.hfactor * K.w1 (drmag * invh_i) +
                     invm * q.zeta * q.hfactor * K.w1 (drmag * invh_j))
  let gaux := 0.5 * (invh_i * K.wpot (drmag * invh_i) + invh_j * K.wpot (drmag * invh_j))
  { p with
    atree := fun k => p.atree k + dr' k * paux
    gpot := p.gpot + q.m * gaux }

/-- `ComputeSmoothedGravForces`, MfvCommon.cpp:382-428 -/
def smoothed (K : Kernel) (sm : ℝ) (p : Part n) (l : List (Part n)) : Part n := l.foldl (smooth1 K sm) p

/-- one round of the loop of `ComputeDirectGravForces`, MfvCommon.cpp:451-462 -/
def direct1 (sm : ℝ) (p q : Part n) : Part n :=
  let dr : Vec n ℝ := fun k => q.r k - p.r k
  let drsqd := dot dr dr + sm
  let invdrmag := 1 / √drsqd
  let invdr3 := invdrmag * invdrmag * invdrmag
  { p with
    atree := fun k => p.atree k + q.m * dr k * invdr3
    gpot := p.gpot + q.m * invdrmag }

/-- `ComputeDirectGravForces`, MfvCommon.cpp:436-468 -/
def direct (sm : ℝ) (p : Part n) (l : List (Part n)) : Part n := l.foldl (direct1 sm) p

/-- one round of the loop of `ComputeStarGravForces`, MfvCommon.cpp:496-510 -/
def star1 (K : Kernel) (sm : ℝ) (p : Part n) (s : Star n) : Part n :=
  let dr : Vec n ℝ := fun k => s.r k - p.r k
  let drsqd := dot dr dr + sm
  let drmag := √drsqd
  let invdrmag := 1 / drmag
  let invhmean := 2 / (p.h + s.h)
  let paux := s.m * invhmean * invhmean * K.wgrav (drmag * invhmean) * invdrmag
  { p with
    atree := fun k => p.atree k + paux * dr k
    gpot := p.gpot + s.m * invhmean * K.wpot (drmag * invhmean) }

/-- `ComputeStarGravForces`, MfvCommon.cpp:476-519 -/
def starForces (K : Kernel) (sm : ℝ) (p : Part n) (l : List (Star n)) : Part n := l.foldl (star1 K sm) p

/-- what the tree delivers for a particle: the three lists of `GetParticleNeibGravity` and the field (acceleration and
potential) of distant cells with the periodic corrections -/
structure Lists (n : ℕ) where
  hyd : List (Part n)
  smo : List (Part n)
  dir : List (Part n)
  fa : Vec n ℝ
  fpot : ℝ

/-- the local copy of an active particle after the loop over its cell, MeshlessFVTree.cpp:728-826 -/
def loopCopy (K : Kernel) (sm : ℝ) (selfGravity : Bool) (stars : List (Star n)) (L : Lists n) (p : Part n) : Part n :=
  let p0 := { p with atree := fun _ => 0 }
  let p1 :=
    if selfGravity then
      let q := { p0 with gpot := (p0.m / p0.h) * K.wpot 0 }
      if q.selfgrav then
        let q := smoothed K sm q L.hyd
        let q := smoothed K sm q L.smo
        let q := direct sm q L.dir
        { q with
          atree := fun k => q.atree k + L.fa k
          gpot := q.gpot + L.fpot }
      else q
    else p0
  let p2 := { p1 with gpot_hydro := p1.gpot }
  starForces K sm p2 stars

/-- the additions to the main array, MeshlessFVTree.cpp:828-835 -/
def addMain (p c : Part n) : Part n :=
  { p with
    a := fun k => p.a k + c.atree k
    atree := fun k => p.atree k + c.atree k
    gpot := p.gpot + c.gpot
    gpot_hydro := p.gpot_hydro + c.gpot_hydro }

/-- `UpdateAllGravForces`, MeshlessFVTree.cpp:661-843. Each active particle is in one cell and changes only itself; the
neighbours are copies, and what changes in them (`a`, `atree`, `gpot`) is not read. -/
def updateAllGrav (K : Kernel) (sm : ℝ) (selfGravity : Bool) (stars : List (Star n)) (L : Fin N → Lists n)
    (sys : Fin N → Part n) : Fin N → Part n := fun i =>
  if (sys i).active then addMain (sys i) (loopCopy K sm selfGravity stars (L i) (sys i)) else sys i

/-- `MeshlessFV::ZeroAccelerations`, MeshlessFV.cpp:300-311 -/
def zeroAcc (sys : Fin N → Part n) : Fin N → Part n := fun i =>
  if (sys i).active then
    { sys i with
      a := fun _ => 0
      atree := fun _ => 0
      gpot := 0
      gpot_hydro := 0 }
  else sys i

/-- gravity in the main loop of the MUSCL scheme, MfvMusclSimulation.cpp:156-181 -/
def musclGravity (K : Kernel) (sm : ℝ) (selfGravity : Bool) (stars : List (Star n)) (L : Fin N → Lists n)
    (sys : Fin N → Part n) : Fin N → Part n :=
  let sys := zeroAcc sys
  if selfGravity || decide (0 < stars.length) then updateAllGrav K sm selfGravity stars L sys else sys

/-- gravity in the main loop of the Runge-Kutta scheme, MfvRungeKuttaSimulation.cpp:123-126; the loop (56-215) does not
call `ZeroAccelerations` -/
def rkGravity (K : Kernel) (sm : ℝ) (selfGravity : Bool) (stars : List (Star n)) (L : Fin N → Lists n)
    (sys : Fin N → Part n) : Fin N → Part n :=
  if selfGravity then updateAllGrav K sm selfGravity stars L sys else sys

end

end Gandalf.MfvGrav
