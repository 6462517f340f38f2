import Verif.Model.Vec
import Mathlib.Analysis.SpecialFunctions.Sqrt

/-!
# The time steps that particles and stars ask for
(src/Hydrodynamics/SphIntegration.cpp:75-134, src/MeshlessFV/MfvIntegration.cpp:4-34, src/MeshlessFV/MfvCommon.cpp:256, 276-279,
296-298, src/Nbody/NbodyLeapfrogKDK.cpp:383-407, src/Nbody/NbodyLeapfrogDKD.cpp:342-366, src/Nbody/NbodyHermite4.cpp:537-577,
src/Nbody/NbodyHermite6TS.cpp:620-660, src/Nbody/Sinks.cpp:735-736) and the explicit integration of the internal energy
(src/Hydrodynamics/SphLeapfrogKDK.cpp:114, 248-257, src/Hydrodynamics/SphLeapfrogDKD.cpp:123, 199-201)

Real numbers; `none` = the run is stopped by an exception. Left out: the messages printed.
-/

set_option autoImplicit false

namespace Gandalf.TStep

noncomputable section

variable {n : ℕ}

/-- `small_number`, Headers/Constants.h:73 -/
def small : ℝ := 1 / 10 ^ 20

/-- `big_number`, Headers/Constants.h:72 -/
def big : ℝ := 99 / 10 * 10 ^ 20

/-- `small_number_dp`, Headers/Constants.h:90 -/
def smallDp : ℝ := 1 / 10 ^ 50

/-- `big_number_dp`, Headers/Constants.h:89 -/
def bigDp : ℝ := 99 / 10 * 10 ^ 50

/-- `sqrt(DotProduct(a, a, ndim))` -/
def mag (a : Vec n ℝ) : ℝ := √(dot a a)

/-! ### SPH, SphIntegration.cpp -/

/-- what `SphIntegration::Timestep` reads of a particle; `gas`: `ptype == gas_type` -/
structure Gas (n : ℕ) where
  h : ℝ
  sound : ℝ
  divv : ℝ
  a : Vec n ℝ
  u : ℝ
  dudt : ℝ
  gas : Bool

/-- the multipliers and switches, SphIntegration.cpp:48-57 -/
structure Par where
  courant : ℝ
  accel : ℝ
  energy : ℝ
  hydro : Bool
  energyInt : Bool

/-- lines 93-108; the three branches with `hydro_forces == 1` compute the same -/
def sphCourant (P : Par) (p : Gas n) : ℝ :=
  if P.hydro then P.courant * p.h / (p.sound + p.h * |p.divv| + smallDp)
  else P.courant * p.h / (p.h * |p.divv| + smallDp)

/-- lines 93-119 -/
def sphStep (P : Par) (p : Gas n) : ℝ :=
  let dt := min (sphCourant P p) (P.accel * √(p.h / (mag p.a + smallDp)))
  if P.energyInt && p.gas then min dt (P.energy * (p.u / (|p.dudt| + small))) else dt

/-- `SphIntegration::Timestep`, with the test of lines 122-129 -/
def sphTimestep (P : Par) (p : Gas n) : Option ℝ :=
  if sphStep P p > 10 ^ 20 ∨ sphStep P p ≤ 0 then none else some (sphStep P p)

/-! ### Meshless schemes -/

/-- a neighbour as the loop MfvCommon.cpp:274-308 sees it -/
structure Neib (n : ℕ) where
  r : Vec n ℝ
  v : Vec n ℝ
  sound : ℝ

/-- signal speed of a pair, MfvCommon.cpp:276-279, 297-298 (`sqrtf` without its rounding) -/
def pairSpeed (i j : Neib n) : ℝ :=
  i.sound + j.sound -
    min 0 (dot (fun k => j.v k - i.v k) (fun k => j.r k - i.r k) /
      (mag (fun k => j.r k - i.r k) + small))

/-- `vsig_max`, MfvCommon.cpp:256, 297-298 -/
def vsigMax (i : Neib n) (l : List (Neib n)) : ℝ := l.foldl (fun m j => max m (pairSpeed i j)) 0

/-- what `MfvIntegration::Timestep` reads of a particle -/
structure Cell (n : ℕ) where
  h : ℝ
  vsig : ℝ
  a0 : Vec n ℝ
  a : Vec n ℝ

/-- multipliers and switches of `MfvIntegration` -/
structure MfvPar where
  courant : ℝ
  accel : ℝ
  viscMult : ℝ
  visc : ℝ
  hydro : Bool
  gravity : Bool

/-- `dt_grav`, MfvIntegration.cpp:16-17 -/
def mfvGrav (P : MfvPar) (p : Cell n) : ℝ := P.accel * √(p.h / √(dot p.a0 p.a0 + small))

/-- minimum of `dt_cfl` of line 15 and `x`; for `vsig_max = 0` the division gives plus infinity -/
def minCfl (P : MfvPar) (p : Cell n) (x : ℝ) : ℝ :=
  if p.vsig = 0 then x else min (2 * P.courant * p.h / p.vsig) x

/-- `MfvIntegration::Timestep`, MfvIntegration.cpp:9-34 -/
def mfvTimestep (P : MfvPar) (p : Cell n) : ℝ :=
  let x := if P.visc > 0 then min (P.viscMult * (1 / 2) * p.h * p.h / P.visc) (mfvGrav P p) else mfvGrav P p
  if P.hydro then minCfl P p x else if P.gravity then mfvGrav P p else big

/-- end of the main loop of the MUSCL scheme, MfvMusclSimulation.cpp:285-306: first the new step, then `EndTimestep`, which
records the acceleration (MfvIntegration.cpp:185); the force `acc` has been computed before. -/
def musclEnd (P : MfvPar) (p : Cell n) (acc : Vec n ℝ) : ℝ × Cell n :=
  let p := { p with a := acc }
  (mfvTimestep P p, { p with a0 := p.a })

/-! ### Stars -/

/-- `NbodyLeapfrogKDK::Timestep`, `NbodyLeapfrogDKD::Timestep` -/
def leapStep (mult h : ℝ) (a : Vec n ℝ) (internal : ℝ) : ℝ := min (mult * √(h / (mag a + smallDp))) internal

/-- `NbodyHermite4::Timestep` (551-576), `NbodyHermite6TS::Timestep` (634-659) -/
def aarseth (mult h : ℝ) (a a1 a2 a3 : Vec n ℝ) (internal : ℝ) : ℝ :=
  let dt :=
    if dot a1 a1 > smallDp ∧ dot a2 a2 > smallDp then
      mult * √((√(dot a a * dot a2 a2) + dot a1 a1) / (√(dot a1 a1 * dot a3 a3) + dot a2 a2))
    else if dot a a > smallDp ∧ dot a2 a2 > smallDp then
      mult * √(dot a a / (dot a2 a2 + smallDp))
    else if dot a a > smallDp then √(h / (√(dot a a) + smallDp))
    else bigDp
  min dt internal

/-- internal step of a sink, Sinks.cpp:735-736 -/
def sinkInternal (radius : ℝ) (a : Vec n ℝ) : ℝ := 4 / 10 * √(radius / (√(dot a a) + small))

/-! ### Internal energy -/

/-- the members of a particle that the integration of the energy uses -/
structure Heat where
  u : ℝ
  u0 : ℝ
  dudt : ℝ
  dudt0 : ℝ
  tlast : ℝ
  dt : ℝ

/-- SphLeapfrogKDK.cpp:114 -/
def kdkAdvance (t : ℝ) (p : Heat) : Heat := { p with u := p.u0 + p.dudt0 * (t - p.tlast) }

/-- end of a step, SphLeapfrogKDK.cpp:248-262; `d` is the new step -/
def kdkEnd (t d : ℝ) (p : Heat) : Heat :=
  let u := p.u + 1 / 2 * (p.dudt - p.dudt0) * p.dt
  let u := if u ≤ 0 then p.u0 + p.dudt0 * p.dt else u
  { p with
    u := u
    u0 := u
    dudt0 := p.dudt
    tlast := t
    dt := d }

/-- A whole step: advance to the end of the step, new rate `rate` from the force loop, new step from the energy condition of
`Timestep` (SphIntegration.cpp:118; `none` if the run is stopped, 122) and another bound `other`, then `EndTimestep`. -/
def kdkTurn (mult rate other : ℝ) (p : Heat) : Option Heat :=
  let t := p.tlast + p.dt
  let p := { kdkAdvance t p with dudt := rate }
  let d := min other (mult * (p.u / (|p.dudt| + small)))
  if d ≤ 0 then none else some (kdkEnd t d p)

/-- A whole step of the drift-kick-drift scheme, SphLeapfrogDKD.cpp:123, 199-206; `rate` from the force loop at half the step. -/
def dkdTurn (mult rate other : ℝ) (p : Heat) : Option Heat :=
  let t := p.tlast + p.dt
  let u := p.u0 + rate * (t - p.tlast)
  let d := min other (mult * (u / (|rate| + small)))
  if d ≤ 0 then none
  else some { p with
    u := u
    u0 := u
    dudt := rate
    tlast := t
    dt := d }

end

end Gandalf.TStep
