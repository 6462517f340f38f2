import Verif.Model.Box
import Verif.Model.Kernel

/-!
# Direct-summation gravity between stars, and between a star and gas
(src/Nbody/Nbody.cpp, NbodyLeapfrogKDK.cpp, NbodyLeapfrogDKD.cpp, NbodyHermite4.cpp,
src/GradhSph/GradhSph.cpp)

Over `ℝ`. Sums are written as sums (the code adds one after the other). `PeriodicGravity` (the Ewald
corrections) is off.
-/

set_option autoImplicit false

namespace Gandalf.Stars

variable {n N : ℕ}

/-- members of `NbodyParticle` used here, Headers/NbodyParticle.h:45-80 -/
structure Star (n : ℕ) where
  r : Vec n ℝ
  v : Vec n ℝ
  a : Vec n ℝ
  adot : Vec n ℝ
  m : ℝ
  h : ℝ
  gpot : ℝ
  active : Bool

/-- `dr` after `NearestPeriodicVector`, Nbody.cpp:262-264 -/
noncomputable def sep (d : Domain n ℝ) (x y : Vec n ℝ) : Vec n ℝ :=
  (nearestPeriodicVector d fun k => y k - x k).1

/-- what star `j` adds to `gpot` of star `i`, Nbody.cpp:265-268 -/
noncomputable def directPot (d : Domain n ℝ) (si sj : Star n) : ℝ :=
  sj.m * (1 / √(dot (sep d si.r sj.r) (sep d si.r sj.r)))

/-- what star `j` adds to `a` of star `i`, Nbody.cpp:265-269 -/
noncomputable def directAcc (d : Domain n ℝ) (si sj : Star n) (k : Fin n) : ℝ :=
  sj.m * sep d si.r sj.r k * (1 / √(dot (sep d si.r sj.r) (sep d si.r sj.r))) ^ 3

/-- what star `j` adds to `adot` of star `i`, Nbody.cpp:265-271 -/
noncomputable def directJerk (d : Domain n ℝ) (si sj : Star n) (k : Fin n) : ℝ :=
  let dr := sep d si.r sj.r
  let dv : Vec n ℝ := fun k => sj.v k - si.v k
  let invdrmag := 1 / √(dot dr dr)
  let drdt := dot dv dr * invdrmag
  sj.m * invdrmag ^ 3 * (dv k - 3 * drdt * invdrmag * dr k)

/-- the loop over the other stars, Nbody.cpp:254-283 and the loops of the smoothed versions; `P`, `A`,
`J` are the contributions of one pair -/
noncomputable def sumForces (P : Star n → Star n → ℝ) (A J : Star n → Star n → Fin n → ℝ)
    (s : Fin N → Star n) (i : Fin N) : Star n :=
  if (s i).active then
    { s i with
      gpot := (s i).gpot + ∑ j, if i = j then 0 else P (s i) (s j)
      a := fun k => (s i).a k + ∑ j, if i = j then 0 else A (s i) (s j) k
      adot := fun k => (s i).adot k + ∑ j, if i = j then 0 else J (s i) (s j) k }
  else s i

/-- `Nbody::CalculateDirectGravForces`, Nbody.cpp:232-287 -/
noncomputable def directForces (d : Domain n ℝ) (s : Fin N → Star n) : Fin N → Star n :=
  sumForces (directPot d) (directAcc d) (directJerk d) s

/-- `drmag` of the smoothed forces: `sm` is `small_number` in the leapfrog classes
(NbodyLeapfrogKDK.cpp:115) and absent in the Hermite class (NbodyHermite4.cpp:114) -/
noncomputable def drmag (sm : ℝ) (dr : Vec n ℝ) : ℝ := √(dot dr dr) + sm

/-- `invhmean`, NbodyHermite4.cpp:116 -/
noncomputable def invhmean (hi hj : ℝ) : ℝ := 2 / (hi + hj)

/-- contribution to `gpot`, NbodyHermite4.cpp:122 -/
noncomputable def smoothPot (K : Kernel) (sm : ℝ) (d : Domain n ℝ) (si sj : Star n) : ℝ :=
  sj.m * invhmean si.h sj.h * K.wpot (drmag sm (sep d si.r sj.r) * invhmean si.h sj.h)

/-- `paux`, NbodyHermite4.cpp:118 -/
noncomputable def paux (K : Kernel) (sm : ℝ) (dr : Vec n ℝ) (hi hj mj : ℝ) : ℝ :=
  mj * invhmean hi hj * invhmean hi hj * K.wgrav (drmag sm dr * invhmean hi hj) * (1 / drmag sm dr)

/-- contribution to `a`, NbodyHermite4.cpp:123 -/
noncomputable def smoothAcc (K : Kernel) (sm : ℝ) (d : Domain n ℝ) (si sj : Star n) (k : Fin n) : ℝ :=
  paux K sm (sep d si.r sj.r) si.h sj.h sj.m * sep d si.r sj.r k

/-- contribution to `adot`, NbodyHermite4.cpp:119, 124-126 (`twopi` = 2π) -/
noncomputable def smoothJerk (K : Kernel) (sm : ℝ) (d : Domain n ℝ) (si sj : Star n) (k : Fin n) : ℝ :=
  let dr := sep d si.r sj.r
  let dv : Vec n ℝ := fun k => sj.v k - si.v k
  let invdrmag := 1 / drmag sm dr
  let drdt := dot dv dr * invdrmag
  let p := paux K sm dr si.h sj.h sj.m
  let wmean := K.w0 (drmag sm dr * invhmean si.h sj.h) * invhmean si.h sj.h ^ n
  p * dv k - 3 * p * drdt * invdrmag * dr k +
    2 * (2 * Real.pi) * sj.m * drdt * wmean * invdrmag * dr k

/-- `CalculateDirectSmoothedGravForces`, NbodyHermite4.cpp:76-142 (`sm = 0`), NbodyLeapfrogKDK.cpp:76-142
and NbodyLeapfrogDKD.cpp:76-142 (`sm = small_number`) -/
noncomputable def smoothForces (K : Kernel) (sm : ℝ) (d : Domain n ℝ) (s : Fin N → Star n) : Fin N → Star n :=
  sumForces (smoothPot K sm d) (smoothAcc K sm d) (smoothJerk K sm d) s

/-- the accelerations and potential of the active stars are cleared first, NbodySimulation.cpp:331-340 -/
def clear (s : Fin N → Star n) (i : Fin N) : Star n :=
  if (s i).active then
    { s i with
      a := fun _ => 0
      adot := fun _ => 0
      gpot := 0 }
  else s i

/-- total energy in the diagnostics, stars only, Common/SimAnalysis.hpp:114-163 -/
noncomputable def energy (s : Fin N → Star n) : ℝ :=
  ∑ i, 0.5 * (s i).m * dot (s i).v (s i).v + 0.5 * (0 - ∑ i, (s i).m * (s i).gpot)

/-- acceleration a star gets from a neighbouring gas particle, `CalculateDirectHydroForces`,
NbodyLeapfrogKDK.cpp:177-193, NbodyHermite4.cpp:180-200 -/
noncomputable def starFromGas (K : Kernel) (d : Domain n ℝ) (rs : Vec n ℝ) (hs : ℝ) (rg : Vec n ℝ) (hg mg : ℝ)
    (k : Fin n) : ℝ :=
  paux K 0 (sep d rs rg) hs hg mg * sep d rs rg k

/-- acceleration a gas particle gets from a star, `GradhSph::ComputeStarGravForces`,
GradhSph.cpp:719-735 (`fixed_sink_mass` off): the separation is not wrapped, `sm` is added to its
square -/
noncomputable def gasFromStar (K : Kernel) (sm : ℝ) (rg : Vec n ℝ) (hg : ℝ) (rs : Vec n ℝ) (hs ms : ℝ)
    (k : Fin n) : ℝ :=
  let dr : Vec n ℝ := fun k => rs k - rg k
  let drmag := √(dot dr dr + sm)
  let ih := invhmean hg hs
  ms * ih * ih * K.wgrav (drmag * ih) * (1 / drmag) * dr k

end Gandalf.Stars
