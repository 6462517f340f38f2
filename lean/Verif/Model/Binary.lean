import Verif.Model.Vec
import Mathlib.Analysis.SpecialFunctions.Trigonometric.Arctan
import Mathlib.Analysis.SpecialFunctions.Trigonometric.Inverse
import Mathlib.Analysis.SpecialFunctions.Sqrt

/-! # Binary, triple and quadruple stars

`Ic::AddBinaryStar` (src/Ic/Ic.cpp:265-365), `EulerAngleMatrix` and `EulerAngleRotation`
(src/Headers/InlineFuncs.h:256-306) and `HierarchicalSystemIc::Generate`
(src/Ic/HierarchicalSystemIc.cpp:54-153), three dimensions, over the reals (rounding left out).
In two dimensions the rotation reads and writes beyond the vector (`T vec[3]` of a `FLOAT r[2]`);
two dimensions are not modelled. -/

set_option autoImplicit false

namespace Gandalf.Binary

open Real

/-- position, velocity and mass of a star (`NbodyParticle`), src/Headers/NbodyParticle.h:52-65 -/
structure Star where
  m : ℝ
  r : Vec 3 ℝ
  v : Vec 3 ℝ

/-- `EulerAngleMatrix`, InlineFuncs.h:263-271: `Arot[i][k]` -/
noncomputable def eulerMatrix (phi theta psi : ℝ) (i k : Fin 3) : ℝ :=
  ![![cos theta * cos psi, -cos theta * sin psi, sin theta],
    ![cos phi * sin psi + sin phi * sin theta * cos psi,
      cos phi * cos psi - sin phi * sin theta * sin psi,
      -sin phi * cos theta],
    ![sin phi * sin psi - cos phi * sin theta * cos psi,
      sin phi * cos psi + cos phi * sin theta * sin psi,
      cos phi * cos theta]] i k

/-- `EulerAngleRotation`, InlineFuncs.h:293-299 -/
noncomputable def rotate (phi theta psi : ℝ) (x : Vec 3 ℝ) : Vec 3 ℝ := fun k =>
  eulerMatrix phi theta psi 0 k * x 0 + eulerMatrix phi theta psi 1 k * x 1 +
    eulerMatrix phi theta psi 2 k * x 2

/-- one Newton step, Ic.cpp:303 -/
noncomputable def newton (e M E : ℝ) : ℝ := E - (E - e * sin E - M) / (1 - e * cos E)

open Classical in
/-- Kepler's equation, Ic.cpp:301-304; `none`: still running after `fuel` rounds -/
noncomputable def solve (e M : ℝ) : ℕ → ℝ → Option ℝ
  | 0, _ => none
  | fuel + 1, E =>
    if 1 / 1000000 < |E - newton e M E| then solve e M fuel (newton e M E)
    else some (newton e M E)

/-- Ic.cpp:307-308 -/
noncomputable def trueAnomaly (e E : ℝ) : ℝ := 2 * arctan (sqrt ((1 + e) / (1 - e)) * tan (1 / 2 * E))

/-- total separation, Ic.cpp:311 -/
noncomputable def separation (a e theta : ℝ) : ℝ := a * (1 - e * e) / (1 + e * cos theta)

/-- relative speed, Ic.cpp:314-315 -/
noncomputable def speed (m1 m2 a sep : ℝ) : ℝ := sqrt ((m1 + m2) * (2 / sep - 1 / a))

/-- angle of the velocity, Ic.cpp:318-319 -/
noncomputable def tilt (a e theta sep : ℝ) : ℝ :=
  arccos (sqrt ((1 + e * cos theta) / (2 - sep / a)))

/-- parameters of `AddBinaryStar`, in the order of Ic.cpp:271-282 (the smoothing lengths are left out) -/
structure Args where
  sma : ℝ
  eccent : ℝ
  m1 : ℝ
  m2 : ℝ
  phirot : ℝ
  thetarot : ℝ
  phase : ℝ
  psirot : ℝ
  rbinary : Vec 3 ℝ
  vbinary : Vec 3 ℝ

/-- unit vector to star 1 in the plane of the orbit, Ic.cpp:328-329 -/
noncomputable def towards (theta : ℝ) : Vec 3 ℝ := ![cos theta, sin theta, 0]

/-- direction of the velocity of star 1, Ic.cpp:330-331 -/
noncomputable def heading (theta phi : ℝ) : Vec 3 ℝ :=
  ![-cos (1 / 2 * π - theta + phi), sin (1 / 2 * π - theta + phi), 0]

/-- the two stars at true anomaly `theta`, Ic.cpp:292, 311-354 -/
noncomputable def place (p : Args) (theta : ℝ) : Star × Star :=
  let mbin := p.m1 + p.m2
  let sep := separation p.sma p.eccent theta
  let vel := speed p.m1 p.m2 p.sma sep
  let phi := tilt p.sma p.eccent theta sep
  let r1 : Vec 3 ℝ := fun k => sep * towards theta k * p.m2 / mbin
  let v1 : Vec 3 ℝ := fun k => vel * heading theta phi k * p.m2 / mbin
  let r2 : Vec 3 ℝ := fun k => -(sep * towards theta k * p.m1 / mbin)
  let v2 : Vec 3 ℝ := fun k => -(vel * heading theta phi k * p.m1 / mbin)
  (⟨p.m1, fun k => rotate p.phirot p.thetarot p.psirot r1 k + p.rbinary k,
      fun k => rotate p.phirot p.thetarot p.psirot v1 k + p.vbinary k⟩,
   ⟨p.m2, fun k => rotate p.phirot p.thetarot p.psirot r2 k + p.rbinary k,
      fun k => rotate p.phirot p.thetarot p.psirot v2 k + p.vbinary k⟩)

/-- `AddBinaryStar`, Ic.cpp:265-365, for the random number `u` (`floatrand`, Ic.cpp:295) -/
noncomputable def addBinaryStar (fuel : ℕ) (u : ℝ) (p : Args) : Option (Star × Star) :=
  (solve p.eccent (2 * π * u) fuel (2 * π * u)).map fun E => place p (trueAnomaly p.eccent E)

/-- parameters of the run, HierarchicalSystemIc.cpp:70-76, 93-102, 123-134 -/
structure Params where
  abin : ℝ
  ebin : ℝ
  abin2 : ℝ
  ebin2 : ℝ
  m1 : ℝ
  m2 : ℝ
  m3 : ℝ
  m4 : ℝ
  phirot : ℝ
  thetarot : ℝ
  psirot : ℝ

/-- a call as written in HierarchicalSystemIc.cpp:83-84, 109-114, 142-149: the third angle goes to
`phase` and `0.0` to `psirot` -/
noncomputable def call (fuel : ℕ) (q : Params) (u a e m1 m2 : ℝ) (r v : Vec 3 ℝ) :
    Option (Star × Star) :=
  addBinaryStar fuel u
    ⟨a, e, m1, m2, q.phirot, q.thetarot, q.psirot, 0, r, v⟩

/-- `ic == "binary"`, HierarchicalSystemIc.cpp:67-86 -/
noncomputable def binary (fuel : ℕ) (q : Params) (u : ℝ) : Option (List Star) :=
  (call fuel q u q.abin q.ebin q.m1 q.m2 0 0).map fun s => [s.1, s.2]

/-- `ic == "triple"`, HierarchicalSystemIc.cpp:88-117 -/
noncomputable def triple (fuel : ℕ) (q : Params) (u u' : ℝ) : Option (List Star) :=
  (call fuel q u q.abin q.ebin (q.m1 + q.m2) q.m3 0 0).bind fun outer =>
    (call fuel q u' q.abin2 q.ebin2 q.m1 q.m2 outer.1.r outer.1.v).map fun s =>
      [s.1, s.2, outer.2]

/-- `ic == "quadruple"`, HierarchicalSystemIc.cpp:119-151 -/
noncomputable def quadruple (fuel : ℕ) (q : Params) (u u' u'' : ℝ) : Option (List Star) :=
  (call fuel q u q.abin q.ebin (q.m1 + q.m2) (q.m3 + q.m4) 0 0).bind fun outer =>
    (call fuel q u' q.abin2 q.ebin2 q.m1 q.m2 outer.1.r outer.1.v).bind fun s =>
      (call fuel q u'' q.abin2 q.ebin2 q.m3 q.m4 outer.2.r outer.2.v).map fun s' =>
        [s.1, s.2, s'.1, s'.2]

end Gandalf.Binary
