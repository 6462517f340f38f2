import Verif.Model.Vec
import Mathlib.MeasureTheory.Integral.IntervalIntegral.Basic
import Mathlib.Analysis.Calculus.Deriv.Basic
import Mathlib.Analysis.SpecialFunctions.Pow.Real

/-!
# What a disc around a star should be
-/

set_option autoImplicit false

noncomputable section

namespace Gandalf.DiscSpec
open Real

/-- mass of a flat disc with surface density `sigma` between two radii -/
def massBetween (sigma : ℝ → ℝ) (a b : ℝ) : ℝ := ∫ r in a..b, 2 * π * r * sigma r

/-- Gas of density `rho` and pressure `P` (functions of the radius) on a circle of radius `r` with speed `v` about a mass
`M`: the centripetal acceleration is what gravity and pressure give. -/
def Balanced (M : ℝ) (rho P : ℝ → ℝ) (v r : ℝ) : Prop :=
  ∃ d, HasDerivAt P d r ∧ -(v ^ 2 / r) = -(M / r ^ 2) - d / rho r

/-- Isothermal gas of sound speed `c` and density `rho` (function of the height) at height `z` above the plane, at the
distance `r` from a mass `M` that is large compared with `z`: pressure holds it against gravity. -/
def Hydrostatic (M c : ℝ) (rho : ℝ → ℝ) (r z : ℝ) : Prop :=
  ∃ d, HasDerivAt (fun y => c ^ 2 * rho y) d z ∧ d = -(rho z * (M * z / r ^ 3))

/-- The orbit of two bodies of total mass `M`, by relative place and velocity, with semi-major axis `a` and
eccentricity `e`: energy and angular momentum. -/
def Orbit (M a e : ℝ) (x v : Vec 3 ℝ) : Prop :=
  dot v v / 2 - M / √(dot x x) = -(M / (2 * a)) ∧ dot x x * dot v v - dot x v ^ 2 = M * a * (1 - e ^ 2)

/-- the radius of the sphere in which a planet of mass `m` at distance `a` from a star of mass `M` prevails -/
def hillRadius (M m a : ℝ) : ℝ := a * (m / (3 * M)) ^ (1 / 3 : ℝ)

end Gandalf.DiscSpec
