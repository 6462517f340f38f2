import Verif.Model.Vec
import Verif.Spec.Totals
import Mathlib.Analysis.SpecialFunctions.Trigonometric.Basic
import Mathlib.Analysis.SpecialFunctions.Sqrt

/-! # Two bodies bound by gravity (gravitational constant 1)

Written from mechanics, without reference to the code. -/

set_option autoImplicit false

namespace Gandalf.Kepler

open Real

/-- squared length of the angular momentum per reduced mass -/
def angSq (r v : Vec 3 ℝ) : ℝ := dot r r * dot v v - dot r v ^ 2

/-- `r`, `v` (relative position and velocity) belong to an ellipse with semi-major axis `a` and
eccentricity `e` for the total mass `mu`: energy `-mu/2a` and angular momentum `√(mu a (1 - e²))` -/
def OnEllipse (mu a e : ℝ) (r v : Vec 3 ℝ) : Prop :=
  dot v v / 2 - mu / sqrt (dot r r) = -(mu / (2 * a)) ∧ angSq r v = mu * a * (1 - e ^ 2)

/-- relative position at eccentric anomaly `E`, pericentre on the positive `x` axis -/
noncomputable def position (a e E : ℝ) : Vec 3 ℝ :=
  ![a * (cos E - e), a * (sqrt (1 - e ^ 2) * sin E), 0]

/-- relative velocity at eccentric anomaly `E` -/
noncomputable def velocity (mu a e E : ℝ) : Vec 3 ℝ :=
  ![-(sqrt (mu / a) / (1 - e * cos E) * sin E),
    sqrt (mu / a) / (1 - e * cos E) * (sqrt (1 - e ^ 2) * cos E), 0]

end Gandalf.Kepler
