import Verif.Model.Vec
import Mathlib.Analysis.SpecialFunctions.Pow.Real
import Mathlib.Analysis.SpecialFunctions.Trigonometric.Basic

/-!
# How stars heat their surroundings
-/

set_option autoImplicit false

namespace Gandalf.StarHeat

open Real

noncomputable section

/-- fourth power of the temperature of a small grey body at distance `d` from a source of luminosity `L`: it takes in
`L/(4πd²)` on its cross-section and radiates from the whole of its surface, four times as large -/
def grey (sigma L d : ℝ) : ℝ := L / (4 * π * d ^ 2) / (4 * sigma)

/-- luminosity of a star in any units: that of hydrogen burning, and that of the gas falling from half the radius of the
sink -/
def shine (G msun lsun facc m mdot rsink r fn : ℝ) : ℝ := fn * (m / msun) ^ 3 * lsun + facc * (G * m * mdot / r) * (1 - r / (2 * rsink))

/-- temperature of a disc at distance `R` in units of the distance where it is `T1` -/
def profile (T1 q R : ℝ) : ℝ := T1 * R ^ (-q)

end

end Gandalf.StarHeat
