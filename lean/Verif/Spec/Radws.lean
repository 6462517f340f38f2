import Mathlib.Data.Real.Basic

/-!
# What radiative cooling should do
-/

set_option autoImplicit false

namespace Gandalf

namespace Radws

/-- entry `c` of the first `n` is the nearest to `v` -/
def Nearest (a : ℕ → ℝ) (n : ℕ) (v : ℝ) (c : ℕ) : Prop := c < n ∧ ∀ j, j < n → |a c - v| ≤ |a j - v|

/-- at temperature `T` gas of optical depth `√col2 κ` heated by the flow at the rate `dudt` radiates what it gains, in
surroundings of temperature `tamb` (Stamatellos et al. 2007) -/
def Equilibrium (rad tamb col2 k kp dudt T : ℝ) : Prop := dudt * (col2 * k + 1 / kp) = 4 * rad * (T ^ 4 - tamb ^ 4)

/-- `T` is the temperature after a step of the implicit Euler method for an ideal gas -/
def Implicit (rad tamb col2 k kp g mu dudt u dt T : ℝ) : Prop :=
  T / (mu * (g - 1)) = u + dt * (dudt - 4 * rad * (T ^ 4 - tamb ^ 4) / (col2 * k + 1 / kp))

end Radws

end Gandalf
