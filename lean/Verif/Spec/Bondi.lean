import Verif.Model.Bondi

/-! What a steady flow onto a point mass is, without the integration scheme. -/

set_option autoImplicit false

namespace Gandalf

noncomputable section

namespace Bondi

/-- Energy along a streamline of isothermal gas falling onto a point mass; radius in units of
the sonic radius, speed in units of the speed of sound.  Constant in a steady flow. -/
def energy (x w : ℝ) : ℝ := w ^ 2 / 2 - Real.log w - (2 * Real.log x + 2 / x)

/-- Mass that crosses a sphere of radius `r` per unit time -/
def flux (r rho v : ℝ) : ℝ := 4 * Real.pi * r ^ 2 * rho * v

/-- `(X, W, Z)` lies on the broken line through the entries of a table. -/
def OnTable (N : ℕ) (x w z : ℕ → ℝ) (X W Z : ℝ) : Prop :=
  ∃ (i : ℕ) (t : ℝ), i + 1 < N ∧ 0 ≤ t ∧ t ≤ 1 ∧
    X = (1 - t) * x i + t * x (i + 1) ∧ W = (1 - t) * w i + t * w (i + 1) ∧
    Z = (1 - t) * z i + t * z (i + 1)

/-- The classical scheme of Runge and Kutta for `y' = F x y`, with `y` a pair -/
def rk4 (F : ℝ → ℝ × ℝ → ℝ × ℝ) (x h : ℝ) (y : ℝ × ℝ) : ℝ × ℝ :=
  let k1 := F x y
  let k2 := F (x + h / 2) (y + (h / 2) • k1)
  let k3 := F (x + h / 2) (y + (h / 2) • k2)
  let k4 := F (x + h) (y + h • k3)
  y + (h / 6) • (k1 + (2 : ℝ) • k2 + (2 : ℝ) • k3 + k4)

end Bondi

end

end Gandalf
