import Verif.Model.Vec
import Mathlib.Analysis.SpecialFunctions.Pow.Real

/-! # Specification of the equations of state: an ideal gas in code units (k_B/m_H = 1) -/

set_option autoImplicit false

namespace Gandalf.IdealGas

/-- pressure of an ideal gas of density `rho` and specific internal energy `u` -/
def energyLaw (gamma P rho u : ℝ) : Prop := P = (gamma - 1) * rho * u

/-- the law with the temperature `T` and the mean molecular weight `mu` -/
def temperatureLaw (mu P rho T : ℝ) : Prop := mu * P = rho * T

/-- `A` is the entropic function of the state: `P = A ρ^γ` -/
def entropyLaw (gamma P rho A : ℝ) : Prop := P = A * rho ^ gamma

/-- `d` is the distance of `x` from the nearest of the points -/
def nearest {n : ℕ} (pts : List (Vec n ℝ)) (x : Vec n ℝ) (d : ℝ) : Prop :=
  (∀ s ∈ pts, d ≤ Real.sqrt (∑ k, (x k - s k) ^ 2)) ∧ ∃ s ∈ pts, d = Real.sqrt (∑ k, (x k - s k) ^ 2)

end Gandalf.IdealGas
