import Verif.Spec.Multipole
import Verif.Model.Kernel

/-! # Softened gravity of one particle on another -/

set_option autoImplicit false

namespace Gandalf.Gravity

variable {n : ℕ}

/-- acceleration at `x` by a mass `m` at `y`, both smoothed with the mean of their smoothing lengths -/
noncomputable def softAcc (K : Kernel) (x : Vec n ℝ) (hx : ℝ) (y : Vec n ℝ) (hy m : ℝ) (k : Fin n) : ℝ :=
  m / ((hx + hy) / 2) ^ 2 * K.wgrav (gdist 0 x y / ((hx + hy) / 2)) * ((y k - x k) / gdist 0 x y)

/-- and the potential (positive) -/
noncomputable def softPot (K : Kernel) (x : Vec n ℝ) (hx : ℝ) (y : Vec n ℝ) (hy m : ℝ) : ℝ :=
  m / ((hx + hy) / 2) * K.wpot (gdist 0 x y / ((hx + hy) / 2))

end Gandalf.Gravity
