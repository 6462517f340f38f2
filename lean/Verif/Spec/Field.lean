import Verif.Model.Vec
import Mathlib.Analysis.Calculus.Deriv.Basic
import Mathlib.Analysis.SpecialFunctions.Pow.Real

/-! # Conservative fields -/

set_option autoImplicit false

namespace Gandalf.Field

variable {n : ℕ}

/-- `r` passes with velocity `w` at time `t` -/
def Moves (r : ℝ → Vec n ℝ) (w : Vec n ℝ) (t : ℝ) : Prop := ∀ k, HasDerivAt (fun s => r s k) (w k) t

/-- the acceleration `a` at the point is minus the gradient of the energy `phi` per mass: along every curve through the
point the energy changes by minus the work done -/
def Gradient (a : Vec n ℝ) (phi : Vec n ℝ → ℝ) (x : Vec n ℝ) : Prop :=
  ∀ (r : ℝ → Vec n ℝ) (w : Vec n ℝ) (t : ℝ), r t = x → Moves r w t →
    HasDerivAt (fun s => phi (r s)) (-∑ k, a k * w k) t

/-- `j` is the rate of change of the field `a` seen by a body that passes through `x` with velocity `w` -/
def Rate (a : Vec n ℝ → Vec n ℝ) (j w x : Vec n ℝ) : Prop :=
  ∀ (r : ℝ → Vec n ℝ) (t : ℝ), r t = x → Moves r w t → ∀ k, HasDerivAt (fun s => a (r s) k) (j k) t

/-- the curve is the path of a body falling freely in the field `a` -/
def Falls (a : Vec n ℝ → Vec n ℝ) (r v : ℝ → Vec n ℝ) : Prop :=
  ∀ t k, HasDerivAt (fun s => r s k) (v t k) t ∧ HasDerivAt (fun s => v s k) (a (r t) k) t

end Gandalf.Field
