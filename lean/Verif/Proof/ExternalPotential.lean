import Verif.Common
import Verif.Model.ExternalPotential
import Verif.Spec.Field
import Mathlib.Analysis.SpecialFunctions.Pow.Deriv
import Mathlib.Analysis.Calculus.Deriv.Add
import Mathlib.Analysis.Calculus.Deriv.Mul
import Mathlib.Analysis.Calculus.Deriv.Pow

/-! Lemmas for C63 -/

set_option autoImplicit false

namespace Gandalf.Ext
open Field

variable {n : ℕ}

/-- the square of the distance along a curve -/
theorem sq_deriv (r : ℝ → Vec n ℝ) (w : Vec n ℝ) (t b : ℝ) (h : Moves r w t) :
    HasDerivAt (fun s => (∑ k, r s k * r s k) + b * b) (2 * ∑ k, r t k * w k) t := by
  have h1 : HasDerivAt (fun s => ∑ k, r s k * r s k) (∑ k, (w k * r t k + r t k * w k)) t :=
    HasDerivAt.fun_sum fun k _ => (h k).mul (h k)
  refine (h1.add_const (b * b)).congr_deriv ?_
  rw [Finset.mul_sum]
  refine Finset.sum_congr rfl fun k _ => ?_; ring

/-- a power of it -/
theorem pow_deriv (r : ℝ → Vec n ℝ) (w : Vec n ℝ) (t b p : ℝ) (h : Moves r w t)
    (hp : 0 < (∑ k, r t k * r t k) + b * b) :
    HasDerivAt (fun s => ((∑ k, r s k * r s k) + b * b) ^ p)
      (2 * (∑ k, r t k * w k) * p * ((∑ k, r t k * r t k) + b * b) ^ (p - 1)) t :=
  (sq_deriv r w t b h).rpow_const (Or.inl hp.ne')

end Gandalf.Ext
