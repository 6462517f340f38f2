import Verif.Model.Box
import Verif.Model.KDStock

/-! # Which particles a process needs of another (specification side) -/

set_option autoImplicit false

namespace Gandalf

variable {n : ℕ}

/-- particle `i` is within `gr` smoothing lengths, in each coordinate, of a point of the box -/
def Mpi.Reaches (gr : ℝ) (P : KD.Parts n) (b : Box n ℝ) (i : ℕ) : Prop :=
  ∃ x : Vec n ℝ, (∀ k, b.min k ≤ x k ∧ x k ≤ b.max k) ∧ ∀ k, |P.r i k - x k| ≤ gr * P.h i

/-- `x` is within `d` of `y` in each coordinate -/
def Mpi.Near (d : ℝ) (x y : Vec n ℝ) : Prop := ∀ k, |x k - y k| ≤ d

end Gandalf
