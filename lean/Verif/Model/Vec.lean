import Verif.Common
import Mathlib.Algebra.BigOperators.Group.Finset.Basic
import Mathlib.Algebra.BigOperators.Fin
import Mathlib.Algebra.Order.BigOperators.Group.Finset
import Mathlib.Algebra.BigOperators.Ring.Finset

/-! Vectors of `ndim` coordinates. -/

set_option autoImplicit false

namespace Gandalf

/-- `FLOAT x[ndim]` -/
abbrev Vec (n : ℕ) (α : Type*) := Fin n → α

/-- `DotProduct`, src/Headers/InlineFuncs.h:44-53 (explicit sums for
`ndim = 1,2,3` there). -/
def dot {n : ℕ} {α : Type*} [AddCommMonoid α] [Mul α] (a b : Vec n α) : α := ∑ k, a k * b k

end Gandalf
