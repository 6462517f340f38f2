import Verif.Model.Box
import Mathlib.Algebra.BigOperators.Ring.Finset

/-! Geometric meaning of boxes and periodic images. -/

set_option autoImplicit false

namespace Gandalf

variable {n : ℕ} {α : Type*} [Field α] [LinearOrder α]

/-- closed box -/
def Box.Mem (x : Vec n α) (b : Box n α) : Prop := ∀ k, b.min k ≤ x k ∧ x k ≤ b.max k

/-- non-empty closed box -/
def Box.Ordered (b : Box n α) : Prop := ∀ k, b.min k ≤ b.max k

/-- volume -/
def Box.volume (b : Box n α) : α := ∏ k, (b.max k - b.min k)

/-- volume of the common part of two boxes -/
def Box.commonVolume (a b : Box n α) : α :=
  ∏ k, Max.max 0 (Min.min (a.max k) (b.max k) - Max.max (a.min k) (b.min k))

/-- A domain as set up by the simulations (NbodySimulation.cpp:96-99 and its analogues): positive
sides, derived lengths, and periodic sides in pairs. -/
structure Domain.WF (d : Domain n α) : Prop where
  size : ∀ k, d.size k = d.max k - d.min k
  half : ∀ k, d.half k = 1 / 2 * d.size k
  pos : ∀ k, d.min k < d.max k
  pair : ∀ k, d.lhs k = .periodic ↔ d.rhs k = .periodic

/-- the translates by whole box lengths in the periodic dimensions -/
def Domain.IsImage (d : Domain n α) (x y : Vec n α) : Prop :=
  ∃ m : Fin n → ℤ, ∀ k, (d.lhs k ≠ .periodic → m k = 0) ∧ y k = x k + m k * d.size k

end Gandalf
