import Verif.Model.KDStructure
import Mathlib.Algebra.Order.Field.Basic

/-! Specification of the ionisation balance. -/

set_option autoImplicit false

namespace Gandalf.MonoIon

/-- Ionisation balance: recombinations (`x²`) equal ionisations of the neutral gas, `a` being the rate of
ionisation over the rate of recombination; `x` is a fraction. -/
def Balance {α : Type} [Ring α] [LinearOrder α] (a x : α) : Prop := 0 ≤ x ∧ x < 1 ∧ x * x = (1 - x) * a

/-- The cell `j` lies in the subtree of the cell `i`. -/
inductive Under (t : KD.Links) (i : ℕ) : ℕ → Prop
  | self : Under t i i
  | first {j c1 : ℕ} : Under t i j → t.c1 j = some c1 → Under t i c1
  | second {j c2 : ℕ} : Under t i j → t.c2 j = some c2 → Under t i c2

/-- sum of `f` over a list -/
def total {α : Type} [AddMonoid α] (f : ℕ → α) (l : List ℕ) : α := (l.map f).sum

end Gandalf.MonoIon
