import Verif.Model.Box

/-!
# What a decomposition of space has to satisfy (C42)
-/

set_option autoImplicit false

namespace Gandalf

variable {n : ℕ} {α : Type*}

/-- The point lies in the box, lower faces included, upper faces excluded. -/
def Box.Holds [LinearOrder α] (b : Box n α) (x : Vec n α) : Prop := ∀ k, b.min k ≤ x k ∧ x k < b.max k

/-- The boxes `dom 0 … dom (M-1)` cut the box `root` into pieces: they lie inside, do not overlap and
leave nothing out. -/
structure CutsUp [LinearOrder α] (root : Box n α) (M : ℕ) (dom : ℕ → Box n α) : Prop where
  inside : ∀ j < M, ∀ x, (dom j).Holds x → root.Holds x
  disjoint : ∀ i < M, ∀ j < M, i ≠ j → ∀ x, ¬ ((dom i).Holds x ∧ (dom j).Holds x)
  cover : ∀ x, root.Holds x → ∃ j < M, (dom j).Holds x

end Gandalf
