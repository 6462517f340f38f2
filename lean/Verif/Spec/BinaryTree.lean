import Verif.Common

/-! # Binary trees over numbered stars, and bodies that stand for several stars

Written without reference to the code. Nodes are numbered, stars first. -/

set_option autoImplicit false

namespace Gandalf.BinTree

/-- Nodes `0 … nnode-1`: the first `N` are stars, every other one has two different children with
smaller numbers, and `parent` says the same as `child`. -/
structure Shape (N nnode : ℕ) (child : ℕ → Option (ℕ × ℕ)) (parent : ℕ → Option ℕ) : Prop where
  star : ∀ c, c < N → child c = none
  inner : ∀ c, N ≤ c → c < nnode → ∃ a b, child c = some (a, b) ∧ a < c ∧ b < c ∧ a ≠ b ∧
    parent a = some c ∧ parent b = some c
  parent_some : ∀ d p, d < nnode → parent d = some p → N ≤ p ∧ p < nnode ∧
    ∃ a b, child p = some (a, b) ∧ (d = a ∨ d = b)

/-- a complete tree over `N` stars: `2N-1` nodes, the last one is the root -/
structure Complete (N : ℕ) (child : ℕ → Option (ℕ × ℕ)) (parent : ℕ → Option ℕ) : Prop where
  shape : Shape N (2 * N - 1) child parent
  root : ∀ d, d < 2 * N - 1 → (parent d = none ↔ d = 2 * N - 2)

/-- the stars below a node -/
inductive Leaves (child : ℕ → Option (ℕ × ℕ)) : ℕ → List ℕ → Prop
  | star (c : ℕ) : child c = none → Leaves child c [c]
  | node (c a b : ℕ) (l m : List ℕ) : child c = some (a, b) → Leaves child a l → Leaves child b m →
      Leaves child c (l ++ m)

end Gandalf.BinTree

namespace Gandalf.BinTree

/-- A list of bodies, each a star or a group of bodies (`inside`), is made of the stars of a list. -/
inductive Made {β : Type} (inside : β → ℕ ⊕ List β) : List β → List ℕ → Prop
  | nil : Made inside [] []
  | star (b : β) (i : ℕ) (l : List β) (L : List ℕ) : inside b = Sum.inl i → Made inside l L →
      Made inside (b :: l) (i :: L)
  | group (b : β) (k l : List β) (K L : List ℕ) : inside b = Sum.inr k → Made inside k K →
      Made inside l L → Made inside (b :: l) (K ++ L)

end Gandalf.BinTree
