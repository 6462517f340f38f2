import Verif.Model.Forest

/-! What a pruned tree is, without reference to how the code makes it. -/

set_option autoImplicit false

namespace Gandalf.Forest

/-- Cut below every cell that is not opened. -/
def prune (opn : ℕ → Bool) : Forest → Forest
  | nil => nil
  | cons c ch rest => cons c (if opn c then ch.prune opn else nil) (rest.prune opn)

/-- The same shape with cells numbered `k, k+1, …` in depth-first order. -/
def number : ℕ → Forest → Forest
  | _, nil => nil
  | k, cons _ ch rest => cons k (ch.number (k + 1)) (rest.number (k + 1 + ch.size))

/-- The leaves of the forest split the particles `l`: every cell `c` stands for a list `l'` with `Q c l'`,
a cell with children for what its children stand for. -/
def Accounts (Q : ℕ → List ℕ → Prop) : Forest → List ℕ → Prop
  | nil, l => l = []
  | cons c ch rest, l => ∃ l1 l2, l = l1 ++ l2 ∧ Q c l1 ∧ (ch ≠ nil → ch.Accounts Q l1) ∧
      rest.Accounts Q l2

/-- number of roots -/
def roots : Forest → ℕ
  | nil => 0
  | cons _ _ rest => rest.roots + 1

/-- `level` is the depth of the cells, the roots having depth `L`; no cell has more than `b` children. -/
def Leveled (level : ℕ → ℕ) (b : ℕ) : ℕ → Forest → Prop
  | _, nil => True
  | L, cons c ch rest => level c = L ∧ ch.roots ≤ b ∧ ch.Leveled level b (L + 1) ∧ rest.Leveled level b L

/-- every cell has no child or exactly two -/
def Binary : Forest → Prop
  | nil => True
  | cons _ ch rest => (ch = nil ∨ ch.roots = 2) ∧ ch.Binary ∧ rest.Binary

/-- height of the highest tree -/
def height : Forest → ℕ
  | nil => 0
  | cons _ ch rest => max (ch.height + 1) rest.height

end Gandalf.Forest
