import Verif.Model.KDStructure
import Verif.Model.Forest

/-! Specification of the KD-tree cell table: a complete binary tree in pre-order. -/

set_option autoImplicit false

namespace Gandalf.KD

/-- number of cells of a complete binary tree of depth `d` -/
def fullSize (d : ℕ) : ℕ := 2 ^ (d + 1) - 1

/-- The sub-table starting at cell `c` is the pre-order layout of a complete binary tree of depth `d`
whose leaves sit at level `L` and carry leaf numbers `g, g+1, …`. -/
def LaidOut (t : Links) (L : ℕ) : (d c g : ℕ) → Prop
  | 0, c, g => t.level c = L ∧ t.copen c = none ∧ t.c1 c = none ∧ t.c2 c = none ∧
      t.cnext c = some (c + 1) ∧ t.c2g c = g ∧ t.g2c g = c
  | d + 1, c, g => t.level c + (d + 1) = L ∧ t.copen c = some (c + 1) ∧ t.c1 c = some (c + 1) ∧
      t.c2 c = some (c + 1 + fullSize d) ∧ t.cnext c = some (c + fullSize (d + 1)) ∧
      LaidOut t L d (c + 1) g ∧ LaidOut t L d (c + 1 + fullSize d) (g + 2 ^ d)

/-- complete binary tree of depth `d` numbered in pre-order from `c`, followed by `rest` -/
def fullTree : (d c : ℕ) → Forest → Forest
  | 0, c, rest => .cons c .nil rest
  | d + 1, c, rest => .cons c (fullTree d (c + 1) (fullTree d (c + 1 + fullSize d) .nil)) rest

/-- the links of a cell table as seen by the tree walks -/
def Links.walkLinks (t : Links) : Walk.Links := ⟨t.copen, t.cnext⟩

end Gandalf.KD
