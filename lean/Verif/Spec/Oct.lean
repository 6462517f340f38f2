import Verif.Model.Forest
import Verif.Model.OctTree
import Mathlib.Algebra.Order.Group.Abs

/-! What a finished oct-tree has to be. -/

set_option autoImplicit false

namespace Gandalf

/-- every cell at depth `j` below the roots has level `L + j` -/
def Forest.Levels (level : ℕ → ℕ) : Forest → ℕ → Prop
  | nil, _ => True
  | cons c ch rest, L => level c = L ∧ ch.Levels level (L + 1) ∧ rest.Levels level L

/-- `s` holds the tree `f` over the particles `l`; the leaf `c` has the particles `lst c`. -/
structure Oct.Built {n : ℕ} {α : Type*} [Field α] [LinearOrder α] (Nleafmax Ncellmax : ℕ) (l : List ℕ)
    (s : Oct.State n α) (f : Forest) (lst : ℕ → List ℕ) : Prop where
  /-- links of a tree with root 0; leaving it leads to `Ncellmax` -/
  linked : f.Linked ⟨s.copen, s.cnext⟩ Ncellmax
  root : f.entry Ncellmax = 0
  /-- exactly the cells `0 … Ncell-1`, each once, and they fit -/
  cells : f.cells.Perm (List.range s.Ncell)
  fits : s.Ncell ≤ Ncellmax
  /-- the linked list of every leaf -/
  lists : ∀ c ∈ f.leaves, s.lists.ifirst c = (lst c).head? ∧ s.lists.ilast c = (lst c).getLast? ∧
    (lst c).IsChain (fun a b => s.lists.inext a = some b) ∧ s.lists.N c = (lst c).length ∧
    (lst c).length ≤ Nleafmax
  /-- every particle is in exactly one leaf -/
  perm : (f.leaves.flatMap lst).Perm l
  /-- `level` is the depth, and level `L` is stored in the cells `firstCell[L] … lastCell[L]` -/
  levels : f.Levels s.level 0
  deepest : ∀ c < s.Ncell, s.level c ≤ s.ltot
  ranges : ∀ L ≤ s.ltot, ∀ c, (s.firstCell L ≤ c ∧ c ≤ s.lastCell L ↔ c < s.Ncell ∧ s.level c = L)

end Gandalf
