import Verif.Model.TreeWalk

/-!
# Ordered trees of cells (specification side)

`Forest` is a list of trees, given by first tree's root, its children and the remaining siblings.
It is used to say what a cell array *means*; the code never sees it.
-/

set_option autoImplicit false

namespace Gandalf

inductive Forest where
  | nil : Forest
  | cons (c : ℕ) (children rest : Forest) : Forest

namespace Forest

/-- id of the first root, or `next` if there is none -/
def entry : Forest → ℕ → ℕ
  | nil, next => next
  | cons c _ _, _ => c

/-- all cells in depth-first pre-order -/
def cells : Forest → List ℕ
  | nil => []
  | cons c ch rest => c :: (ch.cells ++ rest.cells)

/-- number of cells -/
def size : Forest → ℕ
  | nil => 0
  | cons _ ch rest => ch.size + rest.size + 1

/-- the leaf cells in depth-first order -/
def leaves : Forest → List ℕ
  | nil => []
  | cons c nil rest => c :: rest.leaves
  | cons _ ch rest => ch.leaves ++ rest.leaves

/-- Recursive traversal with an opening decision: the list of visited cells in order. A cell is
visited if it is a root or its parent was visited and opened. -/
def visited (opn : ℕ → Bool) : Forest → List ℕ
  | nil => []
  | cons c ch rest => c :: ((if opn c then ch.visited opn else []) ++ rest.visited opn)

/-- Recursive traversal with a state: what a walk with loop body `body` ought to compute. -/
def fold {σ : Type*} (body : ℕ → σ → Walk.Act σ) : Forest → σ → Option σ
  | nil, s => some s
  | cons c ch rest, s =>
    match body c s with
    | .abort => none
    | .open_ s' => (ch.fold body s').bind (rest.fold body)
    | .next s' => rest.fold body s'

/-- The links of the array encode this forest, and leaving it leads to cell `next`. -/
def Linked (L : Walk.Links) : Forest → ℕ → Prop
  | nil, _ => True
  | cons c ch rest, next =>
    L.cnext c = some (rest.entry next) ∧
    L.copen c = (match ch with | nil => none | cons d _ _ => some d) ∧
    ch.Linked L (rest.entry next) ∧ rest.Linked L next

/-- every cell without children satisfies `P` -/
def AllLeaves (P : ℕ → Prop) : Forest → Prop
  | nil => True
  | cons c ch rest => (ch = nil → P c) ∧ ch.AllLeaves P ∧ rest.AllLeaves P

end Forest
end Gandalf
