import Verif.Model.KDBuild

/-! Specification of a finished KD-tree build. -/

set_option autoImplicit false

namespace Gandalf.KD

/-- Cell `c`, root of a complete subtree of depth `d`, owns exactly the particles of the list `l`, in
this order: counts, first/last particle and links agree, and if the cell is internal its first child
owns the first half (rounded down), its second child the rest, with no coordinate in the first half
exceeding one in the second half along the cell's split dimension. -/
def Owns {κ α : Type*} [LE α] (t : Links) (coord : κ → ℕ → α) (kdiv : ℕ → κ) (s : Build) :
    (d c : ℕ) → List ℕ → Prop
  | 0, c, l => s.N c = l.length ∧ s.ifirst c = l.head? ∧ s.ilast c = l.getLast? ∧
      l.IsChain (fun a b => s.inext a = some b)
  | d + 1, c, l => s.N c = l.length ∧ s.ifirst c = l.head? ∧ s.ilast c = l.getLast? ∧
      l.IsChain (fun a b => s.inext a = some b) ∧
      ∃ c1 c2 l1 l2, t.c1 c = some c1 ∧ t.c2 c = some c2 ∧ l = l1 ++ l2 ∧
        l1.length = l.length / 2 ∧ l2 ≠ [] ∧
        (∀ x ∈ l1, ∀ y ∈ l2, coord (kdiv c) x ≤ coord (kdiv c) y) ∧
        Owns t coord kdiv s d c1 l1 ∧ Owns t coord kdiv s d c2 l2

end Gandalf.KD
