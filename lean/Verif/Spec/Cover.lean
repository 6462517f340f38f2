import Verif.Model.Forest
import Verif.Model.TreeSearch
import Verif.Spec.Stock

/-! What makes a cell array with particle lists a tree over a given list of particles. -/

set_option autoImplicit false

namespace Gandalf

/-- The leaves of the forest hold, in depth-first order, exactly the particles `l`; every cell `c`
with particles `l'` beneath it satisfies `Q c l'`. -/
def Forest.Covers (leaf : ℕ → Option (List ℕ)) (Q : ℕ → List ℕ → Prop) : Forest → List ℕ → Prop
  | .nil, l => l = []
  | .cons c ch rest, l => ∃ l1 l2, l = l1 ++ l2 ∧ Q c l1 ∧ (ch = .nil → leaf c = some l1) ∧
      (ch ≠ .nil → ch.Covers leaf Q l1) ∧ rest.Covers leaf Q l2

variable {n : ℕ}

/-- `T` is a correctly linked and stocked tree over the particle list `l`. -/
structure Tree.OK (T : Tree n) (cfg : KD.Cfg) (P : KD.Parts n) (pfuel : ℕ) (f : Forest)
    (l : List ℕ) : Prop where
  linked : f.Linked T.links T.Nend
  root : f.entry T.Nend = 0
  /-- the link out of the tree stops the walks `while (cc < Ncell)` -/
  ends : T.Ncell ≤ T.Nend
  cells : ∀ c ∈ f.cells, c < T.Ncell
  covers : f.Covers (T.leafList pfuel) (fun c l' => KD.Summary cfg P l' (T.cell c) ∧
    (T.links.copen c = none → l'.length ≤ T.Nleafmax)) l
  nodup : l.Nodup

end Gandalf
