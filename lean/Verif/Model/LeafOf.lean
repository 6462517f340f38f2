import Verif.Model.TreeSearch

/-!
Model of `Tree::FindLeafCell`, Tree.cpp:1044-1090, which `TreeRay::AddRadiationPointSource` (TreeRay.cpp:498-517) calls with
the position of a star.
-/

set_option autoImplicit false

namespace Gandalf
open Walk

variable {n : ℕ}

open Classical in
/-- `FindLeafCell`, Tree.cpp:1048-1090: `done none` is the result -1, `stuck` an endless loop or a link -1 followed. -/
noncomputable def Tree.findLeaf (T : Tree n) (rp : Vec n ℝ) : (fuel cc : ℕ) → Res (Option ℕ)
  | fuel, cc =>
    if cc < T.Ncell then
      match fuel with
      | 0 => .stuck
      | fuel + 1 =>
        if boxOverlap ⟨rp, rp⟩ (T.cell cc).bb then
          match T.links.copen cc with
          | some c' => T.findLeaf rp fuel c'
          | none =>
            if (T.cell cc).N = 0 then
              match T.links.cnext cc with
              | some c' => T.findLeaf rp fuel c'
              | none => .stuck
            else .done (some cc)
        else
          match T.links.cnext cc with
          | some c' => T.findLeaf rp fuel c'
          | none => .stuck
    else .done none

end Gandalf
