import Verif.Model.TreeSearch

/-!
# The eigenvalue criterion stored in a cell
(src/Tree/KDTree.cpp:1057-1079; the same lines in OctTree.cpp:694-716 and BruteForceTree.cpp:466-487)

Over `ℝ`; the exponent `0.66666666666666` of the code is read as 2/3. How the walks use the number is
`Tree.openCellForGravity` (Model/TreeSearch.lean).
-/

set_option autoImplicit false

namespace Gandalf.OpenCrit

noncomputable section

/-- `p`, KDTree.cpp:1060-1061 (three dimensions) and 1068 (two) -/
def pval : (n : ℕ) → (Fin 5 → ℝ) → ℝ
  | 3, q => q 0 * q 2 - (q 0 + q 2) * (q 0 + q 2) - q 1 * q 1 - q 3 * q 3 - q 4 * q 4
  | 2, q => (q 0 - q 2) * (q 0 - q 2) + 4 * q 1 * q 1
  | _, _ => 0

/-- `lambda`, KDTree.cpp:1059-1072 -/
def lambda : (n : ℕ) → (Fin 5 → ℝ) → ℝ
  | 3, q => if pval 3 q ≥ 0 then 0 else 2 * Real.sqrt (-pval 3 q / 3)
  | 2, q => 0.5 * max (q 0 + q 2 + Real.sqrt (pval 2 q)) 0
  | _, q => |q 0|

/-- `cell.mac`, KDTree.cpp:1074 and 1078 -/
def macOf (n : ℕ) (gmac : Tree.Mac) (macerror : ℝ) (q : Fin 5 → ℝ) : ℝ :=
  match gmac with
  | .eigenmac => (0.5 * lambda n q / macerror) ^ (2 / 3 : ℝ)
  | _ => 0

/-- the number of a particle that enters `macfactor`, KDTree.cpp:903 (`KD.Parts.gfac`) -/
def gfacOf (gpot : ℝ) : ℝ := gpot ^ (-(2 / 3) : ℝ)

end

end Gandalf.OpenCrit
