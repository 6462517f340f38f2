import Verif.Model.TreeSearch

/-!
Model of `KDRadiationTree::ComputeGatherCellList`, KDRadiationTree.cpp:679-740, and of the loop that calls it,
MonochromaticIonisationMonteCarlo.cpp:752-762.  The weights then made of the list (lines 789-818) are not modelled: the
value made of them is overwritten in line 819.
-/

set_option autoImplicit false

namespace Gandalf.GatherCells
open Walk

variable {n : ℕ}

/-- the members of the cells which the walk reads -/
structure Cells (n : ℕ) where
  Ncell : ℕ
  ltot : ℕ
  level : ℕ → ℕ
  cnext : ℕ → Option ℕ
  N : ℕ → ℕ
  rcell : ℕ → Vec n ℝ
  rmax : ℕ → ℝ

/-- cells above the last level are opened with `cc++`, KDRadiationTree.cpp:708-710 -/
def Cells.links (A : Cells n) : Links := ⟨fun c => if A.level c ≠ A.ltot then some (c + 1) else none, A.cnext⟩

/-- `rcell` and `rmax` of a cell with the given box, KDRadiationTree.cpp:611-613 -/
noncomputable def sphere (bbmin bbmax : Vec n ℝ) : Vec n ℝ × ℝ :=
  (fun k => 0.5 * (bbmax k + bbmin k),
    √(dot (fun k => 0.5 * (bbmax k - bbmin k)) (fun k => 0.5 * (bbmax k - bbmin k))))

open Classical in
/-- body of the loop, KDRadiationTree.cpp:700-734 -/
noncomputable def Cells.body (A : Cells n) (rp : Vec n ℝ) (rsearch : ℝ) (Nneibmax : ℕ) (c : ℕ) (s : List ℕ) : Act (List ℕ) :=
  if Tree.distsqd (A.rcell c) rp < (rsearch + A.rmax c) * (rsearch + A.rmax c) then
    if A.level c ≠ A.ltot then .open_ s
    else if A.N c = 0 then .next s
    else if s.length < Nneibmax then .next (s ++ [c])
    else .abort
  else .next s

/-- `ComputeGatherCellList`, KDRadiationTree.cpp:683-740; `fail` is the result -1 -/
noncomputable def Cells.gather (A : Cells n) (rp : Vec n ℝ) (rsearch : ℝ) (Nneibmax fuel : ℕ) : Res (List ℕ) :=
  walk A.links A.Ncell (A.body rp rsearch Nneibmax) fuel 0 []

/-- outcome of the loop of calls -/
inductive Out where
  | cells : List ℕ → Out
  | raised : Out
  | endless : Out

/-- `do … while (Ngather < 0)`, MonochromaticIonisationMonteCarlo.cpp:752-762, with `k` further turns allowed -/
noncomputable def Cells.retry (A : Cells n) (rp : Vec n ℝ) (h : ℝ) (fuel : ℕ) : (k Ngathermax : ℕ) → Out
  | 0, _ => .endless
  | k + 1, Ngathermax =>
    match A.gather rp (3 * h) Ngathermax fuel with
    | .stuck => .endless
    | .fail => A.retry rp h fuel k (2 * Ngathermax)
    | .done l => if l.length = 0 then .raised else .cells l

end Gandalf.GatherCells
