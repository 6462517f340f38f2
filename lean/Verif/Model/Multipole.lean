import Verif.Model.KDStock
import Mathlib.Data.Fin.VecNotation

/-!
# Gravity of distant cells (src/Headers/NeighbourSearch.h:335-827)

Over `ℝ`. `small_number` is the parameter `eps`. The second order terms of the Taylor expansion are compiled out in
the code (`HoT = false`) and left out here.
-/

set_option autoImplicit false

namespace Gandalf.Multipole

variable {n : ℕ}

/-- `MultipoleMoment`, Headers/TreeCell.h:55-77 (without the id) -/
structure Moment (n : ℕ) where
  r : Vec n ℝ
  m : ℝ
  q : Fin 5 → ℝ

/-- `MultipoleMoment(cell)`, TreeCell.h:65-71 -/
def ofCell (c : KD.Props n) : Moment n := ⟨c.r, c.m, c.q⟩

/-- potential (positive) and acceleration gathered at one point: `gpot`, `agrav` -/
structure Field (n : ℕ) where
  gpot : ℝ
  a : Vec n ℝ

/-- body of the loop of `ComputeCellMonopoleForces`, NeighbourSearch.h:361-371 -/
noncomputable def monopole (eps : ℝ) (rp : Vec n ℝ) (s : Field n) (cell : Moment n) : Field n :=
  let mc := cell.m
  let dr : Vec n ℝ := fun k => cell.r k - rp k
  let drsqd := dot dr dr + eps
  let invdrsqd := 1 / drsqd
  let invdrmag := Real.sqrt invdrsqd
  let invdr3 := invdrsqd * invdrmag
  { gpot := s.gpot + mc * invdrmag
    a := fun k => s.a k + mc * dr k * invdr3 }

/-- `ComputeCellMonopoleForces`, NeighbourSearch.h:349-377 -/
noncomputable def cellMonopoleForces (eps : ℝ) (rp : Vec n ℝ) (l : List (Moment n)) (s : Field n) : Field n :=
  l.foldl (monopole eps rp) s

/-- `qscalar`, NeighbourSearch.h:397, 415-416 and 435-437 -/
def qscalar : (n : ℕ) → (Fin 5 → ℝ) → Vec n ℝ → ℝ
  | 1, q, dr => q 0 * dr 0 * dr 0
  | 2, q, dr => q 0 * dr 0 * dr 0 + q 2 * dr 1 * dr 1 + 2 * q 1 * dr 0 * dr 1
  | 3, q, dr => q 0 * dr 0 * dr 0 + q 2 * dr 1 * dr 1 - (q 0 + q 2) * dr 2 * dr 2 +
      2 * (q 1 * dr 0 * dr 1 + q 3 * dr 0 * dr 2 + q 4 * dr 1 * dr 2)
  | _, _, _ => 0

/-- the products of the tensor with `dr`, NeighbourSearch.h:400, 419-420 and 441-446 (again 614, 643-644, 678-680) -/
def qdr : (n : ℕ) → (Fin 5 → ℝ) → Vec n ℝ → Vec n ℝ
  | 1, q, dr => ![q 0 * dr 0]
  | 2, q, dr => ![q 0 * dr 0 + q 1 * dr 1, q 1 * dr 0 + q 2 * dr 1]
  | 3, q, dr => ![q 0 * dr 0 + q 1 * dr 1 + q 3 * dr 2, q 1 * dr 0 + q 2 * dr 1 + q 4 * dr 2,
      q 3 * dr 0 + q 4 * dr 1 - (q 0 + q 2) * dr 2]
  | _, _, _ => fun _ => 0

/-- `ComputeQuadropole`, NeighbourSearch.h:384-449 -/
noncomputable def quadrupole (eps : ℝ) (rp : Vec n ℝ) (s : Field n) (cell : Moment n) : Field n :=
  let dr : Vec n ℝ := fun k => rp k - cell.r k
  let drsqd := dot dr dr + eps
  let invdrsqd := 1 / drsqd
  let invdrmag := Real.sqrt invdrsqd
  let invdr5 := invdrsqd * invdrsqd * invdrmag
  let qs := qscalar n cell.q dr
  let qfactor := 5 / 2 * qs * invdr5 * invdrsqd
  { gpot := s.gpot + (cell.m * invdrmag + 1 / 2 * qs * invdr5)
    a := fun k => s.a k - cell.m * dr k * invdrsqd * invdrmag + (qdr n cell.q dr k * invdr5 - qfactor * dr k) }

/-- `ComputeCellQuadrupoleForces`, NeighbourSearch.h:457-475 -/
noncomputable def cellQuadrupoleForces (eps : ℝ) (rp : Vec n ℝ) (l : List (Moment n)) (s : Field n) : Field n :=
  l.foldl (quadrupole eps rp) s

/-! ### `FastMultipoleForces`, NeighbourSearch.h:481-760 -/

/-- the data members -/
structure Fast (n : ℕ) where
  rc : Vec n ℝ
  ac : Vec n ℝ
  dphi : Vec n ℝ
  q : Fin 6 → ℝ
  pot : ℝ

/-- constructor, NeighbourSearch.h:485-494 -/
def Fast.init (r : Vec n ℝ) : Fast n := ⟨r, fun _ => 0, fun _ => 0, fun _ => 0, 0⟩

/-- the sums over `q` in `AddMonopoleContribution`, NeighbourSearch.h:530, 551-553 and 577-582 -/
noncomputable def monoHess : (n : ℕ) → (mc : ℝ) → (invdrsqd : ℝ) → Vec n ℝ → Fin 6 → ℝ
  | 1, mc, i2, dr => ![mc * (3 * dr 0 * dr 0 * i2 - 1), 0, 0, 0, 0, 0]
  | 2, mc, i2, dr => ![mc * (3 * dr 0 * dr 0 * i2 - 1), mc * (3 * dr 0 * dr 1 * i2),
      mc * (3 * dr 1 * dr 1 * i2 - 1), 0, 0, 0]
  | 3, mc, i2, dr => ![mc * (3 * dr 0 * dr 0 * i2 - 1), mc * (3 * dr 0 * dr 1 * i2),
      mc * (3 * dr 1 * dr 1 * i2 - 1), mc * (3 * dr 2 * dr 0 * i2), mc * (3 * dr 2 * dr 1 * i2),
      mc * (3 * dr 2 * dr 2 * i2 - 1)]
  | _, _, _, _ => fun _ => 0

/-- `AddMonopoleContribution`, NeighbourSearch.h:516-597 -/
noncomputable def Fast.addMonopole (f : Fast n) (cell : Moment n) : Fast n :=
  let dr : Vec n ℝ := fun k => cell.r k - f.rc k
  let invdrmag := Real.sqrt (1 / dot dr dr)
  let invdrsqd := invdrmag * invdrmag
  let invdr3 := invdrsqd * invdrmag
  let mc := cell.m * invdr3
  { f with
    pot := f.pot + cell.m * invdrmag
    ac := fun k => f.ac k + mc * dr k
    dphi := fun k => f.dphi k + mc * dr k
    q := fun e => f.q e + monoHess n mc invdrsqd dr e }

/-- the sums over `q` in `AddQuadrupoleContribution`, NeighbourSearch.h:622-624, 652-658 and 688-700; `qx` is scaled
by `5*invdrsqd` -/
noncomputable def quadHess : (n : ℕ) → (q : Fin 5 → ℝ) → (qfactor i2 i5 : ℝ) → (qx dr : Vec n ℝ) → Fin 6 → ℝ
  | 1, q, qf, i2, i5, qx, dr => ![qf * (7 * dr 0 * dr 0 * i2 - 1) - (qx 0 * dr 0 + qx 0 * dr 0 - q 0 * i5), 0, 0, 0, 0, 0]
  | 2, q, qf, i2, i5, qx, dr => ![
      qf * (7 * dr 0 * dr 0 * i2 - 1) - (qx 0 * dr 0 + qx 0 * dr 0 - q 0 * i5),
      qf * (7 * dr 0 * dr 1 * i2) - (qx 0 * dr 1 + qx 1 * dr 0 - q 1 * i5),
      qf * (7 * dr 1 * dr 1 * i2 - 1) - (qx 1 * dr 1 + qx 1 * dr 1 - q 2 * i5), 0, 0, 0]
  | 3, q, qf, i2, i5, qx, dr => ![
      qf * (7 * dr 0 * dr 0 * i2 - 1) - (qx 0 * dr 0 + qx 0 * dr 0 - q 0 * i5),
      qf * (7 * dr 0 * dr 1 * i2) - (qx 0 * dr 1 + qx 1 * dr 0 - q 1 * i5),
      qf * (7 * dr 1 * dr 1 * i2 - 1) - (qx 1 * dr 1 + qx 1 * dr 1 - q 2 * i5),
      qf * (7 * dr 0 * dr 2 * i2) - (qx 0 * dr 2 + qx 2 * dr 0 - q 3 * i5),
      qf * (7 * dr 1 * dr 2 * i2) - (qx 1 * dr 2 + qx 2 * dr 1 - q 4 * i5),
      qf * (7 * dr 2 * dr 2 * i2 - 1) - (qx 2 * dr 2 + qx 2 * dr 2 + (q 0 + q 2) * i5)]
  | _, _, _, _, _, _, _ => fun _ => 0

/-- `AddQuadrupoleContribution`, NeighbourSearch.h:599-701 -/
noncomputable def Fast.addQuadrupole (eps : ℝ) (f : Fast n) (cell : Moment n) : Fast n :=
  let g := f.addMonopole cell
  let dr : Vec n ℝ := fun k => g.rc k - cell.r k
  let drsqd := dot dr dr + eps
  let invdrsqd := 1 / drsqd
  let invdrmag := Real.sqrt invdrsqd
  let invdr5 := invdrsqd * invdrsqd * invdrmag
  let qs := qscalar n cell.q dr
  let qfactor := 5 / 2 * qs * invdr5 * invdrsqd
  let qx : Vec n ℝ := fun k => qdr n cell.q dr k * invdr5
  { g with
    pot := g.pot + 1 / 2 * qs * invdr5
    ac := fun k => g.ac k + (qx k - qfactor * dr k)
    dphi := fun k => g.dphi k + (qx k - qfactor * dr k)
    q := fun e => g.q e + quadHess n cell.q qfactor invdrsqd invdr5 (fun k => qx k * (5 * invdrsqd)) dr e }

/-- the linear terms of the acceleration, NeighbourSearch.h:711, 725-726 and 741-743 -/
def linear : (n : ℕ) → (Fin 6 → ℝ) → Vec n ℝ → Vec n ℝ
  | 1, q, dr => ![q 0 * dr 0]
  | 2, q, dr => ![q 0 * dr 0 + q 1 * dr 1, q 1 * dr 0 + q 2 * dr 1]
  | 3, q, dr => ![q 0 * dr 0 + q 1 * dr 1 + q 3 * dr 2, q 1 * dr 0 + q 2 * dr 1 + q 4 * dr 2,
      q 3 * dr 0 + q 4 * dr 1 + q 5 * dr 2]
  | _, _, _ => fun _ => 0

/-- `ApplyForcesTaylor`, NeighbourSearch.h:706-760 -/
def Fast.apply (f : Fast n) (r : Vec n ℝ) (s : Field n) : Field n :=
  let dr : Vec n ℝ := fun k => r k - f.rc k
  { gpot := s.gpot + (f.pot + dot f.dphi dr)
    a := fun k => s.a k + (f.ac k + linear n f.q dr k) }

/-- `ComputeFastMonopoleForces` for one particle of the cell with centre `rc`, NeighbourSearch.h:768-794 -/
noncomputable def fastMonopoleForces (rc r : Vec n ℝ) (l : List (Moment n)) (s : Field n) : Field n :=
  (l.foldl Fast.addMonopole (Fast.init rc)).apply r s

/-- `ComputeFastQuadrupoleForces` for one particle of the cell with centre `rc`, NeighbourSearch.h:801-827 -/
noncomputable def fastQuadrupoleForces (eps : ℝ) (rc r : Vec n ℝ) (l : List (Moment n)) (s : Field n) : Field n :=
  (l.foldl (Fast.addQuadrupole eps) (Fast.init rc)).apply r s

end Gandalf.Multipole
