import Verif.Model.Vec
import Mathlib.Data.Real.Basic

/-! The first forces of a simulation, src/Hydrodynamics/SphSimulation.cpp:316-457 and
src/MeshlessFV/MeshlessFVSimulation.cpp:516-525, 600-688.  Left out: processes, ghosts, dust, stars
(whose part in the forces of gas belongs to the force law) and dead particles.  Real numbers. -/

set_option autoImplicit false

namespace Gandalf

noncomputable section

namespace StartUp

variable {n : ℕ} {ι δ : Type}

/-- `MAC_Type`, the opening criterion of the tree -/
inductive Mac where
  | geometric
  | gadget2
  | eigenmac
  deriving DecidableEq

/-- What set-up reads and writes of a particle; `rest` is all that the force law needs besides -/
structure Part (n : ℕ) (δ : Type) where
  active : Bool
  rest : δ
  a : Vec n ℝ
  atree : Vec n ℝ
  gpot : ℝ
  gpot_hydro : ℝ
  dudt : ℝ
  div_v : ℝ
  a0 : Vec n ℝ

/-- What the force loop finds for a particle -/
structure Found (n : ℕ) where
  a : Vec n ℝ
  atree : Vec n ℝ
  gpot : ℝ
  gpot_hydro : ℝ
  dudt : ℝ
  div_v : ℝ

/-- What the tree opens cells by: cells hold accelerations and potentials of their particles from when
the tree was built (`amin` and `macfactor`, KDTree.cpp:838-841, 899-903, 967-984), which the geometric
criterion does not read -/
inductive Opening (n : ℕ) (ι : Type) where
  | geometric
  | relative (mac : Mac) (field : ι → Vec n ℝ × ℝ)

/-- `BuildTree` with criterion `mac` -/
def build (mac : Mac) (sys : ι → Part n δ) : Opening n ι :=
  match mac with
  | .geometric => .geometric
  | .gadget2 => .relative .gadget2 fun i => ((sys i).atree, (sys i).gpot)
  | .eigenmac => .relative .eigenmac fun i => ((sys i).atree, (sys i).gpot)

/-- Any force law: what is found for a particle depends on the opening of cells and on the data of all
particles -/
abbrev Law (n : ℕ) (ι δ : Type) := Opening n ι → (ι → δ) → ι → Found n

/-- The end of the force loop: active particles add what was found, GradhSphTree.cpp:610-620,
MeshlessFVTree.cpp:829-835 -/
def addForces (F : Law n ι δ) (op : Opening n ι) (sys : ι → Part n δ) : ι → Part n δ := fun i =>
  let p := sys i
  let c := F op (fun j => (sys j).rest) i
  if p.active then
    { p with
      a := fun k => p.a k + c.a k
      atree := fun k => p.atree k + c.atree k
      gpot := p.gpot + c.gpot
      gpot_hydro := p.gpot_hydro + c.gpot_hydro
      dudt := p.dudt + c.dudt
      div_v := p.div_v + c.div_v }
  else p

/-- `big_number`, Headers/Constants.h:72 -/
def big : ℝ := 99 * 10 ^ 19

/-- `n_iter`, SphSimulation.cpp:379, MeshlessFVSimulation.cpp:619 -/
def nIter (selfGravity : Bool) (mac : Mac) : ℕ :=
  1 + if selfGravity && decide (mac ≠ .geometric) then 1 else 0

/-- The criterion of a pass, SphSimulation.cpp:382-385, MeshlessFVSimulation.cpp:622-625 -/
def passMac (mac : Mac) (iter : ℕ) : Mac :=
  if iter = 0 ∧ mac ≠ .geometric then .geometric else mac

/-- `UpdateAllSphProperties` (and radiation and thermal properties) of the first pass,
SphSimulation.cpp:421-422, 436-455 -/
def properties (P : (ι → δ) → ι → δ) (iter : ℕ) (sys : ι → Part n δ) : ι → Part n δ := fun i =>
  if iter = 0 then
    { sys i with
      rest := P (fun j => (sys j).rest) i }
  else sys i

/-- Accelerations set back in SPH, SphSimulation.cpp:404-418 -/
def sphClear (sys : ι → Part n δ) : ι → Part n δ := fun i =>
  { sys i with
    a := fun _ => 0
    atree := fun _ => 0
    gpot := 0
    dudt := 0
    div_v := 0 }

/-- Flags set, SphSimulation.cpp:387 -/
def activate (sys : ι → Part n δ) : ι → Part n δ := fun i =>
  { sys i with
    active := true }

/-- One pass of SPH, SphSimulation.cpp:380-473; the criterion is kept along with the particles -/
def sphPass (F : Law n ι δ) (P : (ι → δ) → ι → δ) (mac : Mac) (s : Mac × (ι → Part n δ)) (iter : ℕ) :
    Mac × (ι → Part n δ) :=
  let crit := passMac mac iter
  let sys := activate s.2
  let op := build crit sys
  let sys := sphClear sys
  let sys := properties P iter sys
  (crit, addForces F op sys)

/-- Potentials before the passes, SphSimulation.cpp:319-320 -/
def sphInit (sys : ι → Part n δ) : ι → Part n δ := fun i =>
  { sys i with
    gpot := big }

/-- External potential and beginning of the step, SphSimulation.cpp:476-488 -/
def sphFinish (ext : δ → Vec n ℝ × ℝ) (sys : ι → Part n δ) : ι → Part n δ := fun i =>
  let p := sys i
  let a : Vec n ℝ := fun k => p.a k + (ext p.rest).1 k
  { p with
    a := a
    gpot := p.gpot + (ext p.rest).2
    a0 := a
    active := false }

/-- First forces of SPH, SphSimulation.cpp:319-488 -/
def sphStart (F : Law n ι δ) (P : (ι → δ) → ι → δ) (ext : δ → Vec n ℝ × ℝ) (selfGravity : Bool)
    (mac : Mac) (sys : ι → Part n δ) : Mac × (ι → Part n δ) :=
  let s := (List.range (nIter selfGravity mac)).foldl (sphPass F P mac) (mac, sphInit sys)
  (s.1, sphFinish ext s.2)

/-- `ZeroAccelerations` of the meshless schemes, MeshlessFV.cpp:299-311 -/
def mfvZero (sys : ι → Part n δ) : ι → Part n δ := fun i =>
  if (sys i).active then
    { sys i with
      a := fun _ => 0
      atree := fun _ => 0
      gpot := 0
      gpot_hydro := 0 }
  else sys i

/-- One pass of the meshless schemes, MeshlessFVSimulation.cpp:620-673 -/
def mfvPass (F : Law n ι δ) (P : (ι → δ) → ι → δ) (selfGravity stars : Bool) (mac : Mac)
    (s : Mac × (ι → Part n δ)) (iter : ℕ) : Mac × (ι → Part n δ) :=
  let crit := passMac mac iter
  let op := build crit s.2
  let sys := properties P iter s.2
  (crit, if selfGravity || stars then addForces F op (mfvZero sys) else sys)

/-- Before the passes, MeshlessFVSimulation.cpp:519-524, 600-613 -/
def mfvInit (sys : ι → Part n δ) : ι → Part n δ := fun i =>
  { sys i with
    gpot := big
    a := fun _ => 0
    atree := fun _ => 0
    active := true }

/-- First forces of the meshless schemes, MeshlessFVSimulation.cpp:519-524, 600-688 -/
def mfvStart (F : Law n ι δ) (P : (ι → δ) → ι → δ) (selfGravity stars : Bool) (mac : Mac)
    (sys : ι → Part n δ) : Mac × (ι → Part n δ) :=
  let s := (List.range (nIter selfGravity mac)).foldl (mfvPass F P selfGravity stars mac)
    (mac, mfvInit sys)
  (s.1, fun i =>
    { s.2 i with
      a0 := (s.2 i).a })

end StartUp

end

end Gandalf
