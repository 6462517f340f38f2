import Verif.Model.Lattice

/-! # Perturbations and velocity fields of the initial conditions

`Ic::CalculateMassInBox`, `AddAzimuthalDensityPerturbation`, `AddSinusoidalDensityPerturbation`,
`AddRotationalVelocityField` and `InterpolateVelocityField` (src/Ic/Ic.cpp:33-95, 846-1021, 1265-1354), for one
particle each, over the reals. -/

set_option autoImplicit false

namespace Gandalf.Perturb

open Real

/-! ### azimuthal perturbation -/

open Classical in
/-- `phi` of a position relative to the centre, Ic.cpp:881-891; `small` is `small_number` -/
noncomputable def azimuth (small x y : ℝ) : ℝ :=
  let Rmag := sqrt (x * x + y * y)
  let phi := if Rmag > small then arcsin (|y| / Rmag) else 0
  if x < 0 ∧ y > 0 then π - phi
  else if x < 0 ∧ y < 0 then π + phi
  else if x > 0 ∧ y < 0 then 2 * π - phi
  else phi

open Classical in
/-- Ic.cpp:894 -/
noncomputable def wrapAngle (amp : ℝ) (mpert : ℕ) (phi : ℝ) : ℝ :=
  if phi < amp * (1 / mpert) then phi + 2 * π else phi

/-- `spacing`, Ic.cpp:867 -/
noncomputable def spacing (tabtot : ℕ) : ℝ := 2 * π / ((tabtot - 1 : ℕ) : ℝ)

/-- entry `j` of the table, Ic.cpp:899-902 -/
noncomputable def entry (amp : ℝ) (mpert tabtot j : ℕ) : ℝ :=
  spacing tabtot * j + amp * cos (mpert * (spacing tabtot * j)) * (1 / mpert)

open Classical in
/-- the loop over the table, Ic.cpp:898-910, from entry `j`, with `fuel` entries left -/
noncomputable def search (amp : ℝ) (mpert tabtot : ℕ) (phi : ℝ) : ℕ → ℕ → Option ℝ
  | 0, _ => none
  | fuel + 1, j =>
    let phi1 := entry amp mpert tabtot (j - 1)
    let phi2 := entry amp mpert tabtot j
    if phi2 ≥ phi ∧ phi1 < phi then
      some (spacing tabtot * ((j - 1 : ℕ) : ℝ) + spacing tabtot * (phi - phi1) / (phi2 - phi1))
    else search amp mpert tabtot phi fuel (j + 1)

/-- `phiprime`; `none`: not found, the position is left as it is -/
noncomputable def newAngle (small amp : ℝ) (mpert tabtot : ℕ) (x y : ℝ) : Option ℝ :=
  search amp mpert tabtot (wrapAngle amp mpert (azimuth small x y)) (tabtot - 1) 1

/-- new position relative to the centre, Ic.cpp:906-907 -/
noncomputable def place (x y : ℝ) : Option ℝ → ℝ × ℝ
  | some p => (sqrt (x * x + y * y) * cos p, sqrt (x * x + y * y) * sin p)
  | none => (x, y)

/-- `AddAzimuthalDensityPerturbation`, Ic.cpp:877-912, the first two coordinates of one particle (the third is
not touched) -/
noncomputable def azimuthal (small amp : ℝ) (mpert tabtot : ℕ) (xc yc x y : ℝ) : ℝ × ℝ :=
  let p := place (x - xc) (y - yc) (newAngle small amp mpert tabtot (x - xc) (y - yc))
  (xc + p.1, yc + p.2)

/-! ### sinusoidal perturbation -/

/-- Ic.cpp:952 -/
noncomputable def sineStep (amp kwave r x : ℝ) : ℝ := r - amp * (1 - cos (kwave * x)) / kwave

open Classical in
/-- the iteration, Ic.cpp:950-954; `none`: still running after `fuel` rounds -/
noncomputable def sineSolve (amp lambda r : ℝ) : ℕ → ℝ → Option ℝ
  | 0, _ => none
  | fuel + 1, xold =>
    let xnew := sineStep amp (2 * π / lambda) r xold
    if |(xnew - xold) / lambda| > 1 / 1000000000000 then sineSolve amp lambda r fuel xnew else some xnew

open Classical in
/-- Ic.cpp:956-957 -/
noncomputable def intoBox (lo hi x : ℝ) : ℝ :=
  let x1 := if x > hi then x - (hi - lo) else x
  if x1 < lo then x1 + (hi - lo) else x1

/-- `AddSinusoidalDensityPerturbation`, Ic.cpp:946-960 -/
noncomputable def sinusoidal (fuel : ℕ) (amp lambda lo hi r : ℝ) : Option ℝ :=
  (sineSolve amp lambda r fuel r).map (intoBox lo hi)

/-! ### rotation -/

open Classical in
/-- `AddRotationalVelocityField`, Ic.cpp:998-1014, one particle in three dimensions (in two the same without the
last coordinate) -/
noncomputable def rotational (small angvel : ℝ) (c x : Vec 3 ℝ) : Vec 3 ℝ :=
  let dx := x 0 - c 0
  let dy := x 1 - c 1
  let Rmag := sqrt (dx * dx + dy * dy + small)
  if Rmag > small then ![-angvel * Rmag * (dy / Rmag), angvel * Rmag * (dx / Rmag), 0]
  else ![0, 0, 0]

/-! ### interpolation -/

/-- `(int) x`: towards zero -/
noncomputable def toInt (x : ℝ) : ℤ := if 0 ≤ x then ⌊x⌋ else -⌊-x⌋

/-- place of component `d` of node `i, j, k` in `vfield`, Ic.cpp:1320-1345 -/
def node (Ngrid : ℤ) (d i j k : ℤ) : ℤ := d + 3 * i + 3 * Ngrid * j + 3 * Ngrid * Ngrid * k

/-- the weights, Ic.cpp:1311-1318 -/
def vint (dx : Vec 3 ℝ) : Fin 8 → ℝ :=
  ![(1 - dx 0) * (1 - dx 1) * (1 - dx 2), (1 - dx 0) * (1 - dx 1) * dx 2,
    (1 - dx 0) * dx 1 * (1 - dx 2), (1 - dx 0) * dx 1 * dx 2,
    dx 0 * (1 - dx 1) * (1 - dx 2), dx 0 * (1 - dx 1) * dx 2,
    dx 0 * dx 1 * (1 - dx 2), dx 0 * dx 1 * dx 2]

/-- the nodes of the sum of component `d`, Ic.cpp:1320-1345, in its order -/
def nodes (Ngrid : ℤ) (d i j k : ℤ) : Fin 8 → ℤ :=
  ![node Ngrid d i j k, node Ngrid d i j (k + 1), node Ngrid d i (j + 1) k, node Ngrid d i (j + 1) (k + 1),
    node Ngrid d (i + 1) j k, node Ngrid d (i + 1) j (k + 1), node Ngrid d (i + 1) (j + 1) k,
    node Ngrid d (i + 1) (j + 1) (k + 1)]

/-- outcome of the interpolation of a particle -/
inductive Result where
  /-- the exception of Ic.cpp:1305 -/
  | raised
  /-- an element outside of the array is read -/
  | outside
  /-- the velocity -/
  | velocity (v : Vec 3 ℝ)

open Classical in
/-- the test of Ic.cpp:1302 passed -/
def inGrid (Ngrid : ℤ) (i : Vec 3 ℤ) : Prop :=
  ¬ (i 0 > Ngrid ∨ i 1 > Ngrid ∨ i 2 > Ngrid ∨ i 0 < 0 ∨ i 1 < 0 ∨ i 2 < 0)

open Classical in
/-- `InterpolateVelocityField`, Ic.cpp:1295-1347, one particle; `vfield` has `3 Ngrid^3` elements -/
noncomputable def interpolate (Ngrid : ℕ) (xmin dxgrid : ℝ) (vfield : ℤ → ℝ) (r : Vec 3 ℝ) : Result :=
  let dx : Vec 3 ℝ := fun k => (r k - xmin) / dxgrid
  let i : Vec 3 ℤ := fun k => toInt (dx k)
  let dx' : Vec 3 ℝ := fun k => dx k - i k
  if inGrid Ngrid i then
    if ∀ (d : Fin 3) (q : Fin 8), 0 ≤ nodes Ngrid d (i 0) (i 1) (i 2) q ∧
        nodes Ngrid d (i 0) (i 1) (i 2) q < 3 * Ngrid ^ 3 then
      .velocity fun d => ∑ q, vint dx' q * vfield (nodes Ngrid d (i 0) (i 1) (i 2) q)
    else .outside
  else .raised

/-! ### mass in a box -/

/-- `CalculateMassInBox`, Ic.cpp:61-92, for `grid` points in each direction, three dimensions -/
noncomputable def massInBox (lo hi : Vec 3 ℝ) (grid : Fin 3 → ℕ) (density : Vec 3 ℝ → ℝ) : ℝ :=
  let dr : Vec 3 ℝ := fun k => (hi k - lo k) / grid k
  Lattice.loop (grid 0) (fun i => Lattice.loop (grid 1) fun j => Lattice.loop (grid 2) fun k mtot =>
    mtot + density ![lo 0 + ((i : ℝ) + 1 / 2) * dr 0, lo 1 + ((j : ℝ) + 1 / 2) * dr 1,
      lo 2 + ((k : ℝ) + 1 / 2) * dr 2]) 0 * (1 * dr 0 * dr 1 * dr 2)

/-- `lengthmax`, Ic.cpp:51-53 -/
noncomputable def lengthmax (lo hi : Vec 3 ℝ) : ℝ :=
  max (max (max 0 (hi 0 - lo 0)) (hi 1 - lo 1)) (hi 2 - lo 2)

/-- `grid`, Ic.cpp:54-55 -/
noncomputable def gridOf (lo hi : Vec 3 ℝ) (k : Fin 3) : ℕ :=
  ⌊512 * (hi k - lo k) / lengthmax lo hi⌋₊

end Gandalf.Perturb
