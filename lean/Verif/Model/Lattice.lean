import Verif.Model.Box
import Verif.Model.Binary
import Mathlib.Analysis.SpecialFunctions.Pow.Real

/-! # Positions of the particles of the initial conditions

`Ic::AddRandomBox`, `AddRandomSphere`, `AddLatticeSphere`, `Addr2Sphere`, `AddCubicLattice`,
`AddHexagonalLattice` and `CutSphere` (src/Ic/Ic.cpp:435-842), over the reals (rounding left out).
An array `FLOAT r[ndim*N]` is a function from the number of the particle to its position. -/

set_option autoImplicit false

namespace Gandalf.Lattice

open Real

variable {n : ℕ}

/-- `for (i=0; i<N; i++)` -/
def loop {σ : Type} (N : ℕ) (f : ℕ → σ → σ) (s : σ) : σ := (List.range N).foldl (fun s i => f i s) s

/-- the nested loops of Ic.cpp:659-688 and 727-763 writing site `ii, jj, kk` to its place in the array.
One and two dimensions are the case of one layer: the index is `ii` or `jj*Nlattice[0] + ii` there -/
def fill (N0 N1 N2 : ℕ) (site : ℕ → ℕ → ℕ → Vec n ℝ) (r : ℕ → Vec n ℝ) : ℕ → Vec n ℝ :=
  loop N2 (fun kk => loop N1 fun jj => loop N0 fun ii r =>
    Function.update r (kk * N0 * N1 + jj * N0 + ii) (site ii jj kk)) r


/-- `spacing`, Ic.cpp:645-654 (`N k` is `Nlattice[k]`, `k0` the first dimension) -/
noncomputable def cubicSpacing (normalise : Bool) (N : Fin n → ℕ) (k0 : Fin n) (lo hi : Vec n ℝ) :
    Vec n ℝ := fun k =>
  if normalise then (hi k0 - lo k0) / N k0 else (hi k - lo k) / N k

/-- a site of the cubic lattice, Ic.cpp:662, 670-671, 682-684; `x k` is `ii`, `jj` or `kk` -/
noncomputable def cubicSite (lo spacing : Vec n ℝ) (x : Fin n → ℕ) : Vec n ℝ := fun k =>
  lo k + ((x k : ℝ) + 1 / 2) * spacing k

/-- `AddCubicLattice`, Ic.cpp:624-691, one dimension -/
noncomputable def addCubic1 (N0 : ℕ) (lo hi : Vec 1 ℝ) (normalise : Bool) (r : ℕ → Vec 1 ℝ) :
    ℕ → Vec 1 ℝ :=
  fill N0 1 1 (fun ii _ _ => cubicSite lo (cubicSpacing normalise ![N0] 0 lo hi) ![ii]) r

/-- two dimensions -/
noncomputable def addCubic2 (N0 N1 : ℕ) (lo hi : Vec 2 ℝ) (normalise : Bool) (r : ℕ → Vec 2 ℝ) :
    ℕ → Vec 2 ℝ :=
  fill N0 N1 1 (fun ii jj _ => cubicSite lo (cubicSpacing normalise ![N0, N1] 0 lo hi) ![ii, jj]) r

/-- three dimensions -/
noncomputable def addCubic3 (N0 N1 N2 : ℕ) (lo hi : Vec 3 ℝ) (normalise : Bool) (r : ℕ → Vec 3 ℝ) :
    ℕ → Vec 3 ℝ :=
  fill N0 N1 N2 (fun ii jj kk =>
    cubicSite lo (cubicSpacing normalise ![N0, N1, N2] 0 lo hi) ![ii, jj, kk]) r

/-- `rad`, Ic.cpp:717-722 -/
noncomputable def hexRad (normalise : Bool) (N : Fin n → ℕ) (k0 : Fin n) (lo hi : Vec n ℝ) :
    Vec n ℝ := fun k =>
  if normalise then 1 / 2 * (hi k0 - lo k0) / N k0 else 1 / 2 * (hi k - lo k) / N k

/-- Ic.cpp:730 -/
noncomputable def hexSite1 (lo rad : Vec 1 ℝ) (ii : ℕ) : Vec 1 ℝ :=
  ![lo 0 + 1 / 2 * rad 0 + 2 * (ii : ℝ) * rad 0]

/-- Ic.cpp:739-742 -/
noncomputable def hexSite2 (lo rad : Vec 2 ℝ) (ii jj : ℕ) : Vec 2 ℝ :=
  ![lo 0 + 1 / 2 * rad 0 + (2 * (ii : ℝ) + ((jj % 2 : ℕ) : ℝ)) * rad 0,
    lo 1 + 1 / 2 * sqrt 3 * rad 1 + (jj : ℝ) * sqrt 3 * rad 1]

/-- Ic.cpp:754-759 -/
noncomputable def hexSite3 (lo rad : Vec 3 ℝ) (ii jj kk : ℕ) : Vec 3 ℝ :=
  ![lo 0 + 1 / 2 * rad 0 +
      (2 * (ii : ℝ) + ((jj % 2 : ℕ) : ℝ) + (((kk + 1) % 2 : ℕ) : ℝ)) * rad 0,
    lo 1 + 1 / 2 * sqrt 3 * rad 1 + (jj : ℝ) * sqrt 3 * rad 1 +
      ((kk % 2 : ℕ) : ℝ) * rad 1 / sqrt 3,
    lo 2 + sqrt 6 * rad 2 / 3 + (kk : ℝ) * 2 * sqrt 6 * rad 2 / 3]

/-- `AddHexagonalLattice`, Ic.cpp:695-766, one dimension -/
noncomputable def addHex1 (N0 : ℕ) (lo hi : Vec 1 ℝ) (normalise : Bool) (r : ℕ → Vec 1 ℝ) :
    ℕ → Vec 1 ℝ :=
  fill N0 1 1 (fun ii _ _ => hexSite1 lo (hexRad normalise ![N0] 0 lo hi) ii) r

/-- two dimensions -/
noncomputable def addHex2 (N0 N1 : ℕ) (lo hi : Vec 2 ℝ) (normalise : Bool) (r : ℕ → Vec 2 ℝ) :
    ℕ → Vec 2 ℝ :=
  fill N0 N1 1 (fun ii jj _ => hexSite2 lo (hexRad normalise ![N0, N1] 0 lo hi) ii jj) r

/-- three dimensions -/
noncomputable def addHex3 (N0 N1 N2 : ℕ) (lo hi : Vec 3 ℝ) (normalise : Bool) (r : ℕ → Vec 3 ℝ) :
    ℕ → Vec 3 ℝ :=
  fill N0 N1 N2 (fun ii jj kk => hexSite3 lo (hexRad normalise ![N0, N1, N2] 0 lo hi) ii jj kk) r

/-! ### Cutting out a sphere -/

/-- squared distance from the centre, Ic.cpp:811-812 and 833-834 -/
def distSq (c : Vec n ℝ) (x : Vec n ℝ) : ℝ := dot (fun k => x k - c k) (fun k => x k - c k)

open Classical in
/-- particles inside of the current radius, Ic.cpp:807-814 -/
noncomputable def count (c : Vec n ℝ) (r : ℕ → Vec n ℝ) (N : ℕ) (radius : ℝ) : ℕ :=
  loop N (fun i s => if distSq c (r i) ≤ radius * radius then s + 1 else s) 0

open Classical in
/-- the bisection, Ic.cpp:805-825: the radius on leaving the loop; `none`: still running after `fuel`
rounds -/
noncomputable def bisect (c : Vec n ℝ) (r : ℕ → Vec n ℝ) (N Nsphere : ℕ) : ℕ → ℝ → ℝ → Option ℝ
  | 0, _, _ => none
  | fuel + 1, low, high =>
    let radius := 1 / 2 * (low + high)
    let Ninterior := count c r N radius
    if Ninterior < Nsphere ∧ |high - low| / radius < 1 / 100000000 then some radius
    else
      let high' := if Ninterior > Nsphere then radius else high
      let low' := if Ninterior < Nsphere then radius else low
      if Ninterior ≠ Nsphere then bisect c r N Nsphere fuel low' high' else some radius

open Classical in
/-- keeping the particles inside, Ic.cpp:831-839: the array and `Ninterior` -/
noncomputable def compact (c : Vec n ℝ) (N : ℕ) (radius : ℝ) (r : ℕ → Vec n ℝ) :
    (ℕ → Vec n ℝ) × ℕ :=
  loop N (fun i s =>
    if distSq c (s.1 i) ≤ radius * radius then
      (Function.update s.1 s.2 (fun k => s.1 i k / radius), s.2 + 1)
    else s) (r, 0)

/-- centre of the box, Ic.cpp:798 -/
noncomputable def centre (lo hi : Vec n ℝ) : Vec n ℝ := fun k => 1 / 2 * (lo k + hi k)

/-- `r_high`, Ic.cpp:796-800, `big` is `big_number` -/
noncomputable def rHigh (big : ℝ) (lo hi : Vec n ℝ) : ℝ :=
  (List.finRange n).foldl (fun m k => min m (1 / 2 * (hi k - lo k))) big

/-- `CutSphere`, Ic.cpp:770-842: the array and the number of particles -/
noncomputable def cutSphere (fuel : ℕ) (big : ℝ) (Nsphere Naux : ℕ) (lo hi : Vec n ℝ)
    (r : ℕ → Vec n ℝ) : Option ((ℕ → Vec n ℝ) × ℕ) :=
  (bisect (centre lo hi) r Naux Nsphere fuel 0 (rHigh big lo hi)).map fun radius =>
    compact (centre lo hi) Naux radius r

/-! ### Spheres and random positions -/

/-- rotation by `theta` in the plane, Ic.cpp:555-559 -/
noncomputable def turn (theta : ℝ) (x : Vec 2 ℝ) : Vec 2 ℝ :=
  ![x 0 * cos theta - x 1 * sin theta, x 0 * sin theta + x 1 * cos theta]

/-- copy to the main array, Ic.cpp:569-571 -/
def scaled (rcentre : Vec n ℝ) (radius : ℝ) (x : Vec n ℝ) : Vec n ℝ := fun k =>
  rcentre k + radius * x k

/-- the lattice of `AddLatticeSphere`, Ic.cpp:526-543, two dimensions: `Nl` sites in each direction in the
box from -2 to 2 -/
noncomputable def sphereLattice2 (hex : Bool) (Nl : ℕ) (r : ℕ → Vec 2 ℝ) : ℕ → Vec 2 ℝ :=
  if hex then addHex2 Nl Nl (fun _ => -2) (fun _ => 2) true r
  else addCubic2 Nl Nl (fun _ => -2) (fun _ => 2) true r

/-- three dimensions -/
noncomputable def sphereLattice3 (hex : Bool) (Nl : ℕ) (r : ℕ → Vec 3 ℝ) : ℕ → Vec 3 ℝ :=
  if hex then addHex3 Nl Nl Nl (fun _ => -2) (fun _ => 2) true r
  else addCubic3 Nl Nl Nl (fun _ => -2) (fun _ => 2) true r

/-- `Nlattice`, Ic.cpp:527, with exact powers -/
noncomputable def sites (ndim Npart : ℕ) : ℕ := ⌊3 * (Npart : ℝ) ^ ((1 : ℝ) / ndim)⌋₊

/-- `AddLatticeSphere`, Ic.cpp:499-577, two dimensions, for the angle drawn -/
noncomputable def latticeSphere2 (fuel : ℕ) (big : ℝ) (hex : Bool) (Npart : ℕ) (rcentre : Vec 2 ℝ)
    (radius theta : ℝ) (raux : ℕ → Vec 2 ℝ) : Option ((ℕ → Vec 2 ℝ) × ℕ) :=
  (cutSphere fuel big Npart (sites 2 Npart * sites 2 Npart) (fun _ => -2) (fun _ => 2)
    (sphereLattice2 hex (sites 2 Npart) raux)).map fun s =>
      (fun i => scaled rcentre radius (turn theta (s.1 i)), s.2)

/-- three dimensions, for the three angles drawn -/
noncomputable def latticeSphere3 (fuel : ℕ) (big : ℝ) (hex : Bool) (Npart : ℕ) (rcentre : Vec 3 ℝ)
    (radius phi theta psi : ℝ) (raux : ℕ → Vec 3 ℝ) : Option ((ℕ → Vec 3 ℝ) × ℕ) :=
  (cutSphere fuel big Npart (sites 3 Npart * sites 3 Npart * sites 3 Npart) (fun _ => -2) (fun _ => 2)
    (sphereLattice3 hex (sites 3 Npart) raux)).map fun s =>
      (fun i => scaled rcentre radius (Binary.rotate phi theta psi (s.1 i)), s.2)

/-- `AddRandomBox`, Ic.cpp:449-453; `u i k` is the random number used -/
def randomBox (lo hi : Vec n ℝ) (u : ℕ → Vec n ℝ) : ℕ → Vec n ℝ := fun i k =>
  lo k + (hi k - lo k) * u i k

open Classical in
/-- the rejection loop of `AddRandomSphere`, Ic.cpp:484-488; `u` is the sequence of random vectors -/
noncomputable def reject (u : ℕ → Vec n ℝ) : ℕ → ℕ → Option (Vec n ℝ)
  | 0, _ => none
  | fuel + 1, j =>
    let rpos : Vec n ℝ := fun k => 1 - 2 * u j k
    if dot rpos rpos > 1 then reject u fuel (j + 1) else some rpos

/-- a particle of `AddRandomSphere`, Ic.cpp:483-490 -/
noncomputable def randomSphere (fuel : ℕ) (rcentre : Vec n ℝ) (radius : ℝ) (u : ℕ → Vec n ℝ) :
    Option (Vec n ℝ) :=
  (reject u fuel 0).map (scaled rcentre radius)

/-- a particle of `Addr2Sphere`, Ic.cpp:607-614 -/
noncomputable def r2Sphere (_rcentre : Vec 3 ℝ) (radius u1 u2 u3 : ℝ) : Vec 3 ℝ :=
  let phi := 2 * π * u1
  let costheta := 2 * u2 - 1
  let sintheta := sin (arccos costheta)
  let rpart := radius * u3
  ![rpart * sintheta * cos phi, rpart * sintheta * sin phi, rpart * costheta]

end Gandalf.Lattice
