import Verif.Model.Vec
import Mathlib.Analysis.SpecialFunctions.Pow.Real
import Mathlib.Analysis.SpecialFunctions.Trigonometric.Basic
import Mathlib.MeasureTheory.Integral.IntervalIntegral.Basic

/-!
# Initial conditions of uniform, layered and rotating fluids (src/Ic/)

What is set of each particle once it has its place; the places are those of Ic.cpp (`Model/Lattice`), given here as lists
of positions or as sites of the lattice. Numbers are real; parameters are in code units. A particle holds what its
constructor sets until it is overwritten.
-/

set_option autoImplicit false

namespace Gandalf.FluidIc

open Real

noncomputable section

variable {n : ℕ}

/-- what is set of a particle -/
structure Part (n : ℕ) where
  r : Vec n ℝ
  v : Vec n ℝ
  m : ℝ
  h : ℝ
  u : ℝ

/-- constructor, Headers/Particle.h:180-213 -/
def Part.new : Part n := ⟨fun _ => 0, fun _ => 0, 0, 1, 0⟩

/-- `h_fac*pow(m/rho,invndim)`, in all of these files -/
def hOf (n : ℕ) (hfac m rho : ℝ) : ℝ := hfac * (m / rho) ^ ((1 : ℝ) / n)

/-- volume of a box, e.g. BlobIc.cpp:80-83 -/
def volume (lo hi : Vec n ℝ) : ℝ := ∏ k, (hi k - lo k)

/-- volume of a sphere, BlobIc.cpp:71-74, UniformIc.cpp:183-185, SpitzerExpansionIc.cpp:107-109 -/
def sphereVolume (n : ℕ) (radius : ℝ) : ℝ :=
  if n = 1 then 2 * radius else if n = 2 then π * radius * radius else 4 * (1 / 3) * π * radius ^ 3

/-! ### uniform box and sphere, UniformIc.cpp, SpitzerExpansionIc.cpp -/

/-- the box, UniformIc.cpp:118-129 -/
def uniformBox (hfac : ℝ) (lo hi : Vec n ℝ) (l : List (Vec n ℝ)) : List (Part n) :=
  l.map fun x =>
    { r := x
      v := fun _ => 0
      m := volume lo hi / l.length
      h := hOf n hfac (volume lo hi) l.length
      u := 3 / 2 }

/-- the sphere, UniformIc.cpp:183-206; SpitzerExpansionIc.cpp:107-127 is the same with `u = small_number` -/
def uniformSphere (hfac mcloud radius u : ℝ) (l : List (Vec n ℝ)) : List (Part n) :=
  l.map fun x =>
    { r := x
      v := fun _ => 0
      m := mcloud / l.length
      h := hOf n hfac (mcloud / l.length) (mcloud / sphereVolume n radius)
      u := u }

/-- the internal energy of the uniform sphere, UniformIc.cpp:188, 204 -/
def sphereU (n : ℕ) (gamma press mcloud radius : ℝ) : ℝ := press / (mcloud / sphereVolume n radius) / (gamma - 1)

/-! ### gas of the binary accretion test, BinaryAccretionIc.cpp -/

/-- the shift by a quarter of the box, BinaryAccretionIc.cpp:187-189 and 222-224 -/
def shift [NeZero n] (lo hi : Vec n ℝ) (x : Vec n ℝ) : Vec n ℝ :=
  Function.update x 0
    (if x 0 + 1 / 4 * (hi 0 - lo 0) > hi 0 then x 0 + 1 / 4 * (hi 0 - lo 0) - (hi 0 - lo 0)
     else x 0 + 1 / 4 * (hi 0 - lo 0))

/-- upper corner of the first box, BinaryAccretionIc.cpp:124-131; `two`: there is a second fluid -/
def box1hi [NeZero n] (two : Bool) (lo hi : Vec n ℝ) : Vec n ℝ :=
  if two then Function.update hi 0 (lo 0 + 1 / 2 * (hi 0 - lo 0)) else hi

/-- lower corner of the second box, BinaryAccretionIc.cpp:132 -/
def box2lo [NeZero n] (lo hi : Vec n ℝ) : Vec n ℝ := Function.update lo 0 (lo 0 + 1 / 2 * (hi 0 - lo 0))

/-- a particle of the first fluid, BinaryAccretionIc.cpp:185-194 -/
def binary1 [NeZero n] (hfac gamma press rho vol : ℝ) (N1 : ℕ) (lo hi x : Vec n ℝ) : Part n where
  r := shift lo hi x
  v := fun _ => 0
  m := rho * vol / N1
  h := hOf n hfac (rho * vol / N1) rho
  u := press / rho / (gamma - 1)

/-- a particle of the second fluid, BinaryAccretionIc.cpp:219-229. `h` is computed from the mass of the particle before
that is set; `N1` is the number of particles of the **first** fluid. -/
def binary2 [NeZero n] (hfac gamma press rho vol : ℝ) (N1 : ℕ) (lo hi x : Vec n ℝ) (old : Part n) : Part n where
  r := shift lo hi x
  v := fun _ => 0
  h := hOf n hfac old.m rho
  m := rho * vol / N1
  u := press / rho / (gamma - 1)

/-- the first fluid, `l1` its places in the first box, `l2` those of the second fluid, BinaryAccretionIc.cpp:124-196 -/
def binaryGas1 [NeZero n] (hfac gamma press rho1 : ℝ) (lo hi : Vec n ℝ) (l1 l2 : List (Vec n ℝ)) : List (Part n) :=
  l1.map (binary1 hfac gamma press rho1 (volume lo (box1hi (!l2.isEmpty) lo hi)) l1.length lo hi)

/-- the second fluid, BinaryAccretionIc.cpp:202-231 -/
def binaryGas2 [NeZero n] (hfac gamma press rho2 : ℝ) (lo hi : Vec n ℝ) (l1 l2 : List (Vec n ℝ)) : List (Part n) :=
  l2.map fun x => binary2 hfac gamma press rho2 (volume (box2lo lo hi) hi) l1.length lo hi x .new

/-! ### contact discontinuity in one dimension, ContactDiscontinuityIc.cpp -/

/-- the shift, ContactDiscontinuityIc.cpp:107-108 and 128-129 -/
def back (lo hi x : ℝ) : ℝ :=
  if x - 2 / 5 * (hi - lo) < lo then x - 2 / 5 * (hi - lo) + (hi - lo) else x - 2 / 5 * (hi - lo)

/-- one fluid between `a` and `b`, ContactDiscontinuityIc.cpp:102-119 and 122-140; places of `AddCubicLattice`, Ic.cpp:662 -/
def layer (hfac lo hi a b rho u : ℝ) (N : ℕ) : List (Part 1) :=
  (List.range N).map fun i : ℕ =>
    { r := fun _ => back lo hi (a + ((i : ℝ) + 1 / 2) * ((b - a) / N))
      v := fun _ => 0
      m := rho * (b - a) / N
      h := hOf 1 hfac (rho * (b - a) / N) rho
      u := u }

/-- first fluid, ContactDiscontinuityIc.cpp:88-89 -/
def contact1 (hfac lo hi rho u : ℝ) (N : ℕ) : List (Part 1) := layer hfac lo hi lo (4 / 5 * hi) rho u N

/-- second fluid, ContactDiscontinuityIc.cpp:90-91 -/
def contact2 (hfac lo hi rho u : ℝ) (N : ℕ) : List (Part 1) := layer hfac lo hi (4 / 5 * hi) hi rho u N

/-! ### shock in two dimensions, Shock2DIc.cpp -/

/-- `x`, Shock2DIc.cpp:142-149; the corner `lo` of the box is not taken off -/
def diagonal (lo hi x : Vec 2 ℝ) : ℝ := x 0 * (1 / (hi 0 - lo 0)) + x 1 * (1 / (hi 1 - lo 1))

open Classical in
/-- places of the dense gas among the sites `l`, Shock2DIc.cpp:148-152, 174-178 -/
def denseSites (lo hi : Vec 2 ℝ) (l : List (Vec 2 ℝ)) : List (Vec 2 ℝ) := l.filter fun x => decide (diagonal lo hi x ≥ 1 / 2)

open Classical in
/-- places of the thin gas, Shock2DIc.cpp:153-157, 189-193 -/
def thinSites (lo hi : Vec 2 ℝ) (l : List (Vec 2 ℝ)) : List (Vec 2 ℝ) := l.filter fun x => decide (diagonal lo hi x < 1 / 2)

/-- the dense gas (`rho0 = P0 = 1`), Shock2DIc.cpp:62-65, 160, 174-188 -/
def shockDense (hfac gamma : ℝ) (lo hi : Vec 2 ℝ) (l : List (Vec 2 ℝ)) : List (Part 2) :=
  (denseSites lo hi l).map fun x =>
    { r := x
      v := fun _ => 0
      m := 7 / 8 * volume lo hi * 1 / (denseSites lo hi l).length
      h := hOf 2 hfac (7 / 8 * volume lo hi * 1 / (denseSites lo hi l).length) 1
      u := 1 / (1 * (gamma - 1)) }

/-- the thin gas (`rho1 = 0.125`, `P1 = 0.14`), Shock2DIc.cpp:62-66, 161, 189-203. `h` is computed with `rho0`. -/
def shockThin (hfac gamma : ℝ) (lo hi : Vec 2 ℝ) (l : List (Vec 2 ℝ)) : List (Part 2) :=
  (thinSites lo hi l).map fun x =>
    { r := x
      v := fun _ => 0
      m := 1 / 8 * volume lo hi * (1 / 8) / (thinSites lo hi l).length
      h := hOf 2 hfac (1 / 8 * volume lo hi * (1 / 8) / (thinSites lo hi l).length) 1
      u := 7 / 50 / (1 / 8 * (gamma - 1)) }

/-! ### dust, Shock2DIc.cpp, DustyBoxIc.cpp -/

/-- gas of the dusty box, DustyBoxIc.cpp:76-82, 116-125 -/
def dustyGas [NeZero n] (hfac gamma press rho vgas : ℝ) (lo hi : Vec n ℝ) (l : List (Vec n ℝ)) : List (Part n) :=
  l.map fun x =>
    { r := x
      v := Function.update (fun _ => 0) 0 vgas
      m := volume lo hi * rho / l.length
      h := hOf n hfac (volume lo hi * rho / l.length) rho
      u := press / (rho * (gamma - 1)) }

/-- the dust particle of a gas particle, DustyBoxIc.cpp:133-144 -/
def dustOf [NeZero n] (d2g vdust : ℝ) (p : Part n) : Part n where
  r := Function.update p.r 0 (p.r 0 + 1 / 100 * p.h)
  v := Function.update p.v 0 vdust
  m := p.m * d2g
  h := p.h
  u := 0

/-! ### shear flow, ShearflowIc.cpp -/

/-- a particle of the lattice, ShearflowIc.cpp:84-107, two dimensions; places of `AddCubicLattice`, Ic.cpp:670-671 -/
def shearPart (hfac gamma press rho amp : ℝ) (lo hi : Vec 2 ℝ) (N0 N1 : ℕ) (ii jj : ℕ) : Part 2 :=
  let y := lo 1 + ((jj : ℝ) + 1 / 2) * ((hi 1 - lo 1) / N1)
  let vol := (hi 0 - lo 0) * (hi 1 - lo 1)
  { r := ![lo 0 + ((ii : ℝ) + 1 / 2) * ((hi 0 - lo 0) / N0), y]
    v := ![amp * sin (2 * π / (hi 1 - lo 1) * y), 0]
    m := rho * vol / ((N0 * N1 : ℕ) : ℝ)
    h := hOf 2 hfac (rho * vol / ((N0 * N1 : ℕ) : ℝ)) rho
    u := press / rho / (gamma - 1) }

/-- all particles -/
def shearflow (hfac gamma press rho amp : ℝ) (lo hi : Vec 2 ℝ) (N0 N1 : ℕ) : List (Part 2) :=
  (List.range N1).flatMap fun jj => (List.range N0).map fun ii => shearPart hfac gamma press rho amp lo hi N0 N1 ii jj

/-! ### Gaussian ring, GaussianRingIc.cpp -/

/-- `Nperring`, GaussianRingIc.cpp:66, 79-81 -/
def perRing : ℕ := 13188 * 2 / 21

/-- `Nhydro`, GaussianRingIc.cpp:82 -/
def ringTotal : ℕ := 21 * perRing

/-- `r`, GaussianRingIc.cpp:77-78, 99-101 -/
def ringRadius (i : ℕ) : ℝ := 4 / 5 + ((i / perRing : ℕ) : ℝ) * ((9 / 10 - 4 / 5) / (21 - 1))

/-- `phi`, GaussianRingIc.cpp:102-103 -/
def ringPhi (i : ℕ) : ℝ := 2 * π / perRing * ((i - i / perRing * perRing : ℕ) : ℝ)

/-- `sigma`, GaussianRingIc.cpp:75-76, 118 -/
def ringSigma (r : ℝ) : ℝ := exp (-((r - 17 / 20) / (1 / 40)) ^ 2)

/-- particle `i`, GaussianRingIc.cpp:94-121 -/
def ringPart (i : ℕ) : Part 2 where
  r := ![ringRadius i * cos (ringPhi i), ringRadius i * sin (ringPhi i)]
  v := ![0 * cos (ringPhi i) - 1 / √(ringRadius i) * sin (ringPhi i),
    0 * sin (ringPhi i) + 1 / √(ringRadius i) * cos (ringPhi i)]
  m := 1 / 100 / ringTotal * ringSigma (ringRadius i)
  h := 1
  u := 0

/-! ### stratified box, SilccIc.cpp -/

/-- the error function of the C library, `2/√π ∫₀ˣ exp(-t²) dt` -/
def erf (x : ℝ) : ℝ := 2 / √π * ∫ t in (0 : ℝ)..x, exp (-t ^ 2)

/-- `GetDensity` at height `z`, SilccIc.cpp:76, 145-150 -/
def silccRho (rho a h z : ℝ) : ℝ := if |z| ≤ a then rho * exp (-z * z / h / h) else rho * exp (-a * a / h / h)

/-- `m_box`, SilccIc.cpp:73-79; `area` is the product of the other sides, `zmax` the upper end of the box -/
def silccMass (rho a h area zmax : ℝ) : ℝ :=
  2 * (1 / 2 * √π * rho * h * erf (a / h) * area + rho * exp (-a * a / h / h) * area * (zmax - a))

/-! ### filament, FilamentIc.cpp -/

/-- `GetDensity`, FilamentIc.cpp:68, 161-174 -/
def filamentRho (rho0 r0 R L : ℝ) (x : Vec 3 ℝ) : ℝ :=
  if √(x 0 * x 0 + x 1 * x 1) < R ∧ |x 2| < L then
    rho0 / (1 + (x 0 * x 0 + x 1 * x 1 + x 2 * x 2) / r0 / r0 + x 2 * x 2 / r0 / r0 / (109 / 10) / (109 / 10))
  else 0

/-- velocity of a particle, FilamentIc.cpp:188, 195-208 -/
def filamentV (small vcyl vrad : ℝ) (x : Vec 3 ℝ) : Vec 3 ℝ :=
  let Rmag := √(x 0 * x 0 + x 1 * x 1)
  let rmag := √(x 0 * x 0 + x 1 * x 1 + x 2 * x 2)
  let v : Vec 3 ℝ := if vcyl > 0 ∧ Rmag > small then ![-vcyl * x 0 / Rmag, -vcyl * x 1 / Rmag, 0] else fun _ => 0
  if vrad > 0 ∧ rmag > small then fun k => -vrad * x k / rmag else v

/-! ### cold blob in a wind, BlobIc.cpp -/

open Classical in
/-- places of the wind, BlobIc.cpp:108-121 -/
def windSites (radius : ℝ) (l : List (Vec n ℝ)) : List (Vec n ℝ) := l.filter fun x => decide (√(dot x x) > radius)

/-- `mpart`, BlobIc.cpp:123-124 -/
def blobMass (rhofluid radius : ℝ) (lo hi : Vec n ℝ) (l : List (Vec n ℝ)) : ℝ :=
  rhofluid * (volume lo hi - sphereVolume n radius) / (windSites radius l).length

/-- `Nsphere` as asked for, BlobIc.cpp:127 (conversion to int of a positive number) -/
def blobCount (rhofluid rhosphere radius : ℝ) (lo hi : Vec n ℝ) (l : List (Vec n ℝ)) : ℕ :=
  ⌊rhosphere * sphereVolume n radius / blobMass rhofluid radius lo hi l⌋₊

/-- a particle of the blob, BlobIc.cpp:156-171 -/
def blobPart (hfac gamma press mpart rho : ℝ) (x : Vec n ℝ) : Part n where
  r := x
  v := (Part.new : Part n).v
  m := mpart
  h := hOf n hfac mpart rho
  u := press / rho / (gamma - 1)

/-- a particle of the wind, BlobIc.cpp:156-176 -/
def windPart [NeZero n] (hfac gamma press mach mpart rho : ℝ) (x : Vec n ℝ) : Part n where
  r := x
  v := Function.update (Part.new : Part n).v 0 (mach * √(gamma * (gamma - 1) * (press / rho / (gamma - 1))))
  m := mpart
  h := hOf n hfac mpart rho
  u := press / rho / (gamma - 1)

/-- all particles: `s` are the places of the blob, `l` those of the background lattice, BlobIc.cpp:108-177 -/
def blob [NeZero n] (hfac gamma press mach rhofluid rhosphere radius : ℝ) (lo hi : Vec n ℝ) (s l : List (Vec n ℝ)) :
    List (Part n) :=
  (s.map (blobPart hfac gamma press (blobMass rhofluid radius lo hi l) rhosphere)) ++
    (windSites radius l).map (windPart hfac gamma press mach (blobMass rhofluid radius lo hi l) rhofluid)

end

end Gandalf.FluidIc
