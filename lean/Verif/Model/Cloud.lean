import Verif.Model.Perturb

/-! # Clouds and clusters of the initial conditions

`BossBodenheimerIc` (src/Ic/BossBodenheimerIc.cpp), `TurbulentCoreIc` (src/Ic/TurbulentCoreIc.cpp),
`EvrardCollapseIc` (src/Ic/EvrardCollapseIc.cpp) and `PlummerSphereIc` (src/Ic/PlummerSphereIc.cpp), in three
dimensions over the reals. The spheres of particles they start from are those of `Verif.Model.Lattice`; here they
are numbers and positions given. Unit conversions are left out. -/

set_option autoImplicit false

namespace Gandalf.Cloud

open Real

/-! ### masses -/

/-- masses of the cloud of BossBodenheimerIc.cpp:91, 106, 125-129: `mp` is computed from the number wanted,
`Npart`, but `Nsphere` particles are made -/
noncomputable def bossMasses (mcloud : ℝ) (Npart Nsphere : ℕ) : List ℝ :=
  let mp := mcloud / Npart
  List.replicate Nsphere mp

/-- masses of the cloud of TurbulentCoreIc.cpp:122, 132, 137-141 -/
noncomputable def turbMasses (mcloud : ℝ) (_Npart Nsphere : ℕ) : List ℝ :=
  let mp := mcloud / Nsphere
  List.replicate Nsphere mp

open Classical in
/-- `BossBodenheimerIc::GetDensity`, BossBodenheimerIc.cpp:169-181; `phi` is `atan2(r[1], r[0])` -/
noncomputable def bossDensity (rho0 amp radius phi : ℝ) (r : Vec 3 ℝ) : ℝ :=
  let radsqd := r 0 * r 0 + r 1 * r 1 + r 2 * r 2
  if radsqd < radius then rho0 * (1 + amp * sin (2 * phi)) else 0

/-! ### turbulent core -/

/-- position and smoothing length of a particle -/
structure Part where
  r : Vec 3 ℝ
  h : ℝ

/-- `rmin[k]`, TurbulentCoreIc.cpp:154, 158 -/
noncomputable def rminOf (big kernrange : ℝ) (ps : List Part) (k : Fin 3) : ℝ :=
  ps.foldl (fun m p => min m (p.r k - kernrange * p.h)) big

/-- `rmax[k]`, TurbulentCoreIc.cpp:155, 159 -/
noncomputable def rmaxOf (big kernrange : ℝ) (ps : List Part) (k : Fin 3) : ℝ :=
  ps.foldl (fun m p => max m (p.r k + kernrange * p.h)) (-big)

/-- `xmin`, TurbulentCoreIc.cpp:162-165; 9.9e20 is `big` -/
noncomputable def xminOf (big kernrange : ℝ) (ps : List Part) : ℝ :=
  min (min (min big (rminOf big kernrange ps 0)) (rminOf big kernrange ps 1)) (rminOf big kernrange ps 2)

/-- `dxgrid`, TurbulentCoreIc.cpp:163-169 -/
noncomputable def dxgridOf (big kernrange : ℝ) (gridsize : ℕ) (ps : List Part) : ℝ :=
  let ext (k : Fin 3) := (rmaxOf big kernrange ps k - rminOf big kernrange ps k) / ((gridsize : ℝ) - 1)
  max (max (max (max 0 (ext 0)) (ext 1)) (ext 2)) (2 * |xminOf big kernrange ps| / ((gridsize : ℝ) - 1))

/-- velocity of the particle at `r`, TurbulentCoreIc.cpp:175 -/
noncomputable def turbVelocity (big kernrange : ℝ) (gridsize : ℕ) (ps : List Part) (vfield : ℤ → ℝ) (p : Part) :
    Perturb.Result :=
  Perturb.interpolate gridsize (xminOf big kernrange ps) (dxgridOf big kernrange gridsize ps) vfield p.r

/-- `keturb`, TurbulentCoreIc.cpp:187-192; particles as pairs of mass and velocity -/
noncomputable def keturb (ps : List (ℝ × Vec 3 ℝ)) : ℝ :=
  ps.foldl (fun s p => s + p.1 * dot p.2 p.2) 0 * (1 / 2)

/-- `gpecloud`, TurbulentCoreIc.cpp:104 -/
noncomputable def gpecloud (mcloud radius : ℝ) : ℝ := 3 / 5 * mcloud * mcloud / radius

/-- TurbulentCoreIc.cpp:194-201 -/
noncomputable def rescale (alpha gpe : ℝ) (ps : List (ℝ × Vec 3 ℝ)) : List (ℝ × Vec 3 ℝ) :=
  let vfactor := sqrt (alpha * gpe / keturb ps)
  ps.map fun p => (p.1, fun k => p.2 k * vfactor)

/-! ### Evrard collapse -/

/-- new position, EvrardCollapseIc.cpp:102-106; `small` is `small_number` -/
noncomputable def evrardPos (small radius : ℝ) (ri : Vec 3 ℝ) : Vec 3 ℝ :=
  let r := sqrt (dot ri ri + small)
  let rnew := radius * r * sqrt r
  fun k => ri k * rnew / r

/-! ### Plummer sphere -/

/-- `rad`, PlummerSphereIc.cpp:104 -/
noncomputable def radOf (x1 : ℝ) : ℝ := 1 / sqrt (x1 ^ (-(2 / 3) : ℝ) - 1)

open Classical in
/-- the loop of PlummerSphereIc.cpp:97-106 on the random numbers `s j`, `s (j+1)`, …; the result is `rad`, `x2`,
`x3` and the index of the next random number; `none`: still running after `fuel` turns -/
noncomputable def drawPos (s : ℕ → ℝ) (rmax : ℝ) : ℕ → ℕ → Option (ℝ × ℝ × ℝ × ℕ)
  | 0, _ => none
  | fuel + 1, j =>
    if (s j = 0 ∧ s (j + 1) = 0 ∧ s (j + 2) = 0) ∨ rmax < radOf (s j) then drawPos s rmax fuel (j + 3)
    else some (radOf (s j), s (j + 1), s (j + 2), j + 3)

/-- position from the random numbers, PlummerSphereIc.cpp:108, 116-118 (stars: 123-125) -/
noncomputable def posOf (rad x2 x3 : ℝ) : Vec 3 ℝ :=
  let z := (1 - 2 * x2) * rad
  ![sqrt (rad * rad - z * z) * cos (2 * π * x3), sqrt (rad * rad - z * z) * sin (2 * π * x3), z]

/-- `t2`, PlummerSphereIc.cpp:139 -/
noncomputable def envelope (x4 : ℝ) : ℝ := x4 * x4 * (1 - x4 * x4) ^ (7 / 2 : ℝ)

open Classical in
/-- the loop of PlummerSphereIc.cpp:135-140: `x4` and the index of the next random number -/
noncomputable def drawSpeed (s : ℕ → ℝ) : ℕ → ℕ → Option (ℝ × ℕ)
  | 0, _ => none
  | fuel + 1, j =>
    if envelope (s j) < 1 / 10 * s (j + 1) then drawSpeed s fuel (j + 2) else some (s j, j + 2)

/-- `ve`, PlummerSphereIc.cpp:130 -/
noncomputable def veOf (rad : ℝ) : ℝ := sqrt (2 / sqrt (1 + rad * rad))

/-- one star before scaling: position and velocity, and the index of the next random number,
PlummerSphereIc.cpp:97-163 -/
noncomputable def drawStar (s : ℕ → ℝ) (rmax : ℝ) (fuel j : ℕ) : Option ((Vec 3 ℝ × Vec 3 ℝ) × ℕ) :=
  (drawPos s rmax fuel j).bind fun a =>
    (drawSpeed s fuel a.2.2.2).map fun b =>
      ((posOf a.1 a.2.1 a.2.2.1, posOf (veOf a.1 * b.1) (s b.2) (s (b.2 + 1))), b.2 + 2)

/-- `N` stars one after the other, then scaled: PlummerSphereIc.cpp:95-165 with 171, 184-189 -/
noncomputable def stars (s : ℕ → ℝ) (mplummer rplummer radius : ℝ) (fuel : ℕ) :
    ℕ → ℕ → Option (List (Vec 3 ℝ × Vec 3 ℝ))
  | 0, _ => some []
  | N + 1, j =>
    (drawStar s (radius / rplummer) fuel j).bind fun a =>
      (stars s mplummer rplummer radius fuel N a.2).map fun l =>
        (fun k => a.1.1 k * rplummer, fun k => a.1.2 k * sqrt (mplummer / rplummer)) :: l

/-- masses of gas particles and stars, PlummerSphereIc.cpp:88-90, 119, 126, 180, 189 -/
noncomputable def plummerMasses (gasfrac starfrac mplummer : ℝ) (Nhydro Nstar : ℕ) : List ℝ :=
  let raux := gasfrac + starfrac
  List.replicate Nstar (starfrac / raux / Nstar * mplummer) ++
    List.replicate Nhydro (gasfrac / raux / Nhydro * mplummer)

/-- internal energy of the gas at the distance `rad * rplummer`, PlummerSphereIc.cpp:154-156, 181; `0.1666…` is
1/6 -/
noncomputable def plummerU (gamma mplummer rplummer rad : ℝ) : ℝ :=
  let sound := sqrt (1 / 6 / sqrt (1 + rad * rad))
  sound * sound / (gamma - 1) * (mplummer / rplummer)

end Gandalf.Cloud
