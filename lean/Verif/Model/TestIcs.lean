import Verif.Model.Vec
import Mathlib.Analysis.SpecialFunctions.Pow.Real
import Mathlib.Analysis.SpecialFunctions.Trigonometric.Basic
import Mathlib.Analysis.SpecialFunctions.Log.Basic

/-!
# Initial conditions of the standard tests (src/Ic/)

What is set for each particle once it has its place; the places are those of Ic.cpp (`Model/Lattice`, `Model/Perturb`).
Numbers are real. `small` is `small_number`.
-/

set_option autoImplicit false

namespace Gandalf.TestIc

open Real

noncomputable section

/-- what is set of a particle -/
structure Part (n : ℕ) where
  r : Vec n ℝ
  v : Vec n ℝ
  m : ℝ
  u : ℝ

/-! ### Gresho vortex, GreshoVortexIc.cpp -/

/-- `rotspeed`, GreshoVortexIc.cpp:103-113 -/
def rotspeed (d : ℝ) : ℝ := if d < (1 / 5) then 5 * d else if d < (2 / 5) then 2 - 5 * d else 0

/-- `press`, GreshoVortexIc.cpp:103-114; `q` is `drsqd`, `d` is `drmag` -/
def greshoPress (q d : ℝ) : ℝ :=
  if d < (1 / 5) then 5 + 25 / 2 * q else if d < (2 / 5) then 9 + 25 / 2 * q - 20 * d + 4 * log (d / (1 / 5)) else 3 + 4 * log 2

/-- a particle at `x`, GreshoVortexIc.cpp:95-121; `rhofluid` is 1 (line 76), `mass` is `volume/Nbox` -/
def gresho (small gamma mass : ℝ) (x : Vec 2 ℝ) : Part 2 where
  r := x
  v := ![-rotspeed (√(dot x x) + small) * (x 1 / (√(dot x x) + small)), rotspeed (√(dot x x) + small) * (x 0 / (√(dot x x) + small))]
  m := 1 * mass
  u := greshoPress (dot x x) (√(dot x x) + small) / 1 / (gamma - 1)

/-! ### Sedov blast wave, SedovBlastwaveIc.cpp -/

/-- whether a particle is hot, SedovBlastwaveIc.cpp:161-165 -/
def hot {n : ℕ} (rhot : ℝ) (x : Vec n ℝ) : Prop := dot x x < rhot * rhot

/-- the share of a hot particle before normalisation, SedovBlastwaveIc.cpp:167-168 -/
def share {n : ℕ} (smooth : Bool) (w0 : ℝ → ℝ) (kernrange rhot m : ℝ) (x : Vec n ℝ) : ℝ :=
  if smooth then m * w0 (kernrange * √(dot x x) / rhot) else m

open Classical in
/-- `utot`, SedovBlastwaveIc.cpp:158-171; all particles have the mass `m` (line 139) -/
def utot {n : ℕ} (smooth : Bool) (w0 : ℝ → ℝ) (kernrange rhot m : ℝ) (l : List (Vec n ℝ)) : ℝ :=
  ((l.filter fun x => decide (hot rhot x)).map fun x => share smooth w0 kernrange rhot m x).sum

open Classical in
/-- a particle at `x`, SedovBlastwaveIc.cpp:101, 135-143, 181-195; `tot` is `utot` -/
def sedov {n : ℕ} (small kefrac : ℝ) (smooth : Bool) (w0 : ℝ → ℝ) (kernrange rhot m tot : ℝ) (x : Vec n ℝ) : Part n :=
  if hot rhot x then
    { r := x
      v := fun k => √(2 * kefrac * (share smooth w0 kernrange rhot m x / tot / m)) * x k / (√(dot x x) + small)
      m := m
      u := max 0 (1 - kefrac) * (share smooth w0 kernrange rhot m x / tot / m) }
  else
    { r := x
      v := fun _ => 0
      m := m
      u := (1 / 1000000) / m }

/-- all particles of the gas -/
def sedovAll {n : ℕ} (small kefrac : ℝ) (smooth : Bool) (w0 : ℝ → ℝ) (kernrange rhot m : ℝ) (l : List (Vec n ℝ)) : List (Part n) :=
  l.map (sedov small kefrac smooth w0 kernrange rhot m (utot smooth w0 kernrange rhot m l))

/-- the dust of a particle, SedovBlastwaveIc.cpp:199-212; `h` is its smoothing length -/
def sedovDust {n : ℕ} [NeZero n] (d2g h : ℝ) (p : Part n) : Part n where
  r := fun k => if k = 0 then p.r k + 1 / 100 * h else p.r k
  v := p.v
  m := p.m * d2g
  u := 0

/-! ### Noh problem, NohIc.cpp -/

/-- a particle at `x`, NohIc.cpp:101-111; `mass` is `rhofluid*volume/Npart` -/
def noh {n : ℕ} (small rho press gamma mass : ℝ) (x : Vec n ℝ) : Part n where
  r := x
  v := fun k => -1 * x k / (√(dot x x) + small)
  m := mass
  u := press / rho / (gamma - 1)

/-! ### shock tube, ShocktubeIc.cpp -/

/-- one side: `N` particles between `lo` and `hi`, ShocktubeIc.cpp:139-154 (also 158-174); places by `AddCubicLattice`
(Ic.cpp:662) -/
def side (lo hi rho u vel : ℝ) (N : ℕ) : List (Part 1) :=
  (List.range N).map fun i : ℕ =>
    { r := fun _ => lo + ((i : ℝ) + 1 / 2) * ((hi - lo) / N), v := fun _ => vel, m := rho * (hi - lo) / N, u := u }

/-- both sides, ShocktubeIc.cpp:121-174 -/
def tube (lo hi rho1 rho2 u1 u2 v1 v2 : ℝ) (N1 N2 : ℕ) : List (Part 1) := side lo 0 rho1 u1 v1 N1 ++ side 0 hi rho2 u2 v2 N2

/-! ### sound wave, SoundwaveIc.cpp -/

/-- `csound`, SoundwaveIc.cpp:83-91; `temp` is `temp0/mu_bar` -/
def csound (iso : Bool) (gamma rho press temp : ℝ) : ℝ :=
  if iso then √((gamma - 1) * rho * (temp / (gamma - 1)) / rho) else √(gamma * press / rho)

/-- `ugas`, SoundwaveIc.cpp:84, 89 -/
def ugas (iso : Bool) (gamma rho press temp : ℝ) : ℝ := if iso then temp / (gamma - 1) else press / rho / (gamma - 1)

/-- velocity and internal energy of a particle at `x`, SoundwaveIc.cpp:120-124 -/
def wave (iso : Bool) (gamma rho press temp amp k x : ℝ) : ℝ × ℝ :=
  (csound iso gamma rho press temp * amp * sin (k * x), ugas iso gamma rho press temp)

/-! ### Rayleigh-Taylor instability, RayleighTaylorIc.cpp -/

/-- `rho`, RayleighTaylorIc.cpp:122-124, 143-145 -/
def rtRho (rho1 rho2 y : ℝ) : ℝ := rho1 + (rho2 - rho1) / (1 + exp (-(y - 1 / 2) / (1 / 40)))

/-- internal energy, RayleighTaylorIc.cpp:128 (lower box) and 149 (upper box) -/
def rtU (upper : Bool) (rho1 rho2 press1 press2 gamma : ℝ) : ℝ :=
  if upper then press2 / rho2 / (gamma - 1) else press1 / rho1 / (gamma - 1)

/-- vertical velocity, RayleighTaylorIc.cpp:120, 155-161 -/
def rtV (amp x y : ℝ) : ℝ :=
  if 3 / 10 ≤ y ∧ y ≤ 7 / 10 then amp * (1 + cos (8 * π * (x + 1 / 4))) * (1 + cos (5 * π * (y - 1 / 2))) else 0

/-! ### Kelvin-Helmholtz instability, KhiIc.cpp (KelvinHelmholtzIc.cpp is the same) -/

/-- the shift of a quarter of the box, KhiIc.cpp:124-125, 143-144 -/
def khiShift (lo size y : ℝ) : ℝ := if y - 1 / 4 * size < lo then y - 1 / 4 * size + size else y - 1 / 4 * size

/-- vertical velocity, KhiIc.cpp:154-160 -/
def khiV (amp lambda x y : ℝ) : ℝ :=
  amp * sin (2 * π * x / lambda) *
    (exp (-(y + 1 / 4) ^ 2 / 2 / (1 / 20 / √2) / (1 / 20 / √2)) + exp (-(y - 1 / 4) ^ 2 / 2 / (1 / 20 / √2) / (1 / 20 / √2)))

end

end Gandalf.TestIc
