import Verif.Model.Vec
import Mathlib.Analysis.SpecialFunctions.Pow.Real
import Mathlib.Analysis.SpecialFunctions.Trigonometric.Basic
import Mathlib.Analysis.SpecialFunctions.Log.Basic

/-!
# Discs around stars, src/Ic/DiscIc.cpp

Numbers are real, `pi` and `M_PI` are π.  Parameters of mass and length are those after the conversion to code units
(79-84) unless said otherwise.  Random numbers are arguments.
-/

set_option autoImplicit false

noncomputable section

namespace Gandalf.Disc
open Real

/-- The parameters, DiscIc.cpp:61-87 -/
structure Par where
  N : ℕ
  nDust : ℕ
  dusty : Bool
  ratio : ℝ
  mstar : ℝ
  mass : ℝ
  p : ℝ
  q : ℝ
  rin : ℝ
  rout : ℝ
  hr : ℝ
  gamma : ℝ

namespace Par
variable (P : Par)

/-- `Ntotal`, 71-76 -/
def total : ℕ := if P.dusty then P.N + P.nDust else P.N

/-- `massi`, 102-103 -/
def massGas : ℝ := if P.dusty then P.mass / P.N * (1 - P.ratio) else P.mass / P.N

/-- `massi_dust`, 104 -/
def massDust : ℝ := P.mass * P.ratio / P.nDust

/-- mass of particle `i`, 131-138 -/
def massOf (i : ℕ) : ℝ := if i < P.N then P.massGas else P.massDust

/-- `cs0`, 108 -/
def cs0 : ℝ := P.hr * √(P.mstar / P.rin)

open Classical in
/-- `sig0`, 111-115 -/
def sig0 : ℝ :=
  if P.p ≠ 2 then (2 - P.p) * P.mass * (1 - P.ratio) * P.rin ^ (-P.p) / (2 * π) / (P.rout ^ (2 - P.p) - P.rin ^ (2 - P.p))
  else P.mass * (1 - P.ratio) * P.rin * P.rin / (2 * π) / (log P.rout - log P.rin)

open Classical in
/-- `f_max`, 117-123 -/
def fmax : ℝ := if P.p ≤ 1 then (P.rout / P.rin) ^ (-(P.p - 1)) else 1

/-- a radius that is tried, 150; `a` is a random number -/
def tryRadius (a : ℝ) : ℝ := P.rin + (P.rout - P.rin) * a

/-- `f`, 152 -/
def f (r : ℝ) : ℝ := (r / P.rin) ^ (-(P.p - 1))

/-- whether the radius is kept, 151, 153; `b` is a random number -/
def keepRadius (r b : ℝ) : Prop := ¬ P.f r ≤ b * P.fmax

/-- `cs`, 161 -/
def cs (r : ℝ) : ℝ := P.cs0 * (r / P.rin) ^ (-P.q)

/-- `H`, 162 -/
def H (r : ℝ) : ℝ := √2 * P.cs r * r ^ (3 / 2 : ℝ) / √P.mstar

/-- a height that is tried, 163-164, 169 -/
def tryHeight (r a : ℝ) : ℝ := -3 * P.H r + (3 * P.H r - -3 * P.H r) * a

/-- `zf`, 171 -/
def zf (r z : ℝ) : ℝ := exp (-(z / P.H r) ^ 2)

/-- whether the height is kept, 165, 170, 172 -/
def keepHeight (r z b : ℝ) : Prop := ¬ P.zf r z ≤ 1 * b

/-- place in the plane, 156-157 -/
def place (r phi : ℝ) : Vec 2 ℝ := ![r * sin phi, r * cos phi]

/-- `vk` of particle `i` in two (`three = false`) or three dimensions, 183-189 -/
def vk (three : Bool) (i : ℕ) (r : ℝ) : ℝ :=
  if P.N < i then
    if three then √(P.mstar / r) * √(1 - 1 / 2 * (P.H r / r) * (P.H r / r) * (3 / 2 + P.p + P.q))
    else √(P.mstar / r) * √(1 - P.H r / r * (P.H r / r) * (P.p + 2 * P.q))
  else √(P.mstar / r)

/-- velocity in the plane, 190-191 -/
def vel (three : Bool) (i : ℕ) (r phi : ℝ) : Vec 2 ℝ := ![-P.vk three i r * cos phi, P.vk three i r * sin phi]

/-- `sigma` of gas, 201 -/
def sigma (r : ℝ) : ℝ := P.sig0 * P.f r / (r / P.rin)

/-- `sigma` of particle `i`, 201-202 -/
def sigmaOf (i : ℕ) (r : ℝ) : ℝ := if P.N ≤ i then P.sigma r * P.ratio else P.sigma r

/-- `rhoz`, 204 -/
def rhoz (r z : ℝ) : ℝ := P.zf r z / (P.H r * √π)

/-- density, 205-210 -/
def rho (three : Bool) (i : ℕ) (r z : ℝ) : ℝ := if three then P.sigmaOf i r * P.rhoz r z else P.sigmaOf i r

/-- internal energy of gas, 62, 221-222 -/
def u (r : ℝ) : ℝ := P.cs r * P.cs r / (P.gamma - 1)

end Par

/-- star or planet -/
structure Body where
  m : ℝ
  r : Vec 3 ℝ
  v : Vec 3 ℝ

/-- star before the shift, 233-236 -/
def star0 (mstar : ℝ) : Body := ⟨mstar, fun _ => 0, fun _ => 0⟩

/-- planet before the shift, 241-258, in three dimensions; `m` in code units, `rp` the parameter, `i` in degrees -/
def planet0 (mstar m rp e i : ℝ) : Body :=
  ⟨m, ![rp * (1 + e), 0, 0],
    ![0, √(mstar + m) / √rp * √((1 - e) / (1 + e)) * cos (i * π / 180),
      √(mstar + m) / √rp * √((1 - e) / (1 + e)) * cos (i * π / 180) * tan (i * π / 180)]⟩

/-- shift to the centre of mass, 261-269 -/
def shift (a b : Body) : Body × Body :=
  (⟨a.m, fun k => a.r k - (a.m * a.r k + b.m * b.r k) / (a.m + b.m), fun k => a.v k - (a.m * a.v k + b.m * b.v k) / (a.m + b.m)⟩,
    ⟨b.m, fun k => b.r k - (a.m * a.r k + b.m * b.r k) / (a.m + b.m), fun k => b.v k - (a.m * a.v k + b.m * b.v k) / (a.m + b.m)⟩)

/-- star and planet, 232-270 -/
def withPlanet (mstar m rp e i : ℝ) : Body × Body := shift (star0 mstar) (planet0 mstar m rp e i)

/-- accretion radius of the planet, `kernrange*planet.h`, 247-248; `hill` is the parameter in radii of the Hill sphere,
`mpar` the mass in output units -/
def planetSink (hill rp mpar : ℝ) : ℝ := hill * rp * (mpar / 3) ^ (1 / 3 : ℝ)

/-- sound speed of the equation of state of the disc, src/Thermal/DiscLocallyIsothermal.cpp:42-47 (from the parameters,
in output units) and `SoundSpeed` at distance `r` from the first star -/
def eosSound (hr rin q r : ℝ) : ℝ := hr * √(1 / rin) * (r / rin) ^ (-q)

end Gandalf.Disc
