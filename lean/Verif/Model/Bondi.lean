import Verif.Model.Vec
import Mathlib.Analysis.SpecialFunctions.Sqrt
import Mathlib.Analysis.SpecialFunctions.Log.Base
import Mathlib.Analysis.SpecialFunctions.Pow.Real
import Mathlib.Analysis.Real.Pi.Bounds

/-! The initial conditions of spherical (Bondi) accretion, src/Ic/BondiAccretionIc.cpp.
Real numbers; `powf`, `sqrtf` are exact.  The tables of logarithms `lw`, `lx`, `ly`, `lz` and
`dlnx` are never read (besides `lx`, which is the exponent of `x`) and are left out. -/

set_option autoImplicit false

namespace Gandalf

noncomputable section

namespace Bondi

open Classical

/-- `asympt = exp(1.5)`, BondiAccretionIc.cpp:59 -/
def asympt : ℝ := Real.exp (3 / 2)

/-- `z[isonic]`, BondiAccretionIc.cpp:88 -/
def zsonic : ℝ := 24102434440 / 10000000000

/-- Slope of the velocity, BondiAccretionIc.cpp:116 (`f1` to `f4`) -/
def slopeW (x w : ℝ) : ℝ := 2 * (1 / x - 1 / (x * x)) / (w - 1 / w)

/-- What the integration carries along: `x1`, `w1`, `z1`, `f5`, `g5`. -/
structure St where
  x1 : ℝ
  w1 : ℝ
  z1 : ℝ
  f5 : ℝ
  g5 : ℝ

/-- One pass of the integration, BondiAccretionIc.cpp:114-133 (and 158-177). -/
def step (ep : ℝ) (s : St) : St :=
  let dx := s.x1 * ep
  let hdx := 1 / 2 * dx
  let f1 := slopeW s.x1 s.w1
  let g1 := asympt / s.w1
  let x2 := s.x1 + hdx
  let w2 := s.w1 + f1 * hdx
  let f2 := slopeW x2 w2
  let g2 := asympt / w2
  let w3 := s.w1 + f2 * hdx
  let f3 := slopeW x2 w3
  let g3 := asympt / w3
  let x4 := s.x1 + dx
  let w4 := s.w1 + f3 * dx
  let f4 := slopeW x4 w4
  let g4 := asympt / w4
  let f5 := (f1 + 2 * f2 + 2 * f3 + f4) / 6
  let g5 := (g1 + 2 * g2 + 2 * g3 + g4) / 6
  ⟨x4, s.w1 + f5 * dx, s.z1 + g5 * dx, f5, g5⟩

/-- One line of the table: radius, velocity, density and mass inside, all without dimension. -/
structure Row where
  x : ℝ
  w : ℝ
  y : ℝ
  z : ℝ

/-- The entry made when the integration has gone past place `i`,
BondiAccretionIc.cpp:103-108 (and 146-153). -/
def row (isonic i : ℤ) (s : St) : Row :=
  let lx := 1 / 100 * ((i : ℝ) - isonic)
  let x := (10 : ℝ) ^ lx
  let w := s.w1 + s.f5 * (x - s.x1)
  ⟨x, w, asympt / (x * x * w), s.z1 + s.g5 * (x - s.x1)⟩

/-- Table under construction: `none` for entries never written. -/
abbrev Tab := ℤ → Option Row

/-- The do-while loops, BondiAccretionIc.cpp:100-134 (`dir = 1`) and 143-178 (`dir = -1`); the
fuel is the number of passes.  The loops differ in the sign of `disc` and of the step of `i`
and in the condition for going on. -/
def fill (isonic dir : ℤ) (ep : ℝ) (go : ℤ → Bool) : ℕ → St → ℤ → Tab → Option (St × Tab)
  | 0, _, _, _ => none
  | n + 1, s, i, t =>
    let disc := (dir : ℝ) * (100 * Real.logb 10 s.x1 + isonic - i)
    let t' := if 0 < disc then Function.update t i (some (row isonic i s)) else t
    let i' := if 0 < disc then i + dir else i
    let s' := step ep s
    if go i' then fill isonic dir ep go n s' i' t' else some (s', t')

/-- Values beside the sonic point, BondiAccretionIc.cpp:94-96 and 138-140 -/
def beside (ep f5 g5 : ℝ) : St := ⟨1 + ep, 1 - ep, zsonic + asympt * ep, f5, g5⟩

/-- `ComputeBondiSolution`, BondiAccretionIc.cpp:50-199: the sonic point, the table outside and
the table inside.  The second loop begins with the `f5`, `g5` of the first. -/
def solution (N : ℤ) (fuel : ℕ) : Option Tab :=
  let isonic := 2 * N / 3
  let ep : ℝ := 1 / 1000
  let t0 : Tab := Function.update (fun _ => none) isonic (some ⟨1, 1, asympt, zsonic⟩)
  match fill isonic 1 ep (fun i => decide (i < N)) fuel (beside ep 0 0) (isonic + 1) t0 with
  | none => none
  | some (s, t) =>
    match fill isonic (-1) (-ep) (fun i => decide (0 ≤ i)) fuel (beside (-ep) s.f5 s.g5)
        (isonic - 1) t with
    | none => none
    | some (_, t') => some t'

/-- The place in the table, BondiAccretionIc.cpp:292-296 and 322-325: `for` with `break`,
the last place if no entry is large enough. -/
def find (z : ℕ → ℝ) (m : ℝ) : ℕ → ℕ → ℕ
  | 0, j => j
  | n + 1, j => if m ≤ z j then j else if n = 0 then j else find z m n (j + 1)

/-- The search over the whole table of `N` entries -/
def place (N : ℕ) (z : ℕ → ℝ) (m : ℝ) : ℕ := find z m N 0

/-- Interpolation, BondiAccretionIc.cpp:297-298 and 326-328: radius and velocity.  `none`: the
entry before the table is read. -/
def lookup (N : ℕ) (x w z : ℕ → ℝ) (m : ℝ) : Option (ℝ × ℝ) :=
  let i := place N z m
  if i = 0 then none
  else
    let rem := (m - z (i - 1)) / (z i - z (i - 1))
    some (x (i - 1) + rem * (x i - x (i - 1)), w (i - 1) + rem * (w i - w (i - 1)))

/-- What the parameters say: `temp0`, `mu_bar`, `mcloud`, `m1`, `rhofluid1`, `sink_radius` and
the scales of the units. -/
structure Par where
  temp0 : ℝ
  mubar : ℝ
  mcloud : ℝ
  msink : ℝ
  rhogas : ℝ
  rsink : ℝ
  tscale : ℝ
  mscale : ℝ

/-- BondiAccretionIc.cpp:241 -/
def Par.mc (p : Par) : ℝ := p.mcloud / p.mscale
/-- BondiAccretionIc.cpp:242 -/
def Par.ms (p : Par) : ℝ := p.msink / p.mscale
/-- `asound`, BondiAccretionIc.cpp:245 -/
def Par.asound (p : Par) : ℝ := √(p.temp0 / p.tscale / p.mubar)
/-- `rsonic`, BondiAccretionIc.cpp:247 -/
def Par.rsonic (p : Par) : ℝ := 1 / 2 * p.ms / p.asound / p.asound
/-- `dmdt`, BondiAccretionIc.cpp:248 -/
def Par.dmdt (p : Par) : ℝ := Real.exp (3 / 2) * Real.pi * p.ms * p.ms * p.rhogas / p.asound ^ 3
/-- `mp`, BondiAccretionIc.cpp:312 -/
def Par.mp (p : Par) (N : ℕ) : ℝ := 4 * Real.pi * p.rsonic ^ 3 * p.rhogas * p.mc / N

/-- `small_number`, Headers/Constants.h:73 -/
def small : ℝ := 1 / 10 ^ 20

/-- A particle of the gas -/
structure Gas where
  r : Vec 3 ℝ
  v : Vec 3 ℝ
  m : ℝ

/-- One particle is moved along its radius, BondiAccretionIc.cpp:317-333, with `rcentre = 0`. -/
def stretch (p : Par) (N Ntab : ℕ) (x w z : ℕ → ℝ) (r : Vec 3 ℝ) : Option Gas :=
  let drmag := √(dot r r) + small
  let mint := p.mc * drmag ^ 3
  match lookup Ntab x w z mint with
  | none => none
  | some (radp, vradp) =>
    some ⟨fun k => p.rsonic * r k * radp / drmag, fun k => -p.asound * vradp * r k / drmag, p.mp N⟩

/-- `sink[0].mmax`, BondiAccretionIc.cpp:353-360: the loop over all particles -/
def mmax (p : Par) (gas : List Gas) : ℝ :=
  gas.foldl (fun a g =>
    if dot g.r g.r > (p.rsink * p.rsonic) * (p.rsink * p.rsonic) then a else a + g.m) 0

end Bondi

end

end Gandalf
