import Verif.Model.Units
import Verif.Model.Vec
import Mathlib.Analysis.SpecialFunctions.Pow.Real
import Mathlib.Analysis.SpecialFunctions.Trigonometric.Basic

/-!
# Heating by stars (Thermal/RadiativeFB.cpp, Nbody/Nbody.cpp:137-222, Nbody/Sinks.cpp:494-610)

Numbers are real. A power of a negative number is not a number and poisons what is computed from it: `none`. A particle
at the very place of a sink (division by 0) is outside the model. Two or three dimensions, as the constructor demands.
-/

set_option autoImplicit false

namespace Gandalf.StarHeat

open Units Real

noncomputable section

/-- what is used of `SinkParticle` and its star -/
structure Sink (n : ℕ) where
  r : Vec (n + 2) ℝ
  m : ℝ
  dmdt : ℝ
  radius : ℝ

/-- `Distance(x, y, 2)`, Headers/InlineFuncs.h:61-69 -/
def planar {n : ℕ} (x y : Vec (n + 2) ℝ) : ℝ := sqrt ((y 0 - x 0) * (y 0 - x 0) + (y 1 - x 1) * (y 1 - x 1))

/-- `Distance(x, y, ndim)`, Headers/InlineFuncs.h:61-69 -/
def distance {n : ℕ} (x y : Vec (n + 2) ℝ) : ℝ := sqrt (dot (fun k => y k - x k) (fun k => y k - x k))

/-- members of `DiscHeating`, Headers/RadiativeFB.h -/
structure Disc where
  ncentral : ℕ
  tau4 : ℝ
  texp : ℝ
  rs2 : ℝ

/-- `DiscHeating::AmbientTemp`, RadiativeFB.cpp:149-163 -/
def Disc.ambient {n : ℕ} (D : Disc) (x : Vec (n + 2) ℝ) (sinks : List (Sink n)) : ℝ :=
  if D.ncentral ≤ sinks.length then
    (sinks.take D.ncentral).foldl (fun _ s => D.tau4 * (planar x s.r * planar x s.r + D.rs2) ^ D.texp) 0
  else 0

/-- members of `SinkHeating`, Headers/RadiativeFB.h -/
structure Heat where
  ncentral : ℕ
  rad : ℝ
  lsun : ℝ
  msun : ℝ
  mjup : ℝ
  rstar : ℝ
  rbdwarf : ℝ
  rplanet : ℝ
  facc : ℝ

/-- `SinkTemperature`, RadiativeFB.cpp:228-234 -/
def Heat.temperature (H : Heat) (L r : ℝ) : Option ℝ :=
  if L / (4 * π * H.rad * r * r) < 0 then none else some ((L / (4 * π * H.rad * r * r)) ^ (1 / 4 : ℝ))

/-- `SinkLuminosity`, RadiativeFB.cpp:245-255; the constant of gravity is 1 -/
def Heat.luminosity (H : Heat) (m mdot rsink r fn : ℝ) : ℝ :=
  fn * (m / H.msun) ^ 3 * H.lsun + H.facc * (m * mdot / r) * (1 - r / (2 * rsink))

/-- radius of the source and flag `f_n`, RadiativeFB.cpp:282-288 -/
def Heat.source (H : Heat) (m : ℝ) : ℝ × ℝ :=
  if 80 * H.mjup ≤ m then (H.rstar, 1) else (if 13 * H.mjup ≤ m then H.rbdwarf else H.rplanet, 0)

/-- a turn of the loop over the sinks, RadiativeFB.cpp:269-294 -/
def Heat.add {n : ℕ} (H : Heat) (x : Vec (n + 2) ℝ) (acc : Option ℝ) (s : Sink n) : Option ℝ :=
  acc.bind fun a => (H.temperature (H.luminosity s.m s.dmdt s.radius (H.source s.m).1 (H.source s.m).2) (H.source s.m).1).map
    fun T => a + 1 / 4 * ((H.source s.m).1 / distance x s.r) ^ 2 * T ^ 4

/-- `SinkHeating::AmbientTemp`, RadiativeFB.cpp:262-296 -/
def Heat.ambient {n : ℕ} (H : Heat) (x : Vec (n + 2) ℝ) (sinks : List (Sink n)) : Option ℝ :=
  (sinks.drop H.ncentral).foldl (H.add x) (some 0)

/-- members of `RadiativeFB`, Headers/RadiativeFB.h -/
structure Feedback where
  ambientOn : Bool
  tinf4 : ℝ
  disc : Option Disc
  heat : Option Heat

/-- `pow(temp, 0.25)` -/
def root4 (t : ℝ) : Option ℝ := if t < 0 then none else some (t ^ (1 / 4 : ℝ))

/-- `if (disc_heating) temp += …`, RadiativeFB.cpp:101 -/
def Feedback.discPart {n : ℕ} (F : Feedback) (x : Vec (n + 2) ℝ) (sinks : List (Sink n)) : ℝ :=
  match F.disc with
  | some D => D.ambient x sinks
  | none => 0

/-- `if (sink_heating) temp += …`, RadiativeFB.cpp:102 -/
def Feedback.heatPart {n : ℕ} (F : Feedback) (x : Vec (n + 2) ℝ) (sinks : List (Sink n)) : Option ℝ :=
  match F.heat with
  | some H => H.ambient x sinks
  | none => some 0

/-- `RadiativeFB::AmbientTemp`, RadiativeFB.cpp:92-105 -/
def Feedback.ambient {n : ℕ} (F : Feedback) (x : Vec (n + 2) ℝ) (sinks : List (Sink n)) : Option ℝ :=
  (F.heatPart x sinks).bind fun h => root4 ((if F.ambientOn then F.tinf4 else 0) + F.discPart x sinks + h)

/-- the parameters of radiative feedback, Common/Parameters.cpp:525-540 and `temp_ambient` -/
structure Pars where
  ambientHeating : Bool
  discHeating : ℤ
  sinkHeating : Bool
  tempAmbient : ℝ
  tempAu : ℝ
  tempQ : ℝ
  rSmooth : ℝ
  fAcc : ℝ
  rStar : ℝ
  rBdwarf : ℝ
  rPlanet : ℝ

/-- Headers/Constants.h:52 -/
def stefboltz : ℝ := 5.67037321e-8

/-- `Ncentral`, RadiativeFB.cpp:47-50 -/
def ncentral (d : ℤ) : ℕ := if d < 0 then 0 else if d > 2 then 2 else d.toNat

/-- `DiscHeating::DiscHeating`, RadiativeFB.cpp:111-130; `outscale*outSI` is the code unit in SI -/
def mkDisc (b : Base) (p : Pars) : Disc where
  ncentral := ncentral p.discHeating
  tau4 := (p.tempAu / codeUnit b .temp) ^ 4
  texp := -2 * p.tempQ
  rs2 := (p.rSmooth / codeUnit b .r) ^ 2

/-- `SinkHeating::SinkHeating`, RadiativeFB.cpp:169-211 -/
def mkHeat (b : Base) (p : Pars) : Heat where
  ncentral := ncentral p.discHeating
  rad := stefboltz * (codeUnit b .r ^ 2 * codeUnit b .t * codeUnit b .temp ^ 4) / codeUnit b .E
  lsun := L_sun / codeUnit b .L
  msun := m_sun / codeUnit b .m
  mjup := m_jup / codeUnit b .m
  rstar := p.rStar * (r_sun / codeUnit b .r)
  rbdwarf := p.rBdwarf * (r_sun / codeUnit b .r)
  rplanet := p.rPlanet * (r_sun / codeUnit b .r)
  facc := p.fAcc

/-- `RadiativeFB::RadiativeFB`, RadiativeFB.cpp:37-74 -/
def mkFeedback (b : Base) (p : Pars) : Feedback where
  ambientOn := p.ambientHeating
  tinf4 := (p.tempAmbient / codeUnit b .temp) ^ 4
  disc := if p.discHeating ≠ 0 then some (mkDisc b p) else none
  heat := if p.sinkHeating then some (mkHeat b p) else none

/-! ### the rate of accretion -/

/-- what a call of `AccreteMassToSinks` finds for a sink: gas inside, `n%nstep == 0`, and the mass to accrete -/
structure Event where
  gas : Bool
  due : Bool
  macc : ℝ

/-- `sink[s].dmdt`, Sinks.cpp:494, 595-597, 607-610 -/
def rate (smooth : Bool) (nstep : ℕ) (timestep dmdt : ℝ) (e : Event) : ℝ :=
  if !e.gas || !e.due then dmdt else if smooth then e.macc / (nstep * timestep) else e.macc / timestep

/-- mass that the rate stands for over the steps of the main loop -/
def counted (smooth : Bool) (nstep : ℕ) (timestep : ℝ) : ℝ → List Event → ℝ
  | _, [] => 0
  | d, e :: l => rate smooth nstep timestep d e * timestep + counted smooth nstep timestep (rate smooth nstep timestep d e) l

/-- the calls during a step of the star: accretion on the first, not due on the others -/
def starStep (nstep : ℕ) (gas : Bool) (macc : ℝ) : List Event := ⟨gas, true, macc⟩ :: List.replicate (nstep - 1) ⟨gas, false, 0⟩

/-! ### ionising photons -/

/-- the loop over the bins, Nbody.cpp:200-202: `k` bins are left -/
def findBin (mass : ℕ → ℝ) (ms : ℝ) : ℕ → ℕ → ℕ
  | 0, j => j
  | k + 1, j => if mass j ≤ ms ∧ ms < mass (j + 1) then j else findBin mass ms k (j + 1)

/-- `10**((1 - frac)*a + frac*b)`, Nbody.cpp:215-216 -/
def photons (a b frac : ℝ) : ℝ := (10 : ℝ) ^ ((1 - frac) * a + frac * b)

/-- `UpdateStellarProperties`, Nbody.cpp:185-222, for one star of mass `ms`; `none`: reads outside the table of `N` lines -/
def stellar (N : ℕ) (mass nlyc : ℕ → ℝ) (ms : ℝ) : Option ℝ :=
  let j := findBin mass ms (N - 1) 0
  if (j : ℤ) = (N : ℤ) - 1 then
    if N < 2 then none else some (photons (nlyc (N - 2)) (nlyc (N - 1)) 1)
  else if N ≤ j + 1 then none
  else some (photons (nlyc j) (nlyc (j + 1)) ((ms - mass j) / (mass (j + 1) - mass j)))

end

end Gandalf.StarHeat
