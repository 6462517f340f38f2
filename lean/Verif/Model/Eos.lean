import Verif.Model.Vec
import Mathlib.Analysis.SpecialFunctions.Pow.Real

/-!
# Equations of state (src/Headers/EOS.h:113-420, src/Thermal/*EOS.cpp)

Real arithmetic; `pow` is `Real.rpow` and `sqrt` is `Real.sqrt`. Not modelled: `RadwsEOS.cpp`, `MCRadiationEOS.cpp`.
-/

set_option autoImplicit false

namespace Gandalf.Eos

variable {n : ℕ}

/-- `EosParticleProxy`, EOS.h:113-135 -/
structure Proxy (n : ℕ) where
  r : Vec n ℝ
  v : Vec n ℝ
  rho : ℝ
  u : ℝ
  p : ℝ
  ionstate : ℤ

/-- the virtual functions of the class `EOS`, EOS.h:145-187 -/
structure Eos (n : ℕ) where
  gamma : ℝ
  Pressure : Proxy n → ℝ
  EntropicFunction : Proxy n → ℝ
  SoundSpeed : Proxy n → ℝ
  Temperature : Proxy n → ℝ
  SpecificInternalEnergy : Proxy n → ℝ

/-- `EOS::Pressure`, EOS.h:156 -/
def basePressure (gamma : ℝ) (q : Proxy n) : ℝ := (gamma - 1) * q.rho * q.u

/-- `EntropicFunction`, the same in every class (AdiabaticEOS.cpp:56-60 etc.) -/
noncomputable def entropic (gamma : ℝ) (q : Proxy n) : ℝ := (gamma - 1) * q.u * q.rho ^ (1 - gamma)

/-- `EOS::InternalEnergyFromPressure`, EOS.h:164-166 -/
noncomputable def Eos.InternalEnergyFromPressure (e : Eos n) (q : Proxy n) : ℝ := q.p / (q.rho * (e.gamma - 1))

/-- AdiabaticEOS.cpp:34-96; `mu_bar` is stored (line 36) but never read -/
noncomputable def adiabatic (gamma_eos _mu_bar : ℝ) : Eos n where
  gamma := gamma_eos
  Pressure := basePressure gamma_eos
  EntropicFunction := entropic gamma_eos
  SoundSpeed q := Real.sqrt (gamma_eos * (gamma_eos - 1) * q.u)
  Temperature q := (gamma_eos - 1) * q.u
  SpecificInternalEnergy q := q.u

/-- IsothermalEOS.cpp:34-99 -/
noncomputable def isothermal (gamma_eos temp0 mu_bar : ℝ) : Eos n where
  gamma := gamma_eos
  Pressure := basePressure gamma_eos
  EntropicFunction := entropic gamma_eos
  SoundSpeed q := Real.sqrt ((gamma_eos - 1) * q.u)
  Temperature _ := temp0
  SpecificInternalEnergy _ := temp0 / (gamma_eos - 1) / mu_bar

/-- BarotropicEOS.cpp:36-105 -/
noncomputable def barotropic (gamma_eos temp0 mu_bar rho_bary : ℝ) : Eos n where
  gamma := gamma_eos
  Pressure := basePressure gamma_eos
  EntropicFunction := entropic gamma_eos
  SoundSpeed q := Real.sqrt ((gamma_eos - 1) * q.u)
  Temperature q := temp0 * (1 + (q.rho * (1 / rho_bary)) ^ (gamma_eos - 1))
  SpecificInternalEnergy q := temp0 * (1 + (q.rho * (1 / rho_bary)) ^ (gamma_eos - 1)) / (gamma_eos - 1) / mu_bar

open Classical in
/-- Barotropic2EOS.cpp:38-108 -/
noncomputable def barotropic2 (gamma_eos temp0 mu_bar rho_bary : ℝ) : Eos n where
  gamma := gamma_eos
  Pressure := basePressure gamma_eos
  EntropicFunction := entropic gamma_eos
  SoundSpeed q := Real.sqrt ((gamma_eos - 1) * q.u)
  Temperature q :=
    if q.rho < rho_bary then temp0 else temp0 * (q.rho * (1 / rho_bary)) ^ (gamma_eos - 1)
  SpecificInternalEnergy q :=
    if q.rho < rho_bary then temp0 / (gamma_eos - 1) / mu_bar
    else temp0 * (q.rho * (1 / rho_bary)) ^ (gamma_eos - 1) / (gamma_eos - 1) / mu_bar

/-- PolytropicEOS.cpp:33-110: the constructor gives `eta_eos` to the base class as `gamma` and `gamma_eos` to the
member `eta` (lines 36-37) -/
noncomputable def polytropic (gamma_eos eta_eos Kpoly : ℝ) : Eos n where
  gamma := eta_eos
  Pressure q := Kpoly * q.rho ^ gamma_eos
  EntropicFunction := entropic eta_eos
  SoundSpeed q := Real.sqrt ((eta_eos - 1) * q.u)
  Temperature q := (eta_eos - 1) * q.u
  SpecificInternalEnergy q := Kpoly * q.rho ^ (eta_eos - 1) / (eta_eos - 1)

/-- the loop over the stars, LocallyIsothermal.cpp:69-78; the start value 1e30 is a squared distance -/
noncomputable def starDist (stars : List (Vec n ℝ)) (r : Vec n ℝ) : ℝ :=
  Real.sqrt (stars.foldl (fun a s => min (dot (fun k => r k - s k) (fun k => r k - s k)) a) (10 ^ 30))

/-- `LocallyIsothermal::Temperature`, LocallyIsothermal.cpp:66-85 (a particle on a star has an infinite
temperature in the code, but `0 ^ x = 0` in Lean) -/
noncomputable def localTemp (temp0 templaw tempmin : ℝ) (stars : List (Vec n ℝ)) (r : Vec n ℝ) : ℝ :=
  max (temp0 * starDist stars r ^ (-templaw)) tempmin

/-- LocallyIsothermal.cpp:42-96 -/
noncomputable def locallyIsothermal (gamma_eos temp0 mu_bar templaw tempmin : ℝ) (stars : List (Vec n ℝ)) : Eos n where
  gamma := gamma_eos
  Pressure := basePressure gamma_eos
  EntropicFunction := entropic gamma_eos
  SoundSpeed q := Real.sqrt ((gamma_eos - 1) * q.u)
  Temperature q := localTemp temp0 templaw tempmin stars q.r
  SpecificInternalEnergy q := localTemp temp0 templaw tempmin stars q.r / (gamma_eos - 1) / mu_bar

/-- `DiscLocallyIsothermal::SoundSpeed`, DiscLocallyIsothermal.cpp:45-46, 66-80; `star` is the first star -/
noncomputable def discSound (q Hr rin : ℝ) (star r : Vec n ℝ) : ℝ :=
  Hr * Real.sqrt (1 / rin) * (Real.sqrt (dot (fun k => r k - star k) (fun k => r k - star k)) / rin) ^ (-q)

/-- DiscLocallyIsothermal.cpp:41-103 -/
noncomputable def discLocallyIsothermal (gamma_eos mu_bar q Hr rin : ℝ) (star : Vec n ℝ) : Eos n where
  gamma := gamma_eos
  Pressure := basePressure gamma_eos
  EntropicFunction := entropic gamma_eos
  SoundSpeed p := discSound q Hr rin star p.r
  Temperature p := mu_bar * discSound q Hr rin star p.r * discSound q Hr rin star p.r
  SpecificInternalEnergy p := discSound q Hr rin star p.r * discSound q Hr rin star p.r / (gamma_eos - 1)

open Classical in
/-- `IonisingRadiation`, IonisingRadiationEOS.cpp:34-122, around the equation of state `e` -/
noncomputable def ionising (e : Eos n) : Eos n where
  gamma := e.gamma
  Pressure := basePressure e.gamma
  EntropicFunction := e.EntropicFunction
  SoundSpeed := e.SoundSpeed
  Temperature := e.Temperature
  SpecificInternalEnergy q :=
    if q.ionstate ≠ 0 then
      if q.u > e.SpecificInternalEnergy q then q.u else e.SpecificInternalEnergy q
    else e.SpecificInternalEnergy q

/-- the equations of state the constructor of `Hydrodynamics` can choose (Hydrodynamics.cpp:79-117), without
`Polytropic` (which has its own pressure), `MCRadiationEOS` and `Radws`; `IonisingRadiation` takes one of three
(IonisingRadiationEOS.cpp:41-55) -/
inductive Chosen (n : ℕ) : Eos n → Prop
  | adiabatic (g mu : ℝ) : Chosen n (adiabatic g mu)
  | isothermal (g t mu : ℝ) : Chosen n (isothermal g t mu)
  | barotropic (g t mu rb : ℝ) : Chosen n (barotropic g t mu rb)
  | barotropic2 (g t mu rb : ℝ) : Chosen n (barotropic2 g t mu rb)
  | locallyIsothermal (g t mu tl tm : ℝ) (st : List (Vec n ℝ)) : Chosen n (locallyIsothermal g t mu tl tm st)
  | disc (g mu a b c : ℝ) (st : Vec n ℝ) : Chosen n (discLocallyIsothermal g mu a b c st)
  | ionAdiabatic (g mu : ℝ) : Chosen n (ionising (adiabatic g mu))
  | ionIsothermal (g t mu : ℝ) : Chosen n (ionising (isothermal g t mu))
  | ionBarotropic (g t mu rb : ℝ) : Chosen n (ionising (barotropic g t mu rb))

/-- `ComputeThermalProperties` of a gas particle, GradhSph.cpp:340-344, SM2012Sph.cpp:283-285: the particle with its
new energy and pressure, and its sound speed -/
def thermal (e : Eos n) (q : Proxy n) : Proxy n × ℝ :=
  let q1 := { q with u := e.SpecificInternalEnergy q }
  ({ q1 with p := e.Pressure q1 }, e.SoundSpeed q1)

/-- `Ucons` of `ConstructStateVector`, EOS.h:168-181: density, momentum and energy densities -/
noncomputable def conserved (q : Proxy n) : ℝ × Vec n ℝ × ℝ :=
  (q.rho, fun k => q.rho * q.v k, (List.finRange n).foldl (fun e k => e + 1 / 2 * q.rho * q.v k * q.v k) (q.rho * q.u))

end Gandalf.Eos
