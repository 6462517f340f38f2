import Mathlib.Analysis.SpecialFunctions.Pow.Real
import Mathlib.Analysis.SpecialFunctions.Sqrt

/-!
# Units (Headers/SimUnits.h, Common/SimUnits.cpp)

Numbers are real: `pow(x,1.5)` and `sqrt` occur.  `LatexLabel` and the printing of scaling factors are not
modelled.
-/

set_option autoImplicit false

namespace Gandalf.Units

/-! ## Constants (Headers/Constants.h:33-55) -/

noncomputable section

def r_pc : ℝ := 3.08568025e16
def r_au : ℝ := 1.49597870e11
def r_sun : ℝ := 6.955e8
def r_earth : ℝ := 6.371e6
def m_sun : ℝ := 1.98892e30
def m_jup : ℝ := 1.8986e27
def m_earth : ℝ := 5.9736e24
def myr : ℝ := 3.1556952e13
def yr : ℝ := 3.1556952e7
def day : ℝ := 8.64e4
def m_hydrogen : ℝ := 1.66054e-27
def G_const : ℝ := 6.67384e-11
def k_boltzmann : ℝ := 1.3806503e-23
def e_charge : ℝ := 1.6021765e-19
def L_sun : ℝ := 3.839e26

/-- The unit classes with a scale of their own, members of `SimUnits` (SimUnits.h:420-450). -/
inductive Quantity where
  | r | m | t | v | a | rho | sigma | press | f | E | mom | angmom | angvel | dmdt | L | kappa
  | B | Q | Jcur | u | dudt | temp
  deriving DecidableEq, Repr

/-- `SIUnit(string)` of each class (SimUnits.cpp:71-88, 116-129, 153-166, 190-202, 225-237, 260-271, 293-304,
326-336, 357-367, 388-401, 425-437, 460-472, 495-504, 524-536, 559-570, 592-602, 623-633, 654-664, 685-694, 714-724,
745-755, 776-785).  `none`: the exception for an unrecognised unit is raised. -/
def SIUnit : Quantity → String → Option ℝ
  | .r, unit =>
    if unit = "mpc" then some (1.0e6 * r_pc)
    else if unit = "kpc" then some (1.0e3 * r_pc)
    else if unit = "pc" then some r_pc
    else if unit = "au" then some r_au
    else if unit = "r_sun" then some r_sun
    else if unit = "r_earth" then some r_earth
    else if unit = "km" then some 1000
    else if unit = "m" then some 1
    else if unit = "cm" then some 0.01
    else if unit = "" then some 1 else none
  | .m, unit =>
    if unit = "m_sun" then some m_sun
    else if unit = "m_jup" then some m_jup
    else if unit = "m_earth" then some m_earth
    else if unit = "kg" then some 1
    else if unit = "g" then some 1.0e-3
    else if unit = "" then some 1 else none
  | .t, unit =>
    if unit = "gyr" then some (1000 * myr)
    else if unit = "myr" then some myr
    else if unit = "yr" then some yr
    else if unit = "day" then some day
    else if unit = "s" then some 1
    else if unit = "" then some 1 else none
  | .v, unit =>
    if unit = "km_s" then some 1000
    else if unit = "au_yr" then some (r_au / yr)
    else if unit = "m_s" then some 1
    else if unit = "cm_s" then some 0.01
    else if unit = "" then some 1 else none
  | .a, unit =>
    if unit = "km_s2" then some 1000
    else if unit = "au_yr2" then some (r_au / yr / yr)
    else if unit = "m_s2" then some 1
    else if unit = "cm_s2" then some 0.01
    else if unit = "" then some 1 else none
  | .rho, unit =>
    if unit = "m_sun_pc3" then some (m_sun / (r_pc * r_pc * r_pc))
    else if unit = "kg_m3" then some 1
    else if unit = "g_cm3" then some 1000
    else if unit = "" then some 1 else none
  | .sigma, unit =>
    if unit = "m_sun_pc2" then some (m_sun / (r_pc * r_pc))
    else if unit = "kg_m2" then some 1
    else if unit = "g_cm2" then some 10
    else if unit = "" then some 1 else none
  | .press, unit =>
    if unit = "Pa" then some 1
    else if unit = "bar" then some 1.0e5
    else if unit = "" then some 1 else none
  | .f, unit =>
    if unit = "N" then some 1
    else if unit = "dyn" then some 1.0e-5
    else if unit = "" then some 1 else none
  | .E, unit =>
    if unit = "J" then some 1
    else if unit = "erg" then some 1.0e-7
    else if unit = "GJ" then some 1.0e12
    else if unit = "eV" then some e_charge
    else if unit = "10^40erg" then some 1.0e33
    else if unit = "" then some 1 else none
  | .mom, unit =>
    if unit = "m_sunkm_s" then some (m_sun * 1000)
    else if unit = "m_sunau_yr" then some (m_sun * r_au / yr)
    else if unit = "kgm_s" then some 1
    else if unit = "gcm_s" then some 1.0e-5
    else if unit = "" then some 1 else none
  | .angmom, unit =>
    if unit = "m_sunkm2_s" then some (m_sun * 1000 * 1000)
    else if unit = "m_sunau2_yr" then some (m_sun * r_au * r_au / yr)
    else if unit = "kgm2_s" then some 1
    else if unit = "gcm2_s" then some 1.0e-7
    else if unit = "" then some 1 else none
  | .angvel, unit =>
    if unit = "rad_s" then some 1
    else if unit = "" then some 1 else none
  | .dmdt, unit =>
    if unit = "m_sun_myr" then some (m_sun / myr)
    else if unit = "m_sun_yr" then some (m_sun / yr)
    else if unit = "kg_s" then some 1
    else if unit = "g_s" then some 1.0e-3
    else if unit = "" then some 1 else none
  | .L, unit =>
    if unit = "L_sun" then some L_sun
    else if unit = "W" then some 1
    else if unit = "erg_s" then some 1.0e-7
    else if unit = "" then some 1 else none
  | .kappa, unit =>
    if unit = "m2_kg" then some 1
    else if unit = "cm2_g" then some 0.1
    else if unit = "" then some 1 else none
  | .B, unit =>
    if unit = "tesla" then some 1
    else if unit = "gauss" then some 0.0001
    else if unit = "" then some 1 else none
  | .Q, unit =>
    if unit = "C" then some 1
    else if unit = "e" then some e_charge
    else if unit = "" then some 1 else none
  | .Jcur, unit =>
    if unit = "C_s_m2" then some 1
    else if unit = "" then some 1 else none
  | .u, unit =>
    if unit = "J_kg" then some 1
    else if unit = "erg_g" then some 1.0e-4
    else if unit = "" then some 1 else none
  | .dudt, unit =>
    if unit = "J_kg_s" then some 1
    else if unit = "erg_g_s" then some 1.0e-4
    else if unit = "" then some 1 else none
  | .temp, unit =>
    if unit = "K" then some 1
    else if unit = "" then some 1 else none

/-- the value, 0 for an unrecognised unit (`return 0.0` after the `raise`) -/
def si (q : Quantity) (unit : String) : ℝ := (SIUnit q unit).getD 0

/-- `class SimUnit` (SimUnits.h:43-76) -/
structure SimUnit where
  inscale : ℝ
  inSI : ℝ
  outcgs : ℝ
  outscale : ℝ
  outSI : ℝ
  inunit : String
  outunit : String

/-- The constructor (SimUnits.cpp:42-51). -/
def SimUnit.default : SimUnit := ⟨1, 1, 1, 1, 1, "", ""⟩

namespace SimUnit
/-- SimUnits.h:64 -/
def inputToCode (s : SimUnit) (value : ℝ) : ℝ := value / s.inscale
/-- SimUnits.h:65 -/
def outputToCode (s : SimUnit) (value : ℝ) : ℝ := value / s.outscale
/-- SimUnits.h:66 -/
def codeToInput (s : SimUnit) (value : ℝ) : ℝ := value * s.inscale
/-- SimUnits.h:67 -/
def codeToOutput (s : SimUnit) (value : ℝ) : ℝ := value * s.outscale
/-- SimUnits.h:69 -/
def siToCode (s : SimUnit) (value : ℝ) : ℝ := value / (s.outscale * s.outSI)
/-- SimUnits.h:70 -/
def cgsToCode (s : SimUnit) (value : ℝ) : ℝ := value / (s.outscale * s.outcgs)
/-- SimUnits.h:71 -/
def codeToSI (s : SimUnit) (value : ℝ) : ℝ := value * s.outscale * s.outSI
/-- SimUnits.h:72 -/
def codeToCGS (s : SimUnit) (value : ℝ) : ℝ := value * s.outscale * s.outcgs
/-- `OutputScale` (SimUnits.cpp:60-63); `none` when the unit is not recognised -/
def outputScale (s : SimUnit) (q : Quantity) (unit : String) : Option ℝ :=
  (SIUnit q unit).map fun x => s.inscale * s.inSI / x
end SimUnit

/-- Name of the parameters of a quantity, without `inunit`/`outunit` (Parameters.cpp:192-235). -/
def key : Quantity → String
  | .r => "r" | .m => "m" | .t => "t" | .v => "v" | .a => "a" | .rho => "rho" | .sigma => "sigma"
  | .press => "press" | .f => "f" | .E => "E" | .mom => "mom" | .angmom => "angmom" | .angvel => "angvel"
  | .dmdt => "dmdt" | .L => "L" | .kappa => "kappa" | .B => "B" | .Q => "Q" | .Jcur => "Jcur" | .u => "u"
  | .dudt => "dudt" | .temp => "temp"

/-- The unit parameters, `<key>inunit` and `<key>outunit`; a parameter that was never set is the empty string
(`std::map::operator[]`). -/
structure Params where
  inunit : String → String
  outunit : String → String

/-- Key under which the SI value is looked up: `forceinunit`/`forceoutunit` for the force (SimUnits.cpp:961-962), the
same as the label otherwise. -/
def siKey : Quantity → String
  | .f => "force"
  | q => key q

/-- Key under which the label is looked up: `kappa` also for `B`, `Q` and `Jcur` (SimUnits.cpp:1060-1073). -/
def labelKey : Quantity → String
  | .B => "kappa"
  | .Q => "kappa"
  | .Jcur => "kappa"
  | q => key q

/-- The input unit parameters are overwritten by the output ones unless units were read from a file
(SimUnits.cpp:837-862).  The list of overwritten keys does not contain "force". -/
def overwrite (readInputUnits : Bool) (p : Params) : Params :=
  if readInputUnits then p else
    { p with inunit := fun k => if k = "force" then p.inunit k else p.outunit k }

/-- SI sizes of the code units of length, mass, time on the way to the scale of the other quantities:
`r.inscale*r.inSI` etc. -/
structure Base where
  r : ℝ
  m : ℝ
  t : ℝ

/-- What stands before the division by `inSI`/`outSI` in the scale of each quantity (SimUnits.cpp:866-1110),
in terms of `x.scale*x.SI` of length, mass and time; `1` for the quantities without scale. -/
def codeUnit (b : Base) : Quantity → ℝ
  | .r => b.r
  | .m => b.m
  | .t => b.t
  | .v => b.r / b.t
  | .a => b.r / (b.t * b.t)
  | .rho => b.m / b.r ^ 3
  | .sigma => b.m / b.r ^ 2
  | .press => b.m / (b.r * b.t * b.t)
  | .f => b.m * b.r / (b.t * b.t)
  | .E => b.m * b.r ^ 2 / b.t ^ 2
  | .mom => b.m * b.r / b.t
  | .angmom => b.m * b.r ^ 2 / b.t
  | .angvel => 1 / b.t
  | .dmdt => b.m / b.t
  | .L => b.m / b.t
  | .kappa => b.r * b.r / b.m
  | .B => 1
  | .Q => 1
  | .Jcur => 1
  | .u => b.r ^ 2 / b.t ^ 2
  | .dudt => b.r ^ 2 / b.t ^ 3
  | .temp => m_hydrogen * (b.r ^ 2 / b.t ^ 2) / k_boltzmann

/-- `outcgs` over `outSI` (SimUnits.cpp:872-1112) -/
def cgs : Quantity → ℝ
  | .r => 100
  | .m => 1000
  | .t => 1
  | .v => 100
  | .a => 100
  | .rho => 1.0e-3
  | .sigma => 0.1
  | .press => 0.1
  | .f => 1.0e5
  | .E => 1.0e7
  | .mom => 1.0e5
  | .angmom => 1.0e7
  | .angvel => 1
  | .dmdt => 1.0e3
  | .L => 1.0e7
  | .kappa => 10
  | .B => 1
  | .Q => 1
  | .Jcur => 1
  | .u => 1.0e4
  | .dudt => 1.0e4
  | .temp => 1

/-- Code unit of time from those of length and mass (SimUnits.cpp:890-893). -/
def timeUnit (r m : ℝ) : ℝ := r ^ (1.5 : ℝ) / Real.sqrt (m * G_const)

/-- Scales of one quantity (SimUnits.cpp:866-1112): `inscale = X/inSI`, `outscale = X/outSI`, where `X` is
computed from the input scales and SI values for one and from the output ones for the other. -/
def setupOne (p : Params) (bin bout : Base) (q : Quantity) : SimUnit :=
  let inSI := si q (p.inunit (siKey q))
  let outSI := si q (p.outunit (siKey q))
  { inscale := codeUnit bin q / inSI
    inSI := inSI
    outcgs := cgs q * outSI
    outscale := codeUnit bout q / outSI
    outSI := outSI
    inunit := p.inunit (labelKey q)
    outunit := p.outunit (labelKey q) }

/-- Length and mass have `outscale = 1` and `inscale = outscale*outSI/inSI` (SimUnits.cpp:866-884). -/
def setupBase (p : Params) (q : Quantity) : SimUnit :=
  let inSI := si q (p.inunit (key q))
  let outSI := si q (p.outunit (key q))
  { inscale := 1 * outSI / inSI
    inSI := inSI
    outcgs := cgs q * outSI
    outscale := 1
    outSI := outSI
    inunit := p.inunit (key q)
    outunit := p.outunit (key q) }

/-- All units after `SetupUnits`, when nothing is raised.  The multiplications back, `t.inscale*t.inSI` for `t`
and `u.inscale*u.inSI` for `temp`, are written out as the product; the association of products of several factors is
not kept. -/
def units (p : Params) : Quantity → SimUnit := fun q =>
  let r := setupBase p .r
  let m := setupBase p .m
  let tin := timeUnit (r.inscale * r.inSI) (m.inscale * m.inSI) / si .t (p.inunit (key .t))
  let tout := timeUnit (r.outscale * r.outSI) (m.outscale * m.outSI) / si .t (p.outunit (key .t))
  let bin : Base := ⟨r.inscale * r.inSI, m.inscale * m.inSI, tin * si .t (p.inunit (key .t))⟩
  let bout : Base := ⟨r.outscale * r.outSI, m.outscale * m.outSI, tout * si .t (p.outunit (key .t))⟩
  match q with
  | .r => r
  | .m => m
  | .B => { SimUnit.default with
      inunit := p.inunit (labelKey .B)
      outunit := p.outunit (labelKey .B) }
  | .Q => { SimUnit.default with
      inunit := p.inunit (labelKey .Q)
      outunit := p.outunit (labelKey .Q) }
  | .Jcur => { SimUnit.default with
      inunit := p.inunit (labelKey .Jcur)
      outunit := p.outunit (labelKey .Jcur) }
  | q => setupOne p bin bout q

/-- The quantities whose SI value is looked up. -/
def looked : List Quantity := [.r, .m, .t, .v, .a, .rho, .sigma, .press, .f, .E, .mom, .angmom, .angvel, .dmdt, .L,
  .kappa, .u, .dudt, .temp]

/-- Every unit looked up is recognised. -/
def Recognised (p : Params) : Prop :=
  ∀ q ∈ looked, (SIUnit q (p.inunit (siKey q))).isSome = true ∧ (SIUnit q (p.outunit (siKey q))).isSome = true

open Classical in
/-- `SimUnits::SetupUnits` (SimUnits.cpp:828-1117); `none`: exception.  In the dimensionless case all scales keep
the value 1 of the constructor. -/
def setupUnits (dimensionless readInputUnits : Bool) (p : Params) : Option (Quantity → SimUnit) :=
  if dimensionless then some fun _ => SimUnit.default
  else if Recognised (overwrite readInputUnits p) then some (units (overwrite readInputUnits p)) else none

/-- Reading a unit string from a Seren snapshot sets the label only (SimulationIO.hpp:697-719);
`ReadInputUnits` is initialised to false (SimUnits.cpp:808) and assigned nowhere else. -/
def readUnit (s : SimUnit) (unit : String) : SimUnit := { s with inunit := unit }

/-- What becomes of a value in a snapshot: the unit label is read, then `ConvertToCodeUnits` divides by `inscale`
(SimulationIO.hpp:2515-2550). -/
def readValue (s : SimUnit) (unit : String) (value : ℝ) : ℝ := value / (readUnit s unit).inscale

/-- What is written: the value times `outscale`, with the label `outunit` (SimulationIO.hpp:302-336, 1031-1052, 1696-1717 and
the data blocks). -/
def writeValue (s : SimUnit) (value : ℝ) : ℝ × String := (value * s.outscale, s.outunit)

end
end Gandalf.Units
