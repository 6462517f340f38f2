import Verif.Model.Units

/-!
# Units: specification

What the named units are, and the dimension of each quantity.  Written over the base units, so that putting
`kg = m = s = 1` gives SI values, and `kg = 1000`, `m = 100` (grams, centimetres) gives cgs values.
-/

set_option autoImplicit false

namespace Gandalf.Units

noncomputable section

/-- Dimension of a quantity as monomial in the units of mass, length, time.  Temperature and the
electromagnetic quantities have a base unit of their own. -/
def dim (kg m s : ℝ) : Quantity → ℝ
  | .r => m
  | .m => kg
  | .t => s
  | .v => m / s
  | .a => m / s ^ 2
  | .rho => kg / m ^ 3
  | .sigma => kg / m ^ 2
  | .f => kg * m / s ^ 2
  | .press => (kg * m / s ^ 2) / m ^ 2
  | .E => kg * m ^ 2 / s ^ 2
  | .mom => kg * m / s
  | .angmom => kg * m ^ 2 / s
  | .angvel => 1 / s
  | .dmdt => kg / s
  | .L => (kg * m ^ 2 / s ^ 2) / s
  | .kappa => m ^ 2 / kg
  | .u => (kg * m ^ 2 / s ^ 2) / kg
  | .dudt => (kg * m ^ 2 / s ^ 2) / kg / s
  | .B => 1
  | .Q => 1
  | .Jcur => 1
  | .temp => 1

/-- quantities measured in mass, length and time -/
def Mechanical (q : Quantity) : Prop := q ∉ [Quantity.B, .Q, .Jcur, .temp]

/-- Value in SI of each named unit, from the base units: gram, centimetre, kilometre, solar mass, … -/
def named : Quantity → String → Option ℝ :=
  let g : ℝ := 1 / 1000
  let cm : ℝ := 1 / 100
  let km : ℝ := 1000
  fun q unit =>
    if unit = "" then some 1 else
    match q with
    | .r => match unit with
      | "mpc" => some (10 ^ 6 * r_pc) | "kpc" => some (10 ^ 3 * r_pc) | "pc" => some r_pc | "au" => some r_au
      | "r_sun" => some r_sun | "r_earth" => some r_earth | "km" => some km | "m" => some 1
      | "cm" => some cm | _ => none
    | .m => match unit with
      | "m_sun" => some m_sun | "m_jup" => some m_jup | "m_earth" => some m_earth | "kg" => some 1
      | "g" => some g | _ => none
    | .t => match unit with
      | "gyr" => some (10 ^ 9 * yr) | "myr" => some (10 ^ 6 * yr) | "yr" => some yr | "day" => some (24 * 3600)
      | "s" => some 1 | _ => none
    | .v => match unit with
      | "km_s" => some (dim 1 km 1 .v) | "au_yr" => some (dim 1 r_au yr .v) | "m_s" => some 1
      | "cm_s" => some (dim 1 cm 1 .v) | _ => none
    | .a => match unit with
      | "km_s2" => some (dim 1 km 1 .a) | "au_yr2" => some (dim 1 r_au yr .a) | "m_s2" => some 1
      | "cm_s2" => some (dim 1 cm 1 .a) | _ => none
    | .rho => match unit with
      | "m_sun_pc3" => some (dim m_sun r_pc 1 .rho) | "kg_m3" => some 1 | "g_cm3" => some (dim g cm 1 .rho)
      | _ => none
    | .sigma => match unit with
      | "m_sun_pc2" => some (dim m_sun r_pc 1 .sigma) | "kg_m2" => some 1
      | "g_cm2" => some (dim g cm 1 .sigma) | _ => none
    | .press => match unit with
      | "Pa" => some 1 | "bar" => some (10 ^ 5) | _ => none
    | .f => match unit with
      | "N" => some 1 | "dyn" => some (dim g cm 1 .f) | _ => none
    | .E => match unit with
      | "J" => some 1 | "erg" => some (dim g cm 1 .E) | "GJ" => some (10 ^ 9) | "eV" => some e_charge
      | "10^40erg" => some (10 ^ 40 * dim g cm 1 .E) | _ => none
    | .mom => match unit with
      | "m_sunkm_s" => some (dim m_sun km 1 .mom) | "m_sunau_yr" => some (dim m_sun r_au yr .mom)
      | "kgm_s" => some 1 | "gcm_s" => some (dim g cm 1 .mom) | _ => none
    | .angmom => match unit with
      | "m_sunkm2_s" => some (dim m_sun km 1 .angmom) | "m_sunau2_yr" => some (dim m_sun r_au yr .angmom)
      | "kgm2_s" => some 1 | "gcm2_s" => some (dim g cm 1 .angmom) | _ => none
    | .angvel => match unit with
      | "rad_s" => some 1 | _ => none
    | .dmdt => match unit with
      | "m_sun_myr" => some (dim m_sun 1 (10 ^ 6 * yr) .dmdt) | "m_sun_yr" => some (dim m_sun 1 yr .dmdt)
      | "kg_s" => some 1 | "g_s" => some (dim g 1 1 .dmdt) | _ => none
    | .L => match unit with
      | "L_sun" => some L_sun | "W" => some 1 | "erg_s" => some (dim g cm 1 .L) | _ => none
    | .kappa => match unit with
      | "m2_kg" => some 1 | "cm2_g" => some (dim g cm 1 .kappa) | _ => none
    | .B => match unit with
      | "tesla" => some 1 | "gauss" => some (1 / 10 ^ 4) | _ => none
    | .Q => match unit with
      | "C" => some 1 | "e" => some e_charge | _ => none
    | .Jcur => match unit with
      | "C_s_m2" => some 1 | _ => none
    | .u => match unit with
      | "J_kg" => some 1 | "erg_g" => some (dim g cm 1 .u) | _ => none
    | .dudt => match unit with
      | "J_kg_s" => some 1 | "erg_g_s" => some (dim g cm 1 .dudt) | _ => none
    | .temp => match unit with
      | "K" => some 1 | _ => none

end
end Gandalf.Units
