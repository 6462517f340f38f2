import Verif.Model.FluidIcs

/-! # What the initial conditions of a fluid should be -/

set_option autoImplicit false

namespace Gandalf.FluidSpec

open FluidIc

variable {n : ℕ}

/-- mass of a set of particles -/
def mass (l : List (Part n)) : ℝ := (l.map fun p => p.m).sum

/-- momentum of a set of particles -/
def momentum (l : List (Part n)) (k : Fin n) : ℝ := (l.map fun p => p.m * p.v k).sum

/-- a particle of a gas of density `rho` and pressure `press`, at adiabatic index `gamma`: its internal energy gives that
pressure, and its smoothing length is `hfac` times the side of a cube that holds its mass -/
structure Fluid (hfac gamma rho press : ℝ) (p : Part n) : Prop where
  pressure : (gamma - 1) * rho * p.u = press
  spacing : p.h ^ n * rho = hfac ^ n * p.m

/-- a place in a box -/
def Inside (lo hi x : Vec n ℝ) : Prop := ∀ k, lo k ≤ x k ∧ x k ≤ hi k

/-- volume of a box -/
noncomputable def boxVolume (lo hi : Vec n ℝ) : ℝ := ∏ k, (hi k - lo k)

end Gandalf.FluidSpec
