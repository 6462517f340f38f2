import Verif.Model.Supernova

/-! # What is asked of an explosion -/

set_option autoImplicit false

namespace Gandalf.Sn

variable {n : ℕ}

/-- kinetic energy of a particle -/
noncomputable def kin (p : Part n) : ℝ := 1 / 2 * p.m * dot p.v p.v

/-- kinetic and thermal energy of a particle -/
noncomputable def ener (p : Part n) : ℝ := kin p + p.m * p.u

/-- mass of the gas -/
noncomputable def gasMass (s : Store n) : ℝ := ∑ i ∈ Finset.range s.Nhydro, (s.part i).m

/-- energy of the gas -/
noncomputable def gasEnergy (s : Store n) : ℝ := ∑ i ∈ Finset.range s.Nhydro, ener (s.part i)

/-- momentum of the gas -/
noncomputable def gasMomentum (s : Store n) : Vec n ℝ := fun k =>
  ∑ i ∈ Finset.range s.Nhydro, (s.part i).m * (s.part i).v k

/-- a store with room: the particles fit, and there is room for five -/
structure Store.OK (s : Store n) : Prop where
  fits : s.Nhydro ≤ s.Nhydromax
  five : 5 ≤ s.Nhydromax

/-- neighbours: different real particles -/
structure Neibs (s : Store n) (neib : List ℕ) : Prop where
  nodup : neib.Nodup
  real : ∀ i ∈ neib, i < s.Nhydro

/-- sensible numbers for an explosion -/
structure Args.OK (s : Args n) : Prop where
  Einj : 0 ≤ s.Einj
  R : 0 < s.R
  Minj : 0 ≤ s.Minj
  mmean : 0 < s.mmean
  small : 0 ≤ s.small

end Gandalf.Sn
