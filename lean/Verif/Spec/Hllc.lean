import Verif.Model.Hllc

/-! Specification for the HLLC solver: physical fluxes and admissible states. -/

set_option autoImplicit false

namespace Gandalf.Hllc

variable {n : ℕ}

/-- The flux of mass, momentum and total energy per unit area through a face with normal `nrm` that moves with velocity
`vface`, of a gas with density `rho`, velocity `v` (lab frame), pressure `press` and internal energy per volume `eint`. -/
noncomputable def labFlux (rho : ℝ) (v : Vec n ℝ) (press eint : ℝ) (nrm vface : Vec n ℝ) : Flux n where
  mass := rho * dot (fun i => v i - vface i) nrm
  mom := fun i => rho * dot (fun i => v i - vface i) nrm * v i + press * nrm i
  en := (dot (fun i => v i - vface i) nrm) * (rho * (dot v v) / 2 + eint) + press * dot v nrm

/-- A state of positive density, pressure and sound speed whose velocity along the normal and total energy (with internal
energy per volume `eint`) are consistent with the velocity. -/
structure Admissible (S : St n) (nrm : Vec n ℝ) (eint : ℝ) : Prop where
  rho_pos : 0 < S.rho
  press_pos : 0 < S.press
  cs_pos : 0 < S.cs
  line : S.vline = dot S.v nrm
  energy : S.e = S.rho * dot S.v S.v / 2 + eint

/-- the sound speed of an ideal gas -/
def IdealGas (gamma : ℝ) (S : St n) : Prop := S.rho * S.cs ^ 2 = gamma * S.press

/-- a state with its velocity measured in a frame moving with velocity `w` -/
noncomputable def boost (S : St n) (nrm w : Vec n ℝ) (eint : ℝ) : St n where
  v := fun i => S.v i - w i
  rho := S.rho
  press := S.press
  e := S.rho * (dot (fun i => S.v i - w i) fun i => S.v i - w i) / 2 + eint
  cs := S.cs
  vline := S.vline - dot w nrm

/-- the same state seen along the opposite normal -/
def rev (S : St n) : St n := { S with vline := -S.vline }

/-- the sum of two fluxes vanishes -/
def Flux.Opposite (f g : Flux n) : Prop := (∀ i, f.mom i = -g.mom i) ∧ f.mass = -g.mass ∧ f.en = -g.en

end Gandalf.Hllc

namespace Gandalf.Hllc

variable {n : ℕ}

/-- The jump conditions across a wave of speed `s` between two states: what flows in minus what flows out is what the
moving wave sweeps up. -/
structure Jump (S T : St n) (nrm : Vec n ℝ) (s : ℝ) : Prop where
  mass : T.rho * T.vline - S.rho * S.vline = s * (T.rho - S.rho)
  mom : ∀ i, (T.rho * T.vline * T.v i + T.press * nrm i) - (S.rho * S.vline * S.v i + S.press * nrm i) =
    s * (T.rho * T.v i - S.rho * S.v i)
  en : (T.press + T.e) * T.vline - (S.press + S.e) * S.vline = s * (T.e - S.e)

/-- Three waves of increasing speed, with two intermediate states that have the same pressure and normal velocity, positive
density and positive internal energy, and an unchanged transverse velocity; the outer waves outrun the sound waves. -/
structure Fan (Sl SL SR Sr : St n) (nrm : Vec n ℝ) (s1 vm s3 pstar : ℝ) : Prop where
  left : s1 < vm
  right : vm < s3
  sound_left : s1 ≤ Sl.vline - Sl.cs
  sound_right : Sr.vline + Sr.cs ≤ s3
  jump_left : Jump Sl SL nrm s1
  jump_right : Jump SR Sr nrm s3
  contact : SL.vline = vm ∧ SR.vline = vm ∧ SL.press = pstar ∧ SR.press = pstar
  line : SL.vline = dot SL.v nrm ∧ SR.vline = dot SR.v nrm
  dens : 0 < SL.rho ∧ 0 < SR.rho
  eint : SL.rho * dot SL.v SL.v / 2 < SL.e ∧ SR.rho * dot SR.v SR.v / 2 < SR.e
  trans : ∀ i, SL.v i - SL.vline * nrm i = Sl.v i - Sl.vline * nrm i ∧ SR.v i - SR.vline * nrm i = Sr.v i - Sr.vline * nrm i

end Gandalf.Hllc
