import Verif.Model.Vec

/-!
# Leapfrog integrators
(src/Hydrodynamics/SphLeapfrogKDK.cpp, SphLeapfrogDKD.cpp, src/Nbody/NbodyLeapfrogKDK.cpp,
NbodyLeapfrogDKD.cpp, and the parts of the main loops that call them)

Numbers are elements of a field. Left out: the internal energy and `alpha`, the boundary wrapping
between advance and force (C13), dead particles. The force routine is a parameter `F` that sees the
positions of all particles. The times and the new steps that `ComputeBlockTimesteps` hands out (C17,
C18, C52) are inputs of one turn of the main loop.
-/

set_option autoImplicit false

namespace Gandalf.Leap

variable {n N : ℕ} {α : Type*} [Field α]

/-- the members of `Particle`/`NbodyParticle` the integrators use, Headers/Particle.h:160-200,
Headers/NbodyParticle.h:45-80 -/
structure Body (n : ℕ) (α : Type*) where
  r : Vec n α
  v : Vec n α
  a : Vec n α
  r0 : Vec n α
  v0 : Vec n α
  a0 : Vec n α
  tlast : α
  dt : α
  dtNext : α
  nlast : ℤ
  nstep : ℤ
  active : Bool
  endts : Bool

/-- `AdvanceParticles` of the kick-drift-kick schemes for one particle: SphLeapfrogKDK.cpp:102-121,
NbodyLeapfrogKDK.cpp:273-286 -/
def kdkAdvance (m : ℤ) (t : α) (p : Body n α) : Body n α :=
  { p with
    r := fun k => p.r0 k + p.v0 k * (t - p.tlast) + 1 / 2 * p.a0 k * (t - p.tlast) * (t - p.tlast)
    v := fun k => p.v0 k + p.a0 k * (t - p.tlast)
    active := decide (m - p.nlast = p.nstep) }

/-- what every `EndTimestep` does with the starting values and the clock, NbodyLeapfrogKDK.cpp:360-373,
SphLeapfrogKDK.cpp:243-265, SphLeapfrogDKD.cpp:194-209, NbodyLeapfrogDKD.cpp:322-332 -/
def record (m : ℤ) (t : α) (p : Body n α) : Body n α :=
  { p with
    r0 := p.r
    v0 := p.v
    a0 := p.a
    nlast := m
    tlast := t
    dt := p.dtNext
    dtNext := 0
    active := false
    endts := false }

/-- `SphLeapfrogKDK::EndTimestep`, SphLeapfrogKDK.cpp:241-265: the correction of the velocity is done
here, with the recorded step length `dt` -/
def sphKdkEnd (m : ℤ) (t : α) (p : Body n α) : Body n α :=
  if p.endts then
    record m t { p with v := fun k => p.v k + 1 / 2 * p.dt * (p.a k - p.a0 k) }
  else p

/-- `NbodyLeapfrogKDK::CorrectionTerms`, NbodyLeapfrogKDK.cpp:322-329 -/
def kdkCorrect (m : ℤ) (t : α) (p : Body n α) : Body n α :=
  if m - p.nlast = p.nstep then
    { p with v := fun k => p.v k + 1 / 2 * (p.a k - p.a0 k) * (t - p.tlast) }
  else p

/-- `EndTimestep` of the other schemes -/
def plainEnd (m : ℤ) (t : α) (p : Body n α) : Body n α :=
  if p.endts then record m t p else p

/-- `AdvanceParticles` of the drift-kick-drift schemes: SphLeapfrogDKD.cpp:102-130,
NbodyLeapfrogDKD.cpp:272-292 -/
def dkdAdvance (m : ℤ) (t : α) (p : Body n α) : Body n α :=
  if m - p.nlast < p.nstep then
    { p with
      r := fun k => p.r0 k + p.v0 k * (t - p.tlast)
      v := fun k => p.v0 k + p.a k * (t - p.tlast)
      active := decide (m - p.nlast = p.nstep / 2) }
  else
    { p with
      v := fun k => p.v0 k + p.a k * (t - p.tlast)
      r := fun k => p.r0 k + 1 / 2 * (p.v0 k + (p.v0 k + p.a k * (t - p.tlast))) * (t - p.tlast)
      active := decide (m - p.nlast = p.nstep / 2) }

/-- the force routine: new accelerations for the active particles, SphSimulation.cpp:660-737,
NbodySimulation.cpp:329-350 -/
def force (F : (Fin N → Vec n α) → Fin N → Vec n α) (s : Fin N → Body n α) : Fin N → Body n α :=
  fun i => if (s i).active then { s i with a := F (fun j => (s j).r) i } else s i

/-- a particle at the end of its step gets a new step and is marked, Simulation.cpp:1764-2197 (the
choice of the new step is the subject of C17 and C18) -/
def assign (m : ℤ) (ns : ℤ) (d : α) (p : Body n α) : Body n α :=
  if m - p.nlast = p.nstep then
    { p with
      endts := true
      nstep := ns
      dtNext := d }
  else p

/-- one turn of the main loop: the integer time, the time and the new steps handed out -/
structure Tick (N : ℕ) (α : Type*) where
  m : ℤ
  t : α
  ns : Fin N → ℤ
  d : Fin N → α

/-- main loop with `SphLeapfrogKDK`, SphSimulation.cpp:587-876 -/
def sphKdkTick (F : (Fin N → Vec n α) → Fin N → Vec n α) (s : Fin N → Body n α) (c : Tick N α) :
    Fin N → Body n α :=
  let s := force F fun i => kdkAdvance c.m c.t (s i)
  let s := fun i => assign c.m (c.ns i) (c.d i) (s i)
  fun i => sphKdkEnd c.m c.t (s i)

/-- `Npec` rounds of force and correction, NbodySimulation.cpp:329-361, SphSimulation.cpp:775-817 -/
def pec (F : (Fin N → Vec n α) → Fin N → Vec n α) (m : ℤ) (t : α) :
    ℕ → (Fin N → Body n α) → Fin N → Body n α
  | 0, s => s
  | k + 1, s => pec F m t k fun i => kdkCorrect m t (force F s i)

/-- main loop with `NbodyLeapfrogKDK`, NbodySimulation.cpp:318-402 -/
def nbodyKdkTick (npec : ℕ) (F : (Fin N → Vec n α) → Fin N → Vec n α) (s : Fin N → Body n α)
    (c : Tick N α) : Fin N → Body n α :=
  let s := pec F c.m c.t npec fun i => kdkAdvance c.m c.t (s i)
  let s := fun i => assign c.m (c.ns i) (c.d i) (s i)
  fun i => plainEnd c.m c.t (s i)

/-- main loop with the drift-kick-drift schemes (`CorrectionTerms` is empty, Headers/Nbody.h:228,
Headers/Integration.h:153) -/
def dkdTick (F : (Fin N → Vec n α) → Fin N → Vec n α) (s : Fin N → Body n α) (c : Tick N α) :
    Fin N → Body n α :=
  let s := force F fun i => dkdAdvance c.m c.t (s i)
  let s := fun i => assign c.m (c.ns i) (c.d i) (s i)
  fun i => plainEnd c.m c.t (s i)

end Gandalf.Leap
