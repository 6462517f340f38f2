import Verif.Model.Lattice
import Verif.Model.Sinks

/-! # Supernova feedback and new particles

`Supernova::SupernovaInjection` (src/Feedback/Supernova.cpp:52-167), the drivers
(src/Feedback/SupernovaDriver.cpp:48-264), `Hydrodynamics::CreateNewParticle`
(src/Hydrodynamics/Hydrodynamics.cpp:132-179) with `AllocateMemory` (src/GradhSph/GradhSph.cpp:83-111), and the steps of the
integrators that follow (src/Hydrodynamics/SphLeapfrogKDK.cpp, src/MeshlessFV/MfvIntegration.cpp), over the reals.
The list of the neighbours is an input (`GetGatherNeighbourList`, C07), and so are the random positions (C66). Members of the
particles that are neither read nor written here are left out. -/

set_option autoImplicit false

namespace Gandalf.Sn

open Real

variable {n : ℕ}

/-- the members of `SphParticle` used, Headers/Particle.h:134-169 -/
structure Part (n : ℕ) where
  ptype : ℤ
  iorig : ℤ
  level : ℤ
  levelneib : ℤ
  nstep : ℤ
  nlast : ℤ
  tlast : ℝ
  dt : ℝ
  dtNext : ℝ
  m : ℝ
  h : ℝ
  u : ℝ
  u0 : ℝ
  dudt : ℝ
  dudt0 : ℝ
  r : Vec n ℝ
  v : Vec n ℝ
  a : Vec n ℝ
  r0 : Vec n ℝ
  v0 : Vec n ℝ
  a0 : Vec n ℝ
  active : Bool
  endts : Bool
  dead : Bool

/-- a new element of the array, Headers/Particle.h:180-219 -/
def Part.fresh : Part n :=
  ⟨0, -1, 0, 0, 0, 0, 0, 0, 0, 0, 1, 0, 0, 0, 0, 0, 0, 0, 0, 0, 0, false, false, false⟩

/-! ### the explosion -/

/-- what `SupernovaInjection` is called with, and `hydro->mmean` and `small_number` -/
structure Args (n : ℕ) where
  pos : Vec n ℝ
  Einj : ℝ
  R : ℝ
  Minj : ℝ
  Rinj : ℝ
  mmean : ℝ
  small : ℝ

/-- `Ninject`, Supernova.cpp:71; `Minj` is not negative -/
noncomputable def ninject (s : Args n) : ℕ := ⌊s.Minj / s.mmean⌋₊

/-- `vrad_mag`, Supernova.cpp:116; `N` is `nSNinject` -/
noncomputable def vrad (s : Args n) (N : ℕ) : ℝ := sqrt (2 / (N : ℝ) / s.mmean * s.Einj * 1 / (s.R + 1))

/-- `etherm_mag`, Supernova.cpp:117 -/
noncomputable def etherm (s : Args n) (N : ℕ) : ℝ := 1 / (1 + 1 / s.R) * s.Einj / (N : ℝ)

/-- `uinj`, Supernova.cpp:118 -/
noncomputable def uinj (s : Args n) (N : ℕ) : ℝ := etherm s N / s.mmean

/-- `drmag`, Supernova.cpp:132-134 and 151-153 -/
noncomputable def drmag (s : Args n) (r : Vec n ℝ) : ℝ :=
  sqrt (dot (fun k => r k - s.pos k) (fun k => r k - s.pos k)) + s.small

/-- the new velocity of a particle at `r`, Supernova.cpp:138 and 154 -/
noncomputable def blast (s : Args n) (N : ℕ) (r : Vec n ℝ) : Vec n ℝ := fun k =>
  (r k - s.pos k) / drmag s r * vrad s N

/-- a particle that exists already, Supernova.cpp:132-142 -/
noncomputable def heat (s : Args n) (N : ℕ) (p : Part n) : Part n :=
  { p with
    u := p.u + uinj s N
    v := blast s N p.r
    a := 0 }

/-! ### new particles -/

/-- the particle array: `part i` for `i < Nhydromax` -/
structure Store (n : ℕ) where
  part : ℕ → Part n
  Nhydro : ℕ
  Nhydromax : ℕ
  Ntot : ℕ

/-- the clock of the simulation: `n`, `t`, `level_step`, `level_max` -/
structure Clock where
  n : ℤ
  t : ℝ
  levelStep : ℕ
  levelMax : ℕ

/-- `AllocateMemory(N)`, GradhSph.cpp:87-103 (the same in SM2012Sph.cpp and MeshlessFV.cpp) -/
def allocate (N : ℕ) (s : Store n) : Store n :=
  if N > s.Nhydromax then
    { s with
      part := fun i => if i < s.Nhydromax then s.part i else Part.fresh
      Nhydromax := N }
  else s

/-- Hydrodynamics.cpp:142-145; the truncated product is exact here (`1.2*Nhydromax` in the code) -/
def makeRoom (s : Store n) : Store n :=
  if s.Nhydro ≥ s.Nhydromax then allocate (6 * s.Nhydromax / 5) s else s

/-- the members set in Hydrodynamics.cpp:154-176; the others stay as they are in the place `old`. `pow(2, …)` is a power of two as
`level_max` is not above `level_step` -/
def newPart (c : Clock) (inew : ℕ) (ptype : ℤ) (m u : ℝ) (r v : Vec n ℝ) (old : Part n) : Part n :=
  { old with
    iorig := inew
    ptype := ptype
    level := c.levelMax
    levelneib := c.levelMax
    nstep := 2 ^ (c.levelStep - c.levelMax)
    nlast := c.n - 2 ^ (c.levelStep - c.levelMax)
    tlast := c.t
    m := m
    h := 1
    u := u
    u0 := u
    dudt := 0
    r := r
    v := v
    a := 0
    r0 := r
    v0 := v
    a0 := 0
    active := true
    endts := false
    dead := false }

/-- `CreateNewParticle`, Hydrodynamics.cpp:132-179; `none`: the place is outside of the array -/
def create (c : Clock) (ptype : ℤ) (m u : ℝ) (r v : Vec n ℝ) (s : Store n) : Option (Store n) :=
  let s1 := makeRoom s
  if s1.Nhydro < s1.Nhydromax then
    some { s1 with
      part := Function.update s1.part s1.Nhydro (newPart c s1.Nhydro ptype m u r v (s1.part s1.Nhydro))
      Nhydro := s1.Nhydro + 1
      Ntot := s1.Ntot + 1 }
  else none

/-- the loop over the new particles, Supernova.cpp:147-159; `gas_type` is 0 -/
noncomputable def createAll (c : Clock) (s : Args n) (N : ℕ) : List (Vec n ℝ) → Store n → Option (Store n)
  | [], st => some st
  | x :: xs, st => (create c 0 s.mmean (uinj s N) x (blast s N x) st).bind (createAll c s N xs)

/-- the loop over the neighbours, Supernova.cpp:126-143 -/
noncomputable def heatAll (s : Args n) (N : ℕ) (neib : List ℕ) (st : Store n) : Store n :=
  { st with part := neib.foldl (fun q i => Function.update q i (heat s N (q i))) st.part }

/-- `SupernovaInjection`, Supernova.cpp:52-167; `pos` are the random positions, `neib` the neighbours found -/
noncomputable def inject (c : Clock) (s : Args n) (neib : List ℕ) (pos : List (Vec n ℝ)) (st : Store n) : Option (Store n) :=
  let N := pos.length + neib.length
  createAll c s N pos (heatAll s N neib st)

/-! ### the drivers -/

/-- `SedovTestDriver::Update`, SupernovaDriver.cpp:74-89: whether a supernova goes off, and `Nsupernova` -/
noncomputable def sedov (tsn t : ℝ) (N : ℕ) : Bool × ℕ :=
  open Classical in if N = 0 ∧ tsn ≤ t then (true, N + 1) else (false, N)

/-- `Nsupernova` and `tnext` of `RandomSedovTestDriver` -/
structure Random where
  N : ℕ
  tnext : ℝ

/-- SupernovaDriver.cpp:106-107; `tsn` is `tsupernova` -/
noncomputable def Random.init (tsn : ℝ) : Random := ⟨0, 1 / 2 * tsn⟩

open Classical in
/-- `RandomSedovTestDriver::Update`, SupernovaDriver.cpp:129-146 -/
noncomputable def Random.update (tsn t : ℝ) (s : Random) : Random :=
  if s.tnext ≤ t then ⟨s.N + 1, (((s.N + 1 : ℕ) : ℝ) + 1 / 2) * tsn⟩ else s

/-- calls at the times `ts` -/
noncomputable def Random.run (tsn : ℝ) (ts : List ℝ) (s : Random) : Random := ts.foldl (fun s t => s.update tsn t) s

open Classical in
/-- `SilccSupernovaDriver::Update`, SupernovaDriver.cpp:247-260: the new `SNid`; `none`: `SNtime` is read outside of the array. -/
noncomputable def silcc (SNtime : List ℝ) (t : ℝ) (SNid : ℕ) : Option ℕ :=
  (SNtime[SNid]?).map fun x => if x ≤ t then SNid + 1 else SNid

/-- calls at the times `ts` -/
noncomputable def silccRun (SNtime : List ℝ) : List ℝ → ℕ → Option ℕ
  | [], i => some i
  | t :: ts, i => (silcc SNtime t i).bind (silccRun SNtime ts)

/-! ### what the integrators do next -/

/-- `SphLeapfrogKDK::AdvanceParticles`, SphLeapfrogKDK.cpp:99-118 -/
noncomputable def advance (m : ℤ) (t : ℝ) (p : Part n) : Part n :=
  if p.dead then p
  else
    { p with
      r := fun k => p.r0 k + p.v0 k * (t - p.tlast) + 1 / 2 * p.a0 k * (t - p.tlast) * (t - p.tlast)
      v := fun k => p.v0 k + p.a0 k * (t - p.tlast)
      u := p.u0 + p.dudt0 * (t - p.tlast)
      active := decide (m - p.nlast = p.nstep) }

/-- the force routine on an active particle: new acceleration and heating rate -/
def force (A : Vec n ℝ) (D : ℝ) (p : Part n) : Part n :=
  if p.active then { p with a := A, dudt := D } else p

/-- the marking of particles at the end of their step, Simulation.cpp:1764-2197, with the new step -/
def assign (m ns : ℤ) (d : ℝ) (p : Part n) : Part n :=
  if m - p.nlast = p.nstep then
    { p with
      endts := true
      nstep := ns
      dtNext := d }
  else p

open Classical in
/-- the internal energy at the end of a step, SphLeapfrogKDK.cpp:249-253 -/
noncomputable def energyEnd (p : Part n) : ℝ :=
  if p.u + 1 / 2 * (p.dudt - p.dudt0) * p.dt ≤ 0 then p.u0 + p.dudt0 * p.dt
  else p.u + 1 / 2 * (p.dudt - p.dudt0) * p.dt

/-- `SphLeapfrogKDK::EndTimestep`, SphLeapfrogKDK.cpp:238-265 -/
noncomputable def finish (m : ℤ) (t : ℝ) (p : Part n) : Part n :=
  if p.dead then p
  else if p.endts then
    { p with
      v := fun k => p.v k + 1 / 2 * p.dt * (p.a k - p.a0 k)
      r0 := p.r
      v0 := fun k => p.v k + 1 / 2 * p.dt * (p.a k - p.a0 k)
      a0 := p.a
      u := energyEnd p
      u0 := energyEnd p
      dudt0 := p.dudt
      nlast := m
      tlast := t
      dt := p.dtNext
      dtNext := 0
      active := false
      endts := false }
  else p

/-- the rest of the main loop after the explosion, SphSimulation.cpp:634-873 -/
noncomputable def rest (m : ℤ) (t : ℝ) (A : Vec n ℝ) (D : ℝ) (ns : ℤ) (d : ℝ) (p : Part n) : Part n :=
  finish m t (assign m ns d (force A D p))

/-- the members of `MeshlessFVParticle` used; `Q` is mass, momentum and energy -/
structure Fv (n : ℕ) where
  m : ℝ
  v : Vec n ℝ
  u : ℝ
  a : Vec n ℝ
  a0 : Vec n ℝ
  dt : ℝ
  cooling : ℝ
  rdmdt : Vec n ℝ
  Q0 : ℝ × Vec n ℝ × ℝ
  dQ : ℝ × Vec n ℝ × ℝ

/-- Supernova.cpp:135-142 on a particle of the finite-volume scheme at `r` -/
noncomputable def heatFv (s : Args n) (N : ℕ) (r : Vec n ℝ) (p : Fv n) : Fv n :=
  { p with
    u := p.u + uinj s N
    v := blast s N r
    a := 0 }

/-- `Qcons` at the end of a step, MfvIntegration.cpp:157-175 -/
noncomputable def endQ (p : Fv n) : ℝ × Vec n ℝ × ℝ :=
  let Qm := p.Q0.1 + p.dQ.1
  let Qv : Vec n ℝ := fun k => p.Q0.2.1 k + p.dQ.2.1 k
  let Qe := p.Q0.2.2 + p.dQ.2.2
  (Qm, fun k => Qv k + 1 / 2 * p.dt * (p.Q0.1 * p.a0 k + Qm * p.a k),
    Qe + (∑ k, 1 / 2 * p.dt * (p.a0 k * (p.Q0.2.1 k + 1 / 2 * p.Q0.1 * p.a0 k * p.dt) +
        p.a k * (Qv k + 1 / 2 * Qm * p.a k * p.dt))) +
      1 / 2 * (dot p.a0 p.rdmdt + dot p.a p.rdmdt) - p.cooling * p.dt)

/-- `UpdateArrayVariables`, MeshlessFV.cpp:179-189, for a gas particle -/
noncomputable def arrayVars (Q : ℝ × Vec n ℝ × ℝ) (p : Fv n) : Fv n :=
  { p with
    m := Q.1
    v := fun k => Q.2.1 k / Q.1
    u := (Q.2.2 - 1 / 2 * Q.1 * ∑ k, Q.2.1 k / Q.1 * (Q.2.1 k / Q.1)) / Q.1 }

/-- the end of a step of the finite-volume scheme with the acceleration `A`, MfvIntegration.cpp:157-188 -/
noncomputable def finishFv (A : Vec n ℝ) (p : Fv n) : Fv n :=
  let p1 := { p with a := A }
  { arrayVars (endQ p1) p1 with
    Q0 := endQ p1
    dQ := (0, 0, 0) }

/-- `AdvanceParticles` of the finite-volume scheme in the middle of a step: `Qcons` from the rates `dQdt`,
MfvIntegration.cpp:77-98; `dQdt` here is the rate, the flag `active` left out -/
noncomputable def advanceFv (dQdt : ℝ × Vec n ℝ × ℝ) (dt : ℝ) (p : Fv n) : Fv n :=
  let Qm := p.Q0.1 + dQdt.1 * dt
  let Qv : Vec n ℝ := fun k => p.Q0.2.1 k + dQdt.2.1 k * dt
  let Qe := p.Q0.2.2 + dQdt.2.2 * dt
  arrayVars (Qm, fun k => Qv k + 1 / 2 * (p.Q0.1 + Qm) * p.a0 k * dt,
    Qe + (∑ k, 1 / 2 * dt * (p.a0 k * (p.Q0.2.1 k + 1 / 2 * p.Q0.1 * p.a0 k * p.dt) +
        p.a0 k * (Qv k + 1 / 2 * Qm * p.a0 k * p.dt))) - p.cooling * dt) p

end Gandalf.Sn
