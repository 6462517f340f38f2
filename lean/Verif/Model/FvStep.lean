import Verif.Model.Vec

/-!
# The integrator of the meshless finite-volume schemes
(src/MeshlessFV/MfvIntegration.cpp, src/MeshlessFV/MeshlessFV.cpp:176-192, main loop in
src/MeshlessFV/MfvMusclSimulation.cpp:84-338)

Numbers are elements of a field. The gas follows the adiabatic equation of state, so that
`ComputeThermalProperties` leaves `u` as it is; `rho`, `sound` and `pressure` are left out, as are the levels where the
limiter does not need them. What the flux loop adds (C26, C72), the gravity (C58, C73) and the new steps (C17, C18) are
inputs of one turn of the main loop. The boundaries (C13) are left out.
-/

set_option autoImplicit false

namespace Gandalf.FvStep

variable {n N : ℕ} {α : Type*} [Field α]

/-- conserved variables `Qcons[nvar]`: momentum, mass, energy -/
@[ext] structure Cons (n : ℕ) (α : Type*) where
  mom : Vec n α
  mass : α
  en : α

/-- the members of `MeshlessFVParticle` used, Headers/Particle.h:134-169, 407-440 -/
structure Part (n : ℕ) (α : Type*) where
  r : Vec n α
  v : Vec n α
  a : Vec n α
  r0 : Vec n α
  v0 : Vec n α
  a0 : Vec n α
  m : α
  u : α
  Q0 : Cons n α
  dQ : Cons n α
  dQdt : Cons n α
  rdmdt : Vec n α
  cooling : α
  dt : α
  dtNext : α
  tlast : α
  nlast : ℤ
  nstep : ℤ
  level : ℤ
  levelneib : ℤ
  /-- `types[ptype].hydro_forces` -/
  hydro : Bool
  active : Bool
  endts : Bool
  dead : Bool

/-- sum of conserved variables -/
def Cons.add (A B : Cons n α) : Cons n α := ⟨fun k => A.mom k + B.mom k, A.mass + B.mass, A.en + B.en⟩

/-- multiple of conserved variables -/
def Cons.smul (x : α) (A : Cons n α) : Cons n α := ⟨fun k => A.mom k * x, A.mass * x, A.en * x⟩

/-- no change -/
def Cons.zero : Cons n α := ⟨fun _ => 0, 0, 0⟩

/-- `UpdateArrayVariables`, MeshlessFV.cpp:179-189 -/
def arrayVars (Q : Cons n α) (p : Part n α) : Part n α :=
  { p with
    m := Q.mass
    v := fun k => Q.mom k / Q.mass
    u := if p.hydro then (Q.en - 1 / 2 * Q.mass * ∑ k, Q.mom k / Q.mass * (Q.mom k / Q.mass)) / Q.mass else p.u }

/-- `Qcons` in `AdvanceParticles` before gravity, MfvIntegration.cpp:71-78 -/
def advancedFlux (dn : ℤ) (dt : α) (p : Part n α) : Cons n α :=
  if dn = p.nstep then p.Q0.add p.dQ else p.Q0.add (Cons.smul dt p.dQdt)

/-- gravity and cooling in `AdvanceParticles`, MfvIntegration.cpp:80-89; the loop over the dimensions changes neither
`Qcons[irho]` nor the components of the momentum still to come -/
def advancedGrav (dt : α) (p : Part n α) (Q : Cons n α) : Cons n α where
  mom := fun k => Q.mom k + 1 / 2 * (p.Q0.mass + Q.mass) * p.a0 k * dt
  mass := Q.mass
  en := Q.en + (∑ k, 1 / 2 * dt * (p.a0 k * (p.Q0.mom k + 1 / 2 * p.Q0.mass * p.a0 k * p.dt) +
      p.a0 k * (Q.mom k + 1 / 2 * Q.mass * p.a0 k * p.dt))) - p.cooling * dt

/-- `AdvanceParticles` for one particle, MfvIntegration.cpp:63-110; `st` is `staticParticles`, `ts` is `timestep` -/
def advance (st : Bool) (m : ℤ) (ts : α) (p : Part n α) : Part n α :=
  if p.dead then p else
  let dt := ts * ((m - p.nlast : ℤ) : α)
  let q := arrayVars (advancedGrav dt p (advancedFlux (m - p.nlast) dt p)) p
  { q with
    active := decide (m - p.nlast = p.nstep)
    r := if st then p.r else fun k => p.r0 k + 1 / 2 * (p.v0 k + q.v k) * dt }

/-- the limiter on the steps, `CheckTimesteps`, MfvIntegration.cpp:242-266; `ld` is `level_diff_max`, `ls` is `level_step`
(`level_new` is not above it, so `nnewstep` is a power of two) -/
def check (ld ls m : ℤ) (ts : α) (p : Part n α) : Part n α :=
  if p.dead then p else
  if p.levelneib - p.level > ld ∧ (m - p.nlast) % 2 ^ (ls - (p.levelneib - ld)).toNat = 0 ∧ m - p.nlast ≠ p.nstep then
    { p with
      nstep := m - p.nlast
      level := p.levelneib - ld
      dt := ((m - p.nlast : ℤ) : α) * ts
      dQ := Cons.smul (((m - p.nlast : ℤ) : α) * ts) p.dQdt
      active := true }
  else p

/-- conserved variables at the end of a step, MfvIntegration.cpp:156-175 -/
def endCons (p : Part n α) : Cons n α :=
  let Q := p.Q0.add p.dQ
  { mom := fun k => Q.mom k + 1 / 2 * p.dt * (p.Q0.mass * p.a0 k + Q.mass * p.a k)
    mass := Q.mass
    en := Q.en + (∑ k, 1 / 2 * p.dt * (p.a0 k * (p.Q0.mom k + 1 / 2 * p.Q0.mass * p.a0 k * p.dt) +
        p.a k * (Q.mom k + 1 / 2 * Q.mass * p.a k * p.dt))) +
      1 / 2 * (dot p.a0 p.rdmdt + dot p.a p.rdmdt) - p.cooling * p.dt }

/-- the values recorded for the next step, MfvIntegration.cpp:159-160, 183-195 -/
def record (m : ℤ) (t : α) (Q : Cons n α) (p : Part n α) : Part n α :=
  { p with
    dQ := Cons.zero
    dQdt := Cons.zero
    r0 := p.r
    v0 := p.v
    a0 := p.a
    rdmdt := fun _ => 0
    Q0 := Q
    cooling := 0
    nlast := m
    tlast := t
    dt := p.dtNext
    dtNext := 0
    active := true
    endts := false }

/-- `EndTimestep` for one particle, MfvIntegration.cpp:142-204 -/
def finish (m : ℤ) (t : α) (p : Part n α) : Part n α :=
  if p.dead then p else
  if m - p.nlast = p.nstep ∨ p.endts = true then record m t (endCons p) (arrayVars (endCons p) p)
  else { p with active := false }

/-- what the flux loop adds to a particle, MeshlessFVTree.cpp:620-626 -/
structure Gain (n : ℕ) (α : Type*) where
  dQ : Cons n α
  dQdt : Cons n α
  rdmdt : Vec n α

/-- the end of the flux loop, MeshlessFVTree.cpp:620-626 -/
def gain (G : Gain n α) (p : Part n α) : Part n α :=
  { p with
    dQ := p.dQ.add G.dQ
    dQdt := if p.active then p.dQdt.add G.dQdt else p.dQdt
    rdmdt := fun k => p.rdmdt k + G.rdmdt k }

/-- a pair in the flux loop: the particle, its neighbour, what flows from the one to the other per unit time
(`DotProduct(flux[var], Aij, ndim)`), and for how long -/
structure Pair (N n : ℕ) (α : Type*) where
  i : Fin N
  j : Fin N
  f : Cons n α
  dt : α

/-- what the pair adds to the buffers of the particle, MfvMuscl.cpp:233-243; `r` are the positions -/
def Pair.own (r : Fin N → Vec n α) (e : Pair N n α) : Gain n α where
  dQ := Cons.smul (-e.dt) e.f
  dQdt := Cons.smul (-1) e.f
  rdmdt := fun k => -((r e.i k - r e.j k) * e.f.mass * e.dt)

/-- what the pair adds to the buffers of the neighbour, MfvMuscl.cpp:237-238, 244 -/
def Pair.other (r : Fin N → Vec n α) (e : Pair N n α) : Gain n α where
  dQ := Cons.smul e.dt e.f
  dQdt := e.f
  rdmdt := fun k => (r e.i k - r e.j k) * e.f.mass * e.dt

/-- sum of two buffers -/
def Gain.add (G H : Gain n α) : Gain n α := ⟨G.dQ.add H.dQ, G.dQdt.add H.dQdt, fun k => G.rdmdt k + H.rdmdt k⟩

/-- empty buffers, MeshlessFVTree.cpp:534-540 -/
def Gain.zero : Gain n α := ⟨Cons.zero, Cons.zero, fun _ => 0⟩

/-- one pair, for the buffers of the particle `x`, MfvMuscl.cpp:233-245, MeshlessFVTree.cpp:591-610 (`dQdt` of a neighbour that
is not active is not used, see `gain`) -/
def addPair (r : Fin N → Vec n α) (x : Fin N) (G : Gain n α) (e : Pair N n α) : Gain n α :=
  let G := if x = e.i then G.add (e.own r) else G
  if x = e.j then G.add (e.other r) else G

/-- the buffers after all pairs -/
def pairGains (r : Fin N → Vec n α) (L : List (Pair N n α)) (x : Fin N) : Gain n α := L.foldl (addPair r x) Gain.zero

/-- new acceleration of the active particles, MfvMusclSimulation.cpp:158-185, MeshlessFV.cpp:302-310: a function of the
positions and masses -/
def force (F : (Fin N → Vec n α) → (Fin N → α) → Fin N → Vec n α) (s : Fin N → Part n α) : Fin N → Part n α :=
  fun i => if (s i).active then { s i with a := F (fun j => (s j).r) (fun j => (s j).m) i } else s i

/-- a particle at the end of its step gets a new step and is marked, Simulation.cpp:1764-2197 -/
def assign (m ns : ℤ) (d : α) (p : Part n α) : Part n α :=
  if m - p.nlast = p.nstep then
    { p with
      endts := true
      nstep := ns
      dtNext := d }
  else p

/-- one turn of the main loop: integer time, time, base step, what the flux loop adds, new steps -/
structure Tick (N n : ℕ) (α : Type*) where
  m : ℤ
  t : α
  ts : α
  gain : Fin N → Gain n α
  ns : Fin N → ℤ
  d : Fin N → α

/-- the main loop of the MUSCL scheme, MfvMusclSimulation.cpp:84-307 (without sinks, dust and the limiter `check`) -/
def tick (st : Bool) (F : (Fin N → Vec n α) → (Fin N → α) → Fin N → Vec n α) (s : Fin N → Part n α) (c : Tick N n α) :
    Fin N → Part n α :=
  let s := fun i => advance st c.m c.ts (gain (c.gain i) (s i))
  let s := force F s
  fun i => finish c.m c.t (assign c.m (c.ns i) (c.d i) (s i))

end Gandalf.FvStep
