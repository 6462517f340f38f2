import Verif.Model.NbodyForces

/-!
# Hermite integrators of the stars
(src/Nbody/NbodyHermite4.cpp, NbodyHermite4TS.cpp, NbodyHermite6TS.cpp, and the turn of the main loop in
NbodySimulation.cpp that calls them)

Over `ℝ`; `onesixth`, `onetwelfth` are the fractions they stand for. Sub-systems and perturbers are
off. `ndim = vdim`.
-/

set_option autoImplicit false

namespace Gandalf.Hermite

variable {n N : ℕ}

/-- members of `NbodyParticle` used by the integrators, Headers/NbodyParticle.h:45-80 -/
structure Body (n : ℕ) where
  r : Vec n ℝ
  v : Vec n ℝ
  a : Vec n ℝ
  adot : Vec n ℝ
  a2dot : Vec n ℝ
  a3dot : Vec n ℝ
  r0 : Vec n ℝ
  v0 : Vec n ℝ
  a0 : Vec n ℝ
  adot0 : Vec n ℝ
  a2dot0 : Vec n ℝ
  tlast : ℝ
  nlast : ℤ
  nstep : ℤ
  active : Bool
  endts : Bool

/-- `NbodyHermite4::AdvanceParticles` for one star, NbodyHermite4.cpp:359-373 (also used by the
time-symmetric class, which does not override it) -/
noncomputable def advance4 (m : ℤ) (t : ℝ) (p : Body n) : Body n :=
  let dt := t - p.tlast
  { p with
    r := fun k => p.r0 k + p.v0 k * dt + 0.5 * p.a0 k * dt * dt + 1 / 6 * p.adot0 k * dt * dt * dt
    v := fun k => p.v0 k + p.a0 k * dt + 0.5 * p.adot0 k * dt * dt
    active := decide (m - p.nlast = p.nstep) }

/-- second derivative from the interpolation, NbodyHermite4.cpp:418-419, NbodyHermite4TS.cpp:105-106 -/
noncomputable def interp2 (dt a0 a j0 j : ℝ) : ℝ :=
  (-6 * (a0 - a) - dt * (4 * j0 + 2 * j)) * (1 / dt) * (1 / dt)

/-- third derivative, NbodyHermite4.cpp:420-421, NbodyHermite4TS.cpp:107-108, NbodyHermite6TS.cpp:532-533 -/
noncomputable def interp3 (dt a0 a j0 j : ℝ) : ℝ :=
  (12 * (a0 - a) + 6 * dt * (j0 + j)) * (1 / dt) * (1 / dt) * (1 / dt)

/-- `NbodyHermite4::CorrectionTerms` for one star, NbodyHermite4.cpp:408-435 -/
noncomputable def correct4 (m : ℤ) (t : ℝ) (p : Body n) : Body n :=
  if m - p.nlast = p.nstep then
    let dt := t - p.tlast
    let dt3 := dt ^ 3
    let a2 : Vec n ℝ := fun k => interp2 dt (p.a0 k) (p.a k) (p.adot0 k) (p.adot k)
    let a3 : Vec n ℝ := fun k => interp3 dt (p.a0 k) (p.a k) (p.adot0 k) (p.adot k)
    { p with
      a2dot := a2
      a3dot := a3
      r := fun k => p.r k + (a2 k * dt3 * dt / 24 + a3 k * dt3 * dt * dt / 120)
      v := fun k => p.v k + (a2 k * dt3 / 6 + a3 k * dt3 * dt / 24) }
  else p

/-- `NbodyHermite4TS::CorrectionTerms` for one star, NbodyHermite4TS.cpp:96-117 -/
noncomputable def correct4TS (m : ℤ) (t : ℝ) (p : Body n) : Body n :=
  if m - p.nlast = p.nstep then
    let dt := t - p.tlast
    let v : Vec n ℝ := fun k =>
      p.v0 k + 0.5 * (p.a0 k + p.a k) * dt - 1 / 12 * (p.adot k - p.adot0 k) * dt * dt
    { p with
      a2dot := fun k => interp2 dt (p.a0 k) (p.a k) (p.adot0 k) (p.adot k)
      a3dot := fun k => interp3 dt (p.a0 k) (p.a k) (p.adot0 k) (p.adot k)
      v := v
      r := fun k => p.r0 k + 0.5 * (p.v0 k + v k) * dt - 1 / 12 * (p.a k - p.a0 k) * dt * dt }
  else p

/-- `NbodyHermite6TS::AdvanceParticles` for one star, NbodyHermite6TS.cpp:470-486 -/
noncomputable def advance6 (m : ℤ) (t : ℝ) (p : Body n) : Body n :=
  let dt := t - p.tlast
  let dt2 := dt * dt
  { p with
    r := fun k => p.r0 k + p.v0 k * dt + 0.5 * p.a0 k * dt2 + 1 / 6 * p.adot0 k * dt2 * dt +
      0.5 * (1 / 12) * p.a2dot0 k * dt2 * dt2
    v := fun k => p.v0 k + p.a0 k * dt + 0.5 * p.adot0 k * dt2 + 1 / 6 * p.a2dot0 k * dt2 * dt
    active := decide (m - p.nlast = p.nstep) }

/-- `NbodyHermite6TS::CorrectionTerms` for one star, NbodyHermite6TS.cpp:522-545 -/
noncomputable def correct6TS (m : ℤ) (t : ℝ) (p : Body n) : Body n :=
  if m - p.nlast = p.nstep then
    let dt := t - p.tlast
    let dt3 := dt ^ 3
    let v : Vec n ℝ := fun k =>
      p.v0 k + 0.5 * (p.a0 k + p.a k) * dt - 0.1 * (p.adot k - p.adot0 k) * dt * dt +
        1 / 120 * (p.a2dot k + p.a2dot0 k) * dt3
    { p with
      a3dot := fun k => interp3 dt (p.a0 k) (p.a k) (p.adot0 k) (p.adot k)
      v := v
      r := fun k => p.r0 k + 0.5 * (p.v0 k + v k) * dt - 0.1 * (p.a k - p.a0 k) * dt * dt +
        1 / 120 * (p.adot k + p.adot0 k) * dt3 }
  else p

/-- `EndTimestep`, NbodyHermite4.cpp:512-526, NbodyHermite6TS.cpp:595-609 (only the latter keeps
`a2dot0`, which only it uses) -/
def endStep (m : ℤ) (t : ℝ) (p : Body n) : Body n :=
  if p.endts then
    { p with
      r0 := p.r
      v0 := p.v
      a0 := p.a
      adot0 := p.adot
      a2dot0 := p.a2dot
      nlast := m
      tlast := t
      active := false
      endts := false }
  else p

/-- the derivatives of one active star are cleared and computed anew, NbodySimulation.cpp:332-357; the
force routine is a parameter that sees time, positions and velocities of all stars and gives
acceleration, jerk and second derivative -/
def force (F : ℝ → (Fin N → Vec n ℝ) → (Fin N → Vec n ℝ) → Fin N → Vec n ℝ × Vec n ℝ × Vec n ℝ) (t : ℝ)
    (s : Fin N → Body n) (i : Fin N) : Body n :=
  if (s i).active then
    let f := F t (fun i => (s i).r) (fun i => (s i).v) i
    { s i with
      a := f.1
      adot := f.2.1
      a2dot := f.2.2
      a3dot := fun _ => 0 }
  else s i

/-- the predict-evaluate-correct rounds, NbodySimulation.cpp:329-362 -/
def pec (correct : ℤ → ℝ → Body n → Body n)
    (F : ℝ → (Fin N → Vec n ℝ) → (Fin N → Vec n ℝ) → Fin N → Vec n ℝ × Vec n ℝ × Vec n ℝ) (m : ℤ) (t : ℝ) :
    ℕ → (Fin N → Body n) → Fin N → Body n
  | 0, s => s
  | it + 1, s => pec correct F m t it fun i => correct m t (force F t s i)

/-- one turn of the main loop as far as the integrator is concerned: advance, `Npec` rounds,
NbodySimulation.cpp:320-362 -/
def turn (advance correct : ℤ → ℝ → Body n → Body n) (npec : ℕ)
    (F : ℝ → (Fin N → Vec n ℝ) → (Fin N → Vec n ℝ) → Fin N → Vec n ℝ × Vec n ℝ × Vec n ℝ) (m : ℤ) (t : ℝ)
    (s : Fin N → Body n) : Fin N → Body n :=
  pec correct F m t npec fun i => advance m t (s i)

/-! ### Derivatives at start-up -/

open Stars (sep)

/-- members used for the derivatives at start-up -/
structure Moving (n : ℕ) where
  m : ℝ
  r : Vec n ℝ
  v : Vec n ℝ
  a : Vec n ℝ
  adot : Vec n ℝ

/-- `invdrmag`, NbodyHermite4.cpp:298-301; `sm` is `small_number_dp` -/
noncomputable def invd (sm : ℝ) (dr : Vec n ℝ) : ℝ := √(1 / (dot dr dr + sm))

/-- `a[k]` of one pair, NbodyHermite4.cpp:303 -/
noncomputable def pairA (sm mj : ℝ) (dr : Vec n ℝ) (k : Fin n) : ℝ := mj * dr k * invd sm dr ^ 3

/-- `adot[k]` of one pair, NbodyHermite4.cpp:302-305 -/
noncomputable def pairJ (sm mj : ℝ) (dr dv : Vec n ℝ) (k : Fin n) : ℝ :=
  let drdt := dot dv dr * invd sm dr
  mj * invd sm dr ^ 3 * (dv k - 3 * drdt * invd sm dr * dr k)

/-- `afac`, NbodyHermite4.cpp:308 -/
noncomputable def afac (sm : ℝ) (dr dv : Vec n ℝ) : ℝ := dot dv dr * (1 / (dot dr dr + sm))

/-- `bfac`, NbodyHermite4.cpp:309 -/
noncomputable def bfac (sm : ℝ) (dr dv da : Vec n ℝ) : ℝ :=
  dot dv dv * (1 / (dot dr dr + sm)) + afac sm dr dv * afac sm dr dv + dot da dr * (1 / (dot dr dr + sm))

/-- `cfac`, NbodyHermite4.cpp:310-311 -/
noncomputable def cfac (sm : ℝ) (dr dv da dj : Vec n ℝ) : ℝ :=
  3 * dot dv da * (1 / (dot dr dr + sm)) + dot dr dj * (1 / (dot dr dr + sm)) +
    afac sm dr dv * (3 * bfac sm dr dv da - 4 * afac sm dr dv * afac sm dr dv)

/-- `a2dot[k]` of one pair, NbodyHermite4.cpp:313-314 -/
noncomputable def pairA2 (sm mj : ℝ) (dr dv da : Vec n ℝ) (k : Fin n) : ℝ :=
  mj * da k * (1 / (dot dr dr + sm)) * invd sm dr - 6 * afac sm dr dv * pairJ sm mj dr dv k -
    3 * bfac sm dr dv da * pairA sm mj dr k

/-- contribution of one pair to `a3dot[k]`, NbodyHermite4.cpp:316-317 -/
noncomputable def pairA3 (sm mj : ℝ) (dr dv da dj : Vec n ℝ) (k : Fin n) : ℝ :=
  mj * dj k * (1 / (dot dr dr + sm)) * invd sm dr - 9 * afac sm dr dv * pairA2 sm mj dr dv da k -
    9 * bfac sm dr dv da * pairJ sm mj dr dv k - 3 * cfac sm dr dv da dj * pairA sm mj dr k

/-- difference of a vector quantity of two stars, NbodyHermite4.cpp:293-296 -/
def rel (x y : Vec n ℝ) : Vec n ℝ := fun k => y k - x k

/-- `a2dot` of `CalculateAllStartupQuantities`, NbodyHermite4.cpp:281-322, NbodyHermite6TS.cpp:390-431 -/
noncomputable def startA2 (sm : ℝ) (d : Domain n ℝ) (s : Fin N → Moving n) (i : Fin N) (k : Fin n) : ℝ :=
  ∑ j, if i = j then 0 else
    pairA2 sm (s j).m (sep d (s i).r (s j).r) (rel (s i).v (s j).v) (rel (s i).a (s j).a) k

/-- `a3dot` of `CalculateAllStartupQuantities` -/
noncomputable def startA3 (sm : ℝ) (d : Domain n ℝ) (s : Fin N → Moving n) (i : Fin N) (k : Fin n) : ℝ :=
  ∑ j, if i = j then 0 else
    pairA3 sm (s j).m (sep d (s i).r (s j).r) (rel (s i).v (s j).v) (rel (s i).a (s j).a)
      (rel (s i).adot (s j).adot) k

/-- the second loop of `NbodyHermite6TS::CalculateDirectGravForces`, NbodyHermite6TS.cpp:138-173: `a2dot`
starts at zero and is *assigned* in the loop over `j`; the separation is not wrapped -/
noncomputable def direct6A2 (sm : ℝ) (s : Fin N → Moving n) (i : Fin N) (k : Fin n) : ℝ :=
  (List.finRange N).foldl (fun acc j => if i = j then acc else
    pairA2 sm (s j).m (rel (s i).r (s j).r) (rel (s i).v (s j).v) (rel (s i).a (s j).a) k) 0

end Gandalf.Hermite
