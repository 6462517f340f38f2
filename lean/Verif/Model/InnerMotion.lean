import Verif.Model.NbodyForces

/-!
# The inner motion of sub-systems of stars (src/Nbody/Nbody.cpp:375-816), leapfrog kick-drift-kick
(src/Nbody/NbodyLeapfrogKDK.cpp)

`IntegrateInternalMotion`, `CalculatePerturberForces` and `UpdateChildStars`. Over `ℝ`; the derivatives of
the acceleration are left out of the integration (this scheme does not use them), so is `PeriodicGravity`
(the Ewald corrections). `Npec` is one, as in the constructor of the scheme (NbodyLeapfrogKDK.cpp:50-52).
The integration is that of a system whose members are stars; `UpdateChildStars` is modelled for systems
within systems.
-/

set_option autoImplicit false

namespace Gandalf.Inner

open Stars

variable {n N P : ℕ}

/-- members of `NbodyParticle` used here, Headers/NbodyParticle.h:45-80; `ended` is the flag
`end_timestep` -/
structure Child (n : ℕ) extends Star n where
  r0 : Vec n ℝ
  v0 : Vec n ℝ
  a0 : Vec n ℝ
  gpePert : ℝ
  tlast : ℝ
  ended : Bool

/-- a perturber, members of `NbodyParticle`, NbodyParticle.h:45-80 -/
structure Pert (n : ℕ) where
  r0 : Vec n ℝ
  v0 : Vec n ℝ
  a0 : Vec n ℝ
  adot : Vec n ℝ
  adot0 : Vec n ℝ
  m : ℝ
  tlast : ℝ

/-- the local copy of a perturber, Nbody.cpp:535-550: `adot0` keeps the value of the constructor,
NbodyParticle.h:98 -/
def copyPert (p : Pert n) : Pert n where
  r0 := p.r0
  v0 := p.v0
  a0 := p.a0
  adot := p.adot0
  adot0 := fun _ => 0
  m := p.m
  tlast := p.tlast

/-- where a perturber is thought to be at time `t`, Nbody.cpp:553-556, 628-631 -/
noncomputable def pertR (p : Pert n) (t : ℝ) : Vec n ℝ := fun k =>
  p.r0 k + p.v0 k * (t - p.tlast) + 1 / 2 * p.a0 k * (t - p.tlast) * (t - p.tlast) +
    1 / 6 * p.adot0 k * (t - p.tlast) * (t - p.tlast) * (t - p.tlast)

/-- its velocity, Nbody.cpp:557-558, 632-633 -/
noncomputable def pertV (p : Pert n) (t : ℝ) : Vec n ℝ := fun k =>
  p.v0 k + p.a0 k * (t - p.tlast) + 1 / 2 * p.adot0 k * (t - p.tlast) * (t - p.tlast)

/-- `invdrmag`, Nbody.cpp:420-421, 447-448 -/
noncomputable def invd (dr : Vec n ℝ) : ℝ := 1 / √(dot dr dr)

/-- `CalculatePerturberForces`, the part on the stars, Nbody.cpp:436-456; `q` are the places of the
perturbers, `mq` their masses -/
noncomputable def pertForces (d : Domain n ℝ) (q : Fin P → Vec n ℝ) (mq : Fin P → ℝ) (c : Fin N → Child n)
    (i : Fin N) : Child n :=
  if (c i).active then
    { c i with
      gpePert := (c i).gpePert + ∑ j, (c i).m * mq j * invd (sep d (c i).r (q j))
      gpot := (c i).gpot + ∑ j, mq j * invd (sep d (c i).r (q j))
      a := fun k => (c i).a k + ∑ j, mq j * sep d (c i).r (q j) k * invd (sep d (c i).r (q j)) ^ 3 }
  else c i

/-- `rcom` and `msystot` of `CalculatePerturberForces`, Nbody.cpp:405-413 -/
noncomputable def rcom (c : Fin N → Child n) : Vec n ℝ := fun k => (∑ i, (c i).m * (c i).r k) / ∑ i, (c i).m

/-- `apert` of perturber `j`, Nbody.cpp:416-423, 459 -/
noncomputable def apert (d : Domain n ℝ) (q : Fin P → Vec n ℝ) (c : Fin N → Child n) (j : Fin P) : Vec n ℝ := fun k =>
  -(∑ i, (c i).m) * sep d (q j) (rcom c) k * invd (sep d (q j) (rcom c)) ^ 3 -
    ∑ i, if (c i).active then (c i).m * sep d (c i).r (q j) k * invd (sep d (c i).r (q j)) ^ 3 else 0

/-- the direct forces between the members, `CalculateDirectGravForces`, Nbody.cpp:232-287, 594, 657 -/
noncomputable def direct (d : Domain n ℝ) (c : Fin N → Child n) (i : Fin N) : Child n :=
  { c i with toStar := directForces d (fun i => (c i).toStar) i }

/-- the system: its members at the end of the step of its centre of mass (`r`, `v`, `a`, `gpot`), the
acceleration at the beginning (`a0`) and the mass, NbodyParticle.h:45-80 -/
structure Sys (n : ℕ) where
  r : Vec n ℝ
  v : Vec n ℝ
  a : Vec n ℝ
  a0 : Vec n ℝ
  m : ℝ
  gpot : ℝ

/-- the members are cleared, Nbody.cpp:567-577 -/
def cleared (c : Fin N → Child n) (i : Fin N) : Child n :=
  { c i with
    a := fun _ => 0
    gpot := 0
    gpePert := 0
    active := true }

/-- the pulls of the perturbers at time `t` -/
noncomputable def pulled (d : Domain n ℝ) (p : Fin P → Pert n) (t : ℝ) (c : Fin N → Child n) : Fin N → Child n :=
  pertForces d (fun j => pertR (copyPert (p j)) t) (fun j => (p j).m) c

/-- `aext`, Nbody.cpp:525, 579-588 (without perturbers the sums are empty) -/
noncomputable def aext (d : Domain n ℝ) (S : Sys n) (p : Fin P → Pert n) (t : ℝ) (c : Fin N → Child n) : Vec n ℝ :=
  fun k => (S.m * S.a0 k - ∑ i, (c i).m * (pulled d p t (cleared c) i).a k) / S.m

/-- `gpotext`, Nbody.cpp:528, 585, 591 -/
noncomputable def gpotext (d : Domain n ℝ) (S : Sys n) (p : Fin P → Pert n) (t : ℝ) (c : Fin N → Child n) : ℝ :=
  (S.m * S.gpot - ∑ i, (pulled d p t (cleared c) i).gpePert) / S.m

/-- `children[i]->a += aext; a0 = a`, Nbody.cpp:597-602 -/
def withExt (ae : Vec n ℝ) (c : Child n) : Child n :=
  { c with
    a := fun k => c.a k + ae k
    a0 := fun k => c.a k + ae k }

/-- the preparation, Nbody.cpp:565-602 -/
noncomputable def start (d : Domain n ℝ) (S : Sys n) (p : Fin P → Pert n) (t : ℝ) (c : Fin N → Child n) (i : Fin N) :
    Child n :=
  withExt (aext d S p t c) (direct d (pulled d p t (cleared c)) i)

/-- `AdvanceParticles`, NbodyLeapfrogKDK.cpp:271-287 (`nstep = 1`, `nlast = n-1` for all members,
Nbody.cpp:615-616, so all become active) -/
noncomputable def advance (t : ℝ) (c : Child n) : Child n :=
  { c with
    r := fun k => c.r0 k + c.v0 k * (t - c.tlast) + 1 / 2 * c.a0 k * (t - c.tlast) * (t - c.tlast)
    v := fun k => c.v0 k + c.a0 k * (t - c.tlast)
    active := true }

/-- the members are reset before the forces, Nbody.cpp:645-654 -/
def reset (ae : Vec n ℝ) (ge : ℝ) (c : Child n) : Child n :=
  { c with
    active := true
    gpot := ge
    gpePert := c.m * ge
    a := ae }

/-- `CorrectionTerms`, NbodyLeapfrogKDK.cpp:322-329 -/
noncomputable def correct (t : ℝ) (c : Child n) : Child n :=
  { c with v := fun k => c.v k + 1 / 2 * (c.a k - c.a0 k) * (t - c.tlast) }

/-- moving one member by the distance from the centre of mass of the members to that of the system; also
sets the values of the beginning of the step, Nbody.cpp:794-805 -/
def shift (R V A R' V' A' : Vec n ℝ) (c : Child n) : Child n :=
  { c with
    r := fun k => c.r k + (R k - R' k)
    v := fun k => c.v k + (V k - V' k)
    a := fun k => c.a k + (A k - A' k)
    r0 := fun k => c.r k + (R k - R' k)
    v0 := fun k => c.v k + (V k - V' k)
    a0 := fun k => c.a k + (A k - A' k) }

/-- the average of a vector of the members, Nbody.cpp:770-790 -/
noncomputable def mean (c : Fin N → Child n) (f : Child n → Vec n ℝ) : Vec n ℝ := fun k =>
  (∑ i, (c i).m * f (c i) k) / ∑ i, (c i).m

/-- `UpdateChildStars` for a system of stars, Nbody.cpp:746-816 -/
noncomputable def update (R V A : Vec n ℝ) (c : Fin N → Child n) (i : Fin N) : Child n :=
  shift R V A (mean c (·.r)) (mean c (·.v)) (mean c (·.a)) (c i)

/-- `EndTimestep`, NbodyLeapfrogKDK.cpp:358-374 -/
def endStep (t : ℝ) (c : Child n) : Child n :=
  if c.ended then
    { c with
      r0 := c.r
      v0 := c.v
      a0 := c.a
      tlast := t
      active := false
      ended := false }
  else c

/-- the forces of a sub-step, Nbody.cpp:642-662 -/
noncomputable def forced (d : Domain n ℝ) (p : Fin P → Pert n) (ae : Vec n ℝ) (ge : ℝ) (t : ℝ) (c : Fin N → Child n) :
    Fin N → Child n :=
  pulled d p t (direct d fun i => reset ae ge (c i))

/-- one round of the loop after the choice of the step, which ends at `t`, Nbody.cpp:622-705 -/
noncomputable def substep (d : Domain n ℝ) (S : Sys n) (p : Fin P → Pert n) (ae : Vec n ℝ) (ge t : ℝ)
    (c : Fin N → Child n) (i : Fin N) : Child n :=
  endStep t (update S.r S.v S.a (fun i => correct t (forced d p ae ge t (fun i => advance t (c i)) i)) i)

/-- the members and the local time -/
structure State (n N : ℕ) where
  t : ℝ
  c : Fin N → Child n

/-- `dt`, Nbody.cpp:613-618; `ts` is `Timestep`, NbodyLeapfrogKDK.cpp:389-407 -/
noncomputable def dtOf (big tend : ℝ) (ts : Child n → ℝ) (s : State n N) : ℝ :=
  (List.finRange N).foldl (fun dt i => min dt (ts (s.c i))) (min big (1.00000000000001 * (tend - s.t)))

/-- one round of the loop, Nbody.cpp:612-705 -/
noncomputable def round (d : Domain n ℝ) (S : Sys n) (p : Fin P → Pert n) (ae : Vec n ℝ) (ge big tend : ℝ)
    (ts : Child n → ℝ) (s : State n N) : State n N where
  t := s.t + dtOf big tend ts s
  c := substep d S p ae ge (s.t + dtOf big tend ts s) s.c

/-- the `do … while (tlocal < tend)`, Nbody.cpp:610-708; `none` = still running after `fuel` rounds -/
noncomputable def loop (d : Domain n ℝ) (S : Sys n) (p : Fin P → Pert n) (ae : Vec n ℝ) (ge big tend : ℝ)
    (ts : Child n → ℝ) : ℕ → State n N → Option (State n N)
  | 0, _ => none
  | fuel + 1, s =>
    let s' := round d S p ae ge big tend ts s
    if s'.t < tend then loop d S p ae ge big tend ts fuel s' else some s'

/-- `gpe_internal`, Nbody.cpp:718-722 -/
noncomputable def gpeInternal (ge : ℝ) (c : Fin N → Child n) : ℝ :=
  ∑ i, 1 / 2 * (c i).m * ((c i).gpot - (c i).gpePert / (c i).m - ge)

/-- `Timestep` of the scheme, NbodyLeapfrogKDK.cpp:389-407; for a star `dt_internal` is `big_number`,
NbodyParticle.h:110 -/
noncomputable def kdkStep (mult small big : ℝ) (c : Child n) : ℝ :=
  min (mult * √(c.h / (√(dot c.a c.a) + small))) big

/-- `IntegrateInternalMotion`, Nbody.cpp:486-737, at the end of the step of the centre of mass: the members
afterwards, and `gpe_internal` -/
noncomputable def integrate (d : Domain n ℝ) (S : Sys n) (p : Fin P → Pert n) (big tstart tend : ℝ) (ts : Child n → ℝ)
    (fuel : ℕ) (c : Fin N → Child n) : Option (State n N × ℝ) :=
  (loop d S p (aext d S p tstart c) (gpotext d S p tstart c) big tend ts fuel ⟨tstart, start d S p tstart c⟩).map
    fun s => (s, gpeInternal (gpotext d S p tstart c) s.c)

/-! ## Systems within systems -/

/-- a star, or a system with its members -/
inductive Node (n : ℕ) where
  | star (b : Child n)
  | sys (b : Child n) (N : ℕ) (c : Fin N → Node n)

/-- the particle at the top of a node -/
def Node.top : Node n → Child n
  | .star b => b
  | .sys b _ _ => b

/-- moving the particle at the top by `f`, and then, if it is a system, its members to its centre of mass
and theirs to theirs: Nbody.cpp:794-812 (the move of the particle belongs to the call for the system
around it, lines 794-805; the recursive call, lines 807-812, follows) -/
noncomputable def settle (f : Child n → Child n) : Node n → Node n
  | .star b => .star (f b)
  | .sys b N c =>
    .sys (f b) N fun i =>
      settle (shift (f b).r (f b).v (f b).a (mean (fun i => (c i).top) (·.r)) (mean (fun i => (c i).top) (·.v))
        (mean (fun i => (c i).top) (·.a))) (c i)

/-- `UpdateChildStars`, Nbody.cpp:746-816 -/
noncomputable def updateTree (x : Node n) : Node n := settle id x

end Gandalf.Inner
