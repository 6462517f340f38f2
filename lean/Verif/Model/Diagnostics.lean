import Verif.Model.Box
import Mathlib.Algebra.BigOperators.Fin

/-! # The diagnostics

`Simulation::CalculateDiagnostics` (src/Common/SimAnalysis.hpp:51-181), `Simulation::SetComFrame` (src/Common/Simulation.cpp:1620-1643)
and `MpiControl::CollateDiagnosticsData` (src/Mpi/MpiControl.cpp:1232-1277). Not modelled: the binary statistics
(SimAnalysis.hpp:166-170) and the writing of the values. -/

set_option autoImplicit false

namespace Gandalf.Diag

variable {n : ℕ} {α : Type} [Field α] [LinearOrder α]

/-- the members of `Particle` the diagnostics read -/
structure Gas (n : ℕ) (α : Type) where
  r : Vec n α
  v : Vec n α
  a : Vec n α
  m : α
  u : α
  gpot : α
  dead : Bool

/-- the members of `StarParticle` the diagnostics read -/
structure Star (n : ℕ) (α : Type) where
  r : Vec n α
  v : Vec n α
  a : Vec n α
  m : α
  gpot : α

/-- the members of `SinkParticle` the diagnostics read -/
structure Sink (α : Type) where
  istar : ℕ
  angmom : Vec 3 α

/-- the particles of a process -/
structure Sys (n : ℕ) (α : Type) where
  gas : List (Gas n α)
  stars : List (Star n α)
  sinks : List (Sink α)

/-- `Diagnostics`, Headers/Diagnostics.h -/
structure Values (n : ℕ) (α : Type) where
  Nhydro : ℕ
  Nstar : ℕ
  Ndead : ℕ
  mtot : α
  Etot : α
  utot : α
  ketot : α
  gpetot : α
  rcom : Vec n α
  vcom : Vec n α
  mom : Vec n α
  force : Vec n α
  angmom : Vec 3 α

/-- the start, SimAnalysis.hpp:59-74 -/
def zero (s : Sys n α) : Values n α :=
  ⟨s.gas.length, s.stars.length, 0, 0, 0, 0, 0, 0, 0, 0, 0, 0, 0⟩

/-- the first loop, SimAnalysis.hpp:76-92 -/
def addGas (d : Values n α) (p : Gas n α) : Values n α :=
  if p.dead then { d with Ndead := d.Ndead + 1 }
  else
    { d with
      mtot := d.mtot + p.m
      ketot := d.ketot + p.m * ∑ k, p.v k * p.v k
      utot := d.utot + p.m * p.u
      gpetot := d.gpetot - p.m * p.gpot
      rcom := fun k => d.rcom k + p.m * p.r k
      vcom := fun k => d.vcom k + p.m * p.v k
      mom := fun k => d.mom k + p.m * p.v k
      force := fun k => d.force k + p.m * p.a k }

/-- what a body adds to the angular momentum: nothing in one dimension, one component in two, SimAnalysis.hpp:95-110
and 131-146 -/
def turn : (n : ℕ) → α → Vec n α → Vec n α → Vec 3 α
  | 2, m, r, v => ![0, 0, m * (r 0 * v 1 - r 1 * v 0)]
  | 3, m, r, v => ![m * (r 1 * v 2 - r 2 * v 1), m * (r 2 * v 0 - r 0 * v 2), m * (r 0 * v 1 - r 1 * v 0)]
  | _, _, _, _ => ![0, 0, 0]

/-- the second loop, SimAnalysis.hpp:95-110 -/
def turnGas (d : Values n α) (p : Gas n α) : Values n α :=
  if p.dead then d else { d with angmom := fun k => d.angmom k + turn n p.m p.r p.v k }

/-- the `continue` of the loop over the stars, SimAnalysis.hpp:117-119; `mine` is the domain with MPI -/
def skipStar (mine : Option (Box n α)) (s : Star n α) : Bool :=
  match mine with
  | none => false
  | some b => !particleInBox s.r b

/-- the `continue` of the loop over the sinks, SimAnalysis.hpp:148-150 (with MPI the star of the sink must exist; here
a sink without one is passed over) -/
def skipSink (mine : Option (Box n α)) (stars : List (Star n α)) (s : Sink α) : Bool :=
  match mine with
  | none => false
  | some b =>
    match stars[s.istar]? with
    | none => true
    | some st => !particleInBox st.r b

/-- the loop over the stars, SimAnalysis.hpp:116-143 -/
def addStar (mine : Option (Box n α)) (d : Values n α) (s : Star n α) : Values n α :=
  if skipStar mine s then d
  else
    { d with
      mtot := d.mtot + s.m
      ketot := d.ketot + s.m * ∑ k, s.v k * s.v k
      gpetot := d.gpetot - s.m * s.gpot
      rcom := fun k => d.rcom k + s.m * s.r k
      vcom := fun k => d.vcom k + s.m * s.v k
      mom := fun k => d.mom k + s.m * s.v k
      force := fun k => d.force k + s.m * s.a k
      angmom := fun k => d.angmom k + turn n s.m s.r s.v k }

/-- the loop over the sinks, SimAnalysis.hpp:147-152 -/
def addSink (mine : Option (Box n α)) (stars : List (Star n α)) (d : Values n α) (s : Sink α) : Values n α :=
  if skipSink mine stars s then d
  else { d with angmom := fun k => d.angmom k + s.angmom k }

/-- the end, SimAnalysis.hpp:155-163 -/
def finish (hydroForces selfGravity : Bool) (d : Values n α) : Values n α :=
  let ke := d.ketot * (1 / 2)
  let gpe := d.gpetot * (1 / 2)
  let E1 := if hydroForces then ke + d.utot else ke
  let E2 := if selfGravity || decide (0 < d.Nstar) then E1 + gpe else E1
  { d with
    ketot := ke
    gpetot := gpe
    rcom := if 0 < d.mtot then fun k => d.rcom k / d.mtot else d.rcom
    vcom := if 0 < d.mtot then fun k => d.vcom k / d.mtot else d.vcom
    Etot := E2 }

/-- `CalculateDiagnostics` of one process, without the collection; `mine` is `none` without MPI -/
def diagnose (hydroForces selfGravity : Bool) (mine : Option (Box n α)) (s : Sys n α) : Values n α :=
  let d1 := s.gas.foldl addGas (zero s)
  let d2 := s.gas.foldl turnGas d1
  let d3 := s.stars.foldl (addStar mine) d2
  let d4 := s.sinks.foldl (addSink mine s.stars) d3
  finish hydroForces selfGravity d4

/-- `SetComFrame`, Simulation.cpp:1628-1639 (without MPI) -/
def setComFrame (hydroForces selfGravity : Bool) (s : Sys n α) : Sys n α :=
  let d := diagnose hydroForces selfGravity none s
  ⟨s.gas.map fun p =>
      { p with
        r := fun k => p.r k - d.rcom k
        v := fun k => p.v k - d.vcom k },
    s.stars.map fun p =>
      { p with
        r := fun k => p.r k - d.rcom k
        v := fun k => p.v k - d.vcom k },
    s.sinks⟩

/-- one message on the root process, MpiControl.cpp:1249-1260 -/
def receive (d x : Values n α) : Values n α :=
  { d with
    Nhydro := d.Nhydro + x.Nhydro
    Etot := d.Etot + x.Etot
    utot := d.utot + x.utot
    ketot := d.ketot + x.ketot
    gpetot := d.gpetot + x.gpetot
    mtot := d.mtot + x.mtot
    mom := fun k => d.mom k + x.mom k
    angmom := fun k => d.angmom k + x.angmom k
    force := fun k => d.force k + x.force k
    rcom := fun k => d.rcom k + x.mtot * x.rcom k
    vcom := fun k => d.vcom k + x.mtot * x.vcom k }

/-- `CollateDiagnosticsData` on the root process, MpiControl.cpp:1242-1267 -/
def collate (root : Values n α) (rest : List (Values n α)) : Values n α :=
  let d0 := { root with
    rcom := fun k => root.rcom k * root.mtot
    vcom := fun k => root.vcom k * root.mtot }
  let d := rest.foldl receive d0
  { d with
    rcom := fun k => d.rcom k / d.mtot
    vcom := fun k => d.vcom k / d.mtot }

/-- a process: its domain and its gas -/
structure Rank (n : ℕ) (α : Type) where
  dom : Box n α
  gas : List (Gas n α)

/-- the values of a process; stars and sinks are known to all -/
def Rank.values (hydroForces selfGravity : Bool) (stars : List (Star n α)) (sinks : List (Sink α)) (q : Rank n α) :
    Values n α :=
  diagnose hydroForces selfGravity (some q.dom) ⟨q.gas, stars, sinks⟩

end Gandalf.Diag
