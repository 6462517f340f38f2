import Verif.Model.Vec
import Verif.Model.Kernel
import Mathlib.Analysis.SpecialFunctions.Pow.Real

/-!
# Forces from other processes

Particles near other domains are sent there before the force loop, get the forces of the particles there, and the results
come back and are added: `Mpi/MpiControl.cpp` 744-985 (`ExportParticlesBeforeForceLoop`, `GetExportedParticlesAccelerations`),
`Tree/HydroTree.cpp` 1662-1890, `Tree/Tree.cpp` 1836-1960 and the records of `Headers/CommunicationHandler.h` 33-330. Messages
are lists of records (their bytes: C43); `MPI_Waitsome` may deliver them in any order. Cells, work counters and which
particles are sent (C44) are left out.
-/

set_option autoImplicit false

namespace Gandalf.Export

/-- what a communication handler does, CommunicationHandler.h: constructor of the record sent, `ReceiveParticle`,
constructor of the record returned, `ReceiveParticleAccelerations` -/
structure Handler (P S R : Type) where
  stream : P → S
  receive : S → P → P
  ret : P → R
  acc : R → P → P

variable {P S R : Type}

/-- first slot for the particles of process `q`, HydroTree.cpp:1793-1796 and 1842-1844; `base = Nhydro + Nghost` -/
def offset (base : ℕ) (cnt : ℕ → ℕ) (q : ℕ) : ℕ := base + ((List.range q).map cnt).sum

/-- the loop over received particles, Tree.cpp:1866-1876 -/
def place (H : Handler P S R) : List S → ℕ → (ℕ → P) → (ℕ → P)
  | [], _, mem => mem
  | x :: xs, o, mem => place H xs (o + 1) (Function.update mem o (H.receive x (mem o)))

/-- the loop over returned particles, Tree.cpp:1935-1946 -/
def accAll (H : Handler P S R) : List ℕ → List R → (ℕ → P) → (ℕ → P)
  | i :: is, x :: xs, mem => accAll H is xs (Function.update mem i (H.acc x (mem i)))
  | _, _, mem => mem

/-- the processes: memory of each, number of own particles and ghosts, particles sent from one to another
(`ids_sent_particles`, in the order packed), force loop of each (for the particle in a slot), orders of arrival -/
structure World (P : Type) where
  mem : ℕ → ℕ → P
  base : ℕ → ℕ
  ids : ℕ → ℕ → List ℕ
  loop : ℕ → ℕ → P → P
  order1 : ℕ → List ℕ
  order2 : ℕ → List ℕ

/-- numbers of particles `q` gets from each process, out of the headers, HydroTree.cpp:1741-1757: none from itself -/
def World.cnt (W : World P) (q p : ℕ) : ℕ := if p = q then 0 else (W.ids p q).length

/-- memory of `q` after all messages have been unpacked, MpiControl.cpp:872-894 -/
def World.imported (W : World P) (H : Handler P S R) (q : ℕ) : ℕ → P :=
  (W.order1 q).foldl (fun mem p =>
    place H ((W.ids p q).map fun i => H.stream (W.mem p i)) (offset (W.base q) (W.cnt q) p) mem) (W.mem q)

/-- memory of `q` after the force loop, which treats own and imported particles one by one -/
def World.looped (W : World P) (H : Handler P S R) (q : ℕ) : ℕ → P := fun s => W.loop q s (W.imported H q s)

/-- the message back from `q` to `p`, `GetBackExportInfo`, HydroTree.cpp:1828-1861 and Tree.cpp:1901-1907 -/
def World.back (W : World P) (H : Handler P S R) (q p : ℕ) : List R :=
  (List.range' (offset (W.base q) (W.cnt q) p) (W.cnt q p)).map fun s => H.ret (W.looped H q s)

/-- memory of `p` in the end, MpiControl.cpp:965-981 -/
def World.final (W : World P) (H : Handler P S R) (p : ℕ) : ℕ → P :=
  (W.order2 p).foldl (fun mem q => accAll H (W.ids p q) (W.back H q p) mem) (W.looped H p)

/-! ### The records -/

noncomputable section

variable {n : ℕ}

/-- what the forces on a particle depend on -/
structure View (n : ℕ) where
  ptype : ℕ
  level : ℕ
  r : Vec n ℝ
  v : Vec n ℝ
  m : ℝ
  rho : ℝ
  u : ℝ
  pressure : ℝ
  alpha : ℝ
  invomega : ℝ
  zeta : ℝ
  h : ℝ
  hfactor : ℝ

/-- `GradhSphParticle`: that and the sums -/
structure SPart (n : ℕ) where
  w : View n
  a : Vec n ℝ
  atree : Vec n ℝ
  gpot : ℝ
  gpot_hydro : ℝ
  dudt : ℝ
  div_v : ℝ
  levelneib : ℕ

/-- `GradhSphExportParticle`, CommunicationHandler.h:60-100 (numbers, flags and dust left out) -/
structure SExport (n : ℕ) where
  ptype : ℕ
  level : ℕ
  r : Vec n ℝ
  v : Vec n ℝ
  m : ℝ
  rho : ℝ
  u : ℝ
  pressure : ℝ
  alpha : ℝ
  invomega : ℝ
  zeta : ℝ

/-- `GradSphForcesParticle`, CommunicationHandler.h:36-58 -/
structure SReturn (n : ℕ) where
  a : Vec n ℝ
  atree : Vec n ℝ
  gpot : ℝ
  gpot_hydro : ℝ
  dudt : ℝ
  div_v : ℝ
  levelneib : ℕ

/-- `GradhSphCommunicationHandler`, CommunicationHandler.h:33-172; the sound speed follows from the other variables -/
def sph (n : ℕ) (h_fac : ℝ) : Handler (SPart n) (SExport n) (SReturn n) where
  stream p := ⟨p.w.ptype, p.w.level, p.w.r, p.w.v, p.w.m, p.w.rho, p.w.u, p.w.pressure, p.w.alpha, p.w.invomega, p.w.zeta⟩
  receive p _ :=
    let h := h_fac * (p.m / p.rho) ^ (1 / (n : ℝ))
    { w := ⟨p.ptype, p.level, p.r, p.v, p.m, p.rho, p.u, p.pressure, p.alpha, p.invomega, p.zeta, h, (1 / h) ^ (n + 1)⟩
      a := fun _ => 0
      atree := fun _ => 0
      gpot := 0
      gpot_hydro := 0
      dudt := 0
      div_v := 0
      levelneib := 0 }
  ret p := ⟨p.a, p.atree, p.gpot, p.gpot_hydro, p.dudt, p.div_v, p.levelneib⟩
  acc p p2 :=
    { p2 with
      a := fun k => p2.a k + p.a k
      atree := fun k => p2.atree k + p.atree k
      gpot := p2.gpot + p.gpot
      gpot_hydro := p2.gpot_hydro + p.gpot_hydro
      dudt := p2.dudt + p.dudt
      div_v := p2.div_v + p.div_v
      levelneib := max p.levelneib p2.levelneib }

/-- sums of the force loop of a process for a particle: hydro, gravity, potential of the particles, heating, divergence and
levels -/
structure Field (n : ℕ) where
  a : View n → Vec n ℝ
  atree : View n → Vec n ℝ
  pot : View n → ℝ
  dudt : View n → ℝ
  div_v : View n → ℝ
  level : View n → ℕ

/-- the force loop with self-gravity for one particle, GradhSphTree.cpp:505-515 and 586-620 (without stars): the local copy
begins with the potential of the particle itself, and the results are added to the main array -/
def sphLoop (K : Kernel) (F : Field n) (p : SPart n) : SPart n :=
  let gpot := p.w.m / p.w.h * K.wpot 0 + F.pot p.w
  { p with
    a := fun k => p.a k + F.a p.w k + F.atree p.w k
    atree := fun k => p.atree k + F.atree p.w k
    gpot := p.gpot + gpot
    gpot_hydro := p.gpot_hydro + gpot
    dudt := p.dudt + F.dudt p.w
    div_v := p.div_v + F.div_v p.w
    levelneib := max p.levelneib (F.level p.w) }

/-- what gravity of the meshless schemes reads of a particle, MfvCommon.cpp:382-428 -/
structure MView (n : ℕ) where
  r : Vec n ℝ
  m : ℝ
  h : ℝ
  hfactor : ℝ
  zeta : ℝ

/-- `MeshlessFVParticle`: that, the number density and the sums of gravity -/
structure MPart (n : ℕ) where
  w : MView n
  ndens : ℝ
  a : Vec n ℝ
  atree : Vec n ℝ
  gpot : ℝ
  gpot_hydro : ℝ

/-- `MeshlessExportParticle`, CommunicationHandler.h:178-232 (what gravity does not use is left out): no `zeta` -/
structure MExport (n : ℕ) where
  r : Vec n ℝ
  m : ℝ
  ndens : ℝ

/-- `MeshlessForcesParticle`, CommunicationHandler.h:234-268 -/
structure MReturn (n : ℕ) where
  a : Vec n ℝ
  atree : Vec n ℝ
  gpot : ℝ
  gpot_hydro : ℝ

/-- `MeshlessCommunicationHandler`, CommunicationHandler.h:174-338: `zeta` of the slot stays -/
def mfv (n : ℕ) (h_fac : ℝ) : Handler (MPart n) (MExport n) (MReturn n) where
  stream p := ⟨p.w.r, p.w.m, p.ndens⟩
  receive p p2 :=
    let h := h_fac * (1 / p.ndens) ^ (1 / (n : ℝ))
    { w := ⟨p.r, p.m, h, (1 / h) ^ (n + 1), p2.w.zeta⟩
      ndens := p.ndens
      a := fun _ => 0
      atree := fun _ => 0
      gpot := 0
      gpot_hydro := 0 }
  ret p := ⟨p.a, p.atree, p.gpot, p.gpot_hydro⟩
  acc p p2 :=
    { p2 with
      a := fun k => p2.a k + p.a k
      atree := fun k => p2.atree k + p.atree k
      gpot := p2.gpot + p.gpot
      gpot_hydro := p2.gpot_hydro + p.gpot_hydro }

end

end Gandalf.Export
