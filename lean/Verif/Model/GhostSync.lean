import Mathlib.Data.List.Basic
import Mathlib.Algebra.BigOperators.Group.List.Basic
import Mathlib.Logic.Function.Basic
import Mathlib.Algebra.Ring.Defs

/-! Copies of particles on other processes: received, brought up to date and sent back after a change,
src/Mpi/MpiControl.cpp:626-713, 1053-1157 and src/Hydrodynamics/Ghosts.cpp:158-215.  Which particles are
sent is the subject of C94. -/

set_option autoImplicit false

namespace Gandalf

namespace GhostSync

variable {α β : Type}

/-- A particle; `dat` is all the rest -/
structure Part (α : Type) where
  iorig : ℕ
  active : Bool
  dat : α

/-- `N` processes; `ids p q` is `particles_to_export_per_node[q]` of process `p`, `start q` is
`Nhydro + NPeriodicGhost` of `q`, `nhydro q` its `Nhydro` -/
structure World where
  N : ℕ
  ids : ℕ → ℕ → List ℕ
  start : ℕ → ℕ
  nhydro : ℕ → ℕ

/-- `displacements_send`, `displacements_receive` and `compute_displs`, MpiControl.cpp:1056-1062,
1106-1110 -/
def displ (cnt : ℕ → ℕ) (q : ℕ) : ℕ := ((List.range q).map cnt).sum

/-- `MPI_Alltoallv`: process `q` gets from `p` the `cnt p q` records of its buffer from
`displ (cnt p) q` on; received blocks lie one behind the other -/
def alltoall (N : ℕ) (cnt : ℕ → ℕ → ℕ) (buf : ℕ → List β) (q : ℕ) : List β :=
  ((List.range N).map fun p => ((buf p).drop (displ (cnt p) q)).take (cnt p q)).flatten

/-- `particles_to_export`, MpiControl.cpp:1088-1102, 1139-1147 -/
def exportBuf (W : World) (mem : ℕ → ℕ → Part α) (p : ℕ) : List (Part α) :=
  ((List.range W.N).map fun q => (W.ids p q).map fun i =>
    { mem p i with
      iorig := i }).flatten

/-- `particles_receive`, MpiControl.cpp:1112-1119, 1149-1156 -/
def received (W : World) (mem : ℕ → ℕ → Part α) (q : ℕ) : List (Part α) :=
  alltoall W.N (fun p q => (W.ids p q).length) (exportBuf W mem) q

/-- The loops of `SearchGhostParticles` and `CopyHydroDataToGhosts`, Ghosts.cpp:176-182, 204-213: record
`j` goes to place `start + j` and is not active -/
def copyGhosts (W : World) (mem : ℕ → ℕ → Part α) (q : ℕ) : ℕ → Part α := fun i =>
  if W.start q ≤ i then
    match (received W mem q)[i - W.start q]? with
    | some x =>
      { x with
        active := false }
    | none => mem q i
  else mem q i

/-- `i_start_ghost`, MpiControl.cpp:636-645: sums that take the block itself in, so that these are ends -/
def ends (W : World) (q : ℕ) : List ℕ :=
  (List.range W.N).map fun p => displ (fun p => (W.ids p q).length) (p + 1) + W.start q

/-- `std::upper_bound` on a sorted array -/
def upperBound (l : List ℕ) (x : ℕ) : ℕ := (l.takeWhile fun e => decide (e ≤ x)).length

/-- The process a ghost comes from, MpiControl.cpp:653-654 -/
def procOf (W : World) (q i : ℕ) : ℕ := upperBound (ends W q) i

/-- `buffer_proc_data[p]`, MpiControl.cpp:647-661; `chg q` are the ghosts changed on `q` -/
def backTo (W : World) (mem : ℕ → ℕ → Part α) (chg : ℕ → List ℕ) (q p : ℕ) : List (Part α) :=
  ((chg q).filter fun i => decide (procOf W q i = p)).map (mem q)

/-- `buffer`, MpiControl.cpp:663-674 -/
def backBuf (W : World) (mem : ℕ → ℕ → Part α) (chg : ℕ → List ℕ) (q : ℕ) : List (Part α) :=
  ((List.range W.N).map fun p => backTo W mem chg q p).flatten

/-- `buffer_receive`, MpiControl.cpp:676-695 -/
def backReceived (W : World) (mem : ℕ → ℕ → Part α) (chg : ℕ → List ℕ) (p : ℕ) : List (Part α) :=
  alltoall W.N (fun q p => (backTo W mem chg q p).length) (backBuf W mem chg) p

/-- The particle a periodic ghost belongs to, MpiControl.cpp:704-708 (the code does not bound the
number of steps, here it is at most `fuel`) -/
def parent (Nhydro : ℕ) (m : ℕ → Part α) : ℕ → ℕ → ℕ
  | 0, j => j
  | fuel + 1, j => if j < Nhydro then j else parent Nhydro m fuel (m j).iorig

/-- The last loop of `DoUpdateMpiGhostParents`, MpiControl.cpp:697-711, for any `update_received` -/
def updateAll (Nhydro fuel : ℕ) (upd : Part α → Part α → Part α) (m : ℕ → Part α) :
    List (Part α) → ℕ → Part α
  | [] => m
  | x :: xs =>
    let j := parent Nhydro m fuel x.iorig
    updateAll Nhydro fuel upd (Function.update m j (upd x (m j))) xs

/-- `DoUpdateMpiGhostParents`, MpiControl.cpp:626-713; the walk to the parent gets as many steps as there
are own particles and periodic ghosts -/
def sendBack (W : World) (upd : Part α → Part α → Part α) (mem : ℕ → ℕ → Part α)
    (chg : ℕ → List ℕ) (p : ℕ) : ℕ → Part α :=
  updateAll (W.nhydro p) (W.start p) upd (mem p) (backReceived W mem chg p)

/-- What sinks and dust change of a particle -/
structure Gas (F : Type) where
  m : F
  dudt : F
  dead : Bool

/-- `ReturnSink::update_received` of SPH particles, MpiControl.cpp:547-553 -/
def returnSink {F : Type} [Zero F] [DecidableEq F] (x y : Part (Gas F)) : Part (Gas F) :=
  { y with
    active := if x.dat.m = 0 then false else y.active
    dat := ⟨x.dat.m, y.dat.dudt, if x.dat.m = 0 then true else y.dat.dead⟩ }

/-- `ReturnDust::update_received`, MpiControl.cpp:582-585 -/
def returnDust {F : Type} [Add F] (x y : Part (Gas F)) : Part (Gas F) :=
  { y with
    dat := ⟨y.dat.m, y.dat.dudt + x.dat.dudt, y.dat.dead⟩ }

/-- What a sink changes of a meshless particle -/
structure MGas (n : ℕ) (F : Type) where
  m : F
  v : Fin n → F
  dQrho : F
  dQv : Fin n → F
  dead : Bool

/-- `ReturnSink::update_received` of meshless particles, MpiControl.cpp:555-565 -/
def returnSinkMfv {n : ℕ} {F : Type} [Ring F] [DecidableEq F] (x y : Part (MGas n F)) : Part (MGas n F) :=
  let dm := y.dat.m - x.dat.m
  let m := y.dat.m - dm
  { y with
    active := if m = 0 then false else y.active
    dat := ⟨m, y.dat.v, y.dat.dQrho - dm, fun k => y.dat.dQv k - dm * y.dat.v k,
      if m = 0 then true else y.dat.dead⟩ }

/-- `AccreteMassFromParticle` of the meshless schemes, MeshlessFV.h:112-118 -/
def accreteMfv {n : ℕ} {F : Type} [Ring F] (dm : F) (y : Part (MGas n F)) : Part (MGas n F) :=
  { y with
    dat := ⟨y.dat.m - dm, y.dat.v, y.dat.dQrho - dm, fun k => y.dat.dQv k - dm * y.dat.v k, y.dat.dead⟩ }

/-- The test for accreted ghosts, Sinks.cpp:707 -/
def noted (Nhydro i : ℕ) : Bool := decide (Nhydro < i)

end GhostSync

end Gandalf
