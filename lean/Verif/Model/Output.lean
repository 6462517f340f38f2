import Verif.Model.Params

/-!
# Model of the output schedule and of restarts
(src/Common/Simulation.cpp:382-431, 502-631; src/Common/SimulationIC.hpp:62-82;
src/Common/SimulationIO.hpp:200-207, 677-685, 2545-2557)

Times are exact. The contents of snapshot files are reduced to the fields of the header that steer later
output. A file is written in two steps: opening it leaves it incomplete, closing it completes it.
Wall-clock tests enter as an arbitrary Boolean.
-/

set_option autoImplicit false

namespace Gandalf.Output

variable {α : Type*}

/-- Parameters (Simulation.cpp:1205-1227); `column` tells `out_file_form = column` from the two Seren formats. -/
structure Cfg (α : Type*) where
  dt_snap : α
  tsnapfirst : α
  dt_litesnap : α
  tlitesnapfirst : α
  litesnap : Bool
  nrestartstep : ℕ
  column : Bool

/-- Variables of the simulation used by `Output`. -/
structure St (α : Type*) where
  t : α
  tsnapnext : α
  tsnaplast : α
  tlitesnapnext : α
  tlitesnaplast : α
  Noutsnap : ℕ
  Noutlitesnap : ℕ
  Nsteps : ℕ
  nlastrestart : ℕ

/-- Files: numbered snapshots, the temporary snapshot, numbered lite snapshots and the restart file. -/
inductive Name where
  | snap (k : ℕ) | tmp | lite (k : ℕ) | restart
  deriving DecidableEq

/-- `ss << setfill('0') << setw(5) << k` (Simulation.cpp:534, 552). -/
def pad5 (k : ℕ) : List Char := List.replicate (5 - (Params.showNat k).length) '0' ++ Params.showNat k

/-- The names of the files (Simulation.cpp:536, 554, 562, 619, 624). -/
def fileName (run_id form : List Char) : Name → List Char
  | .snap k => run_id ++ ('.' :: form) ++ '.' :: pad5 k
  | .tmp => run_id ++ ('.' :: form) ++ ".tmp".toList
  | .lite k => run_id ++ ".slite.".toList ++ pad5 k
  | .restart => run_id ++ ".restart".toList

/-- The formats which can be written and read back (SimulationIO.hpp:70-117). -/
def formats : List (List Char) :=
  ["column".toList, "sf".toList, "seren_form".toList, "su".toList, "seren_unform".toList]

/-- Header fields of a snapshot (SimulationIO.hpp:1134-1142): `ilpdata[0,1,10]`, `ddata[0,1,10]`. -/
structure Header (α : Type*) where
  Noutsnap : ℕ
  Nsteps : ℕ
  Noutlitesnap : ℕ
  t : α
  tsnaplast : α
  tlitesnaplast : α

inductive Content (α : Type*) where
  | data (h : Header α) | pointer (f : Name)

/-- Steps of writing a file. -/
inductive Op (α : Type*) where
  | opened (f : Name) | closed (f : Name) (c : Content α)

/-- `none`: no such file; `some none`: incomplete; `some (some c)`: complete. -/
abbrev Disk (α : Type*) := Name → Option (Option (Content α))

def Op.apply : Op α → Disk α → Disk α
  | .opened f, d => Function.update d f (some none)
  | .closed f c, d => Function.update d f (some (some c))

def applyOps (ops : List (Op α)) (d : Disk α) : Disk α := ops.foldl (fun d o => o.apply d) d

def header (s : St α) : Header α := ⟨s.Noutsnap, s.Nsteps, s.Noutlitesnap, s.t, s.tsnaplast, s.tlitesnaplast⟩

/-- `WriteSnapshotFile` (SimulationIO.hpp:95-117) for a recognised format. -/
def writeSnapshot (f : Name) (s : St α) : List (Op α) := [.opened f, .closed f (.data (header s))]

/-- Writing the restart file (Simulation.cpp:561-566, 624-628). -/
def writeRestart (f : Name) : List (Op α) := [.opened .restart, .closed .restart (.pointer f)]

/-- `RestartSnapshot` (Simulation.cpp:609-631). -/
def restartSnapshot (s : St α) : List (Op α) := writeSnapshot .tmp s ++ writeRestart .tmp

variable [Add α] [LE α] [DecidableLE α]

/-- The lite part of `Output` (Simulation.cpp:525-541). -/
def litePart (cfg : Cfg α) (s : St α) : St α × List (Op α) × Option Name :=
  if cfg.litesnap = true ∧ s.tlitesnapnext ≤ s.t then
    let s' := { s with
      Noutlitesnap := s.Noutlitesnap + 1
      tlitesnaplast := s.tlitesnapnext
      tlitesnapnext := s.tlitesnapnext + cfg.dt_litesnap }
    (s', writeSnapshot (.lite s'.Noutlitesnap) s', some (.lite s'.Noutlitesnap))
  else (s, [], none)

/-- The snapshot part of `Output` (Simulation.cpp:543-578), on process 0. -/
def snapPart (cfg : Cfg α) (s : St α) : St α × List (Op α) × Option Name :=
  if s.tsnapnext ≤ s.t then
    let s' := { s with
      Noutsnap := s.Noutsnap + 1
      tsnaplast := s.tsnapnext
      tsnapnext := s.tsnapnext + cfg.dt_snap }
    (s', writeSnapshot (.snap s'.Noutsnap) s' ++ writeRestart (.snap s'.Noutsnap), some (.snap s'.Noutsnap))
  else (s, [], none)

/-- The temporary snapshot of `Output` (Simulation.cpp:592-596); `resync` is `n%nresync == 0`. -/
def tmpPart (cfg : Cfg α) (resync : Bool) (s : St α) : St α × List (Op α) :=
  if resync = true ∧ (cfg.nrestartstep : ℤ) ≤ (s.Nsteps : ℤ) - s.nlastrestart then
    ({ s with nlastrestart := s.Nsteps }, restartSnapshot s)
  else (s, [])

/-- `Output` (Simulation.cpp:502-600): new state, what is done to the disk, and the name returned. -/
def output (cfg : Cfg α) (resync : Bool) (s : St α) : St α × List (Op α) × Option Name :=
  let a := litePart cfg s
  let b := snapPart cfg a.1
  let c := tmpPart cfg resync b.1
  (c.1, a.2.1 ++ b.2.1 ++ c.2, b.2.2.orElse fun _ => a.2.2)

variable [Zero α]

/-- State after the constructor and `ProcessParameters` (Simulation.cpp:184-211, 1205-1227). -/
def fresh (cfg : Cfg α) : St α := ⟨0, cfg.tsnapfirst, 0, cfg.tlitesnapfirst, 0, 0, 0, 0, 0⟩

/-- `ReadSnapshotFile` of a complete snapshot on a restart, then `ConvertToCodeUnits`
(SimulationIO.hpp:205-207 for column files, 677-685 for Seren files; 2549-2556). -/
def restore (cfg : Cfg α) (h : Header α) : St α :=
  if cfg.column then
    { fresh cfg with
      t := h.t
      tsnaplast := h.t
      tsnapnext := h.t + cfg.dt_snap
      tlitesnapnext := 0 + cfg.dt_litesnap }
  else
    { fresh cfg with
      t := h.t
      tsnaplast := h.tsnaplast
      tsnapnext := h.tsnaplast + cfg.dt_snap
      tlitesnaplast := h.tlitesnaplast
      tlitesnapnext := h.tlitesnaplast + cfg.dt_litesnap
      Noutsnap := h.Noutsnap
      Noutlitesnap := h.Noutlitesnap
      Nsteps := h.Nsteps }

/-- What `GenerateIC` does with the restart flag set (SimulationIC.hpp:65-82). -/
inductive Resume (α : Type*) where
  | fromStart : Resume α
  | broken : Resume α
  | ok (s : St α) : Resume α

/-- The restart file missing: start from initial conditions; incomplete, or naming a file that is missing,
incomplete or no snapshot: what is read is not a snapshot. -/
def resume (cfg : Cfg α) (d : Disk α) : Resume α :=
  match d .restart with
  | none => .fromStart
  | some (some (.pointer f)) =>
    match d f with
    | some (some (.data h)) => .ok (restore cfg h)
    | _ => .broken
  | _ => .broken

/-- One pass of the loop of `Run` (Simulation.cpp:396-409): the main loop brings the time to `t'` and counts
a step, then output; `kill` if the wall-clock limit is reached. -/
def pass (cfg : Cfg α) (resync kill : Bool) (t' : α) (s : St α) : St α × List (Op α) :=
  let o := output cfg resync { s with
    t := t'
    Nsteps := s.Nsteps + 1 }
  (o.1, if kill then o.2.1 ++ restartSnapshot o.1 else o.2.1)

end Gandalf.Output
