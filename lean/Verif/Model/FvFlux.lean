import Verif.Model.Vec

/-!
# Flux exchange of the meshless finite-volume schemes (src/MeshlessFV/MfvMuscl.cpp, MeshlessFVTree.cpp,
MfvIntegration.cpp)

Over any commutative ring. The flux through a face times its area, `DotProduct(flux[var], Aij, ndim)`, is an
arbitrary function of the pair (`none`: no face area, MfvMuscl.cpp:141-151): the Riemann solver, the limiter and
the geometry do not matter here. Conserved variables are numbered `Fin nv` with `irho` the mass.
-/

set_option autoImplicit false

namespace Gandalf.Fv

variable {n nv N : ℕ} {α : Type*} [CommRing α]

/-- accumulated changes of a particle or of a neighbour copy, Headers/Particle.h:429-432 -/
structure Acc (n nv : ℕ) (α : Type*) where
  dQ : Fin nv → α
  dQdt : Fin nv → α
  rdmdt : Vec n α

/-- start value of the copies, MeshlessFVTree.cpp:555-557 and Headers/Particle.h:529-536 -/
def Acc.zero : Acc n nv α where
  dQ := fun _ => 0
  dQdt := fun _ => 0
  rdmdt := fun _ => 0

/-- `part` of a pair, MfvMuscl.cpp:233-236, 243; `dr = part.r - neibpart.r` -/
def addPart (irho : Fin nv) (dt : α) (dr : Vec n α) (f : Fin nv → α) (p : Acc n nv α) : Acc n nv α where
  dQ := fun v => p.dQ v - f v * dt
  dQdt := fun v => p.dQdt v - f v
  rdmdt := fun k => p.rdmdt k - dr k * f irho * dt

/-- `neibpart[j]` of a pair, MfvMuscl.cpp:237-238, 244 -/
def addNeib (irho : Fin nv) (dt : α) (dr : Vec n α) (f : Fin nv → α) (p : Acc n nv α) : Acc n nv α where
  dQ := fun v => p.dQ v + f v * dt
  dQdt := fun v => p.dQdt v + f v
  rdmdt := fun k => p.rdmdt k + dr k * f irho * dt

/-- neighbour copies held by the neighbour manager for a cell, with the active particles of the cell and the
neighbours of each (as positions among the copies) -/
structure Cell (n N : ℕ) (α : Type*) where
  ncopy : ℕ
  /-- particle a copy belongs to, `GetNeibI(jj).first` -/
  idx : ℕ → Fin N
  mirror : ℕ → Bool
  active : ℕ → Bool
  r : ℕ → Vec n α
  acts : List (Fin N × List ℕ)

/-- what is known about a face: particle, copy, flux times area -/
abbrev FluxFn (N nv : ℕ) (α : Type*) := Fin N → ℕ → Option (Fin nv → α)

/-- `ComputeGodunovFlux`, MfvMuscl.cpp:76-251, for active particle `i` -/
def godunov (irho : Fin nv) (flux : ℕ → Option (Fin nv → α)) (dt : α) (ri : Vec n α) (rc : ℕ → Vec n α)
    (s : Acc n nv α × (ℕ → Acc n nv α)) (nb : List ℕ) : Acc n nv α × (ℕ → Acc n nv α) :=
  nb.foldl (fun s j =>
    match flux j with
    | none => s
    | some f =>
      (addPart irho dt (fun k => ri k - rc j k) f s.1,
       Function.update s.2 j (addNeib irho dt (fun k => ri k - rc j k) f (s.2 j)))) s

/-- loop over the active particles of a cell, MeshlessFVTree.cpp:567-589: the local copies of the active
particles in their order, and the neighbour copies -/
def cellLoop (irho : Fin nv) (flux : FluxFn N nv α) (dt : Fin N → α) (r : Fin N → Vec n α) (c : Cell n N α) :
    List (Fin N × Acc n nv α) × (ℕ → Acc n nv α) :=
  c.acts.foldl (fun s a =>
    ((s.1 ++ [(a.1, (godunov irho (flux a.1) (dt a.1) (r a.1) c.r (Acc.zero, s.2) a.2).1)]),
     (godunov irho (flux a.1) (dt a.1) (r a.1) c.r (Acc.zero, s.2) a.2).2)) ([], fun _ => Acc.zero)

/-- adding a copy's changes to the buffers of the thread; `act`: the copy is active -/
def addBuf (buf : Fin N → Acc n nv α) (i : Fin N) (act : Bool) (p : Acc n nv α) : Fin N → Acc n nv α :=
  Function.update buf i
    { dQ := fun v => (buf i).dQ v + p.dQ v
      dQdt := fun v => (buf i).dQdt v + if act then p.dQdt v else 0
      rdmdt := fun k => (buf i).rdmdt k + p.rdmdt k }

/-- accumulation of a cell into the buffers, MeshlessFVTree.cpp:591-610 -/
def cellAdd (irho : Fin nv) (flux : FluxFn N nv α) (dt : Fin N → α) (r : Fin N → Vec n α)
    (buf : Fin N → Acc n nv α) (c : Cell n N α) : Fin N → Acc n nv α :=
  let s := cellLoop irho flux dt r c
  let buf := (List.range c.ncopy).foldl (fun buf jj =>
    if c.mirror jj then buf else addBuf buf (c.idx jj) (c.active jj) (s.2 jj)) buf
  s.1.foldl (fun buf a => addBuf buf a.1 true a.2) buf

/-- a cell together with the flux function for its copies -/
abbrev Work (n nv N : ℕ) (α : Type*) := Cell n N α × FluxFn N nv α

/-- buffers of a thread after its cells, MeshlessFVTree.cpp:536-613 -/
def threadLoop (irho : Fin nv) (dt : Fin N → α) (r : Fin N → Vec n α) (cells : List (Work n nv N α)) :
    Fin N → Acc n nv α :=
  cells.foldl (fun buf c => cellAdd irho c.2 dt r buf c.1) fun _ => Acc.zero

/-- adding the buffers of a thread to the particles, MeshlessFVTree.cpp:618-627 -/
def addThread (active : Fin N → Bool) (parts buf : Fin N → Acc n nv α) (i : Fin N) : Acc n nv α where
  dQ := fun v => (parts i).dQ v + (buf i).dQ v
  dQdt := fun v => (parts i).dQdt v + if active i then (buf i).dQdt v else 0
  rdmdt := fun k => (parts i).rdmdt k + (buf i).rdmdt k

/-- `UpdateGodunovFluxes`, MeshlessFVTree.cpp:485-650 (the threads enter the critical section in any order) -/
def updateFluxes (irho : Fin nv) (active : Fin N → Bool) (dt : Fin N → α) (r : Fin N → Vec n α)
    (threads : List (List (Work n nv N α))) (parts : Fin N → Acc n nv α) : Fin N → Acc n nv α :=
  threads.foldl (fun parts cells => addThread active parts (threadLoop irho dt r cells)) parts

/-! ### the conserved variables over a run -/

/-- conserved variables at the start of the step and changes since then -/
structure State (n nv N : ℕ) (α : Type*) where
  Q0 : Fin N → Fin nv → α
  acc : Fin N → Acc n nv α

/-- what may happen to the conserved variables (no gravity, no cooling) -/
inductive Op (n nv N : ℕ) (α : Type*)
  /-- `UpdateGodunovFluxes` with its active particles, step lengths, positions and distribution over threads -/
  | fluxes (active : Fin N → Bool) (dt : Fin N → α) (r : Fin N → Vec n α) (threads : List (List (Work n nv N α)))
  /-- particle `i` reaches the end of its step, MfvIntegration.cpp:152-195 with zero acceleration and cooling -/
  | endStep (i : Fin N)
  /-- the limiter cuts the step of particle `i` to the length `dt`, MfvIntegration.cpp:250-262 -/
  | cut (i : Fin N) (dt : α)

/-- effect of an operation -/
def step (irho : Fin nv) (s : State n nv N α) : Op n nv N α → State n nv N α
  | .fluxes active dt r threads =>
    { s with
      acc := updateFluxes irho active dt r threads s.acc }
  | .endStep i =>
    { Q0 := Function.update s.Q0 i fun v => s.Q0 i v + (s.acc i).dQ v
      acc := Function.update s.acc i Acc.zero }
  | .cut i dt =>
    { s with
      acc := Function.update s.acc i
        { s.acc i with
          dQ := fun v => dt * (s.acc i).dQdt v } }

/-- a run -/
def run (irho : Fin nv) (s : State n nv N α) (ops : List (Op n nv N α)) : State n nv N α := ops.foldl (step irho) s

end Gandalf.Fv
