import Verif.Model.Sinks

/-! Periodic ghosts and sinks: new ghosts of a search and accretion, src/Hydrodynamics/Hydrodynamics.cpp:259-289
(`CreateBoundaryGhostParticle`), src/Nbody/Sinks.cpp:365-769 with the gather lists of
src/Tree/HydroTree.cpp:451-471, which hold particles and ghosts. -/

set_option autoImplicit false

namespace Gandalf.Sinks

variable {n : ℕ} {α : Type*} [Field α] [LinearOrder α]

/-- New periodic ghosts at the places from `Nhydro` on: the particle `orig i`, moved by `shift i` and not
active, Hydrodynamics.cpp:259-289 (ghosts of ghosts are given by their particle and
the sum of shifts) -/
def newGhosts (Nhydro : ℕ) (orig : ℕ → ℕ) (shift : ℕ → Vec n α) (g : ℕ → Gas n α) : ℕ → Gas n α := fun i =>
  if i < Nhydro then g i
  else
    { g (orig i) with
      active := false
      r := fun k => (g (orig i)).r k + shift i k }

/-- New ghosts, then `AccreteMassToSinks`; both searches find the same -/
def ghostStep (prm : Prm α) (N Nhydro Ntot : ℕ) (orig : ℕ → ℕ) (shift : ℕ → Vec n α) (gather : ℕ → List ℕ)
    (trot decay : ℕ → α) (x : (ℕ → Gas n α) × List (Sink n α)) : (ℕ → Gas n α) × List (Sink n α) :=
  accrete prm N Ntot gather gather trot decay (newGhosts Nhydro orig shift x.1) x.2

end Gandalf.Sinks
