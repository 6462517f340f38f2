import Verif.Model.FvStep
import Verif.Spec.Leapfrog

/-!
# What the integrator of the meshless schemes is meant to do

Kinetic and internal energy of a lump of gas with given mass, momentum and energy, the same lump seen by a moving
observer, and totals.
-/

set_option autoImplicit false

namespace Gandalf.FvStep

variable {n N : ℕ} {α : Type*} [Field α]

/-- kinetic energy -/
def Cons.kinetic (Q : Cons n α) : α := ∑ k, Q.mom k ^ 2 / (2 * Q.mass)

/-- internal energy per unit mass -/
def Cons.internal (Q : Cons n α) : α := (Q.en - Q.kinetic) / Q.mass

/-- velocity -/
def Cons.vel (Q : Cons n α) : Vec n α := fun k => Q.mom k / Q.mass

/-- mass, momentum and energy for an observer who sees everything move by `w` faster; also for changes of these, which are
linear in them -/
def Cons.boost (w : Vec n α) (Q : Cons n α) : Cons n α :=
  ⟨fun k => Q.mom k + Q.mass * w k, Q.mass, Q.en + ∑ k, (w k * Q.mom k + Q.mass * w k ^ 2 / 2)⟩

/-- gravity without net force, for any masses -/
def NoForce (F : (Fin N → Vec n α) → (Fin N → α) → Fin N → Vec n α) : Prop :=
  ∀ r m k, ∑ i, m i * F r m i k = 0

end Gandalf.FvStep
