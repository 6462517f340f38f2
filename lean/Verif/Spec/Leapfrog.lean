import Verif.Model.Vec

/-!
# What the leapfrog schemes are meant to compute

Positions and velocities of `N` bodies only; none of the machinery of the code.
-/

set_option autoImplicit false

namespace Gandalf.Leap

variable {n N : ℕ} {α : Type*} [Field α]

/-- positions and velocities -/
structure Phase (N n : ℕ) (α : Type*) where
  r : Fin N → Vec n α
  v : Fin N → Vec n α

namespace Phase

/-- velocities change for a time `h` under the accelerations at the present positions -/
def kick (F : (Fin N → Vec n α) → Fin N → Vec n α) (h : α) (x : Phase N n α) : Phase N n α :=
  ⟨x.r, fun i k => x.v i k + h * F x.r i k⟩

/-- straight motion for a time `h` -/
def drift (h : α) (x : Phase N n α) : Phase N n α := ⟨fun i k => x.r i k + h * x.v i k, x.v⟩

/-- velocities reversed -/
def flip (x : Phase N n α) : Phase N n α := ⟨x.r, fun i k => -x.v i k⟩

/-- kick-drift-kick -/
def kdk (F : (Fin N → Vec n α) → Fin N → Vec n α) (h : α) (x : Phase N n α) : Phase N n α :=
  kick F (h / 2) (drift h (kick F (h / 2) x))

/-- drift-kick-drift -/
def dkd (F : (Fin N → Vec n α) → Fin N → Vec n α) (h : α) (x : Phase N n α) : Phase N n α :=
  drift (h / 2) (kick F h (drift (h / 2) x))

/-- total momentum for the masses `m` -/
def momentum (m : Fin N → α) (x : Phase N n α) (k : Fin n) : α := ∑ i, m i * x.v i k

/-- component `k`, `l` of the total angular momentum -/
def angMom (m : Fin N → α) (x : Phase N n α) (k l : Fin n) : α :=
  ∑ i, m i * (x.r i k * x.v i l - x.r i l * x.v i k)

end Phase

/-- no net force -/
def NoForce (m : Fin N → α) (F : (Fin N → Vec n α) → Fin N → Vec n α) : Prop :=
  ∀ r k, ∑ i, m i * F r i k = 0

/-- no net torque -/
def NoTorque (m : Fin N → α) (F : (Fin N → Vec n α) → Fin N → Vec n α) : Prop :=
  ∀ r k l, ∑ i, m i * (r i k * F r i l - r i l * F r i k) = 0

/-- position at time `t` under constant acceleration `g`, being at `x` with velocity `w` at time `T` -/
def fallPos (T x w g t : α) : α := x + w * (t - T) + g * (t - T) ^ 2 / 2

/-- velocity at time `t` under constant acceleration `g` -/
def fallVel (T w g t : α) : α := w + g * (t - T)

end Gandalf.Leap
