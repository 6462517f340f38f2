import Verif.Model.Sinks
import Mathlib.LinearAlgebra.CrossProduct

/-!
# Conserved totals of gas and sinks
-/

set_option autoImplicit false

namespace Gandalf.Sinks

variable {n : ℕ} {α : Type*} [Field α]

/-- a vector as a vector of three components, the missing ones zero -/
def embed (x : Vec n α) : Vec 3 α := fun k => if h : k.val < n then x ⟨k.val, h⟩ else 0

/-- total mass of the first `N` particles and of the sinks -/
def totalMass (N : ℕ) (g : ℕ → Gas n α) (sinks : List (Sink n α)) : α :=
  ∑ i ∈ Finset.range N, (g i).m + (sinks.map fun s => s.star.m).sum

/-- mass-weighted position -/
def totalMoment (N : ℕ) (g : ℕ → Gas n α) (sinks : List (Sink n α)) (k : Fin n) : α :=
  ∑ i ∈ Finset.range N, (g i).m * (g i).r k + (sinks.map fun s => s.star.m * s.star.r k).sum

/-- linear momentum -/
def totalMomentum (N : ℕ) (g : ℕ → Gas n α) (sinks : List (Sink n α)) (k : Fin n) : α :=
  ∑ i ∈ Finset.range N, (g i).m * (g i).v k + (sinks.map fun s => s.star.m * s.star.v k).sum

/-- total force, `Σ m a` -/
def totalForce (N : ℕ) (g : ℕ → Gas n α) (sinks : List (Sink n α)) (k : Fin n) : α :=
  ∑ i ∈ Finset.range N, (g i).m * (g i).a k + (sinks.map fun s => s.star.m * s.star.a k).sum

/-- thermal energy, the part the sinks have swallowed included -/
def totalThermal (N : ℕ) (g : ℕ → Gas n α) (sinks : List (Sink n α)) : α :=
  ∑ i ∈ Finset.range N, (g i).m * (g i).u + (sinks.map fun s => s.utot).sum

/-- angular momentum: orbital of gas and stars plus the spin of the sinks -/
def totalAngMom (N : ℕ) (g : ℕ → Gas n α) (sinks : List (Sink n α)) : Vec 3 α :=
  ∑ i ∈ Finset.range N, (g i).m • crossProduct (embed (g i).r) (embed (g i).v) +
    (sinks.map fun s => s.star.m • crossProduct (embed s.star.r) (embed s.star.v) + s.angmom).sum

/-- all of the totals -/
structure SameTotals (N : ℕ) (g : ℕ → Gas n α) (sinks : List (Sink n α)) (g' : ℕ → Gas n α)
    (sinks' : List (Sink n α)) : Prop where
  mass : totalMass N g' sinks' = totalMass N g sinks
  moment : totalMoment N g' sinks' = totalMoment N g sinks
  momentum : totalMomentum N g' sinks' = totalMomentum N g sinks
  force : totalForce N g' sinks' = totalForce N g sinks
  thermal : totalThermal N g' sinks' = totalThermal N g sinks
  angMom : totalAngMom N g' sinks' = totalAngMom N g sinks

variable [LinearOrder α]

/-- a live particle inside the sink -/
def Inside (p : Gas n α) (sk : Sink n α) : Prop :=
  p.dead = false ∧ dot (fun k => p.r k - sk.star.r k) (fun k => p.r k - sk.star.r k) ≤ sk.radius * sk.radius

instance (p : Gas n α) (sk : Sink n α) : Decidable (Inside p sk) := inferInstanceAs (Decidable (_ ∧ _))

/-- mass of the particles of a list that are inside sink number `j` and belong to it -/
def ownMass (j : ℕ) (sk : Sink n α) (g : ℕ → Gas n α) (l : List ℕ) : α :=
  (l.map fun i => if Inside (g i) sk ∧ (g i).sinkid = some j then (g i).m else 0).sum

end Gandalf.Sinks

namespace Gandalf.Sinks

/-- conditions on a particle to become a sink next to the given sinks -/
structure Eligible {n : ℕ} (prm : CPrm) (N : ℕ) (sinks : List (Sink n ℝ)) (p : Gas n ℝ) : Prop where
  live : p.dead = false
  /-- at a minimum of the potential -/
  minimum : p.potmin = true
  dense : prm.rho_sink ≤ p.rho
  /-- at the end of its step -/
  due : N % p.nstep = 0
  /-- far enough from every sink -/
  apart : ∀ sk ∈ sinks, (prm.sink_radius * p.h + sk.radius) ^ 2 ≤ ∑ k, (p.r k - sk.star.r k) ^ 2
  /-- denser than the Hill criterion asks -/
  hill : ∀ sk ∈ sinks, -(∑ k, (p.r k - sk.star.r k) * (p.a k - sk.star.a k)) /
    (∑ k, (p.r k - sk.star.r k) ^ 2) ≤ p.rho
  /-- as the code has it: when receding, `r²/(r·v)` not below the free-fall time `1/(2√ρ)` -/
  slow : ∀ sk ∈ sinks, 0 < ∑ k, (p.r k - sk.star.r k) * (p.v k - sk.star.v k) →
    1 / (2 * Real.sqrt p.rho) ≤
      (∑ k, (p.r k - sk.star.r k) ^ 2) / ∑ k, (p.r k - sk.star.r k) * (p.v k - sk.star.v k)

end Gandalf.Sinks
