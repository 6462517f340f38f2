import Verif.Model.Ionise

/-!
# What ionisation by stars should give

Only the data of the links (`Net`) is used.
-/

set_option autoImplicit false

namespace Gandalf.IonSpec
open Ion

variable {α : Type} [Field α] [LinearOrder α]

/-- recombinations, per solid angle, between the distances of a particle and of the next one towards the source: the square of the mean
density times the integral of the square of the distance -/
def recomb (rho1 rho2 d1 d2 : α) : α := ((rho1 + rho2) / 2) ^ 2 * (d1 ^ 3 - d2 ^ 3) / 3

/-- Photons of the only source that are used up on the way to a particle: none at the source, all if there is no link; else those used
up on the way to the next particle, and, if the light reaches that one, those for the way from there (the density next to the
source is that of the particle itself). -/
inductive Used (G : Net α) : ℕ → α → Prop
  | source {i : ℕ} : i = G.n → Used G i 0
  | unlinked {i : ℕ} : i < G.n → G.neigh i 0 = G.n + G.nos → Used G i (G.ndot 0)
  | first {i : ℕ} : i < G.n → G.neigh i 0 = G.n → 0 < G.ndot 0 →
      Used G i (recomb (G.rho i) (G.rho i) (G.dist i 0) (G.dist G.n 0))
  | lit {i : ℕ} {a : α} : i < G.n → G.neigh i 0 < G.n → Used G (G.neigh i 0) a → a < G.ndot 0 →
      Used G i (a + recomb (G.rho i) (G.rho (G.neigh i 0)) (G.dist i 0) (G.dist (G.neigh i 0) 0))
  | dark {i : ℕ} {a : α} : i < G.n → G.neigh i 0 < G.n → Used G (G.neigh i 0) a → G.ndot 0 ≤ a → Used G i a

/-- Links lead towards the sources: to the source itself, to gas that is closer to it, or to nothing. -/
structure Towards (G : Net α) : Prop where
  link : ∀ i p, i < G.n → p < G.nos → G.neigh i p = G.n + G.nos ∨ G.neigh i p = G.n + p ∨ G.neigh i p < G.n
  closer : ∀ i p, i < G.n → p < G.nos → G.neigh i p ≠ G.n + G.nos → G.dist (G.neigh i p) p < G.dist i p

end Gandalf.IonSpec
