import Verif.Model.SphForces
import Verif.Spec.Multipole

/-!
# The acceleration of a particle as a sum over all particles

Nothing here knows of trees, cells or neighbour lists.
-/

set_option autoImplicit false

namespace Gandalf.GravSum

open Sph Gravity

variable {n : ℕ}

/-- smoothed gravity of `q` on `p`: the mean of the forces of the two kernels along the line of the pair, with the
correction terms for the change of the smoothing lengths. Outside both kernels it is Newton's law. -/
noncomputable def pull (K : Kernel) (sm : ℝ) (p q : Part n) (k : Fin n) : ℝ :=
  let s := gdist sm p.r q.r
  q.m * ((q.r k - p.r k) / s) *
    ((K.wgrav (s / p.h) / p.h ^ 2 + K.wgrav (s / q.h) / q.h ^ 2) / 2 +
     (p.zeta * (p.hfactor * K.w1 (s / p.h)) + q.zeta * (q.hfactor * K.w1 (s / q.h))) / 2)

/-- the potential that goes with it -/
noncomputable def well (K : Kernel) (sm : ℝ) (p q : Part n) : ℝ :=
  let s := gdist sm p.r q.r
  q.m * ((K.wpot (s / p.h) / p.h + K.wpot (s / q.h) / q.h) / 2)

/-- pressure and viscous force of `q` on `p` (both symmetric in the pair, C24) along the line of the pair -/
noncomputable def push (par : Par) (K : Kernel) (sm : ℝ) (p q : Part n) (k : Fin n) : ℝ :=
  q.m * ((q.r k - p.r k) / gdist sm p.r q.r) * (presPaux K sm p q - viscPaux par K sm p q)

/-- sum over those particles of a list that have a property -/
def over (l : List ℕ) (ok : ℕ → Bool) (f : ℕ → ℝ) : ℝ := ((l.filter ok).map f).sum

end Gandalf.GravSum
