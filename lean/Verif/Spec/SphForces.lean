import Verif.Model.SphForces
import Mathlib.Data.Finset.Prod

/-!
# What the SPH force loops have to be given, and what is conserved

`S` is the set of shifts of periodic images that are considered: `{0}` in an open box; with the shift `s`
it contains `-s`.
-/

set_option autoImplicit false

namespace Gandalf.Sph

variable {n N : ℕ}

/-- the pair is within the kernel range of one of the two -/
def Interacts (K : Kernel) (p q : Part n) : Prop :=
  √(dot (fun k => q.r k - p.r k) (fun k => q.r k - p.r k)) < K.kernrange * p.h ∨
  √(dot (fun k => q.r k - p.r k) (fun k => q.r k - p.r k)) < K.kernrange * q.h

/-- the list of a particle names no image twice, only images under the shifts `S`, and it contains every
image that interacts with the particle (what the tree search delivers, C08); it may contain more, and the
particle itself or not -/
structure Complete (K : Kernel) (S : Finset (Vec n ℝ)) (sys : Fin N → Part n) (i : Fin N) (l : Neibs n N) : Prop where
  nodup : l.Nodup
  shifts : ∀ x ∈ l, x.2 ∈ S
  all : ∀ j, ∀ s ∈ S, (j, s) ≠ (i, 0) → Interacts K (sys i) (image (sys j) s) → (j, s) ∈ l

/-- the shifts come in opposite pairs -/
def Symm (S : Finset (Vec n ℝ)) : Prop := ∀ s ∈ S, (fun k => -s k) ∈ S

/-- three lists that together name every particle once, the particle itself too, those in the direct list only
from outside both kernels. This is what `GetParticleNeibGravity` delivers when no cell is accepted (C09, C11):
the test that would leave the particle itself out, NeighbourManager.h:517, is commented out. -/
structure Split (K : Kernel) (sys : Fin N → Part n) (i : Fin N) (hyd smo dir : Neibs n N) : Prop where
  shifts : ∀ x ∈ hyd ++ smo ++ dir, x.2 = 0
  nodup : (hyd ++ smo ++ dir).Nodup
  all : ∀ j, ∃ x ∈ hyd ++ smo ++ dir, x.1 = j
  hydro : ∀ j, Interacts K (sys i) (sys j) → (j, 0) ∈ hyd
  far : ∀ x ∈ dir, ¬ Interacts K (sys i) (sys x.1)

/-- physically sensible particles -/
structure Good (p : Part n) : Prop where
  m : 0 < p.m
  h : 0 < p.h
  rho : 0 < p.rho
  hfactor : 0 < p.hfactor
  sound : 0 ≤ p.sound
  alpha : 0 ≤ p.alpha

/-- sensible viscosity parameters -/
structure Par.Good (par : Par) : Prop where
  alpha : 0 ≤ par.alpha_visc
  alpha_min : 0 ≤ par.alpha_visc_min
  range : par.alpha_visc_min ≤ par.alpha_visc
  beta : 0 ≤ par.beta_visc

/-- density sum of `ComputeH`, GradhSph.cpp:188-206, written down independently of the iteration -/
noncomputable def density (K : Kernel) (sys : Fin N → Part n) (i : Fin N) : ℝ :=
  ∑ j, (sys j).m * ((1 / (sys i).h) ^ n * K.w0 (dist 0 (sys i) (sys j) / (sys i).h))

/-- `h_rho_deriv`, Headers/Sph.h:264-268 -/
noncomputable def hRhoDeriv (p : Part n) : ℝ := -(1 / (n : ℝ)) * p.h / p.rho

/-- the particles as `ComputeH` leaves them when it has converged: the smoothing length satisfies
`h = h_fac (m/ρ)^(1/ndim)` and the correction terms are those of GradhSph.cpp:204-207, 285-309 -/
structure Converged (K : Kernel) (hfac : ℝ) (sys : Fin N → Part n) (i : Fin N) : Prop where
  rho : (sys i).rho = density K sys i
  h : (sys i).rho * (sys i).h ^ n = hfac ^ n * (sys i).m
  hfactor : (sys i).hfactor = (1 / (sys i).h) ^ (n + 1)
  omega_ne : 1 - hRhoDeriv (sys i) * ∑ j, (sys j).m * ((1 / (sys i).h) ^ (n + 1) *
    K.womega (dist 0 (sys i) (sys j) / (sys i).h)) ≠ 0
  invomega : (sys i).invomega = 1 / (1 - hRhoDeriv (sys i) * ∑ j, (sys j).m * ((1 / (sys i).h) ^ (n + 1) *
    K.womega (dist 0 (sys i) (sys j) / (sys i).h)))
  zeta : (sys i).zeta = hRhoDeriv (sys i) * (∑ j, (sys j).m * K.wzeta (dist 0 (sys i) (sys j) / (sys i).h) *
    (1 / (sys i).h) ^ 2) * (sys i).invomega

end Gandalf.Sph
