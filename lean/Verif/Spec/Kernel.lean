import Verif.Model.Kernel
import Mathlib.Analysis.Calculus.Deriv.Basic
import Mathlib.MeasureTheory.Measure.Lebesgue.VolumeOfBalls

/-!
# What a smoothing kernel has to satisfy

Independent of any formula: integrals are Lebesgue integrals over `n`-dimensional Euclidean space,
derivatives are derivatives.
-/

set_option autoImplicit false

namespace Gandalf

open MeasureTheory Metric

/-- a valid, normalised, monotone, differentiable kernel of compact support -/
structure Kernel.Valid (K : Kernel) (n : ℕ) : Prop where
  range_pos : 0 < K.kernrange
  rangesqd : K.kernrangesqd = K.kernrange ^ 2
  invrange : K.invkernrange * K.kernrange = 1
  nonneg : ∀ s, 0 ≤ s → 0 ≤ K.w0 s
  positive : 0 < K.w0 0
  support : ∀ s, K.kernrange ≤ s → K.w0 s = 0
  antitone : AntitoneOn K.w0 (Set.Ici 0)
  continuous : Continuous K.w0
  /-- `w1` is the derivative of `w0` -/
  deriv : ∀ s, HasDerivAt K.w0 (K.w1 s) s
  /-- the smoothed mass of a particle is its mass, for every smoothing length and position -/
  normalised : ∀ (h : ℝ), 0 < h → ∀ x₀ : EuclideanSpace ℝ (Fin n),
    ∫ x : EuclideanSpace ℝ (Fin n), (1 / h) ^ n * K.w0 (‖x - x₀‖ / h) = 1
  /-- so is that of the double-hump drag kernel -/
  drag_normalised : ∀ (h : ℝ), 0 < h → ∀ x₀ : EuclideanSpace ℝ (Fin n),
    ∫ x : EuclideanSpace ℝ (Fin n), (1 / h) ^ n * K.wdrag (‖x - x₀‖ / h) = 1

/-- the correction terms of the variable smoothing length are the derivatives they stand for -/
structure Kernel.OmegaOK (K : Kernel) (n : ℕ) : Prop where
  /-- `womega`: derivative of the scaled kernel with respect to `h` -/
  omega : ∀ r, 0 ≤ r → ∀ h, 0 < h →
    HasDerivAt (fun h => (1 / h) ^ n * K.w0 (r / h)) ((1 / h) ^ (n + 1) * K.womega (r / h)) h

structure Kernel.ZetaOK (K : Kernel) : Prop where
  /-- `wzeta`: minus `h²` times the derivative of the scaled potential with respect to `h` -/
  zeta : ∀ r, 0 < r → ∀ h, 0 < h → HasDerivAt (fun h => K.wpot (r / h) / h) (-(K.wzeta (r / h) / h ^ 2)) h

/-- the softened gravity is that of the smoothed mass (three dimensions) -/
structure Kernel.GravityOK (K : Kernel) : Prop where
  /-- force: mass inside the radius over its square -/
  force : ∀ s, 0 < s → K.wgrav s = (∫ x in ball (0 : EuclideanSpace ℝ (Fin 3)) s, K.w0 ‖x‖) / s ^ 2
  /-- the potential's derivative is minus the force -/
  potential : ∀ s, 0 < s → HasDerivAt K.wpot (-(K.wgrav s)) s
  newton : ∀ s, K.kernrange ≤ s → K.wgrav s = 1 / s ^ 2 ∧ K.wpot s = 1 / s

end Gandalf
