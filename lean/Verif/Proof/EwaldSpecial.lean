import Verif.Spec.Ewald
import Mathlib.Analysis.Calculus.ParametricIntervalIntegral
import Mathlib.MeasureTheory.Integral.IntervalIntegral.FundThmCalculus
import Mathlib.MeasureTheory.Integral.IntervalIntegral.IntegrationByParts
import Mathlib.Analysis.SpecialFunctions.Trigonometric.Deriv
import Mathlib.Analysis.SpecialFunctions.ExpDeriv

/-! # The error function and the Bessel functions meet the assumptions -/

set_option autoImplicit false

namespace Gandalf.Ewald

/-- the error function -/
noncomputable def exactErf (x : ℝ) : ℝ := 2 / Real.sqrt Real.pi * ∫ t in (0 : ℝ)..x, Real.exp (-t ^ 2)

/-- the Bessel functions of the first kind of order 0 and 1 -/
noncomputable def exactJ0 (x : ℝ) : ℝ := 1 / Real.pi * ∫ t in (0 : ℝ)..Real.pi, Real.cos (x * Real.sin t)
noncomputable def exactJ1 (x : ℝ) : ℝ := 1 / Real.pi * ∫ t in (0 : ℝ)..Real.pi, Real.sin t * Real.sin (x * Real.sin t)

noncomputable def exactSpecial : Special := ⟨exactErf, fun x => 1 - exactErf x, exactJ0, exactJ1⟩

theorem exactErf_deriv (x : ℝ) : HasDerivAt exactErf (2 / Real.sqrt Real.pi * Real.exp (-x ^ 2)) x := by
  have hc : Continuous fun t : ℝ => Real.exp (-t ^ 2) := by fun_prop
  exact (intervalIntegral.integral_hasDerivAt_right (hc.intervalIntegrable _ _)
    hc.stronglyMeasurable.stronglyMeasurableAtFilter hc.continuousAt).const_mul _

theorem exactErf_odd (x : ℝ) : exactErf (-x) = -exactErf x := by
  unfold exactErf
  have h := intervalIntegral.integral_comp_neg (a := 0) (b := x) fun t : ℝ => Real.exp (-t ^ 2)
  simp only [neg_sq, neg_zero] at h
  rw [h, intervalIntegral.integral_symm (-x) 0]
  ring

theorem exactJ0_deriv (x : ℝ) : HasDerivAt exactJ0 (-exactJ1 x) x := by
  have h := intervalIntegral.hasDerivAt_integral_of_dominated_loc_of_deriv_le
    (μ := MeasureTheory.volume) (a := 0) (b := Real.pi) (x₀ := x) (s := Set.univ) (bound := fun _ => (1 : ℝ))
    (F := fun x t => Real.cos (x * Real.sin t)) (F' := fun x t => -Real.sin (x * Real.sin t) * Real.sin t)
    Filter.univ_mem
    (Filter.Eventually.of_forall fun y => (by fun_prop : Continuous fun t => Real.cos (y * Real.sin t)).aestronglyMeasurable)
    ((by fun_prop : Continuous fun t => Real.cos (x * Real.sin t)).intervalIntegrable _ _)
    ((by fun_prop : Continuous fun t => -Real.sin (x * Real.sin t) * Real.sin t).aestronglyMeasurable)
    (Filter.Eventually.of_forall fun t _ y _ => by
      rw [Real.norm_eq_abs, abs_mul, abs_neg]
      exact mul_le_one₀ (Real.abs_sin_le_one _) (abs_nonneg _) (Real.abs_sin_le_one _))
    (continuous_const.intervalIntegrable _ _)
    (Filter.Eventually.of_forall fun t _ y _ => by
      have : HasDerivAt (fun y : ℝ => y * Real.sin t) (Real.sin t) y := by
        simpa using (hasDerivAt_id y).mul_const (Real.sin t)
      exact this.cos)
  refine (h.2.const_mul (1 / Real.pi)).congr_deriv ?_
  unfold exactJ1
  rw [← mul_neg, ← intervalIntegral.integral_neg]
  congr 1
  apply intervalIntegral.integral_congr
  intro t _
  simp only
  ring

theorem exactSpecial_ok : exactSpecial.OK where
  erfc_deriv x := by
    refine ((exactErf_deriv x).const_sub 1).congr_deriv ?_
    ring
  erf_erfc x := by simp [exactSpecial]
  erf_odd := exactErf_odd
  J0_deriv := exactJ0_deriv
  J1_zero := by simp [exactSpecial, exactJ1]

end Gandalf.Ewald
