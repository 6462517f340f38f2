import Verif.Common
import Mathlib.Analysis.Calculus.Deriv.Inv
import Mathlib.Analysis.Calculus.Deriv.Pow
import Mathlib.MeasureTheory.Integral.IntervalIntegral.FundThmCalculus
import Mathlib.MeasureTheory.Measure.Lebesgue.VolumeOfBalls
import Mathlib.MeasureTheory.Constructions.HaarToSphere

/-!
Calculus used for the kernels: derivatives of polynomials given by coefficients, of functions in pieces,
and integrals of radial functions.
-/

set_option autoImplicit false

namespace Gandalf

/-- polynomial with coefficients `l`, lowest first -/
def poly : List ℝ → ℝ → ℝ
  | [], _ => 0
  | c :: cs, s => c + s * poly cs s

/-- its derivative -/
def dpoly : List ℝ → ℝ → ℝ
  | [], _ => 0
  | _ :: cs, s => poly cs s + s * dpoly cs s

theorem hasDerivAt_poly (l : List ℝ) (s : ℝ) : HasDerivAt (poly l) (dpoly l s) s := by
  induction l with
  | nil => exact hasDerivAt_const s 0
  | cons c cs ih =>
    have h := ((hasDerivAt_id s).mul ih).const_add c
    simpa [dpoly, poly, one_mul] using h

theorem hasDerivAt_of_poly (l : List ℝ) {f f' : ℝ → ℝ} (hf : ∀ s, f s = poly l s)
    (hf' : ∀ s, f' s = dpoly l s) (s : ℝ) : HasDerivAt f (f' s) s := by
  rw [funext hf, hf']
  exact hasDerivAt_poly l s

theorem hasDerivAt_of_poly_inv (l : List ℝ) (c : ℝ) {f f' : ℝ → ℝ} (hf : ∀ s, f s = poly l s + c * s⁻¹)
    (hf' : ∀ s, s ≠ 0 → f' s = dpoly l s - c * (s ^ 2)⁻¹) {s : ℝ} (hs : s ≠ 0) : HasDerivAt f (f' s) s := by
  rw [funext hf, hf' s hs]
  have h := (hasDerivAt_poly l s).add ((hasDerivAt_inv hs).const_mul c)
  exact h.congr_deriv (by ring)

/-- pieces joined at `a` -/
theorem hasDerivAt_ite {p q p' q' : ℝ → ℝ} {a : ℝ} (hp : ∀ s, s ≤ a → HasDerivAt p (p' s) s)
    (hq : ∀ s, a ≤ s → HasDerivAt q (q' s) s) (h0 : p a = q a) (h1 : p' a = q' a) (s : ℝ) :
    HasDerivAt (fun s => if s < a then p s else q s) (if s < a then p' s else q' s) s := by
  rcases lt_trichotomy s a with h | h | h
  · rw [if_pos h]
    refine (hp s h.le).congr_of_eventuallyEq ?_
    filter_upwards [Iio_mem_nhds h] with x hx
    exact if_pos hx
  · subst h
    rw [if_neg (lt_irrefl s)]
    have hl : HasDerivWithinAt (fun x => if x < s then p x else q x) (q' s) (Set.Iic s) s := by
      rw [← h1]
      refine ((hp s le_rfl).hasDerivWithinAt).congr ?_ ?_
      · intro x hx
        rcases (Set.mem_Iic.mp hx).lt_or_eq with hx | hx
        · exact if_pos hx
        · subst hx; rw [if_neg (lt_irrefl x), h0]
      · rw [if_neg (lt_irrefl s), h0]
    have hr : HasDerivWithinAt (fun x => if x < s then p x else q x) (q' s) (Set.Ici s) s := by
      refine ((hq s le_rfl).hasDerivWithinAt).congr ?_ ?_
      · intro x hx
        exact if_neg (not_lt.mpr hx)
      · rw [if_neg (lt_irrefl s)]
    have := hl.union hr
    rwa [Set.Iic_union_Ici, hasDerivWithinAt_univ] at this
  · rw [if_neg (not_lt.mpr h.le)]
    refine (hq s h.le).congr_of_eventuallyEq ?_
    filter_upwards [Ioi_mem_nhds h] with x hx
    exact if_neg (not_lt.mpr (le_of_lt hx))

/-- pieces joined at `a`, continuity -/
theorem continuous_ite_lt {p q : ℝ → ℝ} {a : ℝ} (hp : Continuous p) (hq : Continuous q) (h0 : p a = q a) :
    Continuous fun s => if s < a then p s else q s := by
  refine Continuous.if ?_ hp hq
  intro s hs
  have : s = a := by
    have h : {x : ℝ | x < a} = Set.Iio a := rfl
    rw [h, frontier_Iio] at hs
    exact hs
  rw [this, h0]

/-! ### radial integrals -/

open MeasureTheory Metric

/-- volume of the unit ball in `n` dimensions -/
noncomputable def unitBall (n : ℕ) : ℝ := (volume : Measure (EuclideanSpace ℝ (Fin n))).real (ball 0 1)

theorem unitBall_one : unitBall 1 = 2 := by
  have := InnerProductSpace.volume_ball_of_dim_odd (E := EuclideanSpace ℝ (Fin 1)) (k := 0) (by simp) 0 1
  rw [unitBall, Measure.real, this]
  simp

theorem unitBall_two : unitBall 2 = Real.pi := by
  rw [unitBall, Measure.real, EuclideanSpace.volume_ball_fin_two]
  simp [Real.pi_nonneg]

theorem unitBall_three : unitBall 3 = Real.pi * 4 / 3 := by
  rw [unitBall, Measure.real, EuclideanSpace.volume_ball_fin_three]
  have : 0 ≤ Real.pi * 4 / 3 := by positivity
  simp [this]

/-- integral of a radial function over a ball, from a primitive of `s^(n-1) f(s)` -/
theorem integral_ball_radial {n : ℕ} (hn : 0 < n) {f F : ℝ → ℝ} {r : ℝ} (hr : 0 ≤ r)
    (hc : ContinuousOn f (Set.Icc 0 r)) (hF : ∀ s ∈ Set.Icc 0 r, HasDerivAt F (s ^ (n - 1) * f s) s) :
    ∫ x in ball (0 : EuclideanSpace ℝ (Fin n)) r, f ‖x‖ = n * unitBall n * (F r - F 0) := by
  have : Nonempty (Fin n) := Fin.pos_iff_nonempty.mp hn
  have : Nontrivial (EuclideanSpace ℝ (Fin n)) := inferInstance
  have e1 : ∫ x in ball (0 : EuclideanSpace ℝ (Fin n)) r, f ‖x‖
      = ∫ x : EuclideanSpace ℝ (Fin n), (Set.Iio r).indicator f ‖x‖ := by
    rw [← integral_indicator measurableSet_ball]
    congr 1
    funext x
    simp only [Set.indicator, mem_ball_zero_iff, Set.mem_Iio]
  rw [e1, integral_fun_norm_addHaar volume (fun s => (Set.Iio r).indicator f s)]
  have hfin : Module.finrank ℝ (EuclideanSpace ℝ (Fin n)) = n := by simp
  rw [hfin, nsmul_eq_mul, smul_eq_mul, mul_assoc]
  congr 2
  have e2 : ∫ y in Set.Ioi (0 : ℝ), y ^ (n - 1) • (Set.Iio r).indicator f y
      = ∫ y in Set.Ioo (0 : ℝ) r, y ^ (n - 1) * f y := by
    rw [← integral_indicator measurableSet_Ioi, ← integral_indicator measurableSet_Ioo]
    congr 1
    funext y
    by_cases h0 : 0 < y <;> by_cases h1 : y < r <;> simp [Set.indicator, h0, h1]
  rw [e2, ← integral_Ioc_eq_integral_Ioo, ← intervalIntegral.integral_of_le hr]
  refine intervalIntegral.integral_eq_sub_of_hasDerivAt ?_ ?_
  · rw [Set.uIcc_of_le hr]; exact hF
  · refine ContinuousOn.intervalIntegrable ?_
    rw [Set.uIcc_of_le hr]
    exact (continuousOn_id.pow _).mul hc

/-- a radial function that vanishes from `R` on: the integral over the whole space -/
theorem integral_radial {n : ℕ} (f : ℝ → ℝ) {R : ℝ} (h0 : ∀ s, R ≤ s → f s = 0) :
    ∫ x : EuclideanSpace ℝ (Fin n), f ‖x‖ = ∫ x in ball (0 : EuclideanSpace ℝ (Fin n)) R, f ‖x‖ := by
  rw [← integral_indicator measurableSet_ball]
  congr 1
  funext x
  by_cases h : ‖x‖ < R
  · rw [Set.indicator_of_mem (by simpa using h)]
  · rw [Set.indicator_of_notMem (by simpa using h), h0 _ (not_lt.mp h)]

/-- scaling with the smoothing length keeps the integral -/
theorem integral_scaled {n : ℕ} (f : ℝ → ℝ) {h : ℝ} (hh : 0 < h) (x₀ : EuclideanSpace ℝ (Fin n)) :
    ∫ x : EuclideanSpace ℝ (Fin n), (1 / h) ^ n * f (‖x - x₀‖ / h) = ∫ x : EuclideanSpace ℝ (Fin n), f ‖x‖ := by
  have e : ∀ x : EuclideanSpace ℝ (Fin n), (1 / h) ^ n * f (‖x - x₀‖ / h)
      = (fun y : EuclideanSpace ℝ (Fin n) => (1 / h) ^ n * f ‖(1 / h) • y‖) (x - x₀) := by
    intro x
    simp only [norm_smul, Real.norm_eq_abs, abs_of_pos (one_div_pos.mpr hh)]
    congr 2; ring
  simp_rw [e]
  rw [integral_sub_right_eq_self (fun y : EuclideanSpace ℝ (Fin n) => (1 / h) ^ n * f ‖(1 / h) • y‖) x₀]
  rw [integral_const_mul]
  rw [Measure.integral_comp_smul volume (fun y : EuclideanSpace ℝ (Fin n) => f ‖y‖) (1 / h)]
  have hfin : Module.finrank ℝ (EuclideanSpace ℝ (Fin n)) = n := by simp
  rw [hfin, smul_eq_mul, ← mul_assoc, abs_of_pos (by positivity), mul_inv_cancel₀ (by positivity), one_mul]

end Gandalf
