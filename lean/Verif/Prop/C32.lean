import Verif.Proof.Kernel
import Mathlib.Analysis.SpecialFunctions.Gaussian.FourierTransform
import Mathlib.MeasureTheory.Integral.IntegralEqImproper
import Mathlib.Analysis.Complex.ExponentialBounds
import Mathlib.Analysis.SpecialFunctions.ExpDeriv

/-!
# C32 – the quintic and the Gaussian kernel
-/

set_option autoImplicit false

namespace Gandalf

open MeasureTheory

noncomputable def quinticPieces : List (ℝ × List ℝ) :=
  [(1, [66, 0, -60, 0, 30, -10]), (2, [51, 75, -210, 150, -45, 5]), (3, [243, -405, 270, -90, 15, -1])]

theorem quintic_poly (n : ℕ) (hn : 1 ≤ n ∧ n ≤ 3) :
    PolyKernel (quinticKernel n) n (Quintic.kernnorm n) quinticPieces := by
  refine ⟨by omega, ?_, ?_, ?_, ?_, by norm_num [quinticKernel], ?_, ?_⟩
  · obtain ⟨h1, h2⟩ := hn
    interval_cases n <;> simp only [Quintic.kernnorm] <;> positivity
  · simp only [Smooth, quinticPieces, pw, dpw, poly, dpoly]; norm_num
  · intro s
    simp only [quinticKernel, Quintic.w0, quinticPieces, pw, poly]
    split_ifs <;> ring
  · intro s
    simp only [quinticKernel, Quintic.w1, quinticPieces, dpw, poly, dpoly]
    split_ifs <;> ring
  · intro s hs
    simp only [quinticPieces, dpw, poly, dpoly]
    split_ifs with h1 h2 h3
    · have h : s ^ 2 ≤ 1 := by nlinarith
      have h' : 0 ≤ s * (12 * (1 - s ^ 2) + 5 * s ^ 3) := by
        apply mul_nonneg hs
        have := pow_nonneg hs 3
        linarith
      nlinarith
    · have e : (3 - s) ^ 2 ≥ 4 * (2 - s) ^ 2 := by nlinarith
      have e2 : (3 - s) ^ 2 * (3 - s) ^ 2 ≥ 4 * (2 - s) ^ 2 * (4 * (2 - s) ^ 2) :=
        mul_le_mul e e (by positivity) (by positivity)
      nlinarith [sq_nonneg ((2 - s) ^ 2)]
    · nlinarith [sq_nonneg ((3 - s) ^ 2)]
    · simp
  · intro s hs
    have : (3 : ℝ) ≤ s := hs
    simp only [quinticPieces, pw, poly]
    rw [if_neg (by linarith), if_neg (by linarith), if_neg (by linarith)]

/-- **C32 (quintic).** The quintic kernel is valid in one, two and three dimensions. -/
theorem C32_quintic_valid (n : ℕ) (hn : 1 ≤ n ∧ n ≤ 3) : (quinticKernel n).Valid n := by
  have h := quintic_poly n hn
  have hpi := Real.pi_pos.ne'
  refine ⟨h.range_pos, by norm_num [quinticKernel], by norm_num [quinticKernel], h.nonneg, ?_, ?_, h.antitone,
    h.continuous, h.deriv, ?_, ?_⟩
  · rw [h.w0]; simp only [quinticPieces, pw, poly]; norm_num; exact h.cpos
  · intro s hs; rw [h.w0, h.support s hs, mul_zero]
  · obtain ⟨h1, h2⟩ := hn
    interval_cases n
    · refine h.normalised (qs := [(1, [0, 66, 0, -20, 0, 6, -5/3]), (2, [5/2, 51, 75/2, -70, 75/2, -9, 5/6]), (3, [-123/2, 243, -405/2, 90, -45/2, 3, -1/6])]) (e := [60]) ?_ ?_ ?_ ?_
      · simp only [Smooth, pw, dpw, poly, dpoly]; norm_num
      · intro s; simp only [quinticPieces, pw, dpw, poly, dpoly]; split_ifs <;> norm_num <;> ring
      · simp only [pw, poly]; norm_num
      · rw [unitBall_one]; simp only [quinticKernel, pw, poly, Quintic.kernnorm]; norm_num
    · refine h.normalised (qs := [(1, [0, 0, 33, 0, -15, 0, 5, -10/7]), (2, [5/14, 0, 51/2, 25, -105/2, 30, -15/2, 5/7]), (3, [-251/14, 0, 243/2, -135, 135/2, -18, 5/2, -1/7])]) (e := [239/7]) ?_ ?_ ?_ ?_
      · simp only [Smooth, pw, dpw, poly, dpoly]; norm_num
      · intro s; simp only [quinticPieces, pw, dpw, poly, dpoly]; split_ifs <;> norm_num <;> ring
      · simp only [pw, poly]; norm_num
      · rw [unitBall_two]; simp only [quinticKernel, pw, poly, Quintic.kernnorm]; norm_num; field_simp; norm_num
    · refine h.normalised (qs := [(1, [0, 0, 0, 22, 0, -12, 0, 30/7, -5/4]), (2, [5/56, 0, 0, 17, 75/4, -42, 25, -45/7, 5/8]), (3, [-507/56, 0, 0, 81, -405/4, 54, -15, 15/7, -1/8])]) (e := [30]) ?_ ?_ ?_ ?_
      · simp only [Smooth, pw, dpw, poly, dpoly]; norm_num
      · intro s; simp only [quinticPieces, pw, dpw, poly, dpoly]; split_ifs <;> norm_num <;> ring
      · simp only [pw, poly]; norm_num
      · rw [unitBall_three]; simp only [quinticKernel, pw, poly, Quintic.kernnorm]; norm_num; field_simp; norm_num
  · obtain ⟨h1, h2⟩ := hn
    interval_cases n
    · refine h.drag (qs := [(1, [0, 0, 0, 22, 0, -12, 0, 30/7, -5/4]), (2, [5/56, 0, 0, 17, 75/4, -42, 25, -45/7, 5/8]), (3, [-507/56, 0, 0, 81, -405/4, 54, -15, 15/7, -1/8])]) (e := [30]) ?_ ?_ ?_ ?_
      · simp only [Smooth, pw, dpw, poly, dpoly]; norm_num
      · intro s; simp only [quinticPieces, pw, dpw, poly, dpoly]; split_ifs <;> norm_num <;> ring
      · simp only [pw, poly]; norm_num
      · rw [unitBall_one]; simp only [quinticKernel, pw, poly, Quintic.kernnorm, Quintic.kernnormdrag]; norm_num
    · refine h.drag (qs := [(1, [0, 0, 0, 0, 33/2, 0, -10, 0, 15/4, -10/9]), (2, [5/168, 0, 0, 0, 51/4, 15, -35, 150/7, -45/8, 5/9]), (3, [-1019/168, 0, 0, 0, 243/4, -81, 45, -90/7, 15/8, -1/9])]) (e := [2771/84]) ?_ ?_ ?_ ?_
      · simp only [Smooth, pw, dpw, poly, dpoly]; norm_num
      · intro s; simp only [quinticPieces, pw, dpw, poly, dpoly]; split_ifs <;> norm_num <;> ring
      · simp only [pw, poly]; norm_num
      · rw [unitBall_two]; simp only [quinticKernel, pw, poly, Quintic.kernnorm, Quintic.kernnormdrag]; norm_num; field_simp; norm_num
    · refine h.drag (qs := [(1, [0, 0, 0, 0, 0, 66/5, 0, -60/7, 0, 10/3, -1]), (2, [1/84, 0, 0, 0, 0, 51/5, 25/2, -30, 75/4, -5, 1/2]), (3, [-681/140, 0, 0, 0, 0, 243/5, -135/2, 270/7, -45/4, 5/3, -1/10])]) (e := [42]) ?_ ?_ ?_ ?_
      · simp only [Smooth, pw, dpw, poly, dpoly]; norm_num
      · intro s; simp only [quinticPieces, pw, dpw, poly, dpoly]; split_ifs <;> norm_num <;> ring
      · simp only [pw, poly]; norm_num
      · rw [unitBall_three]; simp only [quinticKernel, pw, poly, Quintic.kernnorm, Quintic.kernnormdrag]; norm_num; field_simp; norm_num

/-- **C32 (quintic omega).** -/
theorem C32_quintic_omega (n : ℕ) (hn : 1 ≤ n ∧ n ≤ 3) : (quinticKernel n).OmegaOK n := by
  refine omegaOK_of (fun s _ => (quintic_poly n hn).deriv s) ?_
  intro s _
  simp only [quinticKernel, Quintic.womega, Quintic.w0, Quintic.w1]
  split_ifs <;> ring

/-- what the quintic gravity functions are inside the range: `360/359` of what they should be -/
theorem quintic_force_inside (s : ℝ) (h0 : 0 < s) (h3 : s < 3) : Quintic.wgrav s =
    360 / 359 * ((∫ x in Metric.ball (0 : EuclideanSpace ℝ (Fin 3)) s, (quinticKernel 3).w0 ‖x‖) / s ^ 2) := by
  have h := quintic_poly 3 (by norm_num)
  rw [h.ball (qs := [(1, [0, 0, 0, 22, 0, -12, 0, 30/7, -5/4]), (2, [5/56, 0, 0, 17, 75/4, -42, 25, -45/7, 5/8]), (3, [-507/56, 0, 0, 81, -405/4, 54, -15, 15/7, -1/8])]) (e := [30])
    (by simp only [Smooth, pw, dpw, poly, dpoly]; norm_num)
    (by intro s; simp only [quinticPieces, pw, dpw, poly, dpoly]; split_ifs <;> norm_num <;> ring)
    (by simp only [pw, poly]; norm_num) h0.le, unitBall_three]
  have hpi := Real.pi_pos.ne'
  simp only [Quintic.kernnorm, Quintic.wgrav, pw, poly, if_pos h3]
  split_ifs <;> norm_num <;> field_simp <;> ring

/-- **C32 (quintic gravity), partial.** Inside the range the force is `360/359` times the correct one and
the potential's derivative is minus the force; outside both are Newtonian. Missing: the factor should be
one – see `C32_quintic_gravity_defect`. -/
theorem C32_quintic_gravity_partial :
    (∀ s, 0 < s → s < 3 → (quinticKernel 3).wgrav s =
      360 / 359 * ((∫ x in Metric.ball (0 : EuclideanSpace ℝ (Fin 3)) s, (quinticKernel 3).w0 ‖x‖) / s ^ 2)) ∧
    (∀ s, 0 < s → s ≠ 3 → HasDerivAt (quinticKernel 3).wpot (-((quinticKernel 3).wgrav s)) s) ∧
    ∀ s, 3 ≤ s → (quinticKernel 3).wgrav s = 1 / s ^ 2 ∧ (quinticKernel 3).wpot s = 1 / s := by
  have hout : ∀ s, 3 ≤ s → Quintic.wgrav s = 1 / s ^ 2 ∧ Quintic.wpot s = 1 / s := by
    intro s hs
    simp only [Quintic.wgrav, Quintic.wpot, if_neg (not_lt.mpr hs),
      if_neg (not_lt.mpr (by linarith : (2 : ℝ) ≤ s)), if_neg (not_lt.mpr (by linarith : (1 : ℝ) ≤ s))]
    exact ⟨by rw [pow_two], trivial⟩
  refine ⟨quintic_force_inside, ?_, hout⟩
  intro s hs hne
  rcases lt_or_gt_of_ne hne with h3 | h3
  · -- the three pieces, the last one continued
    have hd : HasDerivAt (fun s => 12 / 359 * pw [(1, [0, 478/14, 0, -11, 0, 3, 0, -5/7, 5/28]),
        (2, [5/56, 473/14, 0, -17/2, -25/4, 21/2, -5, 15/14, -5/56])]
        [-507/56, 729/14, 0, -81/2, 135/4, -27/2, 3, -5/14, 1/56] s / s)
        (-(12 / 359 * pw [(1, [0, 0, 0, 22, 0, -12, 0, 30/7, -5/4]), (2, [5/56, 0, 0, 17, 75/4, -42, 25, -45/7, 5/8])]
          [-507/56, 0, 0, 81, -405/4, 54, -15, 15/7, -1/8] s / s ^ 2)) s := by
      refine hasDerivAt_pot (f := fun s => _) (g := fun s => _) (P := fun s => 12 / 359 * pw _ _ s)
        (G := fun s => 12 / 359 * pw _ _ s)
        (fun s => (hasDerivAt_pw _ _ ?_ s).const_mul _) (fun s _ => rfl) (fun s _ => rfl) ?_ s hs
      · simp only [Smooth, pw, dpw, poly, dpoly]; norm_num
      · intro s hs
        simp only [pw, dpw, poly, dpoly]; split_ifs <;> norm_num <;> ring
    refine HasDerivAt.congr_deriv (hd.congr_of_eventuallyEq ?_) ?_
    · filter_upwards [Ioo_mem_nhds hs h3] with x hx
      have hx0 : x ≠ 0 := hx.1.ne'
      simp only [quinticKernel, Quintic.wpot, pw, poly, if_pos hx.2]
      split_ifs <;> field_simp <;> ring
    · simp only [quinticKernel, Quintic.wgrav, pw, poly, if_pos h3]
      split_ifs <;> field_simp <;> ring
  · have hd : HasDerivAt (fun s : ℝ => 1 / s) (-(1 / s ^ 2)) s := by
      simpa only [one_div] using hasDerivAt_inv hs.ne'
    rw [show (quinticKernel 3).wgrav s = 1 / s ^ 2 from (hout s h3.le).1]
    refine hd.congr_of_eventuallyEq ?_
    filter_upwards [Ioi_mem_nhds h3] with x hx
    exact (hout x (le_of_lt hx)).2

/-- **C32, defect.** The quintic kernel's softened force is not that of its mass (`12/359` is left from a
different normalisation; it should be `1/30`). -/
theorem C32_quintic_gravity_defect : ¬ (quinticKernel 3).GravityOK := by
  intro h
  have h1 := h.force 1 one_pos
  have h2 := quintic_force_inside 1 one_pos (by norm_num)
  change Quintic.wgrav 1 = _ at h1
  rw [h1] at h2
  have h3 : (∫ x in Metric.ball (0 : EuclideanSpace ℝ (Fin 3)) 1, (quinticKernel 3).w0 ‖x‖) / 1 ^ 2 = 0 := by
    linarith
  rw [h3] at h1
  norm_num [Quintic.wgrav] at h1

/-- **C32, defect.** `wzeta` of the quintic kernel is not the derivative of its potential with respect to
the smoothing length (it lacks the prefactor and has the other sign). -/
theorem C32_quintic_zeta_defect (n : ℕ) : ¬ (quinticKernel n).ZetaOK := by
  intro hz
  have h1 := hz.zeta (1 / 2) (by norm_num) 1 one_pos
  have hp : HasDerivAt (fun h => (quinticKernel n).wpot (1 / 2 / h))
      (-((quinticKernel n).wgrav (1 / 2 / 1)) * (-(1 / 2 / 1 ^ 2))) 1 := by
    have hinv : HasDerivAt (fun h : ℝ => 1 / 2 / h) (-(1 / 2 / 1 ^ 2)) 1 := by
      have := (hasDerivAt_inv (one_ne_zero (α := ℝ))).const_mul (1 / 2)
      simp only [div_eq_mul_inv]
      exact this.congr_deriv (by ring)
    exact (C32_quintic_gravity_partial.2.1 (1 / 2 / 1) (by norm_num) (by norm_num)).comp 1 hinv
  have h2 := hp.div (hasDerivAt_id 1) (by norm_num)
  have := h1.unique h2
  simp only [quinticKernel, Quintic.wzeta, Quintic.wgrav, Quintic.wpot, id_eq] at this
  norm_num at this

/-! ### Gaussian -/

theorem Gaussian.w0_lt {n : ℕ} {s : ℝ} (h : s < 3) : Gaussian.w0 n s = Gaussian.kernnorm n * Real.exp (-s * s) :=
  if_pos h
theorem Gaussian.w0_ge {n : ℕ} {s : ℝ} (h : 3 ≤ s) : Gaussian.w0 n s = 0 := if_neg (not_lt.mpr h)
theorem Gaussian.w1_lt {n : ℕ} {s : ℝ} (h : s < 3) : Gaussian.w1 n s = -2 * Gaussian.kernnorm n * s * Real.exp (-s * s) :=
  if_pos h
theorem Gaussian.womega_lt {n : ℕ} {s : ℝ} (h : s < 3) : Gaussian.womega n s =
    Gaussian.kernnorm n * (2 * s * Real.exp (-s * s) - n * Real.exp (-s * s)) := if_pos h

theorem gaussian_norm_pos (n : ℕ) (hn : 1 ≤ n ∧ n ≤ 3) : 0 < Gaussian.kernnorm n := by
  have hpi := Real.pi_pos
  obtain ⟨h1, h2⟩ := hn
  interval_cases n <;> simp only [Gaussian.kernnorm] <;> positivity

theorem gaussian_full (n : ℕ) (hn : 1 ≤ n ∧ n ≤ 3) :
    ∫ x : EuclideanSpace ℝ (Fin n), Gaussian.kernnorm n * Real.exp (-‖x‖ * ‖x‖) = 1 := by
  have h := GaussianFourier.integral_rexp_neg_mul_sq_norm (V := EuclideanSpace ℝ (Fin n)) (b := 1) one_pos
  have e : ∀ x : EuclideanSpace ℝ (Fin n), Real.exp (-‖x‖ * ‖x‖) = Real.exp (-1 * ‖x‖ ^ 2) := fun x => by
    congr 1; ring
  simp_rw [e]
  rw [integral_const_mul, h]
  have hpi := Real.pi_pos
  have hs : Real.sqrt (1 / Real.pi) = (Real.sqrt Real.pi)⁻¹ := by rw [one_div, Real.sqrt_inv]
  have hs0 : Real.sqrt Real.pi ≠ 0 := by positivity
  obtain ⟨h1, h2⟩ := hn
  interval_cases n
  · simp only [Gaussian.kernnorm, hs]
    rw [Real.sqrt_eq_rpow, one_div] at *
    simp
    exact inv_mul_cancel₀ hs0
  · simp only [Gaussian.kernnorm]
    simp
  · simp only [Gaussian.kernnorm, hs]
    simp
    rw [show (3 : ℝ) / 2 = 1 + 1 / 2 by norm_num, Real.rpow_add hpi, Real.rpow_one, ← Real.sqrt_eq_rpow]
    field_simp

/-- integral of a radial function outside a ball -/
theorem integral_outside {n : ℕ} (hn : 0 < n) (f : ℝ → ℝ) {R : ℝ} (hR : 0 ≤ R) :
    ∫ x : EuclideanSpace ℝ (Fin n), (Set.Ioi R).indicator f ‖x‖
      = n * unitBall n * ∫ y in Set.Ioi R, y ^ (n - 1) * f y := by
  have : Nonempty (Fin n) := Fin.pos_iff_nonempty.mp hn
  have : Nontrivial (EuclideanSpace ℝ (Fin n)) := inferInstance
  rw [integral_fun_norm_addHaar volume (fun s => (Set.Ioi R).indicator f s)]
  have hfin : Module.finrank ℝ (EuclideanSpace ℝ (Fin n)) = n := by simp
  rw [hfin, nsmul_eq_mul, smul_eq_mul, mul_assoc]
  congr 2
  rw [← integral_indicator measurableSet_Ioi, ← integral_indicator measurableSet_Ioi]
  congr 1
  funext y
  by_cases h1 : R < y
  · have h0 : 0 < y := hR.trans_lt h1
    simp [Set.indicator, h0, h1]
  · simp [Set.indicator, h1]

theorem hasDerivAt_gauss (s : ℝ) : HasDerivAt (fun s : ℝ => Real.exp (-s * s)) (-2 * s * Real.exp (-s * s)) s := by
  have h : HasDerivAt (fun s : ℝ => -s * s) (-2 * s) s := by
    have := (hasDerivAt_pow 2 s).neg
    have e : (fun s : ℝ => -s * s) = fun s => -(s ^ 2) := by funext s; ring
    rw [e]
    refine this.congr_deriv (by norm_num)
  exact h.exp.congr_deriv (by ring)

/-- the tail of the Gaussian: at most `27/17 e⁻⁹`, and integrable -/
theorem gauss_tail (n : ℕ) (hn : 1 ≤ n ∧ n ≤ 3) :
    IntegrableOn (fun y : ℝ => y ^ (n - 1) * Real.exp (-y * y)) (Set.Ioi 3) ∧
    0 < ∫ y in Set.Ioi (3 : ℝ), y ^ (n - 1) * Real.exp (-y * y) ∧
    ∫ y in Set.Ioi (3 : ℝ), y ^ (n - 1) * Real.exp (-y * y) ≤ 27 / 17 * Real.exp (-9) := by
  have hd : ∀ x ∈ Set.Ici (3 : ℝ), HasDerivAt (fun s : ℝ => -(9 / 17 * (s * Real.exp (-s * s))))
      (9 / 17 * ((2 * x ^ 2 - 1) * Real.exp (-x * x))) x := by
    intro x _
    have h := (((hasDerivAt_id x).mul (hasDerivAt_gauss x)).const_mul (9 / 17)).neg
    refine h.congr_deriv ?_
    simp only [id_eq]
    ring
  have hpos : ∀ x ∈ Set.Ioi (3 : ℝ), 0 ≤ 9 / 17 * ((2 * x ^ 2 - 1) * Real.exp (-x * x)) := by
    intro x hx
    have : (3 : ℝ) < x := hx
    have h1 : 0 ≤ 2 * x ^ 2 - 1 := by nlinarith
    positivity
  have hlim : Filter.Tendsto (fun s : ℝ => -(9 / 17 * (s * Real.exp (-s * s)))) Filter.atTop (nhds 0) := by
    have h1 : Filter.Tendsto (fun s : ℝ => s * Real.exp (-s * s)) Filter.atTop (nhds 0) := by
      have h2 := Real.tendsto_pow_mul_exp_neg_atTop_nhds_zero 1
      refine squeeze_zero' (Filter.eventually_atTop.mpr ⟨1, fun s hs => by positivity⟩)
        (Filter.eventually_atTop.mpr ⟨1, fun s hs => ?_⟩) h2
      have : Real.exp (-s * s) ≤ Real.exp (-s) := Real.exp_le_exp.mpr (by nlinarith)
      rw [pow_one]
      exact mul_le_mul_of_nonneg_left this (by linarith)
    simpa using (h1.const_mul (9 / 17)).neg
  have hint := integrableOn_Ioi_deriv_of_nonneg' hd hpos hlim
  have hval := integral_Ioi_of_hasDerivAt_of_nonneg' hd hpos hlim
  have hle : ∀ y ∈ Set.Ioi (3 : ℝ), y ^ (n - 1) * Real.exp (-y * y)
      ≤ 9 / 17 * ((2 * y ^ 2 - 1) * Real.exp (-y * y)) := by
    intro y hy
    have h3 : (3 : ℝ) < y := hy
    have h1 : y ^ (n - 1) ≤ y ^ 2 := pow_le_pow_right₀ (by linarith) (by omega)
    have h2 : y ^ 2 ≤ 9 / 17 * (2 * y ^ 2 - 1) := by nlinarith
    calc y ^ (n - 1) * Real.exp (-y * y) ≤ 9 / 17 * (2 * y ^ 2 - 1) * Real.exp (-y * y) :=
          mul_le_mul_of_nonneg_right (h1.trans h2) (Real.exp_pos _).le
      _ = _ := by ring
  have hcont : Continuous fun y : ℝ => y ^ (n - 1) * Real.exp (-y * y) := by fun_prop
  have hi : IntegrableOn (fun y : ℝ => y ^ (n - 1) * Real.exp (-y * y)) (Set.Ioi 3) := by
    refine Integrable.mono' hint hcont.aestronglyMeasurable ?_
    filter_upwards [ae_restrict_mem measurableSet_Ioi] with y hy
    have h3 : (3 : ℝ) < y := hy
    rw [Real.norm_of_nonneg (by positivity)]
    exact hle y hy
  refine ⟨hi, ?_, ?_⟩
  · rw [setIntegral_pos_iff_support_of_nonneg_ae _ hi]
    · have : Set.Ioo (3 : ℝ) 4 ⊆ Function.support (fun y : ℝ => y ^ (n - 1) * Real.exp (-y * y)) ∩ Set.Ioi 3 := by
        intro y hy
        have h3 : (3 : ℝ) < y := hy.1
        refine ⟨?_, hy.1⟩
        rw [Function.mem_support]
        positivity
      refine lt_of_lt_of_le ?_ (measure_mono this)
      rw [Real.volume_Ioo]
      norm_num
    · filter_upwards [ae_restrict_mem measurableSet_Ioi] with y hy
      have h3 : (3 : ℝ) < y := hy
      simp only [Pi.zero_apply]
      positivity
  · refine (setIntegral_mono_on hi hint measurableSet_Ioi hle).trans ?_
    rw [hval]
    norm_num
    linarith

theorem exp_neg_nine : Real.exp (-9) < 1 / 8000 := by
  have e : Real.exp (-9) = (Real.exp 1 ^ 9)⁻¹ := by
    rw [← Real.exp_nat_mul, ← Real.exp_neg]; norm_num
  rw [e, one_div]
  refine inv_strictAnti₀ (by norm_num) ?_
  · calc (8000 : ℝ) < (2.7182818283 : ℝ) ^ 9 := by norm_num
      _ < Real.exp 1 ^ 9 := pow_lt_pow_left₀ Real.exp_one_gt_d9 (by norm_num) (by norm_num)

theorem gaussian_mass (n : ℕ) (hn : 1 ≤ n ∧ n ≤ 3) :
    ∫ x : EuclideanSpace ℝ (Fin n), Gaussian.w0 n ‖x‖ =
      1 - Gaussian.kernnorm n * (n * unitBall n * ∫ y in Set.Ioi (3 : ℝ), y ^ (n - 1) * Real.exp (-y * y)) := by
  have : Nonempty (Fin n) := Fin.pos_iff_nonempty.mp (by omega)
  have : Nontrivial (EuclideanSpace ℝ (Fin n)) := inferInstance
  have e : ∀ x : EuclideanSpace ℝ (Fin n), ‖x‖ ≠ 3 → Gaussian.w0 n ‖x‖ = Gaussian.kernnorm n * Real.exp (-‖x‖ * ‖x‖)
      - (Set.Ioi (3 : ℝ)).indicator (fun y => Gaussian.kernnorm n * Real.exp (-y * y)) ‖x‖ := by
    intro x hx
    simp only [Set.indicator, Set.mem_Ioi]
    rcases lt_or_gt_of_ne hx with h | h
    · rw [Gaussian.w0_lt h, if_neg (not_lt.mpr h.le), sub_zero]
    · rw [Gaussian.w0_ge h.le, if_pos h, sub_self]
  have hae : ∀ᵐ x : EuclideanSpace ℝ (Fin n), ‖x‖ ≠ 3 := by
    have : volume (Metric.sphere (0 : EuclideanSpace ℝ (Fin n)) 3) = 0 := Measure.addHaar_sphere _ _ _
    rw [ae_iff]
    convert this using 2
    ext x
    simp
  rw [integral_congr_ae (hae.mono fun x hx => e x hx)]
  have hi1 : Integrable (fun x : EuclideanSpace ℝ (Fin n) => Gaussian.kernnorm n * Real.exp (-‖x‖ * ‖x‖)) := by
    by_contra hc
    have := gaussian_full n hn
    rw [integral_undef hc] at this
    norm_num at this
  have hi2 : Integrable (fun x : EuclideanSpace ℝ (Fin n) =>
      (Set.Ioi (3 : ℝ)).indicator (fun y => Gaussian.kernnorm n * Real.exp (-y * y)) ‖x‖) := by
    refine hi1.mono ?_ ?_
    · have hm : Measurable fun y : ℝ => (Set.Ioi (3 : ℝ)).indicator
          (fun y => Gaussian.kernnorm n * Real.exp (-y * y)) y :=
        Measurable.indicator (by fun_prop) measurableSet_Ioi
      exact (hm.comp measurable_norm).aestronglyMeasurable
    · filter_upwards with x
      by_cases h : ‖x‖ ∈ Set.Ioi (3 : ℝ)
      · rw [Set.indicator_of_mem h]
      · rw [Set.indicator_of_notMem h, norm_zero]; exact norm_nonneg _
  rw [integral_sub hi1 hi2, gaussian_full n hn,
    integral_outside (by omega) (fun y => Gaussian.kernnorm n * Real.exp (-y * y)) (by norm_num)]
  congr 1
  have e2 : ∀ y : ℝ, y ^ (n - 1) * (Gaussian.kernnorm n * Real.exp (-y * y))
      = Gaussian.kernnorm n * (y ^ (n - 1) * Real.exp (-y * y)) := fun y => by ring
  simp_rw [e2]
  rw [integral_const_mul]
  ring

/-- `n` times the unit ball times the constant of the kernel is below 3 -/
theorem gaussian_area (n : ℕ) (hn : 1 ≤ n ∧ n ≤ 3) :
    0 < Gaussian.kernnorm n * (n * unitBall n) ∧ Gaussian.kernnorm n * (n * unitBall n) ≤ 4 := by
  have hpi := Real.pi_pos
  have h3 := Real.pi_gt_three
  have hs : Real.sqrt (1 / Real.pi) ≤ 1 := by
    rw [Real.sqrt_le_left (by norm_num), one_pow, div_le_one hpi]; linarith
  have hs0 : 0 < Real.sqrt (1 / Real.pi) := by positivity
  obtain ⟨h1, h2⟩ := hn
  interval_cases n
  · rw [unitBall_one]; simp only [Gaussian.kernnorm]; norm_num at *
    constructor <;> nlinarith
  · rw [unitBall_two]; simp only [Gaussian.kernnorm]; norm_num
    rw [show Real.pi⁻¹ * (2 * Real.pi) = 2 by field_simp]
    norm_num
  · rw [unitBall_three]; simp only [Gaussian.kernnorm]
    rw [show 1 / Real.pi * Real.sqrt (1 / Real.pi) * (((3 : ℕ) : ℝ) * (Real.pi * 4 / 3)) = 4 * Real.sqrt (1 / Real.pi) by
      push_cast; field_simp]
    constructor <;> nlinarith

/-- **C32 (Gaussian), partial.** The truncated Gaussian is non-negative, non-increasing, vanishes from
three on, `w1` is its derivative except at three, and its integral is below one by less than `10⁻³`.
Missing: continuity at three, exact normalisation and the correction and gravity terms
(`C32_gaussian_defects`). -/
theorem C32_gaussian_partial (n : ℕ) (hn : 1 ≤ n ∧ n ≤ 3) :
    (∀ s, 0 ≤ (gaussianKernel n).w0 s) ∧ (∀ s, 3 ≤ s → (gaussianKernel n).w0 s = 0) ∧
    AntitoneOn (gaussianKernel n).w0 (Set.Ici 0) ∧
    (∀ s, s ≠ 3 → HasDerivAt (gaussianKernel n).w0 ((gaussianKernel n).w1 s) s) ∧
    ∀ (h : ℝ), 0 < h → ∀ x₀ : EuclideanSpace ℝ (Fin n),
      1 - 1 / 1000 < ∫ x : EuclideanSpace ℝ (Fin n), (1 / h) ^ n * (gaussianKernel n).w0 (‖x - x₀‖ / h) ∧
      ∫ x : EuclideanSpace ℝ (Fin n), (1 / h) ^ n * (gaussianKernel n).w0 (‖x - x₀‖ / h) < 1 := by
  have hc := gaussian_norm_pos n hn
  have hnn : ∀ s, 0 ≤ Gaussian.w0 n s := by
    intro s
    rw [Gaussian.w0]
    split_ifs
    · positivity
    · exact le_rfl
  refine ⟨hnn, ?_, ?_, ?_, ?_⟩
  · intro s hs
    exact if_neg (not_lt.mpr hs)
  · intro a ha b hb hab
    by_cases hb3 : b < 3
    · change Gaussian.w0 n b ≤ Gaussian.w0 n a
      rw [Gaussian.w0_lt hb3, Gaussian.w0_lt (lt_of_le_of_lt hab hb3)]
      refine mul_le_mul_of_nonneg_left (Real.exp_le_exp.mpr ?_) hc.le
      have : (0 : ℝ) ≤ a := ha
      nlinarith
    · change Gaussian.w0 n b ≤ Gaussian.w0 n a
      have : Gaussian.w0 n b = 0 := if_neg hb3
      rw [this]; exact hnn a
  · intro s hs
    rcases lt_or_gt_of_ne hs with h | h
    · have h1 : HasDerivAt (fun s => Gaussian.kernnorm n * Real.exp (-s * s)) ((gaussianKernel n).w1 s) s := by
        refine ((hasDerivAt_gauss s).const_mul _).congr_deriv ?_
        change _ = Gaussian.w1 n s
        rw [Gaussian.w1_lt h]
        ring
      refine h1.congr_of_eventuallyEq ?_
      filter_upwards [Iio_mem_nhds h] with x hx
      exact if_pos hx
    · have h1 : HasDerivAt (fun _ : ℝ => (0 : ℝ)) ((gaussianKernel n).w1 s) s := by
        have e : (gaussianKernel n).w1 s = 0 := if_neg (not_lt.mpr h.le)
        rw [e]
        exact hasDerivAt_const s 0
      refine h1.congr_of_eventuallyEq ?_
      filter_upwards [Ioi_mem_nhds h] with x hx
      exact if_neg (not_lt.mpr (le_of_lt hx))
  · intro h hh x₀
    rw [integral_scaled (gaussianKernel n).w0 hh x₀]
    change 1 - 1 / 1000 < ∫ x : EuclideanSpace ℝ (Fin n), Gaussian.w0 n ‖x‖ ∧
      ∫ x : EuclideanSpace ℝ (Fin n), Gaussian.w0 n ‖x‖ < 1
    rw [gaussian_mass n hn, ← mul_assoc]
    obtain ⟨_, t1, t2⟩ := gauss_tail n hn
    obtain ⟨a1, a2⟩ := gaussian_area n hn
    have h9 := exp_neg_nine
    constructor
    · have : Gaussian.kernnorm n * (n * unitBall n) * (∫ y in Set.Ioi (3 : ℝ), y ^ (n - 1) * Real.exp (-y * y))
          ≤ 4 * (27 / 17 * Real.exp (-9)) := mul_le_mul a2 t2 t1.le (by norm_num)
      linarith
    · have := mul_pos a1 t1
      linarith

/-- **C32, defects of the Gaussian kernel.** It jumps at three (so it is not a valid kernel), `womega` is
not the derivative with respect to the smoothing length (`2 s` for `2 s²`), and its gravity functions are
zero: self-gravity is silently switched off. -/
theorem C32_gaussian_defects (n : ℕ) (hn : 1 ≤ n ∧ n ≤ 3) :
    ¬ Continuous (gaussianKernel n).w0 ∧ ¬ (gaussianKernel n).OmegaOK n ∧
    (∀ s, (gaussianKernel n).wgrav s = 0 ∧ (gaussianKernel n).wpot s = 0) ∧ ¬ (gaussianKernel n).GravityOK := by
  have hc := gaussian_norm_pos n hn
  refine ⟨?_, ?_, fun s => ⟨rfl, rfl⟩, ?_⟩
  · intro hcont
    have h1 : Filter.Tendsto (Gaussian.w0 n) (nhdsWithin 3 (Set.Iio 3)) (nhds (Gaussian.w0 n 3)) :=
      hcont.continuousAt.tendsto.mono_left nhdsWithin_le_nhds
    have h2 : Filter.Tendsto (Gaussian.w0 n) (nhdsWithin 3 (Set.Iio 3))
        (nhds (Gaussian.kernnorm n * Real.exp (-3 * 3))) := by
      have hg : Continuous fun s : ℝ => Gaussian.kernnorm n * Real.exp (-s * s) := by fun_prop
      have h3 : Filter.Tendsto (fun s : ℝ => Gaussian.kernnorm n * Real.exp (-s * s))
          (nhdsWithin 3 (Set.Iio 3)) (nhds (Gaussian.kernnorm n * Real.exp (-3 * 3))) :=
        hg.continuousAt.tendsto.mono_left nhdsWithin_le_nhds
      refine h3.congr' ?_
      filter_upwards [self_mem_nhdsWithin] with x hx
      exact (if_pos hx).symm
    have h3 := tendsto_nhds_unique h1 h2
    have h4 : Gaussian.w0 n 3 = 0 := if_neg (lt_irrefl _)
    rw [h4] at h3
    have : 0 < Gaussian.kernnorm n * Real.exp (-3 * 3) := by positivity
    linarith
  · intro ho
    have h1 := ho.omega (1 / 2) (by norm_num) 1 one_pos
    have h2 := (omegaOK_of (K := { gaussianKernel n with
      w0 := fun s => Gaussian.kernnorm n * Real.exp (-s * s)
      w1 := fun s => Gaussian.kernnorm n * (-2 * s * Real.exp (-s * s))
      womega := fun s => -(n * (Gaussian.kernnorm n * Real.exp (-s * s))
        + s * (Gaussian.kernnorm n * (-2 * s * Real.exp (-s * s)))) }) (n := n)
      (fun s _ => (hasDerivAt_gauss s).const_mul _) (fun s _ => rfl)).omega (1 / 2) (by norm_num) 1 one_pos
    have h3 := h2.congr_of_eventuallyEq (f₁ := fun h => (1 / h) ^ n * (gaussianKernel n).w0 (1 / 2 / h)) (by
      have : (1 : ℝ) ∈ Set.Ioi (1 / 2 : ℝ) := by norm_num
      filter_upwards [Ioi_mem_nhds this] with x hx
      have hx' : (1 / 2 : ℝ) < x := hx
      have : (1 / 2 : ℝ) / x < 3 := by
        rw [div_lt_iff₀ (by linarith)]; linarith
      change (1 / x) ^ n * Gaussian.w0 n (1 / 2 / x) = (1 / x) ^ n * (_ : ℝ)
      rw [Gaussian.w0_lt this])
    have h4 := h1.unique h3
    change (1 / 1) ^ (n + 1) * Gaussian.womega n (1 / 2 / 1) = (1 / 1) ^ (n + 1) * (_ : ℝ) at h4
    rw [Gaussian.womega_lt (by norm_num)] at h4
    norm_num at h4
    have h5 : Gaussian.kernnorm n * Real.exp (-(1 / 4)) = 0 := by linarith
    have : 0 < Gaussian.kernnorm n * Real.exp (-(1 / 4)) := by positivity
    linarith
  · intro hg
    have := (hg.newton 3 (le_refl _)).1
    norm_num [gaussianKernel, Gaussian.wgrav] at this

/-- values at the knots in one dimension -/
example : (quinticKernel 1).w0 0 = 66 / 120 ∧ (quinticKernel 1).w0 1 = 26 / 120 ∧
    (quinticKernel 1).w0 2 = 1 / 120 ∧ (quinticKernel 1).w0 3 = 0 ∧ (gaussianKernel 2).w0 0 = 1 / Real.pi := by
  norm_num [quinticKernel, Quintic.w0, Quintic.kernnorm, gaussianKernel, Gaussian.w0, Gaussian.kernrange,
    Gaussian.kernnorm]

end Gandalf
