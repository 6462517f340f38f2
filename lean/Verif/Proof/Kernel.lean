import Verif.Spec.Kernel
import Verif.Proof.Calculus
import Mathlib.Analysis.Calculus.Deriv.MeanValue

/-! Kernels given by polynomial pieces -/

set_option autoImplicit false

namespace Gandalf

open MeasureTheory Metric

/-- polynomial pieces: below each knot a polynomial, a last polynomial beyond -/
noncomputable def pw : List (ℝ × List ℝ) → List ℝ → ℝ → ℝ
  | [], e, s => poly e s
  | (a, l) :: ps, e, s => if s < a then poly l s else pw ps e s

noncomputable def dpw : List (ℝ × List ℝ) → List ℝ → ℝ → ℝ
  | [], e, s => dpoly e s
  | (a, l) :: ps, e, s => if s < a then dpoly l s else dpw ps e s

/-- values and derivatives agree at the knots -/
def Smooth : List (ℝ × List ℝ) → List ℝ → Prop
  | [], _ => True
  | (a, l) :: ps, e => poly l a = pw ps e a ∧ dpoly l a = dpw ps e a ∧ Smooth ps e

theorem hasDerivAt_pw : ∀ (ps : List (ℝ × List ℝ)) (e : List ℝ), Smooth ps e →
    ∀ s, HasDerivAt (pw ps e) (dpw ps e s) s
  | [], e, _, s => hasDerivAt_poly e s
  | (a, l) :: ps, e, h, s => by
    have := hasDerivAt_ite (p := poly l) (q := pw ps e) (p' := dpoly l) (q' := dpw ps e) (a := a)
      (fun s _ => hasDerivAt_poly l s) (fun s _ => hasDerivAt_pw ps e h.2.2 s) h.1 h.2.1 s
    exact this

/-- the data that describe a kernel of polynomial pieces in `n` dimensions -/
structure PolyKernel (K : Kernel) (n : ℕ) (c : ℝ) (ps : List (ℝ × List ℝ)) : Prop where
  npos : 0 < n
  cpos : 0 < c
  smooth : Smooth ps []
  w0 : ∀ s, K.w0 s = c * pw ps [] s
  w1 : ∀ s, K.w1 s = c * dpw ps [] s
  range_pos : 0 < K.kernrange
  nonpos : ∀ s, 0 ≤ s → dpw ps [] s ≤ 0
  support : ∀ s, K.kernrange ≤ s → pw ps [] s = 0

theorem PolyKernel.deriv {K : Kernel} {n : ℕ} {c : ℝ} {ps : List (ℝ × List ℝ)} (h : PolyKernel K n c ps)
    (s : ℝ) : HasDerivAt K.w0 (K.w1 s) s := by
  rw [funext h.w0, h.w1]
  exact (hasDerivAt_pw ps [] h.smooth s).const_mul c

theorem PolyKernel.continuous {K : Kernel} {n : ℕ} {c : ℝ} {ps : List (ℝ × List ℝ)} (h : PolyKernel K n c ps) :
    Continuous K.w0 :=
  continuous_iff_continuousAt.mpr fun s => (h.deriv s).continuousAt

theorem PolyKernel.antitone {K : Kernel} {n : ℕ} {c : ℝ} {ps : List (ℝ × List ℝ)} (h : PolyKernel K n c ps) :
    AntitoneOn K.w0 (Set.Ici 0) := by
  refine antitoneOn_of_deriv_nonpos (convex_Ici 0) h.continuous.continuousOn
    (fun s _ => (h.deriv s).differentiableAt.differentiableWithinAt) ?_
  intro s hs
  rw [interior_Ici] at hs
  rw [(h.deriv s).deriv, h.w1]
  exact mul_nonpos_of_nonneg_of_nonpos h.cpos.le (h.nonpos s (le_of_lt hs))

theorem PolyKernel.nonneg {K : Kernel} {n : ℕ} {c : ℝ} {ps : List (ℝ × List ℝ)} (h : PolyKernel K n c ps)
    (s : ℝ) (hs : 0 ≤ s) : 0 ≤ K.w0 s := by
  have h1 := h.antitone (Set.mem_Ici.mpr hs) (Set.mem_Ici.mpr (hs.trans (le_max_left s K.kernrange)))
    (le_max_left s K.kernrange)
  rw [h.w0 (max _ _), h.support _ (le_max_right _ _), mul_zero] at h1
  exact h1

/-- mass inside a ball -/
theorem PolyKernel.ball {K : Kernel} {n : ℕ} {c : ℝ} {ps : List (ℝ × List ℝ)} (h : PolyKernel K n c ps)
    {qs : List (ℝ × List ℝ)} {e : List ℝ} (hq : Smooth qs e)
    (hd : ∀ s, dpw qs e s = s ^ (n - 1) * pw ps [] s) (h0 : pw qs e 0 = 0) {r : ℝ} (hr : 0 ≤ r) :
    ∫ x in Metric.ball (0 : EuclideanSpace ℝ (Fin n)) r, K.w0 ‖x‖ = n * unitBall n * (c * pw qs e r) := by
  rw [integral_ball_radial h.npos (F := fun s => c * pw qs e s) hr h.continuous.continuousOn]
  · simp only [h0]; ring
  · intro s _
    refine ((hasDerivAt_pw qs e hq s).const_mul c).congr_deriv ?_
    rw [hd, h.w0]; ring

theorem PolyKernel.normalised {K : Kernel} {n : ℕ} {c : ℝ} {ps : List (ℝ × List ℝ)} (hK : PolyKernel K n c ps)
    {qs : List (ℝ × List ℝ)} {e : List ℝ} (hq : Smooth qs e)
    (hd : ∀ s, dpw qs e s = s ^ (n - 1) * pw ps [] s) (h0 : pw qs e 0 = 0)
    (h1 : n * unitBall n * (c * pw qs e K.kernrange) = 1) (h : ℝ) (hh : 0 < h)
    (x₀ : EuclideanSpace ℝ (Fin n)) :
    ∫ x : EuclideanSpace ℝ (Fin n), (1 / h) ^ n * K.w0 (‖x - x₀‖ / h) = 1 := by
  rw [integral_scaled K.w0 hh x₀, integral_radial K.w0 (R := K.kernrange)
    (fun s hs => by rw [hK.w0, hK.support s hs, mul_zero]), hK.ball hq hd h0 hK.range_pos.le, h1]

theorem PolyKernel.drag {K : Kernel} {n : ℕ} {c : ℝ} {ps : List (ℝ × List ℝ)} (hK : PolyKernel K n c ps)
    {qs : List (ℝ × List ℝ)} {e : List ℝ} (hq : Smooth qs e)
    (hd : ∀ s, dpw qs e s = s ^ (n - 1) * (s * s * pw ps [] s)) (h0 : pw qs e 0 = 0)
    (h1 : n * unitBall n * (K.kernnormdrag * (c * pw qs e K.kernrange)) = 1) (h : ℝ) (hh : 0 < h)
    (x₀ : EuclideanSpace ℝ (Fin n)) :
    ∫ x : EuclideanSpace ℝ (Fin n), (1 / h) ^ n * K.wdrag (‖x - x₀‖ / h) = 1 := by
  rw [integral_scaled K.wdrag hh x₀, integral_radial K.wdrag (R := K.kernrange)
    (fun s hs => by rw [Kernel.wdrag, hK.w0, hK.support s hs]; ring)]
  rw [integral_ball_radial hK.npos (F := fun s => K.kernnormdrag * (c * pw qs e s)) hK.range_pos.le]
  · simp only [h0, mul_zero, sub_zero, h1]
  · refine Continuous.continuousOn ?_
    have := hK.continuous
    unfold Kernel.wdrag
    fun_prop
  · intro s _
    refine (((hasDerivAt_pw qs e hq s).const_mul c).const_mul _).congr_deriv ?_
    rw [hd, Kernel.wdrag, hK.w0]; ring

/-- `womega = -(n w0 + s w1)` makes it the derivative with respect to `h` -/
theorem omegaOK_of {K : Kernel} {n : ℕ} (hd : ∀ s, 0 ≤ s → HasDerivAt K.w0 (K.w1 s) s)
    (ho : ∀ s, 0 ≤ s → K.womega s = -(n * K.w0 s + s * K.w1 s)) : K.OmegaOK n := by
  refine ⟨fun r hr h hh => ?_⟩
  have hinv : HasDerivAt (fun h : ℝ => r / h) (-(r / h ^ 2)) h := by
    have := (hasDerivAt_inv hh.ne').const_mul r
    simp only [div_eq_mul_inv]
    exact this.congr_deriv (by ring)
  have hw : HasDerivAt (fun h => K.w0 (r / h)) (K.w1 (r / h) * (-(r / h ^ 2))) h :=
    (hd (r / h) (by positivity)).comp h hinv
  have hp : HasDerivAt (fun h : ℝ => (1 / h) ^ n) (-(n * (1 / h) ^ (n + 1))) h := by
    have h1 : HasDerivAt (fun h : ℝ => 1 / h) (-(1 / h ^ 2)) h := by
      simpa only [one_div] using hasDerivAt_inv hh.ne'
    refine (h1.pow n).congr_deriv ?_
    rcases n with _ | n
    · simp
    · rw [Nat.add_sub_cancel, show -(1 / h ^ 2) = -((1 / h) * (1 / h)) by field_simp, pow_succ (1 / h) (n + 1),
        pow_succ (1 / h) n]
      ring
  refine (hp.mul hw).congr_deriv ?_
  rw [ho _ (by positivity), pow_succ]
  field_simp
  ring

theorem zetaOK_of {K : Kernel} (hp : ∀ s, 0 < s → HasDerivAt K.wpot (-(K.wgrav s)) s)
    (hz : ∀ s, 0 < s → K.wzeta s = K.wpot s - s * K.wgrav s) : K.ZetaOK := by
  refine ⟨fun r hr h hh => ?_⟩
  have hinv : HasDerivAt (fun h : ℝ => r / h) (-(r / h ^ 2)) h := by
    have := (hasDerivAt_inv hh.ne').const_mul r
    simp only [div_eq_mul_inv]
    exact this.congr_deriv (by ring)
  have hw : HasDerivAt (fun h => K.wpot (r / h)) (-(K.wgrav (r / h)) * (-(r / h ^ 2))) h :=
    (hp (r / h) (by positivity)).comp h hinv
  refine (hw.div (hasDerivAt_id h) hh.ne').congr_deriv ?_
  rw [hz _ (by positivity)]
  simp only [id_eq]
  field_simp
  ring

/-- potential `P(s)/s`, force `G(s)/s²` -/
theorem hasDerivAt_pot {f g P G P' : ℝ → ℝ} (hP : ∀ s, HasDerivAt P (P' s) s)
    (hf : ∀ s, 0 < s → f s = P s / s) (hg : ∀ s, 0 < s → g s = G s / s ^ 2)
    (h : ∀ s, 0 < s → s * P' s - P s = -G s) (s : ℝ) (hs : 0 < s) : HasDerivAt f (-(g s)) s := by
  have h1 : HasDerivAt (fun s => P s / s) ((P' s * s - P s * 1) / s ^ 2) s :=
    (hP s).div (hasDerivAt_id s) hs.ne'
  refine HasDerivAt.congr_deriv (h1.congr_of_eventuallyEq ?_) ?_
  · filter_upwards [Ioi_mem_nhds hs] with x hx
    exact hf x hx
  · rw [hg s hs, show P' s * s - P s * 1 = s * P' s - P s by ring, h s hs]; ring

/-! ### the M4 kernel -/

noncomputable def m4Pieces : List (ℝ × List ℝ) := [(1, [1, 0, -3/2, 3/4]), (2, [2, -3, 3/2, -1/4])]

theorem m4_poly (n : ℕ) (hn : 1 ≤ n ∧ n ≤ 3) : PolyKernel (m4Kernel n) n (M4.kernnorm n) m4Pieces := by
  refine ⟨by omega, ?_, ?_, ?_, ?_, by norm_num [m4Kernel], ?_, ?_⟩
  · obtain ⟨h1, h2⟩ := hn
    interval_cases n <;> simp only [M4.kernnorm] <;> positivity
  · simp only [Smooth, m4Pieces, pw, dpw, poly, dpoly]; norm_num
  · intro s
    simp only [m4Kernel, M4.w0, m4Pieces, pw, poly]
    split_ifs <;> ring
  · intro s
    simp only [m4Kernel, M4.w1, m4Pieces, dpw, poly, dpoly]
    split_ifs <;> ring
  · intro s hs
    simp only [m4Pieces, dpw, poly, dpoly]
    split_ifs <;> nlinarith [sq_nonneg (2 - s)]
  · intro s hs
    have : (2 : ℝ) ≤ s := hs
    simp only [m4Pieces, pw, poly]
    rw [if_neg (by linarith), if_neg (by linarith)]

theorem m4_force : ∀ s, 0 < s → M4.wgrav s = 4 * pw [(1, [0, 0, 0, 1/3, 0, -3/10, 1/8]), (2, [-1/60, 0, 0, 2/3, -3/4, 3/10, -1/24])] [1/4] s / s ^ 2 := by
  intro s hs
  simp only [M4.wgrav, pw, poly]
  split_ifs <;> field_simp <;> ring

theorem m4_pot : ∀ s, 0 < s → M4.wpot s = pw [(1, [0, 7/5, 0, -2/3, 0, 3/10, -1/10]),
    (2, [-1/15, 8/5, 0, -4/3, 1, -3/10, 1/30])] [1] s / s := by
  intro s hs
  simp only [M4.wpot, pw, poly]
  split_ifs <;> field_simp <;> ring

end Gandalf
