import Verif.Model.TestIcs
import Verif.Proof.Swirl
import Mathlib.Analysis.Calculus.Deriv.Inv
import Mathlib.Analysis.SpecialFunctions.Sqrt
import Mathlib.Analysis.SpecialFunctions.Log.Deriv

/-! # The Gresho vortex: angular velocity and pressure -/

set_option autoImplicit false

namespace Gandalf.TestIc

open Real

/-- angular velocity as a function of the distance -/
noncomputable def omegaOf (d : ℝ) : ℝ := max 0 (2 / max d (1 / 5) - 5)

theorem rotspeed_eq {d : ℝ} (hd : 0 ≤ d) (a : ℝ) : rotspeed d * (a / d) = omegaOf d * (if d = 0 then 0 else a) := by
  unfold rotspeed omegaOf
  rcases eq_or_lt_of_le hd with h | h
  · subst h; simp
  rw [if_neg h.ne']
  by_cases h1 : d < 1 / 5
  · rw [if_pos h1, max_eq_right h1.le, max_eq_right (by norm_num)]
    field_simp
    norm_num
  push Not at h1
  rw [if_neg (not_lt.mpr h1), max_eq_left h1]
  by_cases h2 : d < 2 / 5
  · rw [if_pos h2, max_eq_right]
    · field_simp
    · rw [sub_nonneg, le_div_iff₀ h]; linarith
  · push Not at h2
    rw [if_neg (not_lt.mpr h2), max_eq_left]
    · ring
    · rw [sub_nonpos, div_le_iff₀ h]; linarith

theorem omega_bound {d s : ℝ} (hd : 0 ≤ d) (hs : 0 ≤ s) : d * |omegaOf (d + s) - omegaOf d| ≤ 10 * s := by
  unfold omegaOf
  have ha : (1 / 5 : ℝ) ≤ max d (1 / 5) := le_max_right _ _
  have hda : d ≤ max d (1 / 5) := le_max_left _ _
  have hb : (1 / 5 : ℝ) ≤ max (d + s) (1 / 5) := le_max_right _ _
  have hba : max (d + s) (1 / 5) - max d (1 / 5) ≤ s := by
    have : max (d + s) (1 / 5) ≤ max d (1 / 5) + s := max_le (by linarith) (by linarith)
    linarith
  have hab : max d (1 / 5) ≤ max (d + s) (1 / 5) := max_le_max (by linarith) le_rfl
  generalize max d (1 / 5) = a at *
  generalize max (d + s) (1 / 5) = b at *
  have hl : |max 0 (2 / b - 5) - max 0 (2 / a - 5)| ≤ |(2 / b - 5) - (2 / a - 5)| := by
    have := abs_max_sub_max_le_abs (2 / b - 5) (2 / a - 5) 0
    simpa [max_comm] using this
  have e : |(2 / b - 5) - (2 / a - 5)| = 2 * (b - a) / (a * b) := by
    have e1 : (2 / b - 5) - (2 / a - 5) = -(2 * (b - a) / (a * b)) := by
      have : a ≠ 0 := by linarith
      have : b ≠ 0 := by linarith
      field_simp
      ring
    rw [e1, abs_neg, abs_of_nonneg]
    exact div_nonneg (by linarith) (by nlinarith)
  rw [e] at hl
  calc d * |max 0 (2 / b - 5) - max 0 (2 / a - 5)| ≤ a * (2 * (b - a) / (a * b)) :=
        mul_le_mul hda hl (abs_nonneg _) (by linarith)
    _ = 2 * (b - a) / b := by
        have : a ≠ 0 := by linarith
        have : b ≠ 0 := by linarith
        field_simp
    _ ≤ 10 * s := by
        rw [div_le_iff₀ (by linarith)]
        nlinarith

theorem press_bound {d s : ℝ} (hd : 0 ≤ d) (hs : 0 ≤ s) :
    |greshoPress (d * d) (d + s) - greshoPress (d * d) d| ≤ 20 * s := by
  unfold greshoPress
  have hlog : ∀ y : ℝ, 0 < y → log y ≤ y - 1 ∧ 1 - 1 / y ≤ log y := fun y hy =>
    ⟨log_le_sub_one_of_pos hy, by simpa using one_sub_inv_le_log_of_pos hy⟩
  by_cases h1 : d + s < 1 / 5
  · rw [if_pos h1, if_pos (by linarith : d < 1 / 5)]
    simp only [sub_self, abs_zero]
    linarith
  rw [if_neg h1]
  push Not at h1
  by_cases h2 : d + s < 2 / 5
  · rw [if_pos h2]
    by_cases h3 : d < 1 / 5
    · rw [if_pos h3, abs_le]
      obtain ⟨l1, _⟩ := hlog ((d + s) / (1 / 5)) (by positivity)
      have l3 : 0 ≤ log ((d + s) / (1 / 5)) := log_nonneg (by rw [le_div_iff₀ (by norm_num)]; linarith)
      constructor <;> linarith
    · push Not at h3
      rw [if_neg (not_lt.mpr h3), if_pos (by linarith : d < 2 / 5), abs_le]
      have hd0 : (0 : ℝ) < d := by linarith
      have e : log ((d + s) / (1 / 5)) = log (d / (1 / 5)) + log ((d + s) / d) := by
        rw [← log_mul (by positivity) (by positivity)]
        congr 1
        field_simp
      obtain ⟨l1, _⟩ := hlog ((d + s) / d) (by positivity)
      have l3 : 0 ≤ log ((d + s) / d) := log_nonneg (by rw [le_div_iff₀ hd0]; linarith)
      have l4 : (d + s) / d - 1 ≤ 5 * s := by
        rw [sub_le_iff_le_add, div_le_iff₀ hd0]
        nlinarith
      rw [e]
      constructor <;> linarith
  push Not at h2
  rw [if_neg (not_lt.mpr h2)]
  by_cases h3 : d < 1 / 5
  · rw [if_pos h3, abs_le]
    obtain ⟨l1, l2⟩ := hlog 2 (by norm_num)
    constructor <;> nlinarith
  rw [if_neg h3]
  push Not at h3
  by_cases h4 : d < 2 / 5
  · rw [if_pos h4, abs_le]
    have hd0 : (0 : ℝ) < d := by linarith
    have e : log 2 = log (d / (1 / 5)) + log (2 / 5 / d) := by
      rw [← log_mul (by positivity) (by positivity)]
      congr 1
      field_simp
    obtain ⟨l1, l2⟩ := hlog (2 / 5 / d) (by positivity)
    have l3 : 2 / 5 / d - 1 ≤ 5 * (2 / 5 - d) := by
      rw [sub_le_iff_le_add, div_le_iff₀ hd0]
      nlinarith
    have l4 : 0 ≤ log (2 / 5 / d) := log_nonneg (by rw [le_div_iff₀ hd0]; linarith)
    rw [e]
    constructor <;> nlinarith
  · rw [if_neg h4]
    simp only [sub_self, abs_zero]
    linarith

/-- the derivatives off the circles where the formulas change -/
theorem gresho_deriv {q : ℝ} (hq : 0 ≤ q) (h1 : √q ≠ 1 / 5) (h2 : √q ≠ 2 / 5) :
    (∃ w', HasDerivAt (fun q => omegaOf √q) w' q) ∧ HasDerivAt (fun q => greshoPress q √q) (omegaOf √q ^ 2 / 2) q := by
  have hc : ContinuousAt (fun q : ℝ => √q) q := continuous_sqrt.continuousAt
  rcases lt_or_gt_of_ne h1 with h | h
  · have ev : ∀ᶠ y in nhds q, √y < 1 / 5 := hc.eventually (Iio_mem_nhds h)
    have hom : ∀ y, √y < 1 / 5 → omegaOf √y = 5 := by
      intro y hy
      unfold omegaOf
      rw [max_eq_right hy.le]
      norm_num
    refine ⟨⟨0, (hasDerivAt_const q 5).congr_of_eventuallyEq (ev.mono fun y hy => hom y hy)⟩, ?_⟩
    rw [hom q h]
    have : HasDerivAt (fun q : ℝ => 5 + 25 / 2 * q) (5 ^ 2 / 2) q :=
      (((hasDerivAt_id' q).const_mul (25 / 2)).const_add 5).congr_deriv (by norm_num)
    exact this.congr_of_eventuallyEq (ev.mono fun y hy => by simp only [greshoPress]; rw [if_pos hy])
  · have hq0 : 0 < q := by
      rcases eq_or_lt_of_le hq with e | e
      · rw [← e] at h; norm_num at h
      · exact e
    have hs := hasDerivAt_sqrt hq0.ne'
    have hs0 : √q ≠ 0 := (sqrt_pos.mpr hq0).ne'
    have hqs : √q ^ 2 = q := sq_sqrt hq
    rcases lt_or_gt_of_ne h2 with h' | h'
    · have ev : ∀ᶠ y in nhds q, 1 / 5 < √y ∧ √y < 2 / 5 :=
        (hc.eventually (Ioi_mem_nhds h)).and (hc.eventually (Iio_mem_nhds h'))
      have hom : ∀ y, 1 / 5 < √y ∧ √y < 2 / 5 → omegaOf √y = 2 / √y - 5 := by
        intro y hy
        unfold omegaOf
        rw [max_eq_left hy.1.le, max_eq_right]
        rw [sub_nonneg, le_div_iff₀ (by linarith [hy.1])]
        linarith [hy.2]
      refine ⟨⟨_, ((((hs.fun_inv hs0).const_mul 2).sub_const 5)).congr_of_eventuallyEq
        (ev.mono fun y hy => by simp only; rw [hom y hy, div_eq_mul_inv])⟩, ?_⟩
      rw [hom q ⟨h, h'⟩]
      have d1 := (((hasDerivAt_id' q).const_mul (25 / 2)).const_add 9).fun_sub (hs.const_mul 20)
      have d2 := ((hs.div_const (1 / 5)).log (by positivity)).const_mul 4
      have d3 := d1.fun_add d2
      refine HasDerivAt.congr_of_eventuallyEq (f := _) (d3.congr_deriv ?_) (ev.mono fun y hy => ?_)
      · field_simp
        ring
      · simp only [greshoPress]
        rw [if_neg (not_lt.mpr hy.1.le), if_pos hy.2]
    · have ev : ∀ᶠ y in nhds q, 2 / 5 < √y := hc.eventually (Ioi_mem_nhds h')
      have hom : ∀ y, 2 / 5 < √y → omegaOf √y = 0 := by
        intro y hy
        unfold omegaOf
        rw [max_eq_left (a := √y) (by linarith), max_eq_left]
        rw [sub_nonpos, div_le_iff₀ (by linarith)]
        linarith
      refine ⟨⟨0, (hasDerivAt_const q 0).congr_of_eventuallyEq (ev.mono fun y hy => hom y hy)⟩, ?_⟩
      rw [hom q h']
      refine ((hasDerivAt_const q (3 + 4 * log 2)).congr_deriv (by norm_num)).congr_of_eventuallyEq (ev.mono fun y hy => ?_)
      simp only [greshoPress]
      rw [if_neg (by linarith), if_neg (by linarith)]

theorem omegaOf_continuous : Continuous omegaOf := by
  unfold omegaOf
  have : ∀ d : ℝ, max d (1 / 5) ≠ 0 := fun d => by
    have : (1 / 5 : ℝ) ≤ max d (1 / 5) := le_max_right _ _
    linarith
  fun_prop (disch := intros; apply this)

theorem press_eq {d : ℝ} : greshoPress (d * d) d =
    5 + 25 / 2 * (min d (1 / 5) * min d (1 / 5)) - 11 / 2 +
      (9 + 25 / 2 * (max (1 / 5) (min d (2 / 5)) * max (1 / 5) (min d (2 / 5))) - 20 * max (1 / 5) (min d (2 / 5)) +
        4 * log (max (1 / 5) (min d (2 / 5)) / (1 / 5))) := by
  unfold greshoPress
  by_cases h1 : d < 1 / 5
  · rw [if_pos h1, min_eq_left h1.le, min_eq_left (by linarith), max_eq_left h1.le, div_self (by norm_num), log_one]
    ring
  rw [if_neg h1]
  push Not at h1
  rw [min_eq_right h1]
  by_cases h2 : d < 2 / 5
  · rw [if_pos h2, min_eq_left h2.le, max_eq_right h1]
    ring
  · rw [if_neg h2]
    push Not at h2
    rw [min_eq_right h2, max_eq_right (by norm_num), show (2 / 5 : ℝ) / (1 / 5) = 2 by norm_num]
    ring

theorem press_continuous : Continuous fun d => greshoPress (d * d) d := by
  simp only [press_eq]
  have : ∀ d : ℝ, max (1 / 5) (min d (2 / 5)) / (1 / 5) ≠ 0 := fun d => by
    have : (1 / 5 : ℝ) ≤ max (1 / 5) (min d (2 / 5)) := le_max_left _ _
    exact div_ne_zero (by linarith) (by norm_num)
  have h : Continuous fun d : ℝ => log (max (1 / 5) (min d (2 / 5)) / (1 / 5)) :=
    Continuous.log (by fun_prop) this
  fun_prop

end Gandalf.TestIc
