import Verif.Model.Disc
import Verif.Spec.Disc
import Mathlib.Analysis.SpecialFunctions.Pow.Deriv
import Mathlib.Analysis.SpecialFunctions.Integrals.Basic
import Mathlib.Analysis.SpecialFunctions.Gaussian.GaussianIntegral
import Mathlib.Analysis.SpecialFunctions.ExpDeriv
import Mathlib.Tactic

set_option autoImplicit false
set_option linter.unusedSectionVars false

noncomputable section

namespace Gandalf.Disc
open Real DiscSpec

/-- `g` goes locally as the power `a` of the radius. -/
def Pow (g : ℝ → ℝ) (a r : ℝ) : Prop := HasDerivAt g (a * g r / r) r

theorem pow_const (c r : ℝ) : Pow (fun _ => c) 0 r := by
  have h := hasDerivAt_const r c
  unfold Pow
  refine h.congr_deriv ?_
  simp

theorem pow_id {r : ℝ} (hr : r ≠ 0) : Pow (fun x => x) 1 r := by
  have h := hasDerivAt_id r
  unfold Pow
  refine h.congr_deriv ?_
  field_simp

theorem Pow.mul {g k : ℝ → ℝ} {a b r : ℝ} (hg : Pow g a r) (hk : Pow k b r) : Pow (fun x => g x * k x) (a + b) r := by
  have h := HasDerivAt.fun_mul hg hk
  unfold Pow
  refine h.congr_deriv ?_
  ring

theorem Pow.div {g k : ℝ → ℝ} {a b r : ℝ} (hg : Pow g a r) (hk : Pow k b r) (h0 : k r ≠ 0) :
    Pow (fun x => g x / k x) (a - b) r := by
  have h := HasDerivAt.fun_div hg hk h0
  unfold Pow
  refine h.congr_deriv ?_
  by_cases hr : r = 0
  · simp [hr]
  field_simp

theorem pow_rpow {s r : ℝ} (hs : 0 < s) (hr : 0 < r) (a : ℝ) : Pow (fun x => (x / s) ^ a) a r := by
  have h1 : HasDerivAt (fun x : ℝ => x / s) (1 / s) r := (hasDerivAt_id r).div_const s
  have h := HasDerivAt.rpow_const (p := a) h1 (Or.inl (div_pos hr hs).ne')
  unfold Pow
  refine h.congr_deriv ?_
  rw [rpow_sub_one (div_pos hr hs).ne']
  field_simp

variable (P : Par)

structure Good : Prop where
  mstar : 0 < P.mstar
  rin : 0 < P.rin
  rout : P.rin < P.rout
  hr : 0 < P.hr

variable {P}

theorem cs0_pos (G : Good P) : 0 < P.cs0 := mul_pos G.hr (sqrt_pos.2 (div_pos G.mstar G.rin))

theorem cs_pos (G : Good P) {r : ℝ} (hr : 0 < r) : 0 < P.cs r := mul_pos (cs0_pos G) (rpow_pos_of_pos (div_pos hr G.rin) _)

theorem H_pos (G : Good P) {r : ℝ} (hr : 0 < r) : 0 < P.H r := by
  unfold Par.H
  have h1 := cs_pos G hr
  have h2 := rpow_pos_of_pos hr (3 / 2)
  have h3 := sqrt_pos.2 G.mstar
  positivity

theorem H_sq (G : Good P) {r : ℝ} (hr : 0 < r) : P.H r ^ 2 = 2 * P.cs r ^ 2 * r ^ 3 / P.mstar := by
  have h1 : (r ^ (3 / 2 : ℝ)) ^ 2 = r ^ 3 := by
    rw [← rpow_natCast, ← rpow_mul hr.le, ← rpow_natCast r 3]
    norm_num
  unfold Par.H
  rw [div_pow, mul_pow, mul_pow, sq_sqrt (by norm_num), sq_sqrt G.mstar.le, h1]

theorem sigma_eq (G : Good P) {r : ℝ} (hr : 0 < r) : P.sigma r = P.sig0 * (r / P.rin) ^ (-P.p) := by
  have h := div_pos hr G.rin
  unfold Par.sigma Par.f
  rw [mul_div_assoc]
  congr 1
  rw [show -(P.p - 1) = -P.p + 1 by ring, rpow_add_one h.ne', mul_div_cancel_right₀ _ h.ne']

theorem pow_f (G : Good P) {r : ℝ} (hr : 0 < r) : Pow P.f (-(P.p - 1)) r := pow_rpow G.rin hr _

theorem pow_sigma (G : Good P) {r : ℝ} (hr : 0 < r) : Pow P.sigma (-P.p) r := by
  have h := ((pow_const P.sig0 r).mul (pow_f G hr)).div ((pow_id hr.ne').div (pow_const P.rin r) G.rin.ne')
    (div_pos hr G.rin).ne'
  have e : (0 : ℝ) + -(P.p - 1) - (1 - 0) = -P.p := by ring
  rw [e] at h
  exact h

theorem pow_cs (G : Good P) {r : ℝ} (hr : 0 < r) : Pow P.cs (-P.q) r := by
  have h := (pow_const P.cs0 r).mul (pow_rpow G.rin hr (-P.q))
  rw [zero_add] at h
  exact h

theorem pow_H (G : Good P) {r : ℝ} (hr : 0 < r) : Pow P.H (3 / 2 - P.q) r := by
  have h1 : Pow (fun x : ℝ => x ^ (3 / 2 : ℝ)) (3 / 2) r := by
    have h := pow_rpow (s := 1) one_pos hr (3 / 2)
    simpa using h
  have h := (((pow_const (√2) r).mul (pow_cs G hr)).mul h1).div (pow_const (√P.mstar) r) (sqrt_pos.2 G.mstar).ne'
  have e : (0 : ℝ) + -P.q + 3 / 2 - 0 = 3 / 2 - P.q := by ring
  rw [e] at h
  exact h

/-- midplane density goes as the power `-(p+3/2-q)` -/
theorem pow_rho (G : Good P) {r : ℝ} (hr : 0 < r) : Pow (fun x => P.rho true 0 x 0) (-(P.p + 3 / 2 - P.q)) r ∨ P.N = 0 := by
  by_cases hN : P.N = 0
  · exact Or.inr hN
  left
  have e : (fun x => P.rho true 0 x 0) = fun x => P.sigma x * (1 / (P.H x * √π)) := by
    funext x
    simp [Par.rho, Par.sigmaOf, Par.rhoz, Par.zf, hN]
  rw [e]
  have h := (pow_sigma G hr).mul ((pow_const 1 r).div ((pow_H G hr).mul (pow_const (√π) r))
    (mul_pos (H_pos G hr) (sqrt_pos.2 pi_pos)).ne')
  have e2 : -P.p + (0 - (3 / 2 - P.q + 0)) = -(P.p + 3 / 2 - P.q) := by ring
  rw [e2] at h
  exact h

theorem sig0_pos (G : Good P) (hm : 0 < P.mass) (hq : P.ratio < 1) : 0 < P.sig0 := by
  have hr := sub_pos.2 hq
  have hin := G.rin
  have hout := G.rin.trans G.rout
  have hpi := pi_pos
  unfold Par.sig0
  by_cases hp : P.p = 2
  · rw [if_neg (by simpa using hp)]
    have := sub_pos.2 (log_lt_log G.rin G.rout)
    positivity
  · rw [if_pos hp]
    have hx := rpow_pos_of_pos hin (-P.p)
    rcases lt_or_gt_of_ne hp with h | h
    · have h1 : 0 < 2 - P.p := by linarith
      have h2 := sub_pos.2 (rpow_lt_rpow hin.le G.rout h1)
      positivity
    · have h1 : 2 - P.p < 0 := by linarith
      have h2 := sub_neg.2 (rpow_lt_rpow_of_neg hin G.rout h1)
      apply div_pos_of_neg_of_neg _ h2
      apply div_neg_of_neg_of_pos _ (by positivity)
      have : 0 < P.mass * (1 - P.ratio) * P.rin ^ (-P.p) := by positivity
      nlinarith

theorem sigma_pos (G : Good P) (hm : 0 < P.mass) (hq : P.ratio < 1) {r : ℝ} (hr : 0 < r) : 0 < P.sigma r := by
  rw [sigma_eq G hr]
  exact mul_pos (sig0_pos G hm hq) (rpow_pos_of_pos (div_pos hr G.rin) _)

/-- mass by the surface density -/
theorem mass_sigma (G : Good P) : massBetween P.sigma P.rin P.rout
    = if P.p ≠ 2 then P.mass * (1 - P.ratio) else P.mass * (1 - P.ratio) * P.rin ^ 4 := by
  have hin := G.rin
  have hout := G.rin.trans G.rout
  have hpi := pi_pos
  have h0 : (0 : ℝ) ∉ Set.uIcc P.rin P.rout := by
    rw [Set.uIcc_of_le G.rout.le]
    intro h
    exact absurd h.1 (not_le.2 hin)
  have e1 : massBetween P.sigma P.rin P.rout
      = ∫ r in P.rin..P.rout, 2 * π * P.sig0 * P.rin ^ P.p * r ^ (1 - P.p) := by
    unfold massBetween
    apply intervalIntegral.integral_congr
    intro r hr
    rw [Set.uIcc_of_le G.rout.le] at hr
    have hr0 : 0 < r := lt_of_lt_of_le hin hr.1
    have h1 : r ^ (1 - P.p) = r * r ^ (-P.p) := by
      rw [show 1 - P.p = -P.p + 1 by ring, rpow_add_one hr0.ne', mul_comm]
    have h2 : (r / P.rin) ^ (-P.p) = r ^ (-P.p) * P.rin ^ P.p := by
      rw [div_rpow hr0.le hin.le, rpow_neg hin.le P.p]
      field_simp
    simp only [sigma_eq G hr0, h1, h2]
    ring
  rw [e1, intervalIntegral.integral_const_mul]
  by_cases hp : P.p = 2
  · rw [if_neg (by simpa using hp)]
    have e2 : ∫ r in P.rin..P.rout, r ^ (1 - P.p) = log (P.rout / P.rin) := by
      rw [← integral_inv h0]
      apply intervalIntegral.integral_congr
      intro r _
      simp only
      rw [hp, show (1 : ℝ) - 2 = -1 by norm_num, rpow_neg_one]
    have hl : log P.rout - log P.rin ≠ 0 := (sub_pos.2 (log_lt_log G.rin G.rout)).ne'
    rw [e2, log_div hout.ne' hin.ne']
    unfold Par.sig0
    rw [if_neg (by simpa using hp), hp, show P.rin ^ (2 : ℝ) = P.rin ^ 2 from by norm_cast]
    field_simp
  · rw [if_pos hp]
    have e2 : ∫ r in P.rin..P.rout, r ^ (1 - P.p) = (P.rout ^ (2 - P.p) - P.rin ^ (2 - P.p)) / (2 - P.p) := by
      rw [integral_rpow]
      · rw [show 1 - P.p + 1 = 2 - P.p by ring]
      · right
        refine ⟨?_, h0⟩
        intro h
        exact hp (by linarith)
    have h2 : (2 - P.p) ≠ 0 := fun h => hp (by linarith)
    have h3 : P.rout ^ (2 - P.p) - P.rin ^ (2 - P.p) ≠ 0 := by
      rcases lt_or_gt_of_ne hp with h | h
      · exact (sub_pos.2 (rpow_lt_rpow hin.le G.rout (by linarith))).ne'
      · exact (sub_neg.2 (rpow_lt_rpow_of_neg hin G.rout (by linarith))).ne
    have h4 : P.rin ^ (-P.p) * P.rin ^ P.p = 1 := by
      rw [← rpow_add hin]
      simp
    rw [e2]
    unfold Par.sig0
    rw [if_pos hp]
    calc _ = P.mass * (1 - P.ratio) * (P.rin ^ (-P.p) * P.rin ^ P.p) := by
          generalize P.rin ^ (-P.p) = a
          generalize P.rin ^ P.p = b
          generalize hD : P.rout ^ (2 - P.p) - P.rin ^ (2 - P.p) = D at h3
          field_simp
      _ = _ := by rw [h4, mul_one]

theorem vertical (G : Good P) {r : ℝ} (hr : 0 < r) : ∫ z, P.rhoz r z = 1 := by
  have hH := H_pos G hr
  have hp := sqrt_pos.2 pi_pos
  have e : (fun z => P.rhoz r z) = fun z => exp (-(1 / P.H r ^ 2) * z ^ 2) * (1 / (P.H r * √π)) := by
    funext z
    unfold Par.rhoz Par.zf
    rw [show -(z / P.H r) ^ 2 = -(1 / P.H r ^ 2) * z ^ 2 by field_simp]
    ring
  rw [show (∫ z, P.rhoz r z) = ∫ z, exp (-(1 / P.H r ^ 2) * z ^ 2) * (1 / (P.H r * √π)) from congrArg _ e,
    MeasureTheory.integral_mul_const, integral_gaussian]
  rw [show π / (1 / P.H r ^ 2) = π * P.H r ^ 2 by field_simp, sqrt_mul pi_pos.le, sqrt_sq hH.le]
  field_simp

theorem hydrostatic (G : Good P) (i : ℕ) {r : ℝ} (hr : 0 < r) (z : ℝ) :
    Hydrostatic P.mstar (P.cs r) (fun y => P.rho true i r y) r z := by
  have hH := H_pos G hr
  have hM := G.mstar
  have hc := cs_pos G hr
  have h1 : HasDerivAt (fun y => P.zf r y) (exp (-(z / P.H r) ^ 2) * -(2 * (z / P.H r) * (1 / P.H r))) z := by
    unfold Par.zf
    apply HasDerivAt.exp
    have h := (((hasDerivAt_id z).div_const (P.H r)).fun_pow 2).fun_neg
    refine h.congr_deriv ?_
    simp
  have h2 : HasDerivAt (fun y => P.cs r ^ 2 * P.rho true i r y)
      (P.cs r ^ 2 * (P.sigmaOf i r * (exp (-(z / P.H r) ^ 2) * -(2 * (z / P.H r) * (1 / P.H r)) / (P.H r * √π)))) z := by
    have h := ((h1.div_const (P.H r * √π)).const_mul (P.sigmaOf i r)).const_mul (P.cs r ^ 2)
    exact h
  refine ⟨_, h2, ?_⟩
  have h3 := H_sq G hr
  simp only [Par.rho, Par.rhoz, Par.zf, if_true]
  have h5 : P.cs r ^ 2 * (2 * (z / P.H r) * (1 / P.H r)) = P.mstar * z / r ^ 3 := by
    have : P.cs r ^ 2 * (2 * (z / P.H r) * (1 / P.H r)) = P.cs r ^ 2 * 2 * z / P.H r ^ 2 := by field_simp
    rw [this, h3]
    field_simp
  linear_combination (-(P.sigmaOf i r * exp (-(z / P.H r) ^ 2) / (P.H r * √π))) * h5

theorem f_le_fmax (G : Good P) {r : ℝ} (h1 : P.rin ≤ r) (h2 : r ≤ P.rout) : 0 < P.f r ∧ P.f r ≤ P.fmax := by
  have hin := G.rin
  have hr : 0 < r := lt_of_lt_of_le hin h1
  have hq : 1 ≤ r / P.rin := (one_le_div hin).2 h1
  refine ⟨rpow_pos_of_pos (div_pos hr hin) _, ?_⟩
  unfold Par.f Par.fmax
  by_cases hp : P.p ≤ 1
  · rw [if_pos hp]
    apply rpow_le_rpow (div_pos hr hin).le _ (by linarith)
    gcongr
  · rw [if_neg hp]
    push Not at hp
    exact rpow_le_one_of_one_le_of_nonpos hq (by linarith)

theorem fmax_pos (G : Good P) : 0 < P.fmax := by
  have h := f_le_fmax G le_rfl G.rout.le
  linarith

theorem shift_rel (a b : Body) (k : Fin 3) : (shift a b).2.r k - (shift a b).1.r k = b.r k - a.r k
    ∧ (shift a b).2.v k - (shift a b).1.v k = b.v k - a.v k := by
  simp only [shift]
  constructor <;> ring

theorem shift_com (a b : Body) (h : a.m + b.m ≠ 0) (k : Fin 3) :
    (shift a b).1.m * (shift a b).1.r k + (shift a b).2.m * (shift a b).2.r k = 0
    ∧ (shift a b).1.m * (shift a b).1.v k + (shift a b).2.m * (shift a b).2.v k = 0 := by
  simp only [shift]
  constructor <;> field_simp <;> ring

theorem orbit0 {mstar m rp e i : ℝ} (hM : 0 < mstar) (hm : 0 ≤ m) (hr : 0 < rp) (h0 : 0 ≤ e) (h1 : e < 1)
    (hi : cos (i * π / 180) ≠ 0) :
    Orbit (mstar + m) rp e (fun k => (planet0 mstar m rp e i).r k - (star0 mstar).r k)
      (fun k => (planet0 mstar m rp e i).v k - (star0 mstar).v k) := by
  have hS : 0 < mstar + m := by linarith
  have hs1 : √(mstar + m) ^ 2 = mstar + m := sq_sqrt hS.le
  have hs2 : √rp ^ 2 = rp := sq_sqrt hr.le
  have hs3 : √((1 - e) / (1 + e)) ^ 2 = (1 - e) / (1 + e) := sq_sqrt (div_nonneg (by linarith) (by linarith))
  have he : 0 < 1 + e := by linarith
  have ht : cos (i * π / 180) ^ 2 + (cos (i * π / 180) * tan (i * π / 180)) ^ 2 = 1 := by
    rw [tan_eq_sin_div_cos, mul_div_cancel₀ _ hi]
    exact cos_sq_add_sin_sq _
  set V := √(mstar + m) / √rp * √((1 - e) / (1 + e)) with hV
  have hV2 : V ^ 2 = (mstar + m) / rp * ((1 - e) / (1 + e)) := by
    rw [hV, mul_pow, div_pow, hs1, hs2, hs3]
  have hxx : dot (fun k => (planet0 mstar m rp e i).r k - (star0 mstar).r k)
      (fun k => (planet0 mstar m rp e i).r k - (star0 mstar).r k) = (rp * (1 + e)) ^ 2 := by
    simp [dot, Fin.sum_univ_three, planet0, star0]
    ring
  have hvv : dot (fun k => (planet0 mstar m rp e i).v k - (star0 mstar).v k)
      (fun k => (planet0 mstar m rp e i).v k - (star0 mstar).v k) = V ^ 2 := by
    simp only [dot, Fin.sum_univ_three, planet0, star0, ← hV]
    simp
    linear_combination V ^ 2 * ht
  have hxv : dot (fun k => (planet0 mstar m rp e i).r k - (star0 mstar).r k)
      (fun k => (planet0 mstar m rp e i).v k - (star0 mstar).v k) = 0 := by
    simp [dot, Fin.sum_univ_three, planet0, star0]
  unfold Orbit
  rw [hxx, hvv, hxv, hV2, sqrt_sq (by positivity)]
  constructor
  · field_simp
    ring
  · field_simp
    ring

end Gandalf.Disc
