import Verif.Model.ExactRiemann
import Mathlib.Analysis.SpecialFunctions.Pow.Deriv
import Mathlib.Analysis.SpecialFunctions.Sqrt
import Mathlib.Analysis.Calculus.MeanValue
import Mathlib.Analysis.Calculus.Deriv.MeanValue

/-! The wave functions of the exact Riemann solver: smooth, strictly increasing, concave, unbounded. -/

set_option autoImplicit false
set_option linter.unusedSectionVars false

namespace Gandalf.Exact

open Set Filter Topology

/-- A side of the interface with positive density and pressure and the sound speed of an ideal gas. -/
structure Good (γ : ℝ) (S : Side) : Prop where
  p : 0 < S.p
  d : 0 < S.d
  c : 0 < S.c
  gas : S.d * S.c ^ 2 = γ * S.p

variable {γ : ℝ}

theorem g1_pos (hγ : 1 < γ) : 0 < g1 γ := by unfold g1; apply div_pos <;> linarith
theorem g2_pos (hγ : 1 < γ) : 0 < g2 γ := by unfold g2; apply div_pos <;> linarith
theorem g4_pos (hγ : 1 < γ) : 0 < g4 γ := by unfold g4; apply div_pos <;> linarith
theorem g5_pos (hγ : 1 < γ) : 0 < g5 γ := by unfold g5; apply div_pos <;> linarith
theorem g6_pos (hγ : 1 < γ) : 0 < g6 γ := by unfold g6; apply div_pos <;> linarith
theorem g7_pos (hγ : 1 < γ) : 0 < g7 γ := by unfold g7; linarith
theorem g12 (hγ : 1 < γ) : g1 γ - 1 = -g2 γ := by unfold g1 g2; field_simp; ring
theorem g47 (hγ : 1 < γ) : g4 γ * g7 γ = 1 := by
  unfold g4 g7
  have : γ - 1 ≠ 0 := by linarith
  field_simp
  ring

/-- the shock formula -/
noncomputable def shockFn (γ : ℝ) (S : Side) (p : ℝ) : ℝ := (p - S.p) * √(g5 γ / S.d / (p + S.p * g6 γ))

noncomputable def shockFn' (γ : ℝ) (S : Side) (p : ℝ) : ℝ :=
  √(g5 γ / S.d / (p + S.p * g6 γ)) * (1 - 0.5 * (p - S.p) / (p + S.p * g6 γ))

/-- the rarefaction formula -/
noncomputable def rareFn (γ : ℝ) (S : Side) (p : ℝ) : ℝ := g4 γ * S.c * ((p / S.p) ^ g1 γ - 1)

noncomputable def rareFn' (γ : ℝ) (S : Side) (p : ℝ) : ℝ := (p / S.p) ^ (-g2 γ) / (S.d * S.c)

variable {S : Side}

theorem den_pos (hγ : 1 < γ) (hS : Good γ S) {p : ℝ} (hp : 0 < p) : 0 < p + S.p * g6 γ := by
  have := mul_pos hS.p (g6_pos hγ); linarith

theorem rareFn_deriv (hγ : 1 < γ) (hS : Good γ S) {p : ℝ} (hp : 0 < p) : HasDerivAt (rareFn γ S) (rareFn' γ S p) p := by
  have h1 : HasDerivAt (fun x : ℝ => x / S.p) (1 / S.p) p := (hasDerivAt_id p).div_const _
  have h2 := h1.rpow_const (p := g1 γ) (Or.inl (div_pos hp hS.p).ne')
  have h3 := (h2.sub_const 1).const_mul (g4 γ * S.c)
  refine h3.congr_deriv ?_
  unfold rareFn'
  rw [g12 hγ]
  generalize (p / S.p) ^ (-g2 γ) = x
  have hd := hS.d
  have hc := hS.c
  have hpp := hS.p
  have hg : g4 γ * g1 γ = 1 / γ := by
    unfold g4 g1
    have : γ - 1 ≠ 0 := by linarith
    field_simp
    norm_num
  have hgas := hS.gas
  have e1 : g4 γ * S.c * (1 / S.p * g1 γ * x) = S.c / S.p * x * (g4 γ * g1 γ) := by ring
  rw [e1, hg]
  field_simp
  linear_combination x * hgas

theorem shockFn_deriv (hγ : 1 < γ) (hS : Good γ S) {p : ℝ} (hp : 0 < p) : HasDerivAt (shockFn γ S) (shockFn' γ S p) p := by
  have hB := den_pos hγ hS hp
  have hA : 0 < g5 γ / S.d := div_pos (g5_pos hγ) hS.d
  have h1 : HasDerivAt (fun x : ℝ => x + S.p * g6 γ) 1 p := (hasDerivAt_id p).add_const _
  have h2 : HasDerivAt (fun x : ℝ => g5 γ / S.d / (x + S.p * g6 γ)) (-(g5 γ / S.d) / (p + S.p * g6 γ) ^ 2) p := by
    have := (hasDerivAt_const p (g5 γ / S.d)).fun_div h1 hB.ne'
    exact this.congr_deriv (by ring)
  have h3 := h2.sqrt (div_pos hA hB).ne'
  have h4 : HasDerivAt (fun x : ℝ => x - S.p) 1 p := (hasDerivAt_id p).sub_const _
  have h5 := h4.mul h3
  refine h5.congr_deriv ?_
  unfold shockFn'
  have hq : √(g5 γ / S.d / (p + S.p * g6 γ)) * √(g5 γ / S.d / (p + S.p * g6 γ)) = g5 γ / S.d / (p + S.p * g6 γ) :=
    Real.mul_self_sqrt (div_pos hA hB).le
  have hq0 : 0 < √(g5 γ / S.d / (p + S.p * g6 γ)) := Real.sqrt_pos.mpr (div_pos hA hB)
  generalize √(g5 γ / S.d / (p + S.p * g6 γ)) = q at *
  generalize g5 γ / S.d = A at *
  generalize p + S.p * g6 γ = B at *
  have hA' : A = q * q * B := by rw [hq]; field_simp
  rw [hA']
  field_simp
  ring

theorem shock_rare_junction (hγ : 1 < γ) (hS : Good γ S) : shockFn' γ S S.p = rareFn' γ S S.p := by
  unfold shockFn' rareFn'
  rw [div_self hS.p.ne', Real.one_rpow, sub_self, mul_zero, zero_div, sub_zero, mul_one]
  have hd := hS.d
  have hc := hS.c
  have hp := hS.p
  have hgas := hS.gas
  have e : g5 γ / S.d / (S.p + S.p * g6 γ) = (1 / (S.d * S.c)) ^ 2 := by
    unfold g5 g6
    have h1 : γ + 1 ≠ 0 := by linarith
    have h2 : S.p + S.p * ((γ - 1) / (γ + 1)) = S.p * (2 * γ) / (γ + 1) := by field_simp; ring
    have h3 : 0 < γ := by linarith
    rw [h2]
    field_simp
    linear_combination hgas
  rw [e]
  exact Real.sqrt_sq (by positivity)

theorem shock_at (γ : ℝ) (S : Side) : shockFn γ S S.p = 0 := by simp [shockFn]

theorem rare_at (hS : Good γ S) : rareFn γ S S.p = 0 := by
  unfold rareFn
  rw [div_self hS.p.ne', Real.one_rpow]
  ring

theorem waveFn_shock {p : ℝ} (h : S.p < p) : waveFn γ S p = shockFn γ S p := if_pos h
theorem waveFn_rare {p : ℝ} (h : p ≤ S.p) : waveFn γ S p = rareFn γ S p := if_neg (not_lt.mpr h)
theorem waveFn'_shock {p : ℝ} (h : S.p < p) : waveFn' γ S p = shockFn' γ S p := if_pos h
theorem waveFn'_rare {p : ℝ} (h : p ≤ S.p) : waveFn' γ S p = rareFn' γ S p := if_neg (not_lt.mpr h)

theorem waveFn_shock' (hS : Good γ S) {p : ℝ} (h : S.p ≤ p) : waveFn γ S p = shockFn γ S p := by
  rcases h.lt_or_eq with h | h
  · exact waveFn_shock h
  · rw [← h, waveFn_rare le_rfl, rare_at hS, shock_at]

theorem waveFn'_shock' (hγ : 1 < γ) (hS : Good γ S) {p : ℝ} (h : S.p ≤ p) : waveFn' γ S p = shockFn' γ S p := by
  rcases h.lt_or_eq with h | h
  · exact waveFn'_shock h
  · rw [← h, waveFn'_rare le_rfl, shock_rare_junction hγ hS]

/-- the code's `fprime` is the derivative of its `f`, also where the two formulae meet -/
theorem waveFn_deriv (hγ : 1 < γ) (hS : Good γ S) {p : ℝ} (hp : 0 < p) : HasDerivAt (waveFn γ S) (waveFn' γ S p) p := by
  rcases lt_trichotomy p S.p with h | h | h
  · rw [waveFn'_rare h.le]
    refine (rareFn_deriv hγ hS hp).congr_of_eventuallyEq ?_
    filter_upwards [Iio_mem_nhds h] with x hx
    exact waveFn_rare (le_of_lt hx)
  · have h1 : HasDerivWithinAt (waveFn γ S) (waveFn' γ S p) (Iic p) p := by
      rw [waveFn'_rare h.le]
      refine (rareFn_deriv hγ hS hp).hasDerivWithinAt.congr (fun x hx => waveFn_rare (le_trans hx h.le)) (waveFn_rare h.le)
    have h2 : HasDerivWithinAt (waveFn γ S) (waveFn' γ S p) (Ici p) p := by
      rw [waveFn'_shock' hγ hS h.ge]
      refine (shockFn_deriv hγ hS hp).hasDerivWithinAt.congr (fun x hx => waveFn_shock' hS (le_trans h.ge hx))
        (waveFn_shock' hS h.ge)
    have := h1.union h2
    rwa [Iic_union_Ici, hasDerivWithinAt_univ] at this
  · rw [waveFn'_shock h]
    refine (shockFn_deriv hγ hS hp).congr_of_eventuallyEq ?_
    filter_upwards [Ioi_mem_nhds h] with x hx
    exact waveFn_shock hx

theorem rareFn'_pos (hS : Good γ S) {p : ℝ} (hp : 0 < p) : 0 < rareFn' γ S p :=
  div_pos (Real.rpow_pos_of_pos (div_pos hp hS.p) _) (mul_pos hS.d hS.c)

theorem shock_factor (hγ : 1 < γ) (hS : Good γ S) {p : ℝ} (hp : 0 < p) :
    1 - 0.5 * (p - S.p) / (p + S.p * g6 γ) = 1 / 2 + (S.p * g6 γ + S.p) / 2 / (p + S.p * g6 γ) := by
  have := (den_pos hγ hS hp).ne'
  field_simp
  ring

theorem shockFn'_pos (hγ : 1 < γ) (hS : Good γ S) {p : ℝ} (hp : 0 < p) : 0 < shockFn' γ S p := by
  unfold shockFn'
  rw [shock_factor hγ hS hp]
  have hB := den_pos hγ hS hp
  have hA : 0 < g5 γ / S.d := div_pos (g5_pos hγ) hS.d
  have := mul_pos hS.p (g6_pos hγ)
  have := hS.p
  have := Real.sqrt_pos.mpr (div_pos hA hB)
  positivity

theorem waveFn'_pos (hγ : 1 < γ) (hS : Good γ S) {p : ℝ} (hp : 0 < p) : 0 < waveFn' γ S p := by
  rcases lt_or_ge S.p p with h | h
  · rw [waveFn'_shock h]; exact shockFn'_pos hγ hS hp
  · rw [waveFn'_rare h]; exact rareFn'_pos hS hp

theorem waveFn'_antitone (hγ : 1 < γ) (hS : Good γ S) {p q : ℝ} (hp : 0 < p) (hpq : p ≤ q) :
    waveFn' γ S q ≤ waveFn' γ S p := by
  have rare : ∀ {x y : ℝ}, 0 < x → x ≤ y → rareFn' γ S y ≤ rareFn' γ S x := by
    intro x y hx hxy
    unfold rareFn'
    refine div_le_div_of_nonneg_right ?_ (mul_pos hS.d hS.c).le
    exact Real.rpow_le_rpow_of_nonpos (div_pos hx hS.p) (div_le_div_of_nonneg_right hxy hS.p.le)
      (neg_nonpos.mpr (g2_pos hγ).le)
  have shock : ∀ {x y : ℝ}, 0 < x → x ≤ y → shockFn' γ S y ≤ shockFn' γ S x := by
    intro x y hx hxy
    have hy : 0 < y := lt_of_lt_of_le hx hxy
    unfold shockFn'
    rw [shock_factor hγ hS hx, shock_factor hγ hS hy]
    have hBx := den_pos hγ hS hx
    have hBy := den_pos hγ hS hy
    have hA : 0 < g5 γ / S.d := div_pos (g5_pos hγ) hS.d
    have hk : 0 < (S.p * g6 γ + S.p) / 2 := by
      have := mul_pos hS.p (g6_pos hγ); have := hS.p; linarith
    refine mul_le_mul ?_ ?_ ?_ (Real.sqrt_nonneg _)
    · refine Real.sqrt_le_sqrt ?_
      exact div_le_div_of_nonneg_left hA.le hBx (by linarith)
    · have := div_le_div_of_nonneg_left hk.le hBx (by linarith : x + S.p * g6 γ ≤ y + S.p * g6 γ)
      linarith
    · have := div_pos hk hBy
      linarith
  rcases lt_or_ge S.p p with h | h
  · rw [waveFn'_shock h, waveFn'_shock (lt_of_lt_of_le h hpq)]
    exact shock hp hpq
  · rcases lt_or_ge S.p q with h' | h'
    · rw [waveFn'_rare h, waveFn'_shock h']
      refine le_trans (shock hS.p h'.le) ?_
      rw [shock_rare_junction hγ hS]
      exact rare hp h
    · rw [waveFn'_rare h, waveFn'_rare h']
      exact rare hp hpq

/-- tangents lie above the graph -/
theorem tangent_le {f f' : ℝ → ℝ} (hf : ∀ x, 0 < x → HasDerivAt f (f' x) x) (ha : ∀ x y, 0 < x → x ≤ y → f' y ≤ f' x)
    {p q : ℝ} (hp : 0 < p) (hq : 0 < q) : f q ≤ f p + f' p * (q - p) := by
  rcases lt_trichotomy p q with h | h | h
  · obtain ⟨x, hx, he⟩ := exists_hasDerivAt_eq_slope f f' h
      (fun y hy => (hf y (lt_of_lt_of_le hp hy.1)).continuousAt.continuousWithinAt) (fun y hy => hf y (lt_trans hp hy.1))
    have := ha p x hp hx.1.le
    rw [eq_div_iff (by linarith)] at he
    nlinarith
  · rw [h]; simp
  · obtain ⟨x, hx, he⟩ := exists_hasDerivAt_eq_slope f f' h
      (fun y hy => (hf y (lt_of_lt_of_le hq hy.1)).continuousAt.continuousWithinAt) (fun y hy => hf y (lt_trans hq hy.1))
    have := ha x p (lt_trans hq hx.1) hx.2.le
    rw [eq_div_iff (by linarith)] at he
    nlinarith

theorem waveFn_mono (hγ : 1 < γ) (hS : Good γ S) {p q : ℝ} (hp : 0 < p) (hpq : p < q) : waveFn γ S p < waveFn γ S q := by
  obtain ⟨x, hx, he⟩ := exists_hasDerivAt_eq_slope (waveFn γ S) (waveFn' γ S) hpq
      (fun y hy => (waveFn_deriv hγ hS (lt_of_lt_of_le hp hy.1)).continuousAt.continuousWithinAt)
      (fun y hy => waveFn_deriv hγ hS (lt_trans hp hy.1))
  have := waveFn'_pos hγ hS (lt_trans hp hx.1)
  rw [he] at this
  have := (div_pos_iff_of_pos_right (by linarith : 0 < q - p)).mp this
  linarith

theorem waveFn_mono_le (hγ : 1 < γ) (hS : Good γ S) {p q : ℝ} (hp : 0 < p) (hpq : p ≤ q) : waveFn γ S p ≤ waveFn γ S q := by
  rcases hpq.lt_or_eq with h | h
  · exact (waveFn_mono hγ hS hp h).le
  · rw [h]

/-- the wave function is unbounded -/
theorem waveFn_large (hγ : 1 < γ) (hS : Good γ S) (y : ℝ) : ∃ p, 0 < p ∧ ∀ q, p ≤ q → y ≤ waveFn γ S q := by
  have hA : 0 < g5 γ / S.d := div_pos (g5_pos hγ) hS.d
  have hB : 0 < S.p * g6 γ := mul_pos hS.p (g6_pos hγ)
  obtain ⟨A, hAe⟩ : ∃ A, g5 γ / S.d = A := ⟨_, rfl⟩
  rw [hAe] at hA
  refine ⟨max (2 * S.p) (max (S.p * g6 γ) (8 * y ^ 2 / A)), lt_of_lt_of_le (by have := hS.p; linarith) (le_max_left _ _), fun q hq => ?_⟩
  have h1 : 2 * S.p ≤ q := le_trans (le_max_left _ _) hq
  have h2 : S.p * g6 γ ≤ q := le_trans (le_trans (le_max_left _ _) (le_max_right _ _)) hq
  have h3 : 8 * y ^ 2 / A ≤ q := le_trans (le_trans (le_max_right _ _) (le_max_right _ _)) hq
  have hq0 : 0 < q := by have := hS.p; linarith
  rw [waveFn_shock (by have := hS.p; linarith)]
  unfold shockFn
  rw [hAe]
  have h4 : √(A / (2 * q)) ≤ √(A / (q + S.p * g6 γ)) :=
    Real.sqrt_le_sqrt (div_le_div_of_nonneg_left hA.le (by linarith) (by linarith))
  have h5 : q / 2 * √(A / (2 * q)) ≤ (q - S.p) * √(A / (q + S.p * g6 γ)) :=
    mul_le_mul (by linarith) h4 (Real.sqrt_nonneg _) (by have := hS.p; linarith)
  refine le_trans ?_ h5
  refine le_trans (le_abs_self y) ?_
  refine abs_le_of_sq_le_sq ?_ (by positivity)
  rw [mul_pow, Real.sq_sqrt (by positivity)]
  rw [div_le_iff₀ hA] at h3
  have : (q / 2) ^ 2 * (A / (2 * q)) = q * A / 8 := by field_simp; ring
  rw [this]
  linarith

/-- close to zero pressure the wave function comes close to its limit `-g4 c` -/
theorem waveFn_small (hγ : 1 < γ) (hS : Good γ S) {ε : ℝ} (hε : 0 < ε) :
    ∃ p, 0 < p ∧ ∀ q, 0 < q → q ≤ p → waveFn γ S q < -(g4 γ * S.c) + ε := by
  have hk : 0 < g4 γ * S.c := mul_pos (g4_pos hγ) hS.c
  have hx : 0 < ε / 2 / (g4 γ * S.c) := by positivity
  refine ⟨min S.p (S.p * (ε / 2 / (g4 γ * S.c)) ^ (1 / g1 γ)), lt_min hS.p (mul_pos hS.p (Real.rpow_pos_of_pos hx _)),
    fun q hq hqp => ?_⟩
  rw [waveFn_rare (le_trans hqp (min_le_left _ _))]
  have h1 : q / S.p ≤ (ε / 2 / (g4 γ * S.c)) ^ (1 / g1 γ) := by
    rw [div_le_iff₀ hS.p, mul_comm]
    exact le_trans hqp (min_le_right _ _)
  have h2 : (q / S.p) ^ g1 γ ≤ ε / 2 / (g4 γ * S.c) := by
    refine le_trans (Real.rpow_le_rpow (div_pos hq hS.p).le h1 (g1_pos hγ).le) ?_
    rw [← Real.rpow_mul hx.le, one_div, inv_mul_cancel₀ (g1_pos hγ).ne', Real.rpow_one]
  unfold rareFn
  have h3 := mul_le_mul_of_nonneg_left h2 hk.le
  have h4 : g4 γ * S.c * (ε / 2 / (g4 γ * S.c)) = ε / 2 := by
    field_simp
    exact div_self hk.ne'
  rw [h4] at h3
  nlinarith

/-- the wave function is always above `-g4 c` -/
theorem waveFn_gt (hγ : 1 < γ) (hS : Good γ S) {p : ℝ} (hp : 0 < p) : -(g4 γ * S.c) < waveFn γ S p := by
  have hk : 0 < g4 γ * S.c := mul_pos (g4_pos hγ) hS.c
  have key : ∀ q, 0 < q → q ≤ S.p → -(g4 γ * S.c) < waveFn γ S q := by
    intro q hq h
    rw [waveFn_rare h]
    unfold rareFn
    have := mul_pos hk (Real.rpow_pos_of_pos (div_pos hq hS.p) (g1 γ))
    nlinarith
  rcases le_total p S.p with h | h
  · exact key p hp h
  · exact lt_of_lt_of_le (key S.p hS.p le_rfl) (waveFn_mono_le hγ hS hS.p h)

end Gandalf.Exact
