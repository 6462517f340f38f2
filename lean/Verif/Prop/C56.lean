import Verif.Prop.C55
import Verif.Spec.Euler

/-!
# C56 – the sampled solution of the exact Riemann solver solves the Euler equations
-/

set_option autoImplicit false
set_option linter.unusedSectionVars false

namespace Gandalf

open Exact Set

variable {γ : ℝ} {L R : Side}

namespace Exact

theorem g34 (hγ : 1 < γ) : g3 γ = γ * g4 γ := by unfold g3 g4; ring
theorem g3_sub (hγ : 1 < γ) : g3 γ - g4 γ = 2 := by
  unfold g3 g4
  have : γ - 1 ≠ 0 := by linarith
  field_simp
theorem g57 (hγ : 1 < γ) : g5 γ * (1 + g7 γ) = 1 := by
  unfold g5 g7
  have : γ + 1 ≠ 0 := by linarith
  field_simp
  ring
theorem g37 (hγ : 1 < γ) : g3 γ * g7 γ = γ := by rw [g34 hγ, mul_assoc, g47 hγ, mul_one]
theorem g14 (hγ : 1 < γ) : g1 γ * g4 γ = 1 / γ := by
  unfold g1 g4
  have : γ - 1 ≠ 0 := by linarith
  have : γ ≠ 0 := by linarith
  field_simp
  norm_num
theorem g13 (hγ : 1 < γ) : g1 γ * g3 γ = 1 := by
  rw [g34 hγ]
  have := g14 hγ
  have h0 : γ ≠ 0 := by linarith
  field_simp at this ⊢
  linarith

theorem state_sound (S : Side) (hS : Good γ S) : S.state.sound γ = S.c := by
  unfold Sample.sound Side.state
  have hd := hS.d
  have : γ * S.p / S.d = S.c ^ 2 := by rw [← hS.gas]; field_simp
  simp only [this]
  exact Real.sqrt_sq hS.c.le

/-! ### left shock -/

theorem shock_facts (hγ : 1 < γ) {S : Side} (hS : Good γ S) {ps : ℝ} (hps : S.p ≤ ps) :
    ∃ Q : ℝ, Q = S.c * √(g2 γ * (ps / S.p) + g1 γ) ∧ 0 < Q ∧
      S.d * Q ^ 2 = ((γ + 1) * ps + (γ - 1) * S.p) / 2 ∧ waveFn γ S ps = (ps - S.p) / (S.d * Q) ∧
      S.d * (ps / S.p + g6 γ) / (ps / S.p * g6 γ + 1) =
        S.d * ((γ + 1) * ps + (γ - 1) * S.p) / ((γ - 1) * ps + (γ + 1) * S.p) := by
  have hp := hS.p
  have hd := hS.d
  have hc := hS.c
  have hgas := hS.gas
  have hγ0 : 0 < γ := by linarith
  have hg1 := g1_pos hγ
  have hg2 := g2_pos hγ
  have hps0 : 0 < ps := lt_of_lt_of_le hp hps
  have harg : 0 < g2 γ * (ps / S.p) + g1 γ := by positivity
  refine ⟨_, rfl, mul_pos hc (Real.sqrt_pos.mpr harg), ?_, ?_, ?_⟩
  · rw [mul_pow, Real.sq_sqrt harg.le, ← mul_assoc, hgas]
    unfold g1 g2
    field_simp
    ring
  · rw [waveFn_shock' hS hps]
    unfold shockFn
    have hQ : 0 < S.c * √(g2 γ * (ps / S.p) + g1 γ) := mul_pos hc (Real.sqrt_pos.mpr harg)
    have e : g5 γ / S.d / (ps + S.p * g6 γ) = (1 / (S.d * (S.c * √(g2 γ * (ps / S.p) + g1 γ)))) ^ 2 := by
      rw [div_pow, mul_pow, mul_pow, Real.sq_sqrt harg.le]
      have h1 : S.d ^ 2 * (S.c ^ 2 * (g2 γ * (ps / S.p) + g1 γ)) = S.d * ((γ + 1) * ps + (γ - 1) * S.p) / 2 := by
        have : S.d ^ 2 * (S.c ^ 2 * (g2 γ * (ps / S.p) + g1 γ)) = S.d * (S.d * S.c ^ 2) * (g2 γ * (ps / S.p) + g1 γ) := by ring
        rw [this, hgas]
        unfold g1 g2
        field_simp
        ring
      rw [h1]
      unfold g5 g6
      have h2 : 0 < γ + 1 := by linarith
      have h3 : ps + S.p * ((γ - 1) / (γ + 1)) = ((γ + 1) * ps + (γ - 1) * S.p) / (γ + 1) := by field_simp
      have h4 : 0 < (γ + 1) * ps + (γ - 1) * S.p := by
        have := mul_pos (by linarith : 0 < γ - 1) hp
        positivity
      rw [h3]
      field_simp
      try ring
    rw [e, Real.sqrt_sq (by positivity), mul_one_div]
  · unfold g6
    have h2 : 0 < γ + 1 := by linarith
    have h5 : 0 < (γ - 1) * ps + (γ + 1) * S.p := by
      have := mul_pos (by linarith : 0 < γ - 1) hps0
      positivity
    have h6 : ps / S.p + (γ - 1) / (γ + 1) = ((γ + 1) * ps + (γ - 1) * S.p) / (S.p * (γ + 1)) := by field_simp
    have h7 : ps / S.p * ((γ - 1) / (γ + 1)) + 1 = ((γ - 1) * ps + (γ + 1) * S.p) / (S.p * (γ + 1)) := by field_simp; try ring
    rw [h6, h7]
    field_simp

set_option maxHeartbeats 1000000 in
theorem left_shock (hγ : 1 < γ) (hL : Good γ L) {ps us : ℝ} (hps : L.p < ps) (hus : us = L.u - waveFn γ L ps) :
    LeftWave γ L.state ⟨L.d * (ps / L.p + g6 γ) / (ps / L.p * g6 γ + 1), us, ps⟩ (fun s => sampleL γ ps us s L) us := by
  obtain ⟨Q, hQ, hQ0, hQ2, hw, hden⟩ := shock_facts hγ hL hps.le
  have hp := hL.p
  have hd := hL.d
  have hc := hL.c
  have hgas := hL.gas
  have hγ1 : 0 < γ - 1 := by linarith
  have hps0 : 0 < ps := lt_trans hp hps
  have hX : 0 < (γ + 1) * ps + (γ - 1) * L.p := by positivity
  have hY : 0 < (γ - 1) * ps + (γ + 1) * L.p := by positivity
  rw [hden]
  obtain ⟨D, hD⟩ : ∃ D, D = L.d * ((γ + 1) * ps + (γ - 1) * L.p) / ((γ - 1) * ps + (γ + 1) * L.p) := ⟨_, rfl⟩
  rw [← hD]
  have hDY : D * ((γ - 1) * ps + (γ + 1) * L.p) = L.d * ((γ + 1) * ps + (γ - 1) * L.p) := by rw [hD]; field_simp
  have hD0 : 0 < D := by rw [hD]; positivity
  -- mass flux through the shock
  obtain ⟨m, hm⟩ : ∃ m, m = L.d * Q := ⟨_, rfl⟩
  have hm0 : 0 < m := by rw [hm]; positivity
  have hm2 : m ^ 2 = L.d * (((γ + 1) * ps + (γ - 1) * L.p) / 2) := by rw [hm, mul_pow, ← hQ2]; ring
  have huL : us - L.u = -((ps - L.p) / m) := by rw [hus, hw, hm]; ring
  obtain ⟨s0, hs0⟩ : ∃ s0, s0 = L.u - Q := ⟨_, rfl⟩
  have hmass : D * (us - s0) = m := by
    have h1 : us - s0 = Q - (ps - L.p) / m := by linarith
    have h2 : (us - s0) * m * L.d = m ^ 2 - (ps - L.p) * L.d := by
      rw [h1, hm]; field_simp
    rw [hm2] at h2
    have h3 : (us - s0) * m = (((γ - 1) * ps + (γ + 1) * L.p) / 2) := by
      have : (us - s0) * m * L.d = (((γ - 1) * ps + (γ + 1) * L.p) / 2) * L.d := by rw [h2]; ring
      exact mul_right_cancel₀ hd.ne' this
    have h4 : D * (us - s0) * m = m * m := by
      rw [mul_assoc, h3, ← sq, hm2]
      linear_combination (1 / 2 : ℝ) * hDY
    exact mul_right_cancel₀ hm0.ne' h4
  have hmassL : L.d * (L.u - s0) = m := by rw [hm, hs0]; ring
  have hmom : m * (us - L.u) = -(ps - L.p) := by rw [huL]; field_simp
  have hlt : 0 < us - s0 := by
    by_contra hcon
    push Not at hcon
    nlinarith
  refine LeftWave.shock s0 (fun s hs => ?_) (fun s hs _ => ?_) ⟨?_, ?_, ?_⟩ ⟨hps, ?_⟩ ⟨?_, ?_⟩ (by linarith)
  · unfold sampleL
    rw [if_neg (not_le.mpr hps)]
    simp only
    rw [if_pos (by rw [← hQ, ← hs0]; exact hs)]
    rfl
  · unfold sampleL
    rw [if_neg (not_le.mpr hps)]
    simp only
    rw [if_neg (by rw [← hQ, ← hs0]; exact not_le.mpr hs), hden, ← hD]
  · change D * us - L.d * L.u = s0 * (D - L.d)
    linarith
  · change (D * us ^ 2 + ps) - (L.d * L.u ^ 2 + L.p) = s0 * (D * us - L.d * L.u)
    linear_combination us * hmass - L.u * hmassL + hmom
  · change us * ((D * us ^ 2 / 2 + ps / (γ - 1)) + ps) - L.u * ((L.d * L.u ^ 2 / 2 + L.p / (γ - 1)) + L.p) =
      s0 * ((D * us ^ 2 / 2 + ps / (γ - 1)) - (L.d * L.u ^ 2 / 2 + L.p / (γ - 1)))
    -- enthalpy form
    have hs1 : us - s0 = m / D := by rw [eq_div_iff hD0.ne']; linarith
    have hs2 : L.u - s0 = m / L.d := by rw [eq_div_iff hd.ne']; linarith
    have e1 : us = s0 + m / D := by linarith
    have e2 : L.u = s0 + m / L.d := by linarith
    have hrel : m * (m / D - m / L.d) = -(ps - L.p) := by
      rw [← hmom]; congr 1; linarith
    have hkey : m / D * (ps * γ) - m / L.d * (L.p * γ) = -(γ - 1) / 2 * (m * ((m / D) ^ 2 - (m / L.d) ^ 2)) := by
      have h5 : m * ((m / D) ^ 2 - (m / L.d) ^ 2) = -(ps - L.p) * (m / D + m / L.d) := by rw [← hrel]; ring
      rw [h5]
      have h6 : m / D = m / L.d * (((γ - 1) * ps + (γ + 1) * L.p) / ((γ + 1) * ps + (γ - 1) * L.p)) := by
        rw [hD]; field_simp
      rw [h6]
      field_simp
      ring
    have hγ1' : γ - 1 ≠ 0 := hγ1.ne'
    have hfin : (us - s0) * ((D * us ^ 2 / 2 + ps / (γ - 1)) + ps) - (L.u - s0) * ((L.d * L.u ^ 2 / 2 + L.p / (γ - 1)) + L.p)
        = -(s0 * (ps - L.p)) := by
      have h7 : ps / (γ - 1) + ps = ps * γ / (γ - 1) := by field_simp; ring
      have h8 : L.p / (γ - 1) + L.p = L.p * γ / (γ - 1) := by field_simp; ring
      have h9 : (us - s0) * ((D * us ^ 2 / 2 + ps / (γ - 1)) + ps) = m * us ^ 2 / 2 + m / D * (ps * γ) / (γ - 1) := by
        rw [add_assoc, h7, mul_add, ← hmass, hs1]
        field_simp
      have h10 : (L.u - s0) * ((L.d * L.u ^ 2 / 2 + L.p / (γ - 1)) + L.p) = m * L.u ^ 2 / 2 + m / L.d * (L.p * γ) / (γ - 1) := by
        rw [add_assoc, h8, mul_add, hs2]
        field_simp
      rw [h9, h10]
      have h11 : m / D * (ps * γ) / (γ - 1) - m / L.d * (L.p * γ) / (γ - 1) = -(m * ((m / D) ^ 2 - (m / L.d) ^ 2)) / 2 := by
        rw [← sub_div, hkey]
        field_simp
      have h12 : m * us ^ 2 / 2 - m * L.u ^ 2 / 2 = m * ((m / D) ^ 2 - (m / L.d) ^ 2) / 2 + s0 * (m * (m / D - m / L.d)) := by
        rw [e1]
        have : L.u = s0 + m / L.d := e2
        rw [this]
        ring
      rw [hrel] at h12
      linarith
    linarith
  · change L.d < D
    rw [hD, lt_div_iff₀ hY]
    have : (γ - 1) * ps + (γ + 1) * L.p < (γ + 1) * ps + (γ - 1) * L.p := by linarith
    exact mul_lt_mul_of_pos_left this hd
  · change us - √(γ * ps / D) < s0
    have : us - s0 < √(γ * ps / D) := by
      refine Real.lt_sqrt_of_sq_lt ?_
      have hs1 : us - s0 = m / D := by rw [eq_div_iff hD0.ne']; linarith
      rw [hs1, div_pow, hm2, div_lt_div_iff₀ (by positivity) hD0]
      have h1 : L.d * (((γ + 1) * ps + (γ - 1) * L.p) / 2) = D * ((γ - 1) * ps + (γ + 1) * L.p) / 2 := by linarith
      rw [h1]
      have h2 : ((γ - 1) * ps + (γ + 1) * L.p) / 2 < γ * ps := by nlinarith
      have := mul_lt_mul_of_pos_left h2 (by positivity : 0 < D * D)
      nlinarith
    linarith
  · rw [state_sound L hL]
    change s0 < L.u - L.c
    have : L.c < Q := by
      refine lt_of_pow_lt_pow_left₀ 2 hQ0.le ?_
      have h1 : L.d * L.c ^ 2 < L.d * Q ^ 2 := by
        rw [hgas, hQ2]
        have h2 : 0 < (γ + 1) * (ps - L.p) := mul_pos (by linarith) (by linarith)
        linarith
      exact lt_of_mul_lt_mul_left h1 hd.le
    linarith

/-! ### left rarefaction -/

/-- the state inside the fan -/
noncomputable def fanL (γ : ℝ) (L : Side) (s : ℝ) : Sample :=
  ⟨L.d * (g5 γ * (L.c + g7 γ * (L.u - s)) / L.c) ^ g4 γ, g5 γ * (L.c + g7 γ * L.u + s),
    L.p * (g5 γ * (L.c + g7 γ * (L.u - s)) / L.c) ^ g3 γ⟩

theorem fan_props (hγ : 1 < γ) (hL : Good γ L) {s : ℝ} (hs : 0 < g5 γ * (L.c + g7 γ * (L.u - s))) :
    SelfSimilarEuler γ (fanL γ L) s ∧ 0 < (fanL γ L s).d ∧ (fanL γ L s).sound γ = g5 γ * (L.c + g7 γ * (L.u - s)) ∧
    (fanL γ L s).u - (fanL γ L s).sound γ = s ∧
    (fanL γ L s).u + 2 / (γ - 1) * (fanL γ L s).sound γ = L.state.u + 2 / (γ - 1) * L.state.sound γ ∧
    (fanL γ L s).p / (fanL γ L s).d ^ γ = L.state.p / L.state.d ^ γ := by
  have hp := hL.p
  have hd := hL.d
  have hc := hL.c
  have hgas := hL.gas
  have hγ0 : 0 < γ := by linarith
  obtain ⟨x, hx⟩ : ∃ x, x = g5 γ * (L.c + g7 γ * (L.u - s)) / L.c := ⟨_, rfl⟩
  have hx0 : 0 < x := by rw [hx]; positivity
  have hcx : g5 γ * (L.c + g7 γ * (L.u - s)) = L.c * x := by rw [hx]; field_simp
  have hus : (fanL γ L s).u - s = L.c * x := by
    rw [← hcx]
    change g5 γ * (L.c + g7 γ * L.u + s) - s = _
    have := g57 hγ
    linear_combination s * this
  have hdx : (fanL γ L s).d = L.d * x ^ g4 γ := by rw [hx]; rfl
  have hpx : (fanL γ L s).p = L.p * x ^ g3 γ := by rw [hx]; rfl
  have hx4 : 0 < x ^ g4 γ := Real.rpow_pos_of_pos hx0 _
  have hx34 : x ^ g3 γ = x ^ g4 γ * x ^ 2 := by
    rw [← Real.rpow_natCast x 2, ← Real.rpow_add hx0]
    congr 1
    have := g3_sub hγ
    push_cast
    linarith
  have hsound : (fanL γ L s).sound γ = L.c * x := by
    unfold Sample.sound
    rw [hdx, hpx, hx34]
    have : γ * (L.p * (x ^ g4 γ * x ^ 2)) / (L.d * x ^ g4 γ) = (L.c * x) ^ 2 := by
      field_simp
      linear_combination (-1 : ℝ) * hgas
    rw [this]
    exact Real.sqrt_sq (by positivity)
  refine ⟨?_, ?_, ?_, ?_, ?_, ?_⟩
  · -- Euler equations
    have h1 : HasDerivAt (fun y : ℝ => g5 γ * (L.c + g7 γ * (L.u - y)) / L.c) (-(g5 γ * g7 γ) / L.c) s := by
      have := ((((hasDerivAt_id s).const_sub L.u).const_mul (g7 γ)).const_add L.c).const_mul (g5 γ) |>.div_const L.c
      refine this.congr_deriv ?_
      ring
    have hd4 := (h1.rpow_const (p := g4 γ) (Or.inl (by rw [← hx]; exact hx0.ne'))).const_mul L.d
    have hd3 := (h1.rpow_const (p := g3 γ) (Or.inl (by rw [← hx]; exact hx0.ne'))).const_mul L.p
    have hu : HasDerivAt (fun y : ℝ => g5 γ * (L.c + g7 γ * L.u + y)) (g5 γ) s := by
      have := ((hasDerivAt_id s).const_add (L.c + g7 γ * L.u)).const_mul (g5 γ)
      exact this.congr_deriv (by ring)
    refine ⟨_, _, _, hd4, hu, hd3, ?_, ?_, ?_⟩
    · rw [hus, hdx, ← hx]
      have e : x ^ g4 γ = x * x ^ (g4 γ - 1) := by
        nth_rewrite 2 [← Real.rpow_one x]
        rw [← Real.rpow_add hx0]
        congr 1
        ring
      rw [e]
      have := g47 hγ
      generalize x ^ (g4 γ - 1) = y
      have h2 : L.c * x * (L.d * (-(g5 γ * g7 γ) / L.c * g4 γ * y)) = -(x * L.d * g5 γ * y) * (g4 γ * g7 γ) := by field_simp
      rw [h2, this]
      ring
    · rw [hus, hdx, ← hx]
      have e : x ^ (g3 γ - 1) = x ^ g4 γ * x := by
        nth_rewrite 3 [← Real.rpow_one x]
        rw [← Real.rpow_add hx0]
        congr 1
        have := g3_sub hγ
        linarith
      rw [e]
      have := g37 hγ
      have h2 : L.p * (-(g5 γ * g7 γ) / L.c * g3 γ * (x ^ g4 γ * x)) / (L.d * x ^ g4 γ) = -(g5 γ * x * (L.p * (g3 γ * g7 γ))) / (L.c * L.d) := by
        field_simp
      rw [h2, this, mul_comm L.p γ, ← hgas]
      field_simp
      ring
    · rw [hus, hpx, ← hx]
      have e : x ^ g3 γ = x * x ^ (g3 γ - 1) := by
        nth_rewrite 2 [← Real.rpow_one x]
        rw [← Real.rpow_add hx0]
        congr 1
        ring
      rw [e]
      have := g37 hγ
      generalize x ^ (g3 γ - 1) = y
      have h2 : L.c * x * (L.p * (-(g5 γ * g7 γ) / L.c * g3 γ * y)) = -(x * L.p * g5 γ * y) * (g3 γ * g7 γ) := by field_simp
      rw [h2, this]
      ring
  · rw [hdx]; positivity
  · rw [hsound, hcx]
  · rw [hsound]; linarith
  · rw [hsound, state_sound L hL, ← hcx]
    change g5 γ * (L.c + g7 γ * L.u + s) + g4 γ * (g5 γ * (L.c + g7 γ * (L.u - s))) = L.u + g4 γ * L.c
    have h1 := g57 hγ
    have h2 := g47 hγ
    linear_combination (L.u + g4 γ * L.c) * h1 + (g5 γ * (L.u - s) - g5 γ * L.c) * h2
  · rw [hdx, hpx]
    change _ = L.p / L.d ^ γ
    rw [Real.mul_rpow hd.le hx4.le, ← Real.rpow_mul hx0.le, mul_comm (g4 γ) γ, ← g34 hγ]
    have h3 : 0 < x ^ g3 γ := Real.rpow_pos_of_pos hx0 _
    have h4 : 0 < L.d ^ γ := Real.rpow_pos_of_pos hd _
    field_simp

theorem left_fan (hγ : 1 < γ) (hL : Good γ L) {ps us : ℝ} (hps0 : 0 < ps) (hps : ps ≤ L.p) (hus : us = L.u - waveFn γ L ps) :
    LeftWave γ L.state ⟨L.d * (ps / L.p) ^ (1 / γ), us, ps⟩ (fun s => sampleL γ ps us s L) us := by
  have hp := hL.p
  have hd := hL.d
  have hc := hL.c
  have hy0 : 0 < ps / L.p := div_pos hps0 hp
  have hy1 : ps / L.p ≤ 1 := by rw [div_le_one hp]; exact hps
  obtain ⟨k, hk⟩ : ∃ k, k = (ps / L.p) ^ g1 γ := ⟨_, rfl⟩
  have hk0 : 0 < k := by rw [hk]; exact Real.rpow_pos_of_pos hy0 _
  have hk1 : k ≤ 1 := by rw [hk]; exact Real.rpow_le_one hy0.le hy1 (g1_pos hγ).le
  have hus' : us = L.u - g4 γ * L.c * (k - 1) := by rw [hus, waveFn_rare hps, hk]; rfl
  have h47 := g47 hγ
  have h57 := g57 hγ
  have hg4 := g4_pos hγ
  have hg5 := g5_pos hγ
  have hg7 := g7_pos hγ
  -- sound speed in the fan
  have ctail : g5 γ * (L.c + g7 γ * (L.u - (us - L.c * k))) = L.c * k := by
    rw [hus']
    linear_combination (g5 γ * L.c * (k - 1)) * h47 + (L.c * k) * h57
  have hle : L.u - L.c ≤ us - L.c * k := by
    rw [hus']
    have : 0 ≤ g4 γ * L.c * (1 - k) := mul_nonneg (mul_nonneg hg4.le hc.le) (by linarith)
    nlinarith
  have cpos : ∀ s, s ≤ us - L.c * k → 0 < g5 γ * (L.c + g7 γ * (L.u - s)) := by
    intro s hs
    have h1 : L.c * k ≤ g5 γ * (L.c + g7 γ * (L.u - s)) := by
      rw [← ctail]
      refine mul_le_mul_of_nonneg_left ?_ hg5.le
      have := mul_le_mul_of_nonneg_left (by linarith : L.u - (us - L.c * k) ≤ L.u - s) hg7.le
      linarith
    exact lt_of_lt_of_le (mul_pos hc hk0) h1
  have fhead : fanL γ L (L.u - L.c) = L.state := by
    have h1 : g5 γ * (L.c + g7 γ * (L.u - (L.u - L.c))) / L.c = 1 := by
      rw [div_eq_one_iff_eq hc.ne']
      linear_combination L.c * h57
    unfold fanL Side.state
    rw [h1, Real.one_rpow, Real.one_rpow, mul_one, mul_one]
    congr 1
    linear_combination L.u * h57
  have ftail : fanL γ L (us - L.c * k) = ⟨L.d * (ps / L.p) ^ (1 / γ), us, ps⟩ := by
    have h1 : g5 γ * (L.c + g7 γ * (L.u - (us - L.c * k))) / L.c = k := by rw [ctail]; field_simp
    unfold fanL
    rw [h1, hk, ← Real.rpow_mul hy0.le, ← Real.rpow_mul hy0.le, g14 hγ, g13 hγ, Real.rpow_one, ← hk]
    ext
    · rfl
    · simp only
      rw [hus']
      linear_combination (L.u - g4 γ * L.c * (k - 1)) * h57 + (g5 γ * L.c * (k - 1)) * h47
    · simp only; field_simp
  refine LeftWave.fan (L.u - L.c) (us - L.c * k) hle ?_ (fun s hs => ?_) (fun s hs _ => ?_) ⟨hps, ?_⟩ (fanL γ L)
    (fun s h1 h2 => ?_) (fun s h1 h2 => (fan_props hγ hL (cpos s h2)).1) (fun s h1 h2 => ?_)
  · change us - L.c * k < us
    have := mul_pos hc hk0
    linarith
  · unfold sampleL
    rw [if_pos hps, if_pos hs]
    rfl
  · change sampleL γ ps us s L = _
    unfold sampleL
    rw [if_pos hps, ← hk]
    by_cases h0 : s ≤ L.u - L.c
    · rw [if_pos h0, ← ftail]
      have : us - L.c * k = L.u - L.c := le_antisymm (le_trans hs h0) hle
      rw [this, fhead]
      rfl
    · rw [if_neg h0]
      rcases hs.lt_or_eq with h | h
      · rw [if_pos h]
      · rw [if_neg (by rw [h]; exact lt_irrefl _), ← ftail, h]
        rfl
  · change L.d * (ps / L.p) ^ (1 / γ) ≤ L.d
    have : (ps / L.p) ^ (1 / γ) ≤ 1 := Real.rpow_le_one hy0.le hy1 (div_nonneg zero_le_one (by linarith))
    nlinarith
  · change sampleL γ ps us s L = _
    unfold sampleL
    rw [if_pos hps, ← hk]
    rcases h1.lt_or_eq with h | h
    · rw [if_neg (not_le.mpr h), if_neg (not_lt.mpr h2)]
      rfl
    · rw [if_pos h.ge, ← h, fhead]
      rfl
  · obtain ⟨_, a, _, b, c, d⟩ := fan_props hγ hL (cpos s h2)
    exact ⟨a, b, c, d⟩

/-! ### the right side is the mirror image -/

theorem sampleR_mirror (hγ : 1 < γ) (hR : Good γ R) {ps us : ℝ} (hps0 : 0 < ps) (hus : us = R.u + waveFn γ R ps) (s : ℝ) :
    sampleR γ ps us s R = (sampleL γ ps (-us) (-s) (mirror R)).flip := by
  have hp := hR.p
  have hc := hR.c
  have hM : Good γ (mirror R) := ⟨hR.p, hR.d, hR.c, hR.gas⟩
  rcases lt_trichotomy R.p ps with h | h | h
  · unfold sampleR sampleL mirror
    rw [if_pos h.le, if_neg (not_le.mpr h)]
    simp only
    by_cases h1 : R.u + R.c * √(g2 γ * (ps / R.p) + g1 γ) ≤ s
    · rw [if_pos h1, if_pos (by linarith)]
      simp [Sample.flip]
    · rw [if_neg h1, if_neg (by intro h2; exact h1 (by linarith))]
      simp [Sample.flip]
  · have hu : us = R.u := by rw [hus, ← h, waveFn_rare le_rfl, rare_at hR, add_zero]
    unfold sampleR sampleL mirror
    rw [if_pos h.le, if_pos (show ps ≤ R.p from h.ge)]
    simp only
    rw [← h, div_self hp.ne', Real.one_rpow, Real.one_rpow, hu]
    have hone : R.d * (1 + g6 γ) / (1 * g6 γ + 1) = R.d := by
      have := g6_pos hγ
      have : 1 + g6 γ ≠ 0 := by linarith
      rw [one_mul, add_comm (g6 γ) 1]
      field_simp
    have hsq : √(g2 γ * 1 + g1 γ) = 1 := by
      rw [Real.sqrt_eq_one]
      unfold g1 g2
      have : γ ≠ 0 := by linarith
      field_simp
      ring
    rw [hone, hsq, mul_one, ite_self]
    by_cases h1 : -s ≤ -R.u - R.c
    · rw [if_pos h1]
      simp [Sample.flip]
    · rw [if_neg h1, if_pos (by linarith)]
      simp [Sample.flip]
  · -- rarefaction
    unfold sampleR
    rw [if_neg (not_le.mpr h)]
    simp only
    have e1 : sampleL γ ps (-us) (-s) (mirror R) =
        if -s ≤ -R.u - R.c then ⟨R.d, -R.u, R.p⟩
        else if -us - R.c * (ps / R.p) ^ g1 γ < -s then ⟨R.d * (ps / R.p) ^ (1 / γ), -us, ps⟩
        else fanL γ (mirror R) (-s) := by
      unfold sampleL
      rw [if_pos (show ps ≤ (mirror R).p from h.le)]
      rfl
    rw [e1]
    by_cases h1 : R.u + R.c ≤ s
    · rw [if_pos h1, if_pos (by linarith)]
      simp [Sample.flip]
    · rw [if_neg h1, if_neg (show ¬(-s ≤ -R.u - R.c) by intro h2; exact h1 (by linarith))]
      by_cases h2 : s ≤ us + R.c * (ps / R.p) ^ g1 γ
      · rw [if_pos h2]
        rcases h2.lt_or_eq with h3 | h3
        · rw [if_pos (by linarith)]
          simp [Sample.flip]
        · rw [if_neg (show ¬(-us - R.c * (ps / R.p) ^ g1 γ < -s) by intro h9; linarith)]
          -- at the tail the fan joins the star state
          have hlw := left_fan hγ hM hps0 h.le (us := -us) (by
            rw [hus]
            change _ = -R.u - waveFn γ R ps
            ring)
          have hst : sampleL γ ps (-us) (-s) (mirror R) = ⟨R.d * (ps / R.p) ^ (1 / γ), -us, ps⟩ := by
            have hk0 : 0 < (ps / R.p) ^ g1 γ := Real.rpow_pos_of_pos (div_pos hps0 hp) _
            have hy1 : ps / R.p ≤ 1 := by rw [div_le_one hp]; exact h.le
            have hk1 : (ps / R.p) ^ g1 γ ≤ 1 := Real.rpow_le_one (div_pos hps0 hp).le hy1 (g1_pos hγ).le
            rw [e1, if_neg (by intro h2; exact h1 (by linarith)), if_neg (show ¬(-us - R.c * (ps / R.p) ^ g1 γ < -s) by intro h9; linarith)]
            have h47 := g47 hγ
            have h57 := g57 hγ
            have hus' : us = R.u + g4 γ * R.c * ((ps / R.p) ^ g1 γ - 1) := by rw [hus, waveFn_rare h.le]; rfl
            unfold fanL
            have h6 : g5 γ * ((mirror R).c + g7 γ * ((mirror R).u - -s)) / (mirror R).c = (ps / R.p) ^ g1 γ := by
              change g5 γ * (R.c + g7 γ * (-R.u - -s)) / R.c = _
              rw [div_eq_iff hc.ne', h3, hus']
              generalize (ps / R.p) ^ g1 γ = k
              linear_combination (g5 γ * R.c * (k - 1)) * h47 + (R.c * k) * h57
            rw [h6, ← Real.rpow_mul (div_pos hps0 hp).le, ← Real.rpow_mul (div_pos hps0 hp).le, g14 hγ, g13 hγ, Real.rpow_one]
            ext
            · rfl
            · change g5 γ * (R.c + g7 γ * -R.u + -s) = -us
              rw [h3, hus']
              generalize (ps / R.p) ^ g1 γ = k
              linear_combination (-(R.u + g4 γ * R.c * (k - 1))) * h57 + ((g5 γ * R.c * (k - 1))) * h47
            · change R.p * (ps / R.p) = ps
              field_simp
          rw [e1, if_neg (by intro h2; exact h1 (by linarith)), if_neg (show ¬(-us - R.c * (ps / R.p) ^ g1 γ < -s) by intro h9; linarith)] at hst
          rw [hst]
          simp [Sample.flip]
      · rw [if_neg h2, if_neg (show ¬(-us - R.c * (ps / R.p) ^ g1 γ < -s) by intro h3; exact h2 (by linarith))]
        have hA : g5 γ * ((mirror R).c + g7 γ * ((mirror R).u - -s)) = g5 γ * (R.c - g7 γ * (R.u - s)) := by
          change g5 γ * (R.c + g7 γ * (-R.u - -s)) = _
          ring
        unfold fanL Sample.flip
        rw [hA]
        ext
        · rfl
        · change g5 γ * (-R.c + g7 γ * R.u + s) = -(g5 γ * (R.c + g7 γ * -R.u + -s))
          ring
        · rfl

end Exact

/-- The sampled solution: given a pressure at which the waves balance and the velocity that belongs to it, the left and the
right data are joined by a left-going wave, a contact and a right-going wave (the mirror image of a left-going one), each
of which satisfies the Euler equations; pressure and velocity are the same on both sides of the contact. -/
theorem C56_solution (hγ : 1 < γ) (hL : Good γ L) (hR : Good γ R) (ps us : ℝ) (hps : Balanced γ L R ps)
    (hus : us = L.u - waveFn γ L ps) :
    ∃ SL SR : Sample, SL.u = us ∧ SR.u = us ∧ SL.p = ps ∧ SR.p = ps ∧
      LeftWave γ L.state SL (fun s => sampleL γ ps us s L) us ∧
      LeftWave γ (mirror R).state SR.flip (fun s => (sampleR γ ps us (-s) R).flip) (-us) ∧
      (∀ s, s ≤ us → sample γ ps us s L R = sampleL γ ps us s L) ∧
      (∀ s, us < s → sample γ ps us s L R = sampleR γ ps us s R) := by
  have hM : Good γ (mirror R) := ⟨hR.p, hR.d, hR.c, hR.gas⟩
  have husR : us = R.u + waveFn γ R ps := by rw [hus]; exact hps.2
  have husM : -us = (mirror R).u - waveFn γ (mirror R) ps := by
    rw [husR]
    change _ = -R.u - waveFn γ R ps
    ring
  have hfun : (fun s => (sampleR γ ps us (-s) R).flip) = fun s => sampleL γ ps (-us) s (mirror R) := by
    funext s
    rw [sampleR_mirror hγ hR hps.1 husR, neg_neg]
    simp [Sample.flip]
  have hs1 : ∀ s, s ≤ us → sample γ ps us s L R = sampleL γ ps us s L := fun s h => if_pos h
  have hs2 : ∀ s, us < s → sample γ ps us s L R = sampleR γ ps us s R := fun s h => if_neg (not_le.mpr h)
  obtain ⟨SL, hSL1, hSL2, hSL⟩ : ∃ SL : Sample, SL.u = us ∧ SL.p = ps ∧
      LeftWave γ L.state SL (fun s => sampleL γ ps us s L) us := by
    rcases lt_or_ge L.p ps with h | h
    · exact ⟨_, rfl, rfl, left_shock hγ hL h hus⟩
    · exact ⟨_, rfl, rfl, left_fan hγ hL hps.1 h hus⟩
  obtain ⟨SR, hSR1, hSR2, hSR⟩ : ∃ SR : Sample, SR.u = -us ∧ SR.p = ps ∧
      LeftWave γ (mirror R).state SR (fun s => sampleL γ ps (-us) s (mirror R)) (-us) := by
    rcases lt_or_ge (mirror R).p ps with h | h
    · exact ⟨_, rfl, rfl, left_shock hγ hM h husM⟩
    · exact ⟨_, rfl, rfl, left_fan hγ hM hps.1 h husM⟩
  refine ⟨SL, SR.flip, hSL1, ?_, hSL2, hSR2, hSL, ?_, hs1, hs2⟩
  · change -SR.u = us
    rw [hSR1, neg_neg]
  · rw [hfun]
    have : SR.flip.flip = SR := by simp [Sample.flip]
    rw [this]
    exact hSR

/-- Away from the contact the sampled solution of the mirrored problem is the mirror image. -/
theorem C56_mirror (hγ : 1 < γ) (hL : Good γ L) (hR : Good γ R) (ps us s : ℝ) (hps : Balanced γ L R ps)
    (hus : us = L.u - waveFn γ L ps) (hs : s ≠ us) :
    sample γ ps (-us) (-s) (mirror R) (mirror L) = (sample γ ps us s L R).flip := by
  have husR : us = R.u + waveFn γ R ps := by rw [hus]; exact hps.2
  have hff : ∀ a : Sample, a.flip.flip = a := fun a => by simp [Sample.flip]
  rcases lt_or_gt_of_ne hs with h | h
  · unfold sample
    rw [if_neg (by linarith), if_pos h.le]
    have hM : Good γ (mirror L) := ⟨hL.p, hL.d, hL.c, hL.gas⟩
    rw [sampleR_mirror hγ hM hps.1 (by rw [hus]; change _ = -L.u + waveFn γ L ps; ring), neg_neg, neg_neg]
    have : mirror (mirror L) = L := by simp [mirror]
    rw [this]
  · unfold sample
    rw [if_pos (by linarith), if_neg (by linarith), sampleR_mirror hγ hR hps.1 husR, hff]

/-- the hypotheses hold for two equal gases colliding -/
example : ∃ ps, Balanced (7 / 5) (collide 1) (collide (-1)) ps :=
  ((C55_vacuum_test (by norm_num) (collide_good 1) (collide_good (-1))).mp (by norm_num [Vacuum, collide, g7])).exists

end Gandalf
