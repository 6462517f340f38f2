import Verif.Spec.Hllc

/-! Lemmas for C28. -/

set_option autoImplicit false
set_option linter.unusedSectionVars false

namespace Gandalf.Hllc

variable {n : ℕ}

theorem dot_add_l (a b c : Vec n ℝ) : dot (fun i => a i + b i) c = dot a c + dot b c := by
  simp [dot, add_mul, Finset.sum_add_distrib]

theorem dot_sub_l (a b c : Vec n ℝ) : dot (fun i => a i - b i) c = dot a c - dot b c := by
  simp [dot, sub_mul, Finset.sum_sub_distrib]

theorem dot_smul_l (x : ℝ) (a c : Vec n ℝ) : dot (fun i => x * a i) c = x * dot a c := by
  simp [dot, Finset.mul_sum, mul_assoc]

theorem dot_comm' (a b : Vec n ℝ) : dot a b = dot b a := by
  simp [dot, mul_comm]

theorem dot_neg_r (a b : Vec n ℝ) : (dot a fun i => -b i) = -dot a b := by
  simp [dot]

theorem dot_nonneg (a : Vec n ℝ) : 0 ≤ dot a a := Finset.sum_nonneg fun _ _ => mul_self_nonneg _

/-! ### wave speeds -/

theorem weight_pos {Sl Sr : St n} : 0 < weight Sl Sr := by
  unfold weight
  have := Real.sqrt_nonneg (Sr.rho / Sl.rho)
  positivity

theorem weight_lt {Sl Sr : St n} (hl : 0 < Sl.rho) (hr : 0 < Sr.rho) : weight Sl Sr < 1 := by
  unfold weight
  have : 0 < √(Sr.rho / Sl.rho) := Real.sqrt_pos.mpr (div_pos hr hl)
  rw [div_lt_one (by linarith)]
  linarith

/-- the averaging factors are in the ratio of the roots of the densities -/
theorem weight_ratio {Sl Sr : St n} (hl : 0 < Sl.rho) (hr : 0 < Sr.rho) :
    Sr.rho * weight Sl Sr ^ 2 = Sl.rho * (1 - weight Sl Sr) ^ 2 := by
  unfold weight
  have hR : √(Sr.rho / Sl.rho) ^ 2 = Sr.rho / Sl.rho := Real.sq_sqrt (div_pos hr hl).le
  have hp : 0 < 1 + √(Sr.rho / Sl.rho) := by have := Real.sqrt_nonneg (Sr.rho / Sl.rho); linarith
  have h1 : 1 - 1 / (1 + √(Sr.rho / Sl.rho)) = √(Sr.rho / Sl.rho) / (1 + √(Sr.rho / Sl.rho)) := by
    field_simp
    ring
  rw [h1, div_pow, div_pow, hR]
  field_simp

theorem weight_rev {Sl Sr : St n} (hl : 0 < Sl.rho) (hr : 0 < Sr.rho) :
    weight (rev Sr) (rev Sl) = 1 - weight Sl Sr := by
  unfold weight rev
  simp only
  have h : √(Sl.rho / Sr.rho) = (√(Sr.rho / Sl.rho))⁻¹ := by rw [← Real.sqrt_inv, inv_div]
  have hp : 0 < √(Sr.rho / Sl.rho) := Real.sqrt_pos.mpr (div_pos hr hl)
  rw [h]
  field_simp
  ring

theorem vav_rev {Sl Sr : St n} (hl : 0 < Sl.rho) (hr : 0 < Sr.rho) : vav (rev Sr) (rev Sl) = -vav Sl Sr := by
  unfold vav
  rw [weight_rev hl hr]
  unfold rev
  ring

theorem csav_rev {Sl Sr : St n} (hl : 0 < Sl.rho) (hr : 0 < Sr.rho) : csav (rev Sr) (rev Sl) = csav Sl Sr := by
  unfold csav
  rw [weight_rev hl hr]
  have hd : (dot (fun i => (rev Sr).v i - (rev Sl).v i) fun i => (rev Sr).v i - (rev Sl).v i) =
      dot (fun i => Sl.v i - Sr.v i) fun i => Sl.v i - Sr.v i := by
    simp only [dot, rev]
    exact Finset.sum_congr rfl fun k _ => by ring
  simp only [hd]
  simp only [rev, add_comm (Sr.press) Sl.press, add_comm (Sr.rho * Sr.cs * Sr.cs) (Sl.rho * Sl.cs * Sl.cs)]
  congr 1
  ring

theorem smin_rev {Sl Sr : St n} (hl : 0 < Sl.rho) (hr : 0 < Sr.rho) : smin (rev Sr) (rev Sl) = -smax Sl Sr := by
  unfold smin smax
  rw [vav_rev hl hr, csav_rev hl hr, ← min_neg_neg]
  congr 1
  · unfold rev; simp only; ring
  · ring

theorem smax_rev {Sl Sr : St n} (hl : 0 < Sl.rho) (hr : 0 < Sr.rho) : smax (rev Sr) (rev Sl) = -smin Sl Sr := by
  unfold smin smax
  rw [vav_rev hl hr, csav_rev hl hr, ← max_neg_neg]
  congr 1
  · unfold rev; simp only; ring
  · ring

theorem central_rev (iso : Bool) {Sl Sr : St n} (a b : ℝ) :
    central iso (rev Sr) (rev Sl) (-b) (-a) = -central iso Sl Sr a b := by
  unfold central rev
  cases iso
  · simp only [Bool.false_eq_true, if_false]
    rw [← neg_div]
    congr 1 <;> ring
  · simp only [if_true]
    rw [← neg_div]
    congr 1 <;> ring

/-- lower bound of the square of the averaged sound speed -/
theorem csav_sq {Sl Sr : St n} (hl : 0 < Sl.rho) (hr : 0 < Sr.rho) :
    weight Sl Sr * Sl.cs ^ 2 + (1 - weight Sl Sr) * Sr.cs ^ 2 ≤ csav Sl Sr ^ 2 := by
  have w0 := weight_pos (Sl := Sl) (Sr := Sr)
  have w1 := weight_lt hl hr
  have hd := dot_nonneg fun i => Sl.v i - Sr.v i
  unfold csav
  simp only
  generalize hg : max ((Sl.rho * Sl.cs * Sl.cs + Sr.rho * Sr.cs * Sr.cs) / (Sl.press + Sr.press)) 1 = g
  have g1 : 1 ≤ g := by rw [← hg]; exact le_max_right _ _
  generalize (dot (fun i => Sl.v i - Sr.v i) fun i => Sl.v i - Sr.v i) = D at *
  generalize weight Sl Sr = w at *
  have h3 : 0 ≤ 0.5 * w * (1 - w) * (g - 1) * D := by
    have : 0 ≤ w * (1 - w) * (g - 1) * D := by
      refine mul_nonneg (mul_nonneg (mul_nonneg w0.le (by linarith)) (by linarith)) hd
    nlinarith
  have h1 : 0 ≤ w * Sl.cs * Sl.cs := by nlinarith [mul_nonneg w0.le (mul_self_nonneg Sl.cs)]
  have h2 : 0 ≤ (1 - w) * Sr.cs * Sr.cs := by nlinarith [mul_nonneg (by linarith : 0 ≤ 1 - w) (mul_self_nonneg Sr.cs)]
  rw [Real.sq_sqrt (by linarith)]
  nlinarith

theorem csav_nonneg (Sl Sr : St n) : 0 ≤ csav Sl Sr := Real.sqrt_nonneg _

theorem csav_pos {Sl Sr : St n} (hl : 0 < Sl.rho) (hr : 0 < Sr.rho) (cl : 0 < Sl.cs) : 0 < csav Sl Sr := by
  have h := csav_sq hl hr
  have w0 := weight_pos (Sl := Sl) (Sr := Sr)
  have w1 := weight_lt hl hr
  have h1 : 0 < weight Sl Sr * Sl.cs ^ 2 := by positivity
  have h2 : 0 ≤ (1 - weight Sl Sr) * Sr.cs ^ 2 := mul_nonneg (by linarith) (sq_nonneg _)
  rcases (csav_nonneg Sl Sr).lt_or_eq with h0 | h0
  · exact h0
  · rw [← h0] at h; nlinarith

theorem smin_lt_smax {Sl Sr : St n} (hl : 0 < Sl.rho) (hr : 0 < Sr.rho) (cl : 0 < Sl.cs) : smin Sl Sr < smax Sl Sr := by
  have := csav_pos hl hr cl
  calc smin Sl Sr ≤ vav Sl Sr - csav Sl Sr := min_le_right _ _
    _ < vav Sl Sr + csav Sl Sr := by linarith
    _ ≤ smax Sl Sr := le_max_right _ _

theorem smin_le (Sl Sr : St n) : smin Sl Sr ≤ Sl.vline - Sl.cs := min_le_left _ _

theorem le_smax (Sl Sr : St n) : Sr.vline + Sr.cs ≤ smax Sl Sr := le_max_left _ _

/-! ### the pressure of the star region and the contact speed -/

/-- denominator of the contact speed -/
theorem den_neg {Sl Sr : St n} (hl : 0 < Sl.rho) (hr : 0 < Sr.rho) (cl : 0 < Sl.cs) (cr : 0 < Sr.cs) :
    Sr.rho * (Sr.vline - smax Sl Sr) - Sl.rho * (Sl.vline - smin Sl Sr) < 0 := by
  have h1 := smin_le Sl Sr
  have h2 := le_smax Sl Sr
  have : 0 < Sl.rho * (Sl.vline - smin Sl Sr) := mul_pos hl (by linarith)
  have : Sr.rho * (Sr.vline - smax Sl Sr) < 0 := mul_neg_of_pos_of_neg hr (by linarith)
  linarith

theorem central_lt_iff {Sl Sr : St n} (hl : 0 < Sl.rho) (hr : 0 < Sr.rho) (cl : 0 < Sl.cs) (cr : 0 < Sr.cs) :
    smin Sl Sr < central false Sl Sr (smin Sl Sr) (smax Sl Sr) ↔
    Sr.press + Sr.rho * (Sr.vline - smin Sl Sr) * (Sr.vline - smax Sl Sr) <
      Sl.press + Sl.rho * (Sl.vline - smin Sl Sr) ^ 2 := by
  unfold central
  simp only [Bool.false_eq_true, if_false]
  rw [lt_div_iff_of_neg (den_neg hl hr cl cr)]
  constructor <;> intro h <;> nlinarith

/-- the inequality behind `smin_lt_central` -/
theorem central_core {s D X Y a c : ℝ} (hs : 0 < s) (f0 : 0 < s ^ 2) (f1 : s ^ 2 < 1) (ha0 : 0 < a) (cr : 0 < c)
    (ha' : s ^ 2 * c ^ 2 ≤ a ^ 2) (hsc : s * c ≤ a) (hX : s ^ 2 * D + a ≤ X) (hX0 : 0 < X) (hY : c ≤ Y) (hY0 : 0 < Y)
    (hY1 : (1 - s ^ 2) * D + a ≤ Y) (hY2 : Y = c ∨ Y = (1 - s ^ 2) * D + a) :
    4 / 5 * ((s ^ 2) ^ 2 * c ^ 2) < (1 - s ^ 2) ^ 2 * X ^ 2 + (s ^ 2) ^ 2 * ((X - D) * Y) := by
  rcases le_or_gt 0 D with hD | hD
  · -- converging
    have hXX : (s ^ 2 * D + a) ^ 2 ≤ X ^ 2 := by
      refine pow_le_pow_left₀ ?_ hX 2
      have := mul_nonneg f0.le hD
      linarith
    have hmono : (a - (1 - s ^ 2) * D) * Y ≤ (X - D) * Y := mul_le_mul_of_nonneg_right (by linarith) hY0.le
    have hstep : (1 - s ^ 2) ^ 2 * (s ^ 2 * D + a) ^ 2 + (s ^ 2) ^ 2 * ((a - (1 - s ^ 2) * D) * Y) ≤
        (1 - s ^ 2) ^ 2 * X ^ 2 + (s ^ 2) ^ 2 * ((X - D) * Y) :=
      add_le_add (mul_le_mul_of_nonneg_left hXX (sq_nonneg _)) (mul_le_mul_of_nonneg_left hmono (sq_nonneg _))
    refine lt_of_lt_of_le ?_ hstep
    have main : ∀ Y', (a - (1 - s ^ 2) * D) * ((1 - s ^ 2) * D + a) ≤ (a - (1 - s ^ 2) * D) * Y' →
        4 / 5 * ((s ^ 2) ^ 2 * c ^ 2) <
          (1 - s ^ 2) ^ 2 * (s ^ 2 * D + a) ^ 2 + (s ^ 2) ^ 2 * ((a - (1 - s ^ 2) * D) * Y') := by
      intro Y' hY'
      have h1 := mul_le_mul_of_nonneg_left hY' (sq_nonneg (s ^ 2))
      have h2 : 4 / 5 * ((s ^ 2) ^ 2 * c ^ 2) ≤ 4 / 5 * (s ^ 2 * a ^ 2) := by
        have := mul_le_mul_of_nonneg_left ha' f0.le
        linarith
      have h3 : 0 ≤ (1 - s ^ 2) ^ 2 * (2 * (s ^ 2 * D * a)) := by
        have : 0 ≤ s ^ 2 * D * a := mul_nonneg (mul_nonneg f0.le hD) ha0.le
        exact mul_nonneg (sq_nonneg _) (by linarith)
      have h4 : 0 < (2 * (s ^ 2) ^ 2 - 2.8 * s ^ 2 + 1) * a ^ 2 := by
        refine mul_pos ?_ (by positivity)
        nlinarith only [sq_nonneg (s ^ 2 - 0.7)]
      linarith
    rcases le_or_gt ((1 - s ^ 2) * D) a with hc | hc
    · exact main Y (mul_le_mul_of_nonneg_left hY1 (by linarith))
    · rcases hY2 with hY2 | hY2
      · subst hY2
        have hc2 : 2 * a < Y := by linarith
        have hs4 : s < 1 / 2 := by
          by_contra hcon
          push Not at hcon
          have := mul_le_mul_of_nonneg_right hcon hY0.le
          linarith
        have h1 : ((1 - s ^ 2) * D - a) * Y ≤ Y * Y := mul_le_mul_of_nonneg_right (by linarith) hY0.le
        have h2 : s ^ 2 * Y ^ 2 ≤ (s ^ 2 * D + a) ^ 2 := by
          refine le_trans ha' ?_
          refine pow_le_pow_left₀ ha0.le ?_ 2
          have := mul_nonneg f0.le hD
          linarith
        have h3 := mul_le_mul_of_nonneg_left h2 (sq_nonneg (1 - s ^ 2))
        have h4 := mul_le_mul_of_nonneg_left h1 (sq_nonneg (s ^ 2))
        have hs2 : s ^ 2 < 1 / 4 := by nlinarith only [hs4, hs]
        have h5 : 0 < ((1 - s ^ 2) ^ 2 - 1.8 * s ^ 2) * (s ^ 2 * Y ^ 2) := by
          refine mul_pos ?_ (by positivity)
          nlinarith only [hs2]
        linarith
      · exact main Y (by rw [hY2])
  · -- diverging
    have hZ : 0 < X - D := by linarith
    have hmono : (X - D) * c ≤ (X - D) * Y := mul_le_mul_of_nonneg_left hY hZ.le
    have hstep := mul_le_mul_of_nonneg_left hmono (sq_nonneg (s ^ 2))
    rcases le_or_gt (16 / 25) (s ^ 2) with hc | hc
    · have hs5 : 4 / 5 ≤ s := by
        by_contra hcon
        push Not at hcon
        nlinarith only [hcon, hc, hs]
      have h1 : 4 / 5 * c ≤ X - D := by
        have : 4 / 5 * c ≤ s * c := mul_le_mul_of_nonneg_right hs5 cr.le
        have h2 : a ≤ X - D := by nlinarith only [hX, hD, f1]
        linarith
      have h2 : 4 / 5 * c * c ≤ (X - D) * c := mul_le_mul_of_nonneg_right h1 cr.le
      have h3 := mul_le_mul_of_nonneg_left h2 (sq_nonneg (s ^ 2))
      have h4 : 0 < (1 - s ^ 2) ^ 2 * X ^ 2 := by
        have : 0 < 1 - s ^ 2 := by linarith
        positivity
      linarith
    · have h1 : (1 - s ^ 2) * s ^ 2 * X * c - (s ^ 2) ^ 2 * c ^ 2 / 4 ≤ (1 - s ^ 2) ^ 2 * X ^ 2 := by
        nlinarith only [sq_nonneg ((1 - s ^ 2) * X - s ^ 2 * c / 2)]
      have h2 : a ≤ (1 - s ^ 2) * X + s ^ 2 * (X - D) := by linarith
      have h3 : s ^ 2 * c * (s * c) ≤ s ^ 2 * c * ((1 - s ^ 2) * X + s ^ 2 * (X - D)) :=
        mul_le_mul_of_nonneg_left (le_trans hsc h2) (by positivity)
      have hs5 : s < 4 / 5 := by
        by_contra hcon
        push Not at hcon
        nlinarith only [hcon, hc, hs]
      have h4 : 0 < s ^ 2 * c ^ 2 * (s * (1 - 1.05 * s)) := by
        have : 0 < 1 - 1.05 * s := by linarith
        positivity
      linarith

/-- The contact speed exceeds the left-most one if the adiabatic index is at least 5/4. -/
theorem smin_lt_central {Sl Sr : St n} {gamma : ℝ} (hg : 5 / 4 ≤ gamma) (hl : 0 < Sl.rho) (hr : 0 < Sr.rho)
    (cl : 0 < Sl.cs) (cr : 0 < Sr.cs) (pl : 0 < Sl.press) (pr : 0 < Sr.press) (ir : IdealGas gamma Sr) :
    smin Sl Sr < central false Sl Sr (smin Sl Sr) (smax Sl Sr) := by
  rw [central_lt_iff hl hr cl cr]
  have hs1 := smin_le Sl Sr
  have hs2 := le_smax Sl Sr
  have hs3 : smin Sl Sr ≤ vav Sl Sr - csav Sl Sr := min_le_right _ _
  have hs4 : vav Sl Sr + csav Sl Sr ≤ smax Sl Sr := le_max_right _ _
  have hs5 : smax Sl Sr = Sr.vline + Sr.cs ∨ smax Sl Sr = vav Sl Sr + csav Sl Sr := max_choice _ _
  have ha := csav_sq hl hr
  have ha0 := csav_pos hl hr cl
  have w0 := weight_pos (Sl := Sl) (Sr := Sr)
  have w1 := weight_lt hl hr
  have hw := weight_ratio hl hr
  have hv : vav Sl Sr = weight Sl Sr * Sl.vline + (1 - weight Sl Sr) * Sr.vline := rfl
  unfold IdealGas at ir
  generalize csav Sl Sr = a at *
  generalize vav Sl Sr = V at *
  generalize smin Sl Sr = A at *
  generalize smax Sl Sr = B at *
  generalize weight Sl Sr = w at *
  generalize Sl.vline = vl at *
  generalize Sr.vline = vr at *
  generalize Sl.cs = c1 at *
  generalize Sr.cs = c at *
  generalize Sl.rho = ρl at *
  generalize Sr.rho = ρr at *
  generalize Sl.press = p1 at *
  generalize Sr.press = p at *
  -- 1 - w = fr
  obtain ⟨f, rfl⟩ : ∃ f, w = 1 - f := ⟨1 - w, by ring⟩
  have f0 : 0 < f := by linarith
  have f1 : f < 1 := by linarith
  have e1 : (1 : ℝ) - (1 - f) = f := by ring
  rw [e1] at *
  have ha' : f * c ^ 2 ≤ a ^ 2 := by nlinarith [mul_nonneg w0.le (sq_nonneg c1)]
  -- p ≤ 4/5 ρr c²
  have hp : p ≤ 4 / 5 * (ρr * c ^ 2) := by nlinarith
  -- densities in terms of one number
  obtain ⟨m, hm0, hml, hmr⟩ : ∃ m : ℝ, 0 < m ∧ ρl = m * (1 - f) ^ 2 ∧ ρr = m * f ^ 2 := by
    refine ⟨ρl / (1 - f) ^ 2, by positivity, by field_simp, ?_⟩
    field_simp
    linarith
  obtain ⟨D, rfl⟩ : ∃ D, vl = vr + D := ⟨vl - vr, by ring⟩
  obtain ⟨X, rfl⟩ : ∃ X, A = vr + D - X := ⟨vr + D - A, by ring⟩
  obtain ⟨Y, rfl⟩ : ∃ Y, B = vr + Y := ⟨B - vr, by ring⟩
  have hX : f * D + a ≤ X := by rw [hv] at hs3; linarith
  have hX1 : c1 ≤ X := by linarith
  have hY : c ≤ Y := by linarith
  have hY1 : (1 - f) * D + a ≤ Y := by rw [hv] at hs4; linarith
  have hY2 : Y = c ∨ Y = (1 - f) * D + a := by
    rcases hs5 with h | h
    · left; linarith
    · right; rw [hv] at h; linarith
  have hX0 : 0 < X := by linarith
  have hY0 : 0 < Y := by linarith
  obtain ⟨s, hs, rfl⟩ : ∃ s : ℝ, 0 < s ∧ f = s ^ 2 := ⟨√f, Real.sqrt_pos.mpr f0, (Real.sq_sqrt f0.le).symm⟩
  have hsc : s * c ≤ a := by
    refine abs_le_of_sq_le_sq' ?_ ha0.le |>.2
    nlinarith
  have h : 4 / 5 * ((s ^ 2) ^ 2 * c ^ 2) < (1 - s ^ 2) ^ 2 * X ^ 2 + (s ^ 2) ^ 2 * ((X - D) * Y) :=
    central_core hs f0 f1 ha0 cr ha' hsc hX hX0 hY hY0 hY1 hY2
  have h' := mul_lt_mul_of_pos_left h hm0
  rw [hmr] at hp ⊢
  rw [hml]
  linarith

end Gandalf.Hllc
