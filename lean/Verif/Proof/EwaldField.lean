import Verif.Proof.Ewald

/-! # The tabulated field: gradient and mirror symmetry -/

set_option autoImplicit false

namespace Gandalf.Ewald
open Gandalf.Field

theorem per_cases (c : Cfg) (hc : c.OK) : periodicity c = 1 ∨ periodicity c = 2 ∨ periodicity c = 3 ∨
    periodicity c = 4 ∨ periodicity c = 5 ∨ periodicity c = 6 ∨ periodicity c = 7 := by
  obtain ⟨k, hk⟩ := hc.some_per
  unfold periodicity
  fin_cases k <;> simp only [Fin.zero_eta, Fin.mk_one, Fin.reduceFinMk, Fin.isValue] at hk <;> rw [hk] <;>
    (cases c.per 0 <;> cases c.per 1 <;> cases c.per 2 <;> simp_all)

theorem linv_eq (c : Cfg) (hc : c.OK) : (consts c).linv = 1 / c.L (lead c) := by
  rcases per_cases c hc with h | h | h | h | h | h | h <;> simp only [consts, lead, h]

theorem linv_pos (c : Cfg) (hc : c.OK) : 0 < (consts c).linv := by
  rw [linv_eq c hc]; exact one_div_pos.2 (hc.L_pos _)

theorem alpha_pos (c : Cfg) (hc : c.OK) : 0 < alpha c := by
  have := linv_pos c hc; have := hc.mult_pos; unfold alpha; positivity

theorem dzeta_pos (c : Cfg) (hc : c.OK) : 0 < dzeta c := by
  have := linv_pos c hc; have := alpha_pos c hc; have := Real.pi_pos; unfold dzeta; positivity

theorem ratio_pos (c : Cfg) (hc : c.OK) : 0 < (consts c).ratio_p := by
  have h0 := hc.L_pos 0
  have h1 := hc.L_pos 1
  have h2 := hc.L_pos 2
  rcases per_cases c hc with h | h | h | h | h | h | h <;> simp only [consts, h] <;>
    first
    | positivity
    | norm_num

theorem long_grad (S : Special) (hS : S.OK) (c : Cfg) (hc : c.OK) (h : ℤ × ℤ × ℤ) (p : P3) :
    Gradient (long S c h p).acc (fun q => (long S c h q).pot) p := by
  have hl := (linv_pos c hc).ne'
  have hd := dzeta_pos c hc
  have hr : 1 / (consts c).ratio_p ≠ 0 := (one_div_pos.2 (ratio_pos c hc)).ne'
  intro r w t hrt hm
  subst hrt
  rcases per_cases c hc with hp | hp | hp | hp | hp | hp | hp
  · simp only [long, hp]
    refine (axis_deriv hS c hc h.1 (dzeta c) hl (hm 0) (hm 1) (hm 2)).congr_deriv ?_
    simp [Fin.sum_univ_three]
  · simp only [long, hp]
    refine (axis_deriv hS c hc h.2.1 (dzeta c) hl (hm 1) (hm 0) (hm 2)).congr_deriv ?_
    simp [Fin.sum_univ_three]; ring
  · simp only [long, hp]
    refine (plane_deriv hS hd (linv := (consts c).linv) hr h.1 h.2.1 (hm 0) (hm 1) (hm 2)).congr_deriv ?_
    simp [Fin.sum_univ_three, ewc1, ewc2]
  · simp only [long, hp]
    refine (axis_deriv hS c hc h.2.2 (dzeta c) hl (hm 2) (hm 0) (hm 1)).congr_deriv ?_
    simp [Fin.sum_univ_three]; ring
  · simp only [long, hp]
    refine (plane_deriv hS hd (linv := (consts c).linv) hr h.1 h.2.2 (hm 2) (hm 0) (hm 1)).congr_deriv ?_
    simp [Fin.sum_univ_three, ewc1, ewc2]; ring
  · simp only [long, hp]
    refine (plane_deriv hS hd (linv := (consts c).linv) hr h.2.2 h.2.1 (hm 1) (hm 2) (hm 0)).congr_deriv ?_
    simp [Fin.sum_univ_three, ewc1, ewc2]; ring
  · simp only [long, hp]
    by_cases h0 : (h.1 ^ 2 + h.2.1 ^ 2 + h.2.2 ^ 2 : ℤ) > 0
    · simp only [if_pos h0]
      refine (cube_deriv _ (dzeta c) (1 / (c.L 1 / c.L 0)) (1 / (c.L 2 / c.L 0)) _ (consts c).linv h.1 h.2.1 h.2.2
        (hm 0) (hm 1) (hm 2)).congr_deriv ?_
      have hpi := Real.pi_ne_zero
      simp only [Fin.sum_univ_three, accLong3, Matrix.cons_val_zero, Matrix.cons_val_one, Matrix.cons_val]
      generalize Real.sin _ = s
      generalize (h.1 : ℝ) ^ 2 + (h.2.1 * (1 / (c.L 1 / c.L 0))) ^ 2 + (h.2.2 * (1 / (c.L 2 / c.L 0))) ^ 2 = u
      generalize Real.exp _ = e
      generalize 1 / (c.L 1 / c.L 0) = i1
      generalize 1 / (c.L 2 / c.L 0) = i2
      have : (consts c).linv * i1 * i2 / Real.pi * (2 * Real.pi * (consts c).linv) = 2 * (consts c).linv ^ 2 * i1 * i2 := by
        field_simp
      rw [this]
      ring
    · simp only [if_neg h0]
      simpa using hasDerivAt_const t (0 : ℝ)

theorem field_grad (S : Special) (hS : S.OK) (c : Cfg) (hc : c.OK) (p : P3) (hp : OffLattice c p) :
    Gradient (field S c p).acc (fun q => (field S c q).pot) p := by
  have h0 : p 0 ≠ 0 ∨ p 1 ≠ 0 ∨ p 2 ≠ 0 := by
    obtain ⟨k, hk⟩ := hp (0, 0, 0)
    have : shift c (0, 0, 0) k = 0 := by fin_cases k <;> simp [shift, comp]
    rw [this, add_zero] at hk
    fin_cases k
    · exact Or.inl hk
    · exact Or.inr (Or.inl hk)
    · exact Or.inr (Or.inr hk)
  exact grad_sub (grad_add (grad_sum _ (fun h => (short S c h p).acc) (fun h q => (short S c h q).pot)
    fun h _ => short_grad S hS c h p (hp h)) (grad_sum _ (fun h => (long S c h p).acc) (fun h q => (long S c h q).pot)
    fun h _ => long_grad S hS c hc h p)) (newton_grad p h0)

end Gandalf.Ewald
