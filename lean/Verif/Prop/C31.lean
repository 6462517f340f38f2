import Verif.Proof.Kernel

/-!
# C31 – gravity, potential and grad-h terms of the M4 kernel
-/

set_option autoImplicit false

namespace Gandalf

/-- **C31 (gravity).** The softened force is the smoothed mass inside the radius over its square, the
potential's derivative is minus the force at every separation, and both are Newtonian outside. -/
theorem C31_m4_gravity : (m4Kernel 3).GravityOK := by
  refine ⟨?_, ?_, ?_⟩
  · intro s hs
    have h := m4_poly 3 (by norm_num)
    rw [h.ball (qs := [(1, [0, 0, 0, 1/3, 0, -3/10, 1/8]), (2, [-1/60, 0, 0, 2/3, -3/4, 3/10, -1/24])]) (e := [1/4])
      (by simp only [Smooth, pw, dpw, poly, dpoly]; norm_num)
      (by intro s; simp only [m4Pieces, pw, dpw, poly, dpoly]; split_ifs <;> norm_num <;> ring)
      (by simp only [pw, poly]; norm_num) hs.le, unitBall_three]
    change M4.wgrav s = _
    rw [m4_force s hs]
    have hpi := Real.pi_pos.ne'
    simp only [M4.kernnorm]
    congr 1
    norm_num
    field_simp
  · intro s hs
    refine hasDerivAt_pot (f := M4.wpot) (g := M4.wgrav) (hasDerivAt_pw _ _ ?_) m4_pot m4_force ?_ s hs
    · simp only [Smooth, pw, dpw, poly, dpoly]; norm_num
    · intro s hs
      simp only [pw, dpw, poly, dpoly]; split_ifs <;> norm_num <;> ring
  · intro s hs
    have h2 : (2 : ℝ) ≤ s := hs
    simp only [m4Kernel, M4.wgrav, M4.wpot, if_neg (not_lt.mpr h2), if_neg (not_lt.mpr (by linarith : (1 : ℝ) ≤ s))]
    exact ⟨by rw [pow_two], trivial⟩

/-- **C31 (omega).** `womega` gives the derivative of the scaled kernel with respect to the smoothing
length, in every dimension. -/
theorem C31_m4_omega (n : ℕ) (hn : 1 ≤ n ∧ n ≤ 3) : (m4Kernel n).OmegaOK n := by
  refine omegaOK_of (fun s _ => (m4_poly n hn).deriv s) ?_
  intro s _
  simp only [m4Kernel, M4.womega, M4.w0, M4.w1]
  split_ifs <;> ring

/-- **C31 (zeta).** `wzeta` gives the derivative of the scaled potential with respect to the smoothing
length. -/
theorem C31_m4_zeta (n : ℕ) : (m4Kernel n).ZetaOK := by
  refine zetaOK_of (fun s hs => C31_m4_gravity.potential s hs) ?_
  intro s hs
  simp only [m4Kernel, M4.wzeta, M4.wpot, M4.wgrav]
  split_ifs <;> field_simp <;> ring

example : (m4Kernel 3).wgrav 2 = 1 / 4 ∧ (m4Kernel 3).wpot 1 = 14 / 15 ∧ (m4Kernel 3).wzeta 1 = 3 / 10 := by
  norm_num [m4Kernel, M4.wgrav, M4.wpot, M4.wzeta]

end Gandalf
