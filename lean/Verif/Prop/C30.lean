import Verif.Proof.Kernel

/-!
# C30 – the M4 (cubic spline) kernel
-/

set_option autoImplicit false

namespace Gandalf

/-- **C30.** In one, two and three dimensions the M4 kernel is non-negative, of compact support,
continuous, non-increasing, `w1` is its derivative at every separation (knots included), and it – and the
drag kernel made from it – integrates to one over space for every smoothing length. -/
theorem C30_m4_valid (n : ℕ) (hn : 1 ≤ n ∧ n ≤ 3) : (m4Kernel n).Valid n := by
  have h := m4_poly n hn
  have hpi := Real.pi_pos.ne'
  refine ⟨h.range_pos, by norm_num [m4Kernel], by norm_num [m4Kernel], h.nonneg, ?_, ?_, h.antitone,
    h.continuous, h.deriv, ?_, ?_⟩
  · rw [h.w0]; simp only [m4Pieces, pw, poly]; norm_num; exact h.cpos
  · intro s hs; rw [h.w0, h.support s hs, mul_zero]
  · obtain ⟨h1, h2⟩ := hn
    interval_cases n
    · refine h.normalised (qs := [(1, [0, 1, 0, -1/2, 3/16]), (2, [-1/4, 2, -3/2, 1/2, -1/16])]) (e := [3/4]) ?_ ?_ ?_ ?_
      · simp only [Smooth, pw, dpw, poly, dpoly]; norm_num
      · intro s; simp only [m4Pieces, pw, dpw, poly, dpoly]; split_ifs <;> norm_num <;> ring
      · simp only [pw, poly]; norm_num
      · rw [unitBall_one]; simp only [m4Kernel, pw, poly, M4.kernnorm]; norm_num
    · refine h.normalised (qs := [(1, [0, 0, 1/2, 0, -3/8, 3/20]), (2, [-1/20, 0, 1, -1, 3/8, -1/20])]) (e := [7/20]) ?_ ?_ ?_ ?_
      · simp only [Smooth, pw, dpw, poly, dpoly]; norm_num
      · intro s; simp only [m4Pieces, pw, dpw, poly, dpoly]; split_ifs <;> norm_num <;> ring
      · simp only [pw, poly]; norm_num
      · rw [unitBall_two]; simp only [m4Kernel, pw, poly, M4.kernnorm]; norm_num; field_simp; norm_num
    · refine h.normalised (qs := [(1, [0, 0, 0, 1/3, 0, -3/10, 1/8]), (2, [-1/60, 0, 0, 2/3, -3/4, 3/10, -1/24])]) (e := [1/4]) ?_ ?_ ?_ ?_
      · simp only [Smooth, pw, dpw, poly, dpoly]; norm_num
      · intro s; simp only [m4Pieces, pw, dpw, poly, dpoly]; split_ifs <;> norm_num <;> ring
      · simp only [pw, poly]; norm_num
      · rw [unitBall_three]; simp only [m4Kernel, pw, poly, M4.kernnorm]; norm_num; field_simp
  · obtain ⟨h1, h2⟩ := hn
    interval_cases n
    · refine h.drag (qs := [(1, [0, 0, 0, 1/3, 0, -3/10, 1/8]), (2, [-1/60, 0, 0, 2/3, -3/4, 3/10, -1/24])]) (e := [1/4]) ?_ ?_ ?_ ?_
      · simp only [Smooth, pw, dpw, poly, dpoly]; norm_num
      · intro s; simp only [m4Pieces, pw, dpw, poly, dpoly]; split_ifs <;> norm_num <;> ring
      · simp only [pw, poly]; norm_num
      · rw [unitBall_one]; simp only [m4Kernel, pw, poly, M4.kernnorm, M4.kernnormdrag]; norm_num
    · refine h.drag (qs := [(1, [0, 0, 0, 0, 1/4, 0, -1/4, 3/28]), (2, [-1/140, 0, 0, 0, 1/2, -3/5, 1/4, -1/28])]) (e := [31/140]) ?_ ?_ ?_ ?_
      · simp only [Smooth, pw, dpw, poly, dpoly]; norm_num
      · intro s; simp only [m4Pieces, pw, dpw, poly, dpoly]; split_ifs <;> norm_num <;> ring
      · simp only [pw, poly]; norm_num
      · rw [unitBall_two]; simp only [m4Kernel, pw, poly, M4.kernnorm, M4.kernnormdrag]; norm_num; field_simp; norm_num
    · refine h.drag (qs := [(1, [0, 0, 0, 0, 0, 1/5, 0, -3/14, 3/32]), (2, [-1/280, 0, 0, 0, 0, 2/5, -1/2, 3/14, -1/32])]) (e := [9/40]) ?_ ?_ ?_ ?_
      · simp only [Smooth, pw, dpw, poly, dpoly]; norm_num
      · intro s; simp only [m4Pieces, pw, dpw, poly, dpoly]; split_ifs <;> norm_num <;> ring
      · simp only [pw, poly]; norm_num
      · rw [unitBall_three]; simp only [m4Kernel, pw, poly, M4.kernnorm, M4.kernnormdrag]; norm_num; field_simp; norm_num

/-- values at the knots in one dimension -/
example : (m4Kernel 1).w0 0 = 2 / 3 ∧ (m4Kernel 1).w0 1 = 1 / 6 ∧ (m4Kernel 1).w0 2 = 0 ∧
    (m4Kernel 1).w1 1 = -(1 / 2) := by
  norm_num [m4Kernel, M4.w0, M4.w1, M4.kernnorm]

end Gandalf
