import Verif.Spec.Units
import Mathlib.Tactic

/-!
# Units: lemmas
-/

set_option autoImplicit false

namespace Gandalf.Units

theorem si_values_pos : 0 < r_pc ∧ 0 < r_au ∧ 0 < r_sun ∧ 0 < r_earth ∧ 0 < m_sun ∧ 0 < m_jup ∧ 0 < m_earth ∧
    0 < myr ∧ 0 < yr ∧ 0 < day ∧ 0 < m_hydrogen ∧ 0 < G_const ∧ 0 < k_boltzmann ∧ 0 < e_charge ∧ 0 < L_sun := by
  norm_num [r_pc, r_au, r_sun, r_earth, m_sun, m_jup, m_earth, myr, yr, day, m_hydrogen, G_const, k_boltzmann,
    e_charge, L_sun]

/-- Every recognised unit has a positive value. -/
theorem SIUnit_pos {q : Quantity} {unit : String} {x : ℝ} (h : SIUnit q unit = some x) : 0 < x := by
  obtain ⟨p1, p2, p3, p4, p5, p6, p7, p8, p9, p10, p11, p12, p13, p14, p15⟩ := si_values_pos
  cases q <;> simp only [SIUnit] at h <;>
    (repeat' (split at h)) <;>
    first
      | (simp at h; done)
      | (obtain rfl := Option.some.inj h; first | positivity | norm_num)

theorem si_pos {q : Quantity} {unit : String} (h : (SIUnit q unit).isSome = true) : 0 < si q unit := by
  obtain ⟨x, hx⟩ := Option.isSome_iff_exists.mp h
  unfold si
  rw [hx]
  exact SIUnit_pos hx

/-- The code unit of time makes the gravitational constant one. -/
theorem timeUnit_sq {r m : ℝ} (hr : 0 < r) (hm : 0 < m) : G_const * m * timeUnit r m ^ 2 = r ^ 3 := by
  have hG : 0 < G_const := si_values_pos.2.2.2.2.2.2.2.2.2.2.2.1
  have h1 : (r ^ (1.5 : ℝ)) ^ 2 = r ^ 3 := by
    rw [← Real.rpow_natCast, ← Real.rpow_mul hr.le]
    norm_num
  have h2 : Real.sqrt (m * G_const) ^ 2 = m * G_const := Real.sq_sqrt (by positivity)
  unfold timeUnit
  rw [div_pow, h1, h2]
  field_simp

theorem timeUnit_pos {r m : ℝ} (hr : 0 < r) (hm : 0 < m) : 0 < timeUnit r m := by
  have hG : 0 < G_const := si_values_pos.2.2.2.2.2.2.2.2.2.2.2.1
  unfold timeUnit
  positivity

/-- The code units of length, mass and time, in SI. -/
noncomputable def base (p : Params) : Base :=
  let r := si .r (p.outunit "r")
  let m := si .m (p.outunit "m")
  ⟨r, m, timeUnit r m⟩

theorem base_pos {p : Params} (h : Recognised p) : 0 < (base p).r ∧ 0 < (base p).m ∧ 0 < (base p).t := by
  have hr := si_pos (h .r (by simp [looked])).2
  have hm := si_pos (h .m (by simp [looked])).2
  exact ⟨hr, hm, timeUnit_pos hr hm⟩

theorem codeUnit_pos {b : Base} (h : 0 < b.r ∧ 0 < b.m ∧ 0 < b.t) (q : Quantity) : 0 < codeUnit b q := by
  obtain ⟨h1, h2, h3⟩ := h
  have h4 : 0 < m_hydrogen := si_values_pos.2.2.2.2.2.2.2.2.2.2.1
  have h5 : 0 < k_boltzmann := si_values_pos.2.2.2.2.2.2.2.2.2.2.2.2.1
  cases q <;> simp only [codeUnit] <;> positivity

theorem cgs_pos (q : Quantity) : 0 < cgs q := by
  cases q <;> simp only [cgs] <;> norm_num

/-- All units in closed form. -/
theorem units_spec {p : Params} (h : Recognised p) (q : Quantity) :
    (units p q).inscale * (units p q).inSI = codeUnit (base p) q ∧
    (units p q).outscale * (units p q).outSI = codeUnit (base p) q ∧
    (units p q).outcgs = cgs q * (units p q).outSI ∧
    0 < (units p q).inscale ∧ 0 < (units p q).outscale ∧ 0 < (units p q).inSI ∧ 0 < (units p q).outSI := by
  have hb := base_pos h
  have hri := si_pos (h .r (by simp [looked])).1
  have hro := si_pos (h .r (by simp [looked])).2
  have hmi := si_pos (h .m (by simp [looked])).1
  have hmo := si_pos (h .m (by simp [looked])).2
  have hti := si_pos (h .t (by simp [looked])).1
  have hto := si_pos (h .t (by simp [looked])).2
  simp only [siKey] at hri hro hmi hmo hti hto
  have er : 1 * si .r (p.outunit (key .r)) / si .r (p.inunit (key .r)) * si .r (p.inunit (key .r)) =
      si .r (p.outunit (key .r)) := by
    rw [one_mul]; exact div_mul_cancel₀ _ hri.ne'
  have em : 1 * si .m (p.outunit (key .m)) / si .m (p.inunit (key .m)) * si .m (p.inunit (key .m)) =
      si .m (p.outunit (key .m)) := by
    rw [one_mul]; exact div_mul_cancel₀ _ hmi.ne'
  have one : ∀ q ∈ looked, let u := setupOne p (base p) (base p) q
      u.inscale * u.inSI = codeUnit (base p) q ∧ u.outscale * u.outSI = codeUnit (base p) q ∧
      u.outcgs = cgs q * u.outSI ∧ 0 < u.inscale ∧ 0 < u.outscale ∧ 0 < u.inSI ∧ 0 < u.outSI := by
    intro q hq
    have hi := si_pos (h q hq).1
    have ho := si_pos (h q hq).2
    have hc := codeUnit_pos hb q
    exact ⟨div_mul_cancel₀ _ hi.ne', div_mul_cancel₀ _ ho.ne', rfl, div_pos hc hi, div_pos hc ho, hi, ho⟩
  have hin : (⟨(setupBase p .r).inscale * (setupBase p .r).inSI, (setupBase p .m).inscale * (setupBase p .m).inSI,
      timeUnit ((setupBase p .r).inscale * (setupBase p .r).inSI)
        ((setupBase p .m).inscale * (setupBase p .m).inSI) / si .t (p.inunit (key .t)) *
        si .t (p.inunit (key .t))⟩ : Base) = base p := by
    simp only [setupBase]
    rw [er, em, div_mul_cancel₀ _ hti.ne']
    rfl
  have hout : (⟨(setupBase p .r).outscale * (setupBase p .r).outSI, (setupBase p .m).outscale *
      (setupBase p .m).outSI, timeUnit ((setupBase p .r).outscale * (setupBase p .r).outSI)
        ((setupBase p .m).outscale * (setupBase p .m).outSI) / si .t (p.outunit (key .t)) *
        si .t (p.outunit (key .t))⟩ : Base) = base p := by
    simp only [setupBase]
    rw [div_mul_cancel₀ _ hto.ne', one_mul, one_mul]
    rfl
  have el : q ∈ looked → q ≠ .r → q ≠ .m → units p q = setupOne p (base p) (base p) q := by
    intro hq h1 h2
    rw [← hin]
    conv_rhs => arg 3; rw [hin, ← hout]
    cases q <;> first | rfl | (simp at h1; done) | (simp at h2; done) | (simp [looked] at hq; done)
  by_cases hq : q ∈ looked
  · by_cases h1 : q = .r
    · subst h1
      exact ⟨er, one_mul _, rfl, div_pos (by rw [one_mul]; exact hro) hri, one_pos, hri, hro⟩
    · by_cases h2 : q = .m
      · subst h2
        exact ⟨em, one_mul _, rfl, div_pos (by rw [one_mul]; exact hmo) hmi, one_pos, hmi, hmo⟩
      · rw [el hq h1 h2]
        exact one q hq
  · cases q <;> first
      | (simp [looked] at hq; done)
      | (simp [units, SimUnit.default, codeUnit, cgs]; done)

end Gandalf.Units
