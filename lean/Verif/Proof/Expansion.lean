import Verif.Common
import Mathlib.Data.Real.Basic
import Mathlib.Tactic.LinearCombination
import Mathlib.Algebra.Order.Field.Basic

/-! # Expansion of the inverse distance with remainder

`a` and `b` are distances of a point from the origin and from a source at distance `ρ` of the origin, `p` the
scalar product. -/

set_option autoImplicit false

namespace Gandalf.Expansion

/-- `a`, `b`, `ρ`, `p` of a source inside the distance of the point -/
structure Conf (a b ρ p : ℝ) : Prop where
  ha : 0 < a
  hb : 0 < b
  hρ : 0 ≤ ρ
  lt : ρ < a
  sq : b ^ 2 = a ^ 2 - 2 * p + ρ ^ 2
  cs : |p| ≤ a * ρ

variable {a b ρ p : ℝ}

theorem Conf.hi (h : Conf a b ρ p) : b ≤ a + ρ := by
  have := (abs_le.mp h.cs).1
  have h1 : b ^ 2 ≤ (a + ρ) ^ 2 := by nlinarith [h.sq]
  exact le_of_abs_le (abs_le_of_sq_le_sq h1 (by linarith [h.ha, h.hρ]))

theorem Conf.lo (h : Conf a b ρ p) : a - ρ ≤ b := by
  have := (abs_le.mp h.cs).2
  have h1 : (a - ρ) ^ 2 ≤ b ^ 2 := by nlinarith [h.sq]
  exact le_of_abs_le (abs_le_of_sq_le_sq h1 h.hb.le)

/-- `x`, `y`, `s` and their bounds -/
theorem Conf.xy (h : Conf a b ρ p) : 0 ≤ ρ / a ∧ ρ / a < 1 ∧ |1 - b / a| ≤ ρ / a ∧ 0 < b / a ∧ b / a ≤ 2 ∧
    1 / (b / a) ≤ 1 / (1 - ρ / a) ∧ 1 ≤ 1 / (1 - ρ / a) := by
  have ha := h.ha
  have hx0 : 0 ≤ ρ / a := div_nonneg h.hρ ha.le
  have hx1 : ρ / a < 1 := (div_lt_one ha).mpr h.lt
  have hy : b / a ≤ 1 + ρ / a := by
    rw [div_le_iff₀ ha, add_mul, div_mul_cancel₀ _ ha.ne']
    linarith [h.hi]
  have hy' : 1 - ρ / a ≤ b / a := by
    rw [le_div_iff₀ ha, sub_mul, div_mul_cancel₀ _ ha.ne']
    linarith [h.lo]
  refine ⟨hx0, hx1, abs_le.mpr ⟨by linarith, by linarith⟩, div_pos h.hb ha, by linarith, ?_, ?_⟩
  · exact one_div_le_one_div_of_le (by linarith) hy'
  · rw [le_div_iff₀ (by linarith)]
    linarith

theorem Conf.u (h : Conf a b ρ p) : (b / a) ^ 2 = 1 - 2 * (p / a ^ 2) + (ρ / a) ^ 2 := by
  have := h.ha.ne'
  rw [div_pow, h.sq]
  field_simp

theorem Conf.t (h : Conf a b ρ p) : |p / a ^ 2| ≤ ρ / a := by
  rw [abs_div, abs_of_pos (pow_pos h.ha 2), div_le_div_iff₀ (pow_pos h.ha 2) h.ha]
  nlinarith [h.cs, h.ha]

/-- the bounds used below, in dimensionless variables -/
theorem bounds {x y t : ℝ} (hx : 0 ≤ x) (hx1 : x < 1) (hy : |1 - y| ≤ x) (hy0 : 0 < y) (hy2 : y ≤ 2)
    (hs : 1 / y ≤ 1 / (1 - x)) (hu : y ^ 2 = 1 - 2 * t + x ^ 2) (ht : |t| ≤ x) :
    |1 / y - (1 + t)| ≤ (1 + 1 / (1 - x)) * x ^ 2 ∧
    |1 / y - (1 + t + (3 * t ^ 2 - x ^ 2) / 2)| ≤ (15 / 4 + 1 / (1 - x)) * x ^ 3 ∧
    |1 / y ^ 3 - (1 + 3 * t)| ≤ 9 * (1 / (1 - x)) ^ 3 * x ^ 2 ∧
    |1 / y ^ 3 - (1 + 3 * t + (15 * t ^ 2 - 3 * x ^ 2) / 2)| ≤ 30 * (1 / (1 - x)) ^ 3 * x ^ 3 := by
  set s := 1 / (1 - x) with hsdef
  have hs1 : 1 ≤ s := by rw [hsdef, le_div_iff₀ (by linarith)]; linarith
  have hi0 : 0 < 1 / y := by positivity
  have hd2 : (1 - y) ^ 2 ≤ x ^ 2 := by
    rw [← sq_abs]; exact pow_le_pow_left₀ (abs_nonneg _) hy 2
  have hd3 : |(1 - y) ^ 3| ≤ x ^ 3 := by
    rw [abs_pow]; exact pow_le_pow_left₀ (abs_nonneg _) hy 3
  have hi2 : (1 / y) ^ 2 ≤ s ^ 2 := pow_le_pow_left₀ hi0.le hs 2
  have hi3 : (1 / y) ^ 3 ≤ s ^ 3 := pow_le_pow_left₀ hi0.le hs 3
  have hs23 : s ^ 2 ≤ s ^ 3 := by nlinarith [sq_nonneg s]
  have hs13 : s ≤ s ^ 3 := by nlinarith [sq_nonneg s]
  have hs03 : 1 ≤ s ^ 3 := by linarith
  have ht2 : t ^ 2 ≤ x ^ 2 := by rw [← sq_abs]; exact pow_le_pow_left₀ (abs_nonneg _) ht 2
  have hx2 : 0 ≤ x ^ 2 := by positivity
  have hx3 : 0 ≤ x ^ 3 := by positivity
  have htx : |t * x ^ 2| ≤ x ^ 3 := by
    rw [abs_mul, abs_of_nonneg hx2]
    calc |t| * x ^ 2 ≤ x * x ^ 2 := mul_le_mul_of_nonneg_right ht hx2
      _ = x ^ 3 := by ring
  have hx4 : x ^ 4 ≤ x ^ 3 := by
    calc x ^ 4 = x * x ^ 3 := by ring
      _ ≤ 1 * x ^ 3 := mul_le_mul_of_nonneg_right hx1.le hx3
      _ = x ^ 3 := one_mul _
  have hx40 : 0 ≤ x ^ 4 := by positivity
  have ht' : t = (1 + x ^ 2 - y ^ 2) / 2 := by linarith
  refine ⟨?_, ?_, ?_, ?_⟩
  · have e : 1 / y - (1 + t) = (1 - y) ^ 2 * (1 / 2 + 1 / y) - x ^ 2 / 2 := by
      rw [ht']
      field_simp
      ring
    rw [e, abs_le]
    have h1 : (1 - y) ^ 2 * (1 / 2 + 1 / y) ≤ x ^ 2 * (1 / 2 + s) :=
      mul_le_mul hd2 (by linarith) (by positivity) hx2
    have h0 : 0 ≤ (1 - y) ^ 2 * (1 / 2 + 1 / y) := by positivity
    have h2 : 0 ≤ s * x ^ 2 := by positivity
    constructor <;> linarith
  · have e : 1 / y - (1 + t + (3 * t ^ 2 - x ^ 2) / 2) =
        (1 - y) ^ 3 * ((3 * y + 9 + 8 * (1 / y)) / 8) - 3 / 2 * (t * x ^ 2) + 3 / 8 * x ^ 4 := by
      rw [ht']
      field_simp
      ring
    rw [e]
    have h1 : |(1 - y) ^ 3 * ((3 * y + 9 + 8 * (1 / y)) / 8)| ≤ x ^ 3 * ((15 + 8 * s) / 8) := by
      rw [abs_mul]
      apply mul_le_mul hd3 _ (abs_nonneg _) hx3
      rw [abs_of_pos (by positivity)]
      linarith
    rw [abs_le] at h1 htx ⊢
    constructor <;> linarith
  · have e : 1 / y ^ 3 - (1 + 3 * t) =
        (1 - y) ^ 2 * (3 / 2 + 3 * (1 / y) + 2 * (1 / y) ^ 2 + (1 / y) ^ 3) - 3 / 2 * x ^ 2 := by
      rw [ht']
      field_simp
      ring
    rw [e, abs_le]
    have h1 : (1 - y) ^ 2 * (3 / 2 + 3 * (1 / y) + 2 * (1 / y) ^ 2 + (1 / y) ^ 3) ≤ x ^ 2 * (15 / 2 * s ^ 3) :=
      mul_le_mul hd2 (by linarith) (by positivity) hx2
    have h0 : 0 ≤ (1 - y) ^ 2 * (3 / 2 + 3 * (1 / y) + 2 * (1 / y) ^ 2 + (1 / y) ^ 3) := by positivity
    have h2 : x ^ 2 ≤ s ^ 3 * x ^ 2 := by nlinarith
    constructor <;> linarith
  · have e : 1 / y ^ 3 - (1 + 3 * t + (15 * t ^ 2 - 3 * x ^ 2) / 2) =
        (1 - y) ^ 3 * ((1 / y) ^ 3 + 3 * (1 / y) ^ 2 + 6 * (1 / y) + 45 / 8 + 15 / 8 * y) -
          15 / 2 * (t * x ^ 2) + 15 / 8 * x ^ 4 := by
      rw [ht']
      field_simp
      ring
    rw [e]
    have h1 : |(1 - y) ^ 3 * ((1 / y) ^ 3 + 3 * (1 / y) ^ 2 + 6 * (1 / y) + 45 / 8 + 15 / 8 * y)| ≤
        x ^ 3 * (20 * s ^ 3) := by
      rw [abs_mul]
      apply mul_le_mul hd3 _ (abs_nonneg _) hx3
      rw [abs_of_pos (by positivity)]
      linarith
    have h2 : x ^ 3 ≤ s ^ 3 * x ^ 3 := by nlinarith
    rw [abs_le] at h1 htx ⊢
    constructor <;> linarith

end Gandalf.Expansion

namespace Gandalf.Expansion

variable {a b ρ p : ℝ}

/-- the factor grows with the ratio -/
theorem inv_mono {x z : ℝ} (hz : z < 1) (h : x ≤ z) : 1 / (1 - x) ≤ 1 / (1 - z) :=
  one_div_le_one_div_of_le (by linarith) (by linarith)

theorem inv_one_le {x : ℝ} (h0 : 0 ≤ x) (hx : x < 1) : 1 ≤ 1 / (1 - x) := by
  rw [le_div_iff₀ (by linarith)]
  linarith

/-- potential, first order -/
theorem pot1 (h : Conf a b ρ p) {χ : ℝ} (hχ : χ < 1) (hρ : ρ ≤ χ * a) :
    |1 / b - (1 / a + p / a ^ 3)| ≤ (1 + 1 / (1 - χ)) * χ ^ 2 / a := by
  obtain ⟨hx, hx1, hy, hy0, hy2, hs, hs1⟩ := h.xy
  have ha := h.ha
  have hb := h.hb
  have hx' : ρ / a ≤ χ := (div_le_iff₀ ha).mpr hρ
  have B := (bounds hx hx1 hy hy0 hy2 hs h.u h.t).1
  have e : 1 / b - (1 / a + p / a ^ 3) = (1 / (b / a) - (1 + p / a ^ 2)) / a := by
    field_simp
  rw [e, abs_div, abs_of_pos ha]
  apply div_le_div_of_nonneg_right _ ha.le
  refine B.trans (mul_le_mul ?_ (pow_le_pow_left₀ hx hx' 2) (by positivity) ?_)
  · linarith [inv_mono hχ hx']
  · linarith [inv_one_le (hx.trans hx') hχ]

/-- potential, second order -/
theorem pot2 (h : Conf a b ρ p) {χ : ℝ} (hχ : χ < 1) (hρ : ρ ≤ χ * a) :
    |1 / b - (1 / a + p / a ^ 3 + (3 * p ^ 2 - ρ ^ 2 * a ^ 2) / (2 * a ^ 5))| ≤
      (15 / 4 + 1 / (1 - χ)) * χ ^ 3 / a := by
  obtain ⟨hx, hx1, hy, hy0, hy2, hs, hs1⟩ := h.xy
  have ha := h.ha
  have hb := h.hb
  have hx' : ρ / a ≤ χ := (div_le_iff₀ ha).mpr hρ
  have B := (bounds hx hx1 hy hy0 hy2 hs h.u h.t).2.1
  have e : 1 / b - (1 / a + p / a ^ 3 + (3 * p ^ 2 - ρ ^ 2 * a ^ 2) / (2 * a ^ 5)) =
      (1 / (b / a) - (1 + p / a ^ 2 + (3 * (p / a ^ 2) ^ 2 - (ρ / a) ^ 2) / 2)) / a := by
    field_simp
  rw [e, abs_div, abs_of_pos ha]
  apply div_le_div_of_nonneg_right _ ha.le
  refine B.trans (mul_le_mul ?_ (pow_le_pow_left₀ hx hx' 3) (by positivity) ?_)
  · linarith [inv_mono hχ hx']
  · linarith [inv_one_le (hx.trans hx') hχ]

/-- acceleration, first order; `X`, `D` are components of the position and of the source -/
theorem acc1 (h : Conf a b ρ p) {χ X D : ℝ} (hχ : χ < 1) (hρ : ρ ≤ χ * a) (hX : |X| ≤ a) (hD : |D| ≤ ρ) :
    |(D - X) / b ^ 3 - (-X / a ^ 3 + D / a ^ 3 - 3 * p * X / a ^ 5)| ≤ 21 * (1 / (1 - χ)) ^ 3 * χ ^ 2 / a ^ 2 := by
  obtain ⟨hx, hx1, hy, hy0, hy2, hs, hs1⟩ := h.xy
  have ha := h.ha
  have hb := h.hb
  have hx' : ρ / a ≤ χ := (div_le_iff₀ ha).mpr hρ
  have B := (bounds hx hx1 hy hy0 hy2 hs h.u h.t).2.2.1
  have hT := h.t
  have e : (D - X) / b ^ 3 - (-X / a ^ 3 + D / a ^ 3 - 3 * p * X / a ^ 5) =
      (-(X / a) * (1 / (b / a) ^ 3 - (1 + 3 * (p / a ^ 2))) +
        D / a * ((1 / (b / a) ^ 3 - (1 + 3 * (p / a ^ 2))) + 3 * (p / a ^ 2))) / a ^ 2 := by
    field_simp
    ring
  rw [e, abs_div, abs_of_pos (by positivity : 0 < a ^ 2)]
  apply div_le_div_of_nonneg_right _ (by positivity)
  have hXa : |X / a| ≤ 1 := by rw [abs_div, abs_of_pos ha]; exact (div_le_one ha).mpr hX
  have hDa : |D / a| ≤ ρ / a := by
    rw [abs_div, abs_of_pos ha]; exact div_le_div_of_nonneg_right hD ha.le
  have hS := pow_le_pow_left₀ (by linarith) (inv_mono hχ hx') 3
  have hS1 := one_le_pow₀ (n := 3) (inv_one_le (hx.trans hx') hχ)
  have hx2 := pow_le_pow_left₀ hx hx' 2
  generalize 1 / (b / a) ^ 3 - (1 + 3 * (p / a ^ 2)) = e1 at B ⊢
  generalize p / a ^ 2 = t at hT ⊢
  generalize X / a = X' at hXa ⊢
  generalize D / a = D' at hDa ⊢
  generalize (1 / (1 - χ)) ^ 3 = S at hS hS1 ⊢
  generalize (1 / (1 - ρ / a)) ^ 3 = S' at B hS
  generalize ρ / a = x at *
  have hB : |e1| ≤ 9 * S * x ^ 2 := B.trans (mul_le_mul_of_nonneg_right (by linarith) (sq_nonneg x))
  have h1 : |-X' * e1| ≤ 9 * S * x ^ 2 := by
    rw [abs_mul, abs_neg]
    exact (mul_le_of_le_one_left (abs_nonneg _) hXa).trans hB
  have h2 : |D' * (e1 + 3 * t)| ≤ x * (9 * S * x ^ 2 + 3 * x) := by
    rw [abs_mul]
    apply mul_le_mul hDa _ (abs_nonneg _) hx
    refine (abs_add_le _ _).trans (add_le_add hB ?_)
    rw [abs_mul, abs_of_pos (by norm_num : (0 : ℝ) < 3)]
    linarith
  have h3 : x * (9 * S * x ^ 2) ≤ 9 * S * x ^ 2 := by
    have : 0 ≤ 9 * S * x ^ 2 := mul_nonneg (by linarith) (sq_nonneg x)
    exact mul_le_of_le_one_left this hx1.le
  have h4 : x ^ 2 ≤ S * x ^ 2 := le_mul_of_one_le_left (sq_nonneg x) hS1
  have h5 : S * x ^ 2 ≤ S * χ ^ 2 := mul_le_mul_of_nonneg_left hx2 (by linarith)
  calc _ ≤ |-X' * e1| + |D' * (e1 + 3 * t)| := abs_add_le _ _
    _ ≤ 21 * (S * x ^ 2) := by nlinarith
    _ ≤ 21 * (S * χ ^ 2) := by linarith
    _ = 21 * S * χ ^ 2 := by ring

/-- acceleration, second order -/
theorem acc2 (h : Conf a b ρ p) {χ X D : ℝ} (hχ : χ < 1) (hρ : ρ ≤ χ * a) (hX : |X| ≤ a) (hD : |D| ≤ ρ) :
    |(D - X) / b ^ 3 - (-X / a ^ 3 + D / a ^ 3 - 3 * p * X / a ^ 5 +
        (3 * p * D / a ^ 5 + 3 / 2 * ρ ^ 2 * X / a ^ 5 - 15 / 2 * p ^ 2 * X / a ^ 7))| ≤
      69 * (1 / (1 - χ)) ^ 3 * χ ^ 3 / a ^ 2 := by
  obtain ⟨hx, hx1, hy, hy0, hy2, hs, hs1⟩ := h.xy
  have ha := h.ha
  have hb := h.hb
  have hx' : ρ / a ≤ χ := (div_le_iff₀ ha).mpr hρ
  have B := (bounds hx hx1 hy hy0 hy2 hs h.u h.t).2.2.2
  have hT := h.t
  have e : (D - X) / b ^ 3 - (-X / a ^ 3 + D / a ^ 3 - 3 * p * X / a ^ 5 +
        (3 * p * D / a ^ 5 + 3 / 2 * ρ ^ 2 * X / a ^ 5 - 15 / 2 * p ^ 2 * X / a ^ 7)) =
      (-(X / a) * (1 / (b / a) ^ 3 - (1 + 3 * (p / a ^ 2) + (15 * (p / a ^ 2) ^ 2 - 3 * (ρ / a) ^ 2) / 2)) +
        D / a * ((1 / (b / a) ^ 3 - (1 + 3 * (p / a ^ 2) + (15 * (p / a ^ 2) ^ 2 - 3 * (ρ / a) ^ 2) / 2)) +
          (15 * (p / a ^ 2) ^ 2 - 3 * (ρ / a) ^ 2) / 2)) / a ^ 2 := by
    field_simp
    ring
  rw [e, abs_div, abs_of_pos (by positivity : 0 < a ^ 2)]
  apply div_le_div_of_nonneg_right _ (by positivity)
  have hXa : |X / a| ≤ 1 := by rw [abs_div, abs_of_pos ha]; exact (div_le_one ha).mpr hX
  have hDa : |D / a| ≤ ρ / a := by
    rw [abs_div, abs_of_pos ha]; exact div_le_div_of_nonneg_right hD ha.le
  have hS := pow_le_pow_left₀ (by linarith) (inv_mono hχ hx') 3
  have hS1 := one_le_pow₀ (n := 3) (inv_one_le (hx.trans hx') hχ)
  have hx3 := pow_le_pow_left₀ hx hx' 3
  generalize hE : 1 / (b / a) ^ 3 - (1 + 3 * (p / a ^ 2) + (15 * (p / a ^ 2) ^ 2 - 3 * (ρ / a) ^ 2) / 2) = e2 at B ⊢
  clear hE
  generalize p / a ^ 2 = t at hT ⊢
  generalize X / a = X' at hXa ⊢
  generalize D / a = D' at hDa ⊢
  generalize (1 / (1 - χ)) ^ 3 = S at hS hS1 ⊢
  generalize (1 / (1 - ρ / a)) ^ 3 = S' at B hS
  generalize ρ / a = x at *
  have hx30 : 0 ≤ x ^ 3 := by positivity
  have hB : |e2| ≤ 30 * S * x ^ 3 := B.trans (mul_le_mul_of_nonneg_right (by linarith) hx30)
  have h1 : |-X' * e2| ≤ 30 * S * x ^ 3 := by
    rw [abs_mul, abs_neg]
    exact (mul_le_of_le_one_left (abs_nonneg _) hXa).trans hB
  have ht2 : t ^ 2 ≤ x ^ 2 := by rw [← sq_abs]; exact pow_le_pow_left₀ (abs_nonneg _) hT 2
  have h2 : |D' * (e2 + (15 * t ^ 2 - 3 * x ^ 2) / 2)| ≤ x * (30 * S * x ^ 3 + 9 * x ^ 2) := by
    rw [abs_mul]
    apply mul_le_mul hDa _ (abs_nonneg _) hx
    refine (abs_add_le _ _).trans (add_le_add hB ?_)
    rw [abs_le]
    constructor <;> linarith [sq_nonneg t, sq_nonneg x]
  have h3 : x * (30 * S * x ^ 3) ≤ 30 * S * x ^ 3 := by
    have : 0 ≤ 30 * S * x ^ 3 := mul_nonneg (by linarith) hx30
    exact mul_le_of_le_one_left this hx1.le
  have h4 : x ^ 3 ≤ S * x ^ 3 := le_mul_of_one_le_left hx30 hS1
  have h5 : S * x ^ 3 ≤ S * χ ^ 3 := mul_le_mul_of_nonneg_left hx3 (by linarith)
  have h6 : x * (30 * S * x ^ 3 + 9 * x ^ 2) = x * (30 * S * x ^ 3) + 9 * x ^ 3 := by ring
  calc _ ≤ |-X' * e2| + |D' * (e2 + (15 * t ^ 2 - 3 * x ^ 2) / 2)| := abs_add_le _ _
    _ ≤ 69 * (S * x ^ 3) := by linarith
    _ ≤ 69 * (S * χ ^ 3) := by linarith
    _ = 69 * S * χ ^ 3 := by ring

end Gandalf.Expansion
