import Verif.Model.OpenCrit
import Verif.Proof.MultipoleTree

/-! # Lemmas on the opening criteria -/

set_option autoImplicit false
set_option linter.unusedSectionVars false

namespace Gandalf.OpenCrit

open Multipole Gravity

variable {n : ℕ}

theorem le_of_sq {a b : ℝ} (hb : 0 ≤ b) (h : a ^ 2 ≤ b ^ 2) : |a| ≤ b := by
  rw [← sq_abs a] at h
  exact (pow_le_pow_iff_left₀ (abs_nonneg a) hb two_ne_zero).mp h

/-! ### three dimensions -/

/-- entries of the tensor -/
def ent (q : Fin 5 → ℝ) : Vec 9 ℝ := ![q 0, q 1, q 3, q 1, q 2, q 4, q 3, q 4, -(q 0 + q 2)]

theorem ent_dot (q q' : Fin 5 → ℝ) : dot (ent q) (ent q') =
    2 * (q 0 * q' 0 + q 2 * q' 2 + q 1 * q' 1 + q 3 * q' 3 + q 4 * q' 4) + q 0 * q' 2 + q 2 * q' 0 := by
  simp [dot, ent, Fin.sum_univ_succ]
  ring

theorem ent_self (q : Fin 5 → ℝ) : dot (ent q) (ent q) = -2 * pval 3 q := by
  rw [ent_dot, pval]
  ring

theorem pval3_nonpos (q : Fin 5 → ℝ) : pval 3 q ≤ 0 := by
  have := dot_self_nonneg (ent q)
  rw [ent_self] at this
  linarith

theorem lambda3 (q : Fin 5 → ℝ) : lambda 3 q = 2 * Real.sqrt (-pval 3 q / 3) := by
  show (if pval 3 q ≥ 0 then 0 else 2 * Real.sqrt (-pval 3 q / 3)) = _
  by_cases h : pval 3 q ≥ 0
  · have h0 : pval 3 q = 0 := le_antisymm (pval3_nonpos q) h
    rw [if_pos h, h0]
    simp
  · rw [if_neg h]

theorem bound3 (q : Fin 5 → ℝ) (R : Vec 3 ℝ) : |qscalar 3 q R| ≤ lambda 3 q * dot R R := by
  rw [lambda3]
  have hR := dot_self_nonneg R
  refine le_of_sq (by positivity) ?_
  have hs : (2 * Real.sqrt (-pval 3 q / 3) * dot R R) ^ 2 = -(4 / 3) * pval 3 q * dot R R ^ 2 := by
    rw [mul_pow, mul_pow, Real.sq_sqrt (by linarith [pval3_nonpos q])]
    ring
  rw [hs]
  have h := dot_sq_le (ent q) (![R 0 * R 0 - dot R R / 3, R 0 * R 1, R 0 * R 2, R 0 * R 1, R 1 * R 1 - dot R R / 3,
    R 1 * R 2, R 0 * R 2, R 1 * R 2, R 2 * R 2 - dot R R / 3] : Vec 9 ℝ)
  have e1 : dot (ent q) (![R 0 * R 0 - dot R R / 3, R 0 * R 1, R 0 * R 2, R 0 * R 1, R 1 * R 1 - dot R R / 3,
      R 1 * R 2, R 0 * R 2, R 1 * R 2, R 2 * R 2 - dot R R / 3] : Vec 9 ℝ) = qscalar 3 q R := by
    simp [dot, ent, Fin.sum_univ_succ, qscalar]
    ring
  have e2 : dot (![R 0 * R 0 - dot R R / 3, R 0 * R 1, R 0 * R 2, R 0 * R 1, R 1 * R 1 - dot R R / 3,
      R 1 * R 2, R 0 * R 2, R 1 * R 2, R 2 * R 2 - dot R R / 3] : Vec 9 ℝ) (![R 0 * R 0 - dot R R / 3, R 0 * R 1,
      R 0 * R 2, R 0 * R 1, R 1 * R 1 - dot R R / 3, R 1 * R 2, R 0 * R 2, R 1 * R 2,
      R 2 * R 2 - dot R R / 3] : Vec 9 ℝ) = 2 / 3 * dot R R ^ 2 := by
    simp [dot, Fin.sum_univ_succ]
    ring
  rw [e1, e2, ent_self] at h
  refine h.trans (le_of_eq ?_)
  ring

theorem sqrt_sub {A B C : ℝ} (hA : 0 ≤ A) (hB : 0 ≤ B) (hC : C ^ 2 ≤ A * B) :
    Real.sqrt (A + B + 2 * C) ≤ Real.sqrt A + Real.sqrt B := by
  refine Real.sqrt_le_iff.mpr ⟨by positivity, ?_⟩
  rw [add_sq, Real.sq_sqrt hA, Real.sq_sqrt hB]
  have : |C| ≤ Real.sqrt A * Real.sqrt B :=
    le_of_sq (by positivity) (by rw [mul_pow, Real.sq_sqrt hA, Real.sq_sqrt hB]; exact hC)
  linarith [le_abs_self C]

theorem lambda3_add (q q' : Fin 5 → ℝ) : lambda 3 (fun e => q e + q' e) ≤ lambda 3 q + lambda 3 q' := by
  simp only [lambda3]
  have h := dot_sq_le (ent q) (ent q')
  have e : -pval 3 (fun e => q e + q' e) / 3 = -pval 3 q / 3 + -pval 3 q' / 3 + 2 * (dot (ent q) (ent q') / 6) := by
    rw [ent_dot]
    simp only [pval]
    ring
  have := sqrt_sub (A := -pval 3 q / 3) (B := -pval 3 q' / 3) (C := dot (ent q) (ent q') / 6)
    (by linarith [pval3_nonpos q]) (by linarith [pval3_nonpos q'])
    (by rw [ent_self, ent_self] at h; nlinarith)
  rw [e]
  linarith

/-! ### two dimensions -/

theorem lambda2 (q : Fin 5 → ℝ) : lambda 2 q = 1 / 2 * max (q 0 + q 2 + Real.sqrt (pval 2 q)) 0 := by
  show 0.5 * max (q 0 + q 2 + Real.sqrt (pval 2 q)) 0 = _
  norm_num

theorem pval2_nonneg (q : Fin 5 → ℝ) : 0 ≤ pval 2 q := by
  show 0 ≤ (q 0 - q 2) * (q 0 - q 2) + 4 * q 1 * q 1
  nlinarith [mul_self_nonneg (q 0 - q 2), mul_self_nonneg (q 1)]

theorem bound2 (q : Fin 5 → ℝ) (ht : 0 ≤ q 0 + q 2) (R : Vec 2 ℝ) : |qscalar 2 q R| ≤ lambda 2 q * dot R R := by
  have hs := Real.sqrt_nonneg (pval 2 q)
  have hR := dot_self_nonneg R
  have hl : lambda 2 q = 1 / 2 * (q 0 + q 2 + Real.sqrt (pval 2 q)) := by
    rw [lambda2, max_eq_left (by linarith)]
  have hb : |(q 0 - q 2) * (R 0 ^ 2 - R 1 ^ 2) + 4 * q 1 * R 0 * R 1| ≤ Real.sqrt (pval 2 q) * dot R R := by
    refine le_of_sq (by positivity) ?_
    rw [mul_pow, Real.sq_sqrt (pval2_nonneg q)]
    simp only [pval, dot, Fin.sum_univ_two]
    nlinarith [sq_nonneg ((q 0 - q 2) * (2 * R 0 * R 1) - 2 * q 1 * (R 0 ^ 2 - R 1 ^ 2))]
  have e : qscalar 2 q R = 1 / 2 * ((q 0 + q 2) * dot R R) +
      1 / 2 * ((q 0 - q 2) * (R 0 ^ 2 - R 1 ^ 2) + 4 * q 1 * R 0 * R 1) := by
    simp only [qscalar, dot, Fin.sum_univ_two]
    ring
  have ht' : 0 ≤ (q 0 + q 2) * dot R R := mul_nonneg ht hR
  rw [e, hl]
  rw [abs_le] at hb ⊢
  constructor <;> nlinarith [hb.1, hb.2]

theorem lambda2_add (q q' : Fin 5 → ℝ) : lambda 2 (fun e => q e + q' e) ≤ lambda 2 q + lambda 2 q' := by
  have e : pval 2 (fun e => q e + q' e) = pval 2 q + pval 2 q' +
      2 * ((q 0 - q 2) * (q' 0 - q' 2) + 4 * q 1 * q' 1) := by
    simp only [pval]
    ring
  have h := sqrt_sub (pval2_nonneg q) (pval2_nonneg q') (C := (q 0 - q 2) * (q' 0 - q' 2) + 4 * q 1 * q' 1) (by
    simp only [pval]
    nlinarith [sq_nonneg ((q 0 - q 2) * (2 * q' 1) - 2 * q 1 * (q' 0 - q' 2))])
  rw [← e] at h
  simp only [lambda2]
  have h1 := le_max_left (q 0 + q 2 + Real.sqrt (pval 2 q)) 0
  have h2 := le_max_left (q' 0 + q' 2 + Real.sqrt (pval 2 q')) 0
  have h3 := le_max_right (q 0 + q 2 + Real.sqrt (pval 2 q)) 0
  have h4 := le_max_right (q' 0 + q' 2 + Real.sqrt (pval 2 q')) 0
  have : max (q 0 + q' 0 + (q 2 + q' 2) + Real.sqrt (pval 2 fun e => q e + q' e)) 0 ≤
      max (q 0 + q 2 + Real.sqrt (pval 2 q)) 0 + max (q' 0 + q' 2 + Real.sqrt (pval 2 q')) 0 :=
    max_le (by linarith) (by linarith)
  linarith

/-! ### all -/

theorem lambda_add (hn : n = 1 ∨ n = 2 ∨ n = 3) (q q' : Fin 5 → ℝ) :
    lambda n (fun e => q e + q' e) ≤ lambda n q + lambda n q' := by
  rcases hn with rfl | rfl | rfl
  · exact abs_add_le _ _
  · exact lambda2_add q q'
  · exact lambda3_add q q'

theorem lambda_nonneg (hn : n = 1 ∨ n = 2 ∨ n = 3) (q : Fin 5 → ℝ) : 0 ≤ lambda n q := by
  rcases hn with rfl | rfl | rfl
  · exact abs_nonneg _
  · rw [lambda2]
    have := le_max_right (q 0 + q 2 + Real.sqrt (pval 2 q)) 0
    positivity
  · rw [lambda3]
    positivity

theorem lambda_congr (hn : n = 1 ∨ n = 2 ∨ n = 3) {q q' : Fin 5 → ℝ} (h : ∀ e, KD.quadUsed n e = true → q e = q' e) :
    lambda n q = lambda n q' := by
  rcases hn with rfl | rfl | rfl
  · simp only [lambda]
    rw [h 0 (by decide)]
  · simp only [lambda, pval]
    rw [h 0 (by decide), h 1 (by decide), h 2 (by decide)]
  · simp only [lambda, pval]
    rw [h 0 (by decide), h 1 (by decide), h 2 (by decide), h 3 (by decide), h 4 (by decide)]

theorem lambda_zero (hn : n = 1 ∨ n = 2 ∨ n = 3) : lambda n (fun _ => 0) = 0 := by
  rcases hn with rfl | rfl | rfl <;> simp [lambda, pval]

/-- a point mass at offset `d` -/
theorem lambda_point (hn : n = 1 ∨ n = 2 ∨ n = 3) {m : ℝ} (hm : 0 ≤ m) (d : Vec n ℝ) :
    lambda n (fun e => KD.quadTerm m d e) = 2 * m * dot d d := by
  have hd := dot_self_nonneg d
  rcases hn with rfl | rfl | rfl
  · simp only [lambda, KD.quadTerm, KD.quadUsed, KD.coord, dot, Fin.sum_univ_one]
    simp
    rw [abs_of_nonneg hm, abs_of_nonneg (by nlinarith [mul_self_nonneg (d 0)])]
    ring
  · have e : pval 2 (fun e => KD.quadTerm m d e) = (3 * m * dot d d) ^ 2 := by
      simp [pval, KD.quadTerm, KD.quadUsed, KD.coord, dot, Fin.sum_univ_two]
      ring
    have e2 : KD.quadTerm m d 0 + KD.quadTerm m d 2 = m * dot d d := by
      simp [KD.quadTerm, KD.quadUsed, KD.coord, dot, Fin.sum_univ_two]
      ring
    rw [lambda2, e, e2, Real.sqrt_sq (by positivity), max_eq_left (by positivity)]
    ring
  · have e : -pval 3 (fun e => KD.quadTerm m d e) / 3 = (m * dot d d) ^ 2 := by
      simp [pval, KD.quadTerm, KD.quadUsed, KD.coord, dot, Fin.sum_univ_succ]
      ring
    rw [lambda3, e, Real.sqrt_sq (by positivity)]
    ring

theorem lambda_sum (hn : n = 1 ∨ n = 2 ∨ n = 3) (l : List (ℝ × Vec n ℝ)) (hw : ∀ s ∈ l, 0 ≤ s.1) (r : Vec n ℝ) :
    lambda n (fun e => (l.map fun s => KD.quadTerm s.1 (fun k => s.2 k - r k) e).sum) ≤
      2 * (l.map fun s => s.1 * gdist 0 s.2 r ^ 2).sum := by
  induction l with
  | nil => simp [lambda_zero hn]
  | cons s l ih =>
    simp only [List.map_cons, List.sum_cons]
    refine (lambda_add hn _ _).trans ?_
    rw [lambda_point hn (hw s (by simp)), mul_add, dist_sq le_rfl s.2 r, add_zero]
    have := ih fun t ht => hw t (by simp [ht])
    linarith

theorem lambda_bound (hn : n = 1 ∨ n = 2 ∨ n = 3) {src : List (ℝ × Vec n ℝ)} {r : Vec n ℝ} {m : ℝ} {q : Fin 5 → ℝ}
    (h : IsMoment src r m q) (hw : ∀ s ∈ src, 0 ≤ s.1) (R : Vec n ℝ) :
    |qscalar n q R| ≤ lambda n q * dot R R := by
  rcases hn with rfl | rfl | rfl
  · simp only [qscalar, lambda, dot, Fin.sum_univ_one]
    rw [mul_assoc, abs_mul, abs_of_nonneg (mul_self_nonneg (R 0))]
  · refine bound2 q ?_ R
    rw [moment_entry (by simp) h 0 (by decide), moment_entry (by simp) h 2 (by decide)]
    have : ∀ l : List (ℝ × Vec 2 ℝ), (∀ s ∈ l, 0 ≤ s.1) →
        0 ≤ (l.map fun s => KD.quadTerm s.1 (fun k => s.2 k - r k) 0).sum +
          (l.map fun s => KD.quadTerm s.1 (fun k => s.2 k - r k) 2).sum := by
      intro l hl
      induction l with
      | nil => simp
      | cons s l ih =>
        simp only [List.map_cons, List.sum_cons]
        have h1 := ih fun t ht => hl t (by simp [ht])
        have h2 : KD.quadTerm s.1 (fun k => s.2 k - r k) 0 + KD.quadTerm s.1 (fun k => s.2 k - r k) 2 =
            s.1 * dot (fun k => s.2 k - r k) (fun k => s.2 k - r k) := by
          simp [KD.quadTerm, KD.quadUsed, KD.coord, dot, Fin.sum_univ_two]
          ring
        have := mul_nonneg (hl s (by simp)) (dot_self_nonneg fun k => s.2 k - r k)
        linarith
    exact this src hw
  · exact bound3 q R

/-! ### the test -/

/-- what the test `drsqd < mac * macfactor` compares -/
theorem eigen_test {lam err g f D : ℝ} (hl : 0 ≤ lam) (he : 0 < err) (hg : 0 < g) (hf : gfacOf g ≤ f) (hD : 0 ≤ D)
    (h : ¬ D ^ 2 < (0.5 * lam / err) ^ (2 / 3 : ℝ) * f) : 1 / 2 * lam ≤ err * g * D ^ 3 := by
  rw [not_lt] at h
  have hx : 0 ≤ 0.5 * lam / err := by positivity
  have h1 : (0.5 * lam / err / g) ^ (2 / 3 : ℝ) ≤ D ^ 2 := by
    rw [Real.div_rpow hx hg.le, div_eq_mul_inv, ← Real.rpow_neg hg.le]
    exact (mul_le_mul_of_nonneg_left hf (Real.rpow_nonneg hx _)).trans h
  have h2 := Real.rpow_le_rpow (by positivity) h1 (by norm_num : (0 : ℝ) ≤ 3 / 2)
  rw [← Real.rpow_mul (by positivity), ← Real.rpow_natCast D 2, ← Real.rpow_mul hD] at h2
  norm_num at h2
  rw [div_div, div_le_iff₀ (by positivity)] at h2
  linarith

end Gandalf.OpenCrit
