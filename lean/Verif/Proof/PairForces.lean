import Verif.Common
import Verif.Model.Vec
import Mathlib.Analysis.SpecialFunctions.Sqrt
import Mathlib.Analysis.Calculus.Deriv.Pow
import Mathlib.Analysis.Calculus.Deriv.Inv
import Mathlib.Analysis.Calculus.Deriv.Add
import Mathlib.Analysis.Calculus.Deriv.Mul

/-! Sums over pairs, and derivatives of central pair forces along curves. -/

set_option autoImplicit false
set_option linter.unusedSectionVars false

namespace Gandalf

variable {n N : ℕ}

/-- a double sum of an antisymmetric function is zero -/
theorem sum_antisymm {β : Type*} [Field β] [CharZero β] (f : Fin N → Fin N → β) (h : ∀ i j, f i j = -f j i) :
    ∑ i, ∑ j, f i j = 0 := by
  have e : ∑ i, ∑ j, f i j = -∑ i, ∑ j, f i j := by
    conv_lhs => rw [Finset.sum_comm]
    rw [← Finset.sum_neg_distrib]
    refine Finset.sum_congr rfl fun i _ => ?_
    rw [← Finset.sum_neg_distrib]
    exact Finset.sum_congr rfl fun j _ => h j i
  have : (2 : β) * ∑ i, ∑ j, f i j = 0 := by rw [two_mul]; nth_rw 1 [e]; ring
  simpa using this

theorem dot_self_nonneg' (x : Vec n ℝ) : 0 ≤ dot x x := Finset.sum_nonneg fun _ _ => mul_self_nonneg _

theorem dot_self_pos' {x : Vec n ℝ} (h : x ≠ 0) : 0 < dot x x := by
  have : ∃ k, x k ≠ 0 := by
    by_contra hh
    push Not at hh
    exact h (funext hh)
  obtain ⟨k, hk⟩ := this
  refine lt_of_lt_of_le (mul_self_pos.mpr hk) ?_
  exact Finset.single_le_sum (f := fun k => x k * x k) (fun _ _ => mul_self_nonneg _) (Finset.mem_univ k)

theorem dot_neg' (x : Vec n ℝ) : dot (fun k => -x k) (fun k => -x k) = dot x x := by
  simp [dot]

/-- derivative of a scalar product -/
theorem hasDerivAt_dot {x y : ℝ → Vec n ℝ} {x' y' : Vec n ℝ} {t : ℝ} (hx : ∀ k, HasDerivAt (fun τ => x τ k) (x' k) t)
    (hy : ∀ k, HasDerivAt (fun τ => y τ k) (y' k) t) :
    HasDerivAt (fun τ => dot (x τ) (y τ)) (dot x' (y t) + dot (x t) y') t := by
  have := HasDerivAt.fun_sum (u := Finset.univ) fun k _ => (hx k).mul (hy k)
  refine this.congr_deriv ?_
  simp only [dot, ← Finset.sum_add_distrib]

/-- derivative of the distance -/
theorem hasDerivAt_dist {x : ℝ → Vec n ℝ} {x' : Vec n ℝ} {t : ℝ} (hx : ∀ k, HasDerivAt (fun τ => x τ k) (x' k) t)
    (h0 : x t ≠ 0) :
    HasDerivAt (fun τ => √(dot (x τ) (x τ))) (dot x' (x t) / √(dot (x t) (x t))) t := by
  have h := (hasDerivAt_dot hx hx).sqrt (dot_self_pos' h0).ne'
  refine h.congr_deriv ?_
  have e : dot (x t) x' = dot x' (x t) := Finset.sum_congr rfl fun _ _ => mul_comm _ _
  rw [e]
  have : √(dot (x t) (x t)) ≠ 0 := (Real.sqrt_pos.mpr (dot_self_pos' h0)).ne'
  field_simp
  ring

/-- derivative of a central force -/
theorem hasDerivAt_central {x : ℝ → Vec n ℝ} {x' : Vec n ℝ} {t : ℝ} {φ : ℝ → ℝ} {φ' : ℝ}
    (hx : ∀ k, HasDerivAt (fun τ => x τ k) (x' k) t) (h0 : x t ≠ 0)
    (hφ : HasDerivAt φ φ' (√(dot (x t) (x t)))) (k : Fin n) :
    HasDerivAt (fun τ => φ (√(dot (x τ) (x τ))) * x τ k)
      (φ (√(dot (x t) (x t))) * x' k + φ' * (dot x' (x t) / √(dot (x t) (x t))) * x t k) t := by
  have h := (HasDerivAt.comp t hφ (hasDerivAt_dist hx h0)).mul (hx k)
  refine h.congr_deriv ?_
  simp only [Function.comp]
  ring

end Gandalf
