import Verif.Spec.Godunov
import Mathlib.Analysis.Calculus.Deriv.Mul
import Mathlib.Analysis.Calculus.Deriv.Pow
import Mathlib.Analysis.Calculus.Deriv.Add
import Mathlib.Analysis.Calculus.Deriv.Comp

/-! # Circular motion as a steady flow -/

set_option autoImplicit false

namespace Gandalf.God

/-- gas of density 1 that goes around the origin with angular velocity `w` and pressure `P`, functions of the squared distance -/
noncomputable def swirl (w P : ℝ → ℝ) : Flow 2 :=
  ⟨fun _ _ => 1, fun _ x => ![-(w (x 0 * x 0 + x 1 * x 1)) * x 1, w (x 0 * x 0 + x 1 * x 1) * x 0],
    fun _ x => P (x 0 * x 0 + x 1 * x 1)⟩

theorem along0 {f : ℝ → Vec 2 ℝ → ℝ} {t : ℝ} {x : Vec 2 ℝ} {c : ℝ} (g : ℝ → ℝ) (hg : ∀ y, f t ![y, x 1] = g y)
    (h : HasDerivAt g c (x 0)) : along f 0 t x = c := by
  have e : (fun y => f t (Function.update x 0 y)) = g := by
    funext y
    rw [← hg]
    congr 1
    funext k
    fin_cases k <;> simp
  unfold along
  rw [e]
  exact h.deriv

theorem along1 {f : ℝ → Vec 2 ℝ → ℝ} {t : ℝ} {x : Vec 2 ℝ} {c : ℝ} (g : ℝ → ℝ) (hg : ∀ y, f t ![x 0, y] = g y)
    (h : HasDerivAt g c (x 1)) : along f 1 t x = c := by
  have e : (fun y => f t (Function.update x 1 y)) = g := by
    funext y
    rw [← hg]
    congr 1
    funext k
    fin_cases k <;> simp
  unfold along
  rw [e]
  exact h.deriv

/-- derivative of a function of the squared distance -/
theorem radial {f : ℝ → ℝ} {f' a b : ℝ} (h : HasDerivAt f f' (a * a + b * b)) :
    HasDerivAt (fun y => f (y * y + b * b)) (f' * (2 * a)) a ∧ HasDerivAt (fun y => f (b * b + y * y)) (f' * (2 * a)) a := by
  have h1 : HasDerivAt (fun y : ℝ => y * y + b * b) (2 * a) a := by
    have := ((hasDerivAt_id' a).fun_mul (hasDerivAt_id' a)).add_const (b * b)
    exact this.congr_deriv (by ring)
  have h2 : HasDerivAt (fun y : ℝ => b * b + y * y) (2 * a) a := by
    have := ((hasDerivAt_id' a).fun_mul (hasDerivAt_id' a)).const_add (b * b)
    exact this.congr_deriv (by ring)
  refine ⟨h.comp a h1, ?_⟩
  have h' : HasDerivAt f f' (b * b + a * a) := by rwa [add_comm]
  exact h'.comp a h2

theorem swirl_conserves (w P : ℝ → ℝ) (gamma : ℝ) (hg : gamma ≠ 1) (t : ℝ) (x : Vec 2 ℝ) (w' : ℝ)
    (hw : HasDerivAt w w' (x 0 * x 0 + x 1 * x 1))
    (hP : HasDerivAt P (w (x 0 * x 0 + x 1 * x 1) ^ 2 / 2) (x 0 * x 0 + x 1 * x 1)) :
    (swirl w P).Conserves gamma (fun _ => 0) t x := by
  have w0 := (radial (a := x 0) (b := x 1) hw).1
  have w1 := (radial (a := x 1) (b := x 0) (by rw [add_comm]; exact hw)).2
  have p0 := (radial (a := x 0) (b := x 1) hP).1
  have p1 := (radial (a := x 1) (b := x 0) (by rw [add_comm]; exact hP)).2
  have i0 := hasDerivAt_id' (x 0)
  have i1 := hasDerivAt_id' (x 1)
  have hr : ∀ f : ℝ → Vec 2 ℝ → ℝ, (∀ s, f s x = f t x) → rate f t x = 0 := by
    intro f h
    unfold rate
    rw [show (fun s => f s x) = fun _ => f t x from funext h]
    exact deriv_const _ _
  refine ⟨?_, fun i => ?_, ?_⟩
  · rw [hr _ (fun _ => rfl), Fin.sum_univ_two,
      along0 (fun y => 1 * (-(w (y * y + x 1 * x 1)) * x 1)) (fun y => by simp [swirl])
        ((w0.fun_neg.mul_const (x 1)).const_mul 1),
      along1 (fun y => 1 * (w (x 0 * x 0 + y * y) * x 0)) (fun y => by simp [swirl]) ((w1.mul_const (x 0)).const_mul 1)]
    ring
  · fin_cases i
    · rw [hr _ (fun _ => rfl), Fin.sum_univ_two,
        along0 (fun y => 1 * (-(w (y * y + x 1 * x 1)) * x 1) * (-(w (y * y + x 1 * x 1)) * x 1) + P (y * y + x 1 * x 1))
          (fun y => by simp [swirl])
          ((((w0.fun_neg.mul_const (x 1)).const_mul 1).fun_mul (w0.fun_neg.mul_const (x 1))).fun_add p0),
        along1 (fun y => 1 * (-(w (x 0 * x 0 + y * y)) * y) * (w (x 0 * x 0 + y * y) * x 0) + 0)
          (fun y => by simp [swirl])
          ((((w1.fun_neg.fun_mul i1).const_mul 1).fun_mul (w1.mul_const (x 0))).add_const 0)]
      simp only [swirl]
      ring
    · rw [hr _ (fun _ => rfl), Fin.sum_univ_two,
        along0 (fun y => 1 * (w (y * y + x 1 * x 1) * y) * (-(w (y * y + x 1 * x 1)) * x 1) + 0)
          (fun y => by simp [swirl])
          ((((w0.fun_mul i0).const_mul 1).fun_mul (w0.fun_neg.mul_const (x 1))).add_const 0),
        along1 (fun y => 1 * (w (x 0 * x 0 + y * y) * x 0) * (w (x 0 * x 0 + y * y) * x 0) + P (x 0 * x 0 + y * y))
          (fun y => by simp [swirl])
          ((((w1.mul_const (x 0)).const_mul 1).fun_mul (w1.mul_const (x 0))).fun_add p1)]
      simp only [swirl]
      ring
  · have hg' : gamma - 1 ≠ 0 := sub_ne_zero.mpr hg
    set E : ℝ → ℝ := fun q => q * w q ^ 2 / 2 + P q / (gamma - 1) + P q with hE
    have hEd : HasDerivAt E ((w (x 0 * x 0 + x 1 * x 1) ^ 2 + (x 0 * x 0 + x 1 * x 1) * (2 * w (x 0 * x 0 + x 1 * x 1) * w')) / 2 +
        (w (x 0 * x 0 + x 1 * x 1) ^ 2 / 2) / (gamma - 1) + w (x 0 * x 0 + x 1 * x 1) ^ 2 / 2) (x 0 * x 0 + x 1 * x 1) := by
      have := ((((hasDerivAt_id' (x 0 * x 0 + x 1 * x 1)).fun_mul (hw.fun_pow 2)).div_const 2).fun_add
        (hP.div_const (gamma - 1))).fun_add hP
      refine this.congr_deriv ?_
      push_cast
      ring
    have e0 := (radial (a := x 0) (b := x 1) hEd).1
    have e1 := (radial (a := x 1) (b := x 0) (by rw [add_comm]; exact hEd)).2
    rw [hr _ (fun _ => rfl), Fin.sum_univ_two,
      along0 (fun y => E (y * y + x 1 * x 1) * (-(w (y * y + x 1 * x 1)) * x 1))
        (fun y => by
          simp only [swirl, Flow.energy, hE, Fin.sum_univ_two, dot, Fin.isValue, Matrix.cons_val_zero, Matrix.cons_val_one]
          ring)
        (e0.fun_mul (w0.fun_neg.mul_const (x 1))),
      along1 (fun y => E (x 0 * x 0 + y * y) * (w (x 0 * x 0 + y * y) * x 0))
        (fun y => by
          simp only [swirl, Flow.energy, hE, Fin.sum_univ_two, dot, Fin.isValue, Matrix.cons_val_zero, Matrix.cons_val_one]
          ring)
        (e1.fun_mul (w1.mul_const (x 0)))]
    simp only [swirl]
    simp
    ring

end Gandalf.God
