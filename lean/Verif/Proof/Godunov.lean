import Verif.Model.Godunov
import Verif.Spec.Godunov
import Verif.Spec.Kernel
import Verif.Proof.Hllc
import Verif.Proof.Gradients
import Mathlib.Analysis.Calculus.Deriv.Pi
import Mathlib.Analysis.Calculus.Deriv.Prod
import Mathlib.Analysis.Calculus.Deriv.Mul
import Mathlib.Analysis.Calculus.Deriv.Add
import Mathlib.Analysis.Calculus.Deriv.Pow
import Mathlib.Analysis.Calculus.Deriv.Comp
import Mathlib.Tactic.LinearCombination

/-! Lemmas for C72. -/

set_option autoImplicit false
set_option linter.unusedSectionVars false

namespace Gandalf.God

open Hllc Exact

variable {n : ℕ}

/-! ### derivatives of a field of time and place -/

section Deriv

variable {f : ℝ → Vec n ℝ → ℝ} {t : ℝ} {x : Vec n ℝ}

theorem hasDeriv_rate (h : DifferentiableAt ℝ (fun z : ℝ × Vec n ℝ => f z.1 z.2) (t, x)) :
    HasDerivAt (fun s => f s x) (fderiv ℝ (fun z : ℝ × Vec n ℝ => f z.1 z.2) (t, x) (1, 0)) t := by
  have hp : HasDerivAt (fun s : ℝ => (s, x)) ((1 : ℝ), (0 : Vec n ℝ)) t := (hasDerivAt_id t).prodMk (hasDerivAt_const t x)
  exact h.hasFDerivAt.comp_hasDerivAt t hp

theorem hasDeriv_along (h : DifferentiableAt ℝ (fun z : ℝ × Vec n ℝ => f z.1 z.2) (t, x)) (k : Fin n) :
    HasDerivAt (fun y => f t (Function.update x k y))
      (fderiv ℝ (fun z : ℝ × Vec n ℝ => f z.1 z.2) (t, x) (0, Pi.single k 1)) (x k) := by
  have hp : HasDerivAt (fun y : ℝ => (t, Function.update x k y)) ((0 : ℝ), (Pi.single k 1 : Vec n ℝ)) (x k) :=
    (hasDerivAt_const _ t).prodMk (hasDerivAt_update x k (x k))
  have h' : HasFDerivAt (fun z : ℝ × Vec n ℝ => f z.1 z.2) (fderiv ℝ (fun z : ℝ × Vec n ℝ => f z.1 z.2) (t, x))
      (t, Function.update x k (x k)) := by
    rw [Function.update_eq_self]
    exact h.hasFDerivAt
  exact h'.comp_hasDerivAt (x k) hp

theorem rate_eq (h : DifferentiableAt ℝ (fun z : ℝ × Vec n ℝ => f z.1 z.2) (t, x)) :
    HasDerivAt (fun s => f s x) (rate f t x) t := (hasDeriv_rate h).differentiableAt.hasDerivAt

theorem along_eq (h : DifferentiableAt ℝ (fun z : ℝ × Vec n ℝ => f z.1 z.2) (t, x)) (k : Fin n) :
    HasDerivAt (fun y => f t (Function.update x k y)) (along f k t x) (x k) :=
  (hasDeriv_along h k).differentiableAt.hasDerivAt

theorem seen_eq (h : DifferentiableAt ℝ (fun z : ℝ × Vec n ℝ => f z.1 z.2) (t, x)) (w : Vec n ℝ) :
    SeenBy f (rate f t x + ∑ k, w k * along f k t x) w t x := by
  have hr := (rate_eq h).unique (hasDeriv_rate h)
  have ha := fun k => (along_eq h k).unique (hasDeriv_along h k)
  have hp : HasDerivAt (fun s : ℝ => (t + s, fun k => x k + s * w k)) ((1 : ℝ), w) (0 : ℝ) := by
    refine HasDerivAt.prodMk ((hasDerivAt_id (0 : ℝ)).const_add t) ?_
    rw [hasDerivAt_pi]
    intro k
    have := ((hasDerivAt_id (0 : ℝ)).mul_const (w k)).const_add (x k)
    simpa using this
  have h' : HasFDerivAt (fun z : ℝ × Vec n ℝ => f z.1 z.2) (fderiv ℝ (fun z : ℝ × Vec n ℝ => f z.1 z.2) (t, x))
      (t + 0, fun k => x k + 0 * w k) := by
    have : (t + 0, fun k => x k + 0 * w k) = (t, x) := by simp
    rw [this]
    exact h.hasFDerivAt
  have h2 := h'.comp_hasDerivAt (0 : ℝ) hp
  unfold SeenBy
  refine h2.congr_deriv ?_
  rw [hr]
  simp only [ha]
  have hw : ((1 : ℝ), w) = ((1 : ℝ), (0 : Vec n ℝ)) + ∑ k, w k • ((0 : ℝ), (Pi.single k 1 : Vec n ℝ)) := by
    refine Prod.ext ?_ ?_
    · simp [Prod.fst_sum]
    · rw [Prod.snd_add, Prod.snd_sum]
      funext j
      simp [Finset.sum_apply, Pi.single_apply]
  rw [hw, map_add, map_sum]
  simp only [map_smul, smul_eq_mul]

end Deriv

/-! ### primitive equations -/

section One

variable {r p : ℝ → ℝ} {v : Fin n → ℝ → ℝ} {r' p' y gamma : ℝ} {v' : Fin n → ℝ}

theorem d_mom (hr : HasDerivAt r r' y) (hp : HasDerivAt p p' y) (hv : ∀ i, HasDerivAt (v i) (v' i) y) (i k : Fin n) :
    HasDerivAt (fun y => r y * v i y * v k y + if i = k then p y else 0)
      ((r' * v i y + r y * v' i) * v k y + r y * v i y * v' k + if i = k then p' else 0) y := by
  have h1 := (hr.fun_mul (hv i)).fun_mul (hv k)
  by_cases h : i = k
  · simp only [h, if_true]
    rw [h] at h1
    exact h1.fun_add hp
  · simp only [h, if_false, add_zero]
    exact h1

theorem d_energy (hr : HasDerivAt r r' y) (hp : HasDerivAt p p' y) (hv : ∀ i, HasDerivAt (v i) (v' i) y) :
    HasDerivAt (fun y => r y * (∑ i, v i y ^ 2) / 2 + p y / (gamma - 1))
      (r' * (∑ i, v i y ^ 2) / 2 + r y * (∑ i, v i y * v' i) + p' / (gamma - 1)) y := by
  have h1 : HasDerivAt (fun y => ∑ i, v i y ^ 2) (∑ i, 2 * (v i y * v' i)) y := by
    refine HasDerivAt.fun_sum fun i _ => ?_
    exact ((hv i).fun_pow 2).congr_deriv (by norm_num; ring)
  exact (((hr.fun_mul h1).div_const 2).fun_add (hp.div_const (gamma - 1))).congr_deriv (by rw [← Finset.mul_sum]; ring)

end One

/-- the algebra behind `primitive` -/
theorem solveEqs {gamma ρ p Rt Pt : ℝ} {v a Rx Px Vt : Vec n ℝ} {Vx : Fin n → Vec n ℝ} (hg : gamma ≠ 1) (hr : ρ ≠ 0)
    (c1 : Rt + ∑ k, (Rx k * v k + ρ * Vx k k) = 0)
    (c2 : ∀ i, Rt * v i + ρ * Vt i + ∑ k, ((Rx k * v i + ρ * Vx i k) * v k + ρ * v i * Vx k k + if i = k then Px k else 0) =
      ρ * a i)
    (c3 : Rt * (∑ i, v i ^ 2) / 2 + ρ * (∑ i, v i * Vt i) + Pt / (gamma - 1)
      + ∑ k, ((Rx k * (∑ i, v i ^ 2) / 2 + ρ * (∑ i, v i * Vx i k) + Px k / (gamma - 1) + Px k) * v k
        + (ρ * (∑ i, v i ^ 2) / 2 + p / (gamma - 1) + p) * Vx k k) = ρ * ∑ i, v i * a i) :
    Rt = -(∑ k, v k * Rx k) - ρ * ∑ k, Vx k k ∧
    (∀ i, Vt i = -(∑ k, v k * Vx i k) - Px i / ρ + a i) ∧
    Pt = -(∑ k, v k * Px k) - gamma * p * ∑ k, Vx k k := by
  have hg' : gamma - 1 ≠ 0 := sub_ne_zero.mpr hg
  have h1 : Rt = -(∑ k, v k * Rx k) - ρ * ∑ k, Vx k k := by
    rw [Finset.sum_add_distrib, ← Finset.mul_sum] at c1
    simp only [mul_comm (v _)]
    linarith
  have h2 : ∀ i, ρ * Vt i = -ρ * (∑ k, v k * Vx i k) - Px i + ρ * a i := by
    intro i
    have e : ∑ k, ((Rx k * v i + ρ * Vx i k) * v k + ρ * v i * Vx k k + if i = k then Px k else 0) =
        v i * (∑ k, v k * Rx k) + ρ * (∑ k, v k * Vx i k) + ρ * v i * (∑ k, Vx k k) + Px i := by
      rw [Finset.sum_add_distrib, Finset.sum_ite_eq, if_pos (Finset.mem_univ _)]
      congr 1
      simp only [Finset.mul_sum, ← Finset.sum_add_distrib]
      exact Finset.sum_congr rfl fun k _ => by ring
    have := c2 i
    rw [e, h1] at this
    linear_combination this
  refine ⟨h1, fun i => ?_, ?_⟩
  · refine mul_left_cancel₀ hr ?_
    rw [h2 i]
    field_simp
  · have e0 : ∀ (S : ℝ) (T : Fin n → ℝ), ∑ k, ((Rx k * S / 2 + ρ * T k + Px k / (gamma - 1) + Px k) * v k
        + (ρ * S / 2 + p / (gamma - 1) + p) * Vx k k) =
        S / 2 * (∑ k, v k * Rx k) + ρ * (∑ k, v k * T k) + (1 / (gamma - 1) + 1) * (∑ k, v k * Px k)
        + (ρ * S / 2 + p / (gamma - 1) + p) * (∑ k, Vx k k) := by
      intro S T
      simp only [Finset.mul_sum, ← Finset.sum_add_distrib]
      exact Finset.sum_congr rfl fun k _ => by ring
    have e := e0 (∑ i, v i ^ 2) fun k => ∑ i, v i * Vx i k
    have h3 : ρ * (∑ i, v i * Vt i) =
        -ρ * (∑ k, v k * ∑ i, v i * Vx i k) - (∑ k, v k * Px k) + ρ * ∑ i, v i * a i := by
      have e2 : ∑ k, v k * ∑ i, v i * Vx i k = ∑ i, v i * ∑ k, v k * Vx i k := by
        simp only [Finset.mul_sum]
        rw [Finset.sum_comm]
        exact Finset.sum_congr rfl fun i _ => Finset.sum_congr rfl fun k _ => by ring
      rw [e2, Finset.mul_sum, Finset.mul_sum, Finset.mul_sum, ← Finset.sum_sub_distrib, ← Finset.sum_add_distrib]
      refine Finset.sum_congr rfl fun i _ => ?_
      linear_combination v i * h2 i
    rw [e, h1, h3] at c3
    have c4 : Pt / (gamma - 1) = (-(∑ k, v k * Px k) - gamma * p * ∑ k, Vx k k) / (gamma - 1) := by
      field_simp
      field_simp at c3
      linear_combination (1 / 2 : ℝ) * c3
    field_simp at c4
    exact c4

theorem primitive (F : Flow n) {gamma : ℝ} (hg : gamma ≠ 1) {a : Vec n ℝ} {t : ℝ} {x : Vec n ℝ} (hs : F.Smooth t x)
    (hc : F.Conserves gamma a t x) (hr : F.rho t x ≠ 0) :
    rate F.rho t x = -(∑ k, F.v t x k * along F.rho k t x) - F.rho t x * ∑ k, along (fun t x => F.v t x k) k t x ∧
    (∀ i, rate (fun t x => F.v t x i) t x =
      -(∑ k, F.v t x k * along (fun t x => F.v t x i) k t x) - along F.p i t x / F.rho t x + a i) ∧
    rate F.p t x = -(∑ k, F.v t x k * along F.p k t x) - gamma * F.p t x * ∑ k, along (fun t x => F.v t x k) k t x := by
  have hu : ∀ k, Function.update x k (x k) = x := fun k => Function.update_eq_self k x
  have rr := rate_eq hs.rho
  have rp := rate_eq hs.p
  have rv := fun i => rate_eq (f := fun t x => F.v t x i) (hs.v i)
  have ar := along_eq hs.rho
  have ap := along_eq hs.p
  have av := fun i => along_eq (f := fun t x => F.v t x i) (hs.v i)
  have m1 : ∀ k, along (fun t x => F.rho t x * F.v t x k) k t x =
      along F.rho k t x * F.v t x k + F.rho t x * along (fun t x => F.v t x k) k t x := by
    intro k
    have := ((ar k).fun_mul (av k k)).deriv
    simp only [hu] at this
    exact this
  have p1 : ∀ i, rate (fun t x => F.rho t x * F.v t x i) t x =
      rate F.rho t x * F.v t x i + F.rho t x * rate (fun t x => F.v t x i) t x := fun i => (rr.fun_mul (rv i)).deriv
  have p2 : ∀ i k, along (fun t x => F.rho t x * F.v t x i * F.v t x k + if i = k then F.p t x else 0) k t x =
      (along F.rho k t x * F.v t x i + F.rho t x * along (fun t x => F.v t x i) k t x) * F.v t x k
        + F.rho t x * F.v t x i * along (fun t x => F.v t x k) k t x + if i = k then along F.p k t x else 0 := by
    intro i k
    have := (d_mom (v := fun i y => F.v t (Function.update x k y) i) (ar k) (ap k) (fun i => av i k) i k).deriv
    simp only [hu] at this
    exact this
  have e1 : rate (F.energy gamma) t x = rate F.rho t x * (∑ i, F.v t x i ^ 2) / 2
      + F.rho t x * (∑ i, F.v t x i * rate (fun t x => F.v t x i) t x) + rate F.p t x / (gamma - 1) :=
    (d_energy (gamma := gamma) (v := fun i s => F.v s x i) rr rp rv).deriv
  have e2 : ∀ k, along (fun t x => (F.energy gamma t x + F.p t x) * F.v t x k) k t x =
      (along F.rho k t x * (∑ i, F.v t x i ^ 2) / 2 + F.rho t x * (∑ i, F.v t x i * along (fun t x => F.v t x i) k t x)
        + along F.p k t x / (gamma - 1) + along F.p k t x) * F.v t x k
      + (F.rho t x * (∑ i, F.v t x i ^ 2) / 2 + F.p t x / (gamma - 1) + F.p t x) * along (fun t x => F.v t x k) k t x := by
    intro k
    have := (((d_energy (gamma := gamma) (v := fun i y => F.v t (Function.update x k y) i) (ar k) (ap k)
      (fun i => av i k)).fun_add (ap k)).fun_mul (av k k)).deriv
    simp only [hu] at this
    exact this
  have c1 := hc.mass
  have c2 := hc.mom
  have c3 := hc.energy
  simp only [m1] at c1
  simp only [p1, p2] at c2
  simp only [e1, e2] at c3
  generalize hR : rate F.rho t x = Rt at *
  generalize hP : rate F.p t x = Pt at *
  generalize hρ : F.rho t x = ρ at *
  generalize hp : F.p t x = p at *
  generalize hv : F.v t x = v at *
  generalize hA : (fun k => along F.rho k t x) = Rx
  generalize hB : (fun k => along F.p k t x) = Px
  generalize hC : (fun i k => along (fun t x => F.v t x i) k t x) = Vx
  generalize hD : (fun i => rate (fun t x => F.v t x i) t x) = Vt
  simp only [fun k => show along F.rho k t x = Rx k from congrFun hA k,
    fun k => show along F.p k t x = Px k from congrFun hB k,
    fun i => show rate (fun t x => F.v t x i) t x = Vt i from congrFun hD i,
    fun i k => show along (fun t x => F.v t x i) k t x = Vx i k from congrFun (congrFun hC i) k] at c1 c2 c3 ⊢
  exact solveEqs hg hr c1 c2 c3

end Gandalf.God
