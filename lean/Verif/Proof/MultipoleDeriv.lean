import Verif.Proof.Multipole
import Mathlib.Analysis.Calculus.Deriv.Add

/-! # Derivatives of the multipole fields along a line -/

set_option autoImplicit false
set_option linter.unusedSectionVars false

namespace Gandalf.Multipole

open Gravity

variable {n : ℕ}

/-- the point `x + t w` -/
def line (x w : Vec n ℝ) (t : ℝ) : Vec n ℝ := fun k => x k + t * w k

theorem line_zero (x w : Vec n ℝ) : line x w 0 = x := by funext k; simp [line]

theorem dist_line {eps : ℝ} (he : 0 ≤ eps) (x c w : Vec n ℝ) (h : 0 < gdist eps x c) :
    HasDerivAt (fun t => gdist eps (line x w t) c) (dot (fun k => x k - c k) w / gdist eps x c) 0 := by
  have hp : ∀ t, gdist eps (line x w t) c = Real.sqrt (gdist eps x c ^ 2 +
      (2 * dot (fun k => x k - c k) w * t + dot w w * t ^ 2)) := by
    intro t
    rw [dist_sq he, dist_eq]
    congr 1
    have : dot (fun k => line x w t k - c k) (fun k => line x w t k - c k) =
        dot (fun k => x k - c k) (fun k => x k - c k) + (2 * dot (fun k => x k - c k) w * t + dot w w * t ^ 2) := by
      unfold dot line
      rw [Finset.mul_sum, Finset.sum_mul, Finset.sum_mul, ← Finset.sum_add_distrib, ← Finset.sum_add_distrib]
      exact Finset.sum_congr rfl fun k _ => by ring
    rw [this]
    ring
  simp only [hp]
  have h1 : HasDerivAt (fun t : ℝ => gdist eps x c ^ 2 + (2 * dot (fun k => x k - c k) w * t + dot w w * t ^ 2))
      (2 * dot (fun k => x k - c k) w) 0 := by
    have := (((hasDerivAt_id (0 : ℝ)).const_mul (2 * dot (fun k => x k - c k) w)).add
      ((hasDerivAt_pow 2 (0 : ℝ)).const_mul (dot w w))).const_add (gdist eps x c ^ 2)
    refine this.congr_deriv ?_
    simp
  have h2 := h1.sqrt (by simp [h.ne'])
  refine h2.congr_deriv ?_
  simp only [mul_zero, ne_eq, OfNat.ofNat_ne_zero, not_false_eq_true, zero_pow, add_zero, Real.sqrt_sq h.le]
  have := h.ne'
  field_simp

/-! ### scalars -/

section
variable {D Q P X : ℝ → ℝ} {D0 B Q' P' X' : ℝ} (m : ℝ) (hD0 : 0 < D0) (eD : D 0 = D0)
  (hD : HasDerivAt D (B / D0) 0) (hQ : HasDerivAt Q Q' 0) (hP : HasDerivAt P P' 0) (hX : HasDerivAt X X' 0)

include hD0 eD hD

theorem scalar_mono_pot : HasDerivAt (fun t => m / D t) (-(m * B / D0 ^ 3)) 0 := by
  have := (hasDerivAt_const (0 : ℝ) m).div hD (by rw [eD]; exact hD0.ne')
  refine this.congr_deriv ?_
  rw [eD]
  field_simp
  ring

include hX in
theorem scalar_mono_acc : HasDerivAt (fun t => m * (-X t) / D t ^ 3)
    (m * (3 * X 0 * B / D0 ^ 5 - X' / D0 ^ 3)) 0 := by
  have := (hX.neg.const_mul m).div (hD.pow 3) (by rw [Pi.pow_apply, eD]; exact (pow_pos hD0 3).ne')
  refine this.congr_deriv ?_
  simp only [Pi.pow_apply, Pi.neg_apply, eD]
  field_simp
  ring

include hQ in
theorem scalar_quad_pot : HasDerivAt (fun t => Q t / (2 * D t ^ 5)) (Q' / (2 * D0 ^ 5) - 5 / 2 * Q 0 * B / D0 ^ 7) 0 := by
  have := hQ.div ((hD.pow 5).const_mul 2) (by rw [Pi.pow_apply, eD]; positivity)
  refine this.congr_deriv ?_
  simp only [Pi.pow_apply, eD]
  field_simp
  ring

include hQ hP hX in
theorem scalar_quad_acc : HasDerivAt (fun t => P t / D t ^ 5 - 5 / 2 * Q t * X t / D t ^ 7)
    (P' / D0 ^ 5 - 5 * P 0 * B / D0 ^ 7 - 5 / 2 * (Q' * X 0 + Q 0 * X') / D0 ^ 7 + 35 / 2 * Q 0 * X 0 * B / D0 ^ 9) 0 := by
  have h1 := hP.div (hD.pow 5) (by rw [Pi.pow_apply, eD]; positivity)
  have h2 := ((hQ.const_mul (5 / 2)).mul hX).div (hD.pow 7) (by rw [Pi.pow_apply, eD]; positivity)
  refine (h1.sub h2).congr_deriv ?_
  simp only [Pi.pow_apply, Pi.mul_apply, eD]
  field_simp
  ring

end

/-! ### the tensor along the line -/

theorem qscalar_line (hn : n = 1 ∨ n = 2 ∨ n = 3) (q : Fin 5 → ℝ) (x c w : Vec n ℝ) (t : ℝ) :
    qscalar n q (fun k => line x w t k - c k) = qscalar n q (fun k => x k - c k) +
      (2 * dot (qdr n q fun k => x k - c k) w * t + qscalar n q w * t ^ 2) := by
  rcases hn with rfl | rfl | rfl <;> simp [qscalar, qdr, line, dot, Fin.sum_univ_succ] <;> ring

theorem qdr_line (hn : n = 1 ∨ n = 2 ∨ n = 3) (q : Fin 5 → ℝ) (x c w : Vec n ℝ) (t : ℝ) (k : Fin n) :
    qdr n q (fun k => line x w t k - c k) k = qdr n q (fun k => x k - c k) k + qdr n q w k * t := by
  rcases hn with rfl | rfl | rfl <;> fin_cases k <;> simp [qdr, line] <;> ring

theorem qscalar_deriv (hn : n = 1 ∨ n = 2 ∨ n = 3) (q : Fin 5 → ℝ) (x c w : Vec n ℝ) :
    HasDerivAt (fun t => qscalar n q fun k => line x w t k - c k) (2 * dot (qdr n q fun k => x k - c k) w) 0 := by
  simp only [qscalar_line hn]
  have := (((hasDerivAt_id (0 : ℝ)).const_mul (2 * dot (qdr n q fun k => x k - c k) w)).add
      ((hasDerivAt_pow 2 (0 : ℝ)).const_mul (qscalar n q w))).const_add (qscalar n q fun k => x k - c k)
  refine this.congr_deriv ?_
  simp

theorem qdr_deriv (hn : n = 1 ∨ n = 2 ∨ n = 3) (q : Fin 5 → ℝ) (x c w : Vec n ℝ) (k : Fin n) :
    HasDerivAt (fun t => qdr n q (fun k => line x w t k - c k) k) (qdr n q w k) 0 := by
  simp only [qdr_line hn]
  have := ((hasDerivAt_id (0 : ℝ)).const_mul (qdr n q w k)).const_add (qdr n q (fun k => x k - c k) k)
  refine this.congr_deriv ?_
  simp

theorem coord_deriv (x c w : Vec n ℝ) (k : Fin n) : HasDerivAt (fun t => line x w t k - c k) (w k) 0 := by
  unfold line
  have := (((hasDerivAt_id (0 : ℝ)).mul_const (w k)).const_add (x k)).sub_const (c k)
  refine this.congr_deriv ?_
  simp

theorem hasDerivAt_list_sum {α : Type} (l : List α) (g : α → ℝ → ℝ) (g' : α → ℝ)
    (h : ∀ c ∈ l, HasDerivAt (g c) (g' c) 0) :
    HasDerivAt (fun t => (l.map fun c => g c t).sum) (l.map g').sum 0 := by
  induction l with
  | nil => simpa using hasDerivAt_const (0 : ℝ) (0 : ℝ)
  | cons c l ih =>
    simp only [List.map_cons, List.sum_cons]
    exact (h c (by simp)).add (ih fun d hd => h d (by simp [hd]))

theorem dot_list_sum {α : Type} (l : List α) (a : α → Vec n ℝ) (w : Vec n ℝ) :
    ∑ k, (l.map fun c => a c k).sum * w k = (l.map fun c => dot (a c) w).sum := by
  induction l with
  | nil => simp
  | cons c l ih => simp only [List.map_cons, List.sum_cons, add_mul, Finset.sum_add_distrib, ih]; rfl

/-! ### one cell -/

/-- potential and acceleration of one cell -/
noncomputable def quadG (eps : ℝ) (x : Vec n ℝ) (c : Moment n) : ℝ :=
  c.m / gdist eps x c.r + qscalar n c.q (fun k => x k - c.r k) / (2 * gdist eps x c.r ^ 5)

noncomputable def quadA (eps : ℝ) (x : Vec n ℝ) (c : Moment n) (k : Fin n) : ℝ :=
  c.m * (c.r k - x k) / gdist eps x c.r ^ 3 + (qdr n c.q (fun k => x k - c.r k) k / gdist eps x c.r ^ 5 -
    5 / 2 * qscalar n c.q (fun k => x k - c.r k) * (x k - c.r k) / gdist eps x c.r ^ 7)

/-- derivative of `quadA` along `w` -/
noncomputable def quadJ (eps : ℝ) (x : Vec n ℝ) (c : Moment n) (w : Vec n ℝ) (k : Fin n) : ℝ :=
  c.m * (3 * (x k - c.r k) * dot (fun k => x k - c.r k) w / gdist eps x c.r ^ 5 - w k / gdist eps x c.r ^ 3) +
  (qdr n c.q w k / gdist eps x c.r ^ 5 -
    5 * qdr n c.q (fun k => x k - c.r k) k * dot (fun k => x k - c.r k) w / gdist eps x c.r ^ 7 -
    5 / 2 * (2 * dot (qdr n c.q fun k => x k - c.r k) w * (x k - c.r k) +
      qscalar n c.q (fun k => x k - c.r k) * w k) / gdist eps x c.r ^ 7 +
    35 / 2 * qscalar n c.q (fun k => x k - c.r k) * (x k - c.r k) * dot (fun k => x k - c.r k) w /
      gdist eps x c.r ^ 9)

theorem monopole_field {eps : ℝ} (he : 0 ≤ eps) (x : Vec n ℝ) (l : List (Moment n)) (s : Field n) :
    cellMonopoleForces eps x l s = ⟨s.gpot + (l.map fun c => c.m / gdist eps x c.r).sum,
      fun k => s.a k + (l.map fun c => c.m * (c.r k - x k) / gdist eps x c.r ^ 3).sum⟩ :=
  fold_sum (monopole eps x) (fun c => c.m / gdist eps x c.r) (fun c k => c.m * (c.r k - x k) / gdist eps x c.r ^ 3) (fun s c => monopole_eq he x s c) l s

theorem quadrupole_field {eps : ℝ} (he : 0 ≤ eps) (x : Vec n ℝ) (l : List (Moment n)) (s : Field n) :
    cellQuadrupoleForces eps x l s = ⟨s.gpot + (l.map (quadG eps x)).sum,
      fun k => s.a k + (l.map fun c => quadA eps x c k).sum⟩ :=
  fold_sum _ _ (quadA eps x) (fun s c => quadrupole_eq he x s c) l s

theorem dot_add_left (u v w : Vec n ℝ) : dot (fun k => u k + v k) w = dot u w + dot v w := by
  unfold dot
  rw [← Finset.sum_add_distrib]
  exact Finset.sum_congr rfl fun k _ => by ring

theorem dot_smul_left (a : ℝ) (u w : Vec n ℝ) : dot (fun k => a * u k) w = a * dot u w := by
  unfold dot
  rw [Finset.mul_sum]
  exact Finset.sum_congr rfl fun k _ => by ring

theorem monoG_deriv {eps : ℝ} (he : 0 ≤ eps) (x w : Vec n ℝ) (c : Moment n) (h : 0 < gdist eps x c.r) :
    HasDerivAt (fun t => c.m / gdist eps (line x w t) c.r)
      (dot (fun k => c.m * (c.r k - x k) / gdist eps x c.r ^ 3) w) 0 := by
  refine (scalar_mono_pot c.m h (by rw [line_zero]) (dist_line he x c.r w h)).congr_deriv ?_
  have e : (fun k => c.m * (c.r k - x k) / gdist eps x c.r ^ 3) =
      fun k => -(c.m / gdist eps x c.r ^ 3) * (x k - c.r k) := by funext k; ring
  rw [e, dot_smul_left]
  ring

theorem monoA_deriv {eps : ℝ} (he : 0 ≤ eps) (x w : Vec n ℝ) (c : Moment n) (h : 0 < gdist eps x c.r) (k : Fin n) :
    HasDerivAt (fun t => c.m * (c.r k - line x w t k) / gdist eps (line x w t) c.r ^ 3)
      (c.m * (3 * (x k - c.r k) * dot (fun k => x k - c.r k) w / gdist eps x c.r ^ 5 - w k / gdist eps x c.r ^ 3)) 0 := by
  have := scalar_mono_acc c.m h (by rw [line_zero]) (dist_line he x c.r w h) (coord_deriv x c.r w k)
  simp only [neg_sub] at this
  refine this.congr_deriv ?_
  rw [line_zero]

theorem quadG_deriv {eps : ℝ} (he : 0 ≤ eps) (hn : n = 1 ∨ n = 2 ∨ n = 3) (x w : Vec n ℝ) (c : Moment n)
    (h : 0 < gdist eps x c.r) :
    HasDerivAt (fun t => quadG eps (line x w t) c) (dot (quadA eps x c) w) 0 := by
  unfold quadG
  refine ((monoG_deriv he x w c h).add (scalar_quad_pot h (by rw [line_zero]) (dist_line he x c.r w h)
    (qscalar_deriv hn c.q x c.r w))).congr_deriv ?_
  have e : quadA eps x c = fun k => c.m * (c.r k - x k) / gdist eps x c.r ^ 3 +
      ((1 / gdist eps x c.r ^ 5) * qdr n c.q (fun k => x k - c.r k) k +
        -(5 / 2 * qscalar n c.q (fun k => x k - c.r k) / gdist eps x c.r ^ 7) * (x k - c.r k)) := by
    funext k
    unfold quadA
    ring
  rw [e, dot_add_left, dot_add_left (fun k => (1 / gdist eps x c.r ^ 5) * qdr n c.q (fun k => x k - c.r k) k),
    dot_smul_left, dot_smul_left, line_zero]
  ring

theorem quadA_deriv {eps : ℝ} (he : 0 ≤ eps) (hn : n = 1 ∨ n = 2 ∨ n = 3) (x w : Vec n ℝ) (c : Moment n)
    (h : 0 < gdist eps x c.r) (k : Fin n) :
    HasDerivAt (fun t => quadA eps (line x w t) c k) (quadJ eps x c w k) 0 := by
  unfold quadA
  refine ((monoA_deriv he x w c h k).add (scalar_quad_acc h (by rw [line_zero]) (dist_line he x c.r w h)
    (qscalar_deriv hn c.q x c.r w) (qdr_deriv hn c.q x c.r w k) (coord_deriv x c.r w k))).congr_deriv ?_
  rw [line_zero]
  rfl

/-! ### the fast sums -/

theorem linear_add (hn : n = 1 ∨ n = 2 ∨ n = 3) (q q' : Fin 6 → ℝ) (w : Vec n ℝ) (k : Fin n) :
    linear n (fun e => q e + q' e) w k = linear n q w k + linear n q' w k := by
  rcases hn with rfl | rfl | rfl <;> fin_cases k <;> simp [linear] <;> ring

theorem linear_mono (hn : n = 1 ∨ n = 2 ∨ n = 3) (mc i2 : ℝ) (d w : Vec n ℝ) (k : Fin n) :
    linear n (monoHess n mc i2 d) w k = mc * (3 * d k * dot d w * i2 - w k) := by
  rcases hn with rfl | rfl | rfl <;> fin_cases k <;>
    simp [linear, monoHess, dot, Fin.sum_univ_succ] <;> ring

theorem linear_quad (hn : n = 1 ∨ n = 2 ∨ n = 3) (q : Fin 5 → ℝ) (qf i2 i5 : ℝ) (qx d w : Vec n ℝ) (k : Fin n) :
    linear n (quadHess n q qf i2 i5 qx d) w k = qf * (7 * d k * dot d w * i2 - w k) -
      (qx k * dot d w + dot qx w * d k - i5 * qdr n q w k) := by
  rcases hn with rfl | rfl | rfl <;> fin_cases k <;>
    simp [linear, quadHess, qdr, dot, Fin.sum_univ_succ] <;> ring

theorem init_apply (hn : n = 1 ∨ n = 2 ∨ n = 3) (rc r : Vec n ℝ) (s : Field n) : (Fast.init rc).apply r s = s := by
  have : ∀ k, linear n (fun _ => 0) (fun k => r k - rc k) k = 0 := by
    intro k
    rcases hn with rfl | rfl | rfl <;> fin_cases k <;> simp [linear]
  unfold Fast.apply Fast.init
  simp [this, dot]

theorem addMonopole_apply (hn : n = 1 ∨ n = 2 ∨ n = 3) (f : Fast n) (c : Moment n) (r : Vec n ℝ) (s : Field n)
    (h : 0 < gdist 0 f.rc c.r) :
    (f.addMonopole c).rc = f.rc ∧ (f.addMonopole c).apply r s =
      ⟨(f.apply r s).gpot + (c.m / gdist 0 f.rc c.r +
          dot (fun k => c.m * (c.r k - f.rc k) / gdist 0 f.rc c.r ^ 3) (fun k => r k - f.rc k)),
        fun k => (f.apply r s).a k + (c.m * (c.r k - f.rc k) / gdist 0 f.rc c.r ^ 3 +
          c.m * (3 * (f.rc k - c.r k) * dot (fun k => f.rc k - c.r k) (fun k => r k - f.rc k) / gdist 0 f.rc c.r ^ 5 -
            (r k - f.rc k) / gdist 0 f.rc c.r ^ 3))⟩ := by
  refine ⟨rfl, ?_⟩
  have e : dot (fun k => c.r k - f.rc k) (fun k => c.r k - f.rc k) = gdist 0 f.rc c.r ^ 2 := by
    rw [dist_symm, dist_sq le_rfl, add_zero]
  unfold Fast.addMonopole Fast.apply
  simp only [e, sqrt_inv, Real.sqrt_sq (gdist_nonneg 0 f.rc c.r), linear_add hn, linear_mono hn]
  have hz := h.ne'
  congr 1
  · rw [dot_add_left, dot_smul_left]
    have e1 : (fun k => c.m * (c.r k - f.rc k) / gdist 0 f.rc c.r ^ 3) =
      fun k => (c.m / gdist 0 f.rc c.r ^ 3) * (c.r k - f.rc k) := by funext k; ring
    rw [e1, dot_smul_left]
    field_simp
    ring
  · funext k
    have e2 : (fun k => f.rc k - c.r k) = fun k => -1 * (c.r k - f.rc k) := by funext k; ring
    rw [e2, dot_smul_left]
    field_simp
    ring

/-- what the quadrupole adds to the monopole, at the point and along `w` -/
noncomputable def noMass (c : Moment n) : Moment n := { c with m := 0 }

theorem addQuadrupole_apply {eps : ℝ} (he : 0 ≤ eps) (hn : n = 1 ∨ n = 2 ∨ n = 3) (f : Fast n) (c : Moment n)
    (r : Vec n ℝ) (s : Field n) (h : 0 < gdist eps f.rc c.r) :
    (f.addQuadrupole eps c).rc = f.rc ∧ (f.addQuadrupole eps c).apply r s =
      ⟨((f.addMonopole c).apply r s).gpot + (quadG eps f.rc (noMass c) +
          dot (quadA eps f.rc (noMass c)) (fun k => r k - f.rc k)),
        fun k => ((f.addMonopole c).apply r s).a k + (quadA eps f.rc (noMass c) k +
          quadJ eps f.rc (noMass c) (fun k => r k - f.rc k) k)⟩ := by
  refine ⟨rfl, ?_⟩
  have e : dot (fun k => f.rc k - c.r k) (fun k => f.rc k - c.r k) + eps = gdist eps f.rc c.r ^ 2 :=
    (dist_sq he _ _).symm
  have hrc : (f.addMonopole c).rc = f.rc := rfl
  unfold Fast.addQuadrupole Fast.apply quadG quadA quadJ noMass
  simp only [hrc, e, sqrt_inv, Real.sqrt_sq (gdist_nonneg eps f.rc c.r), linear_add hn, linear_quad hn]
  have hz := h.ne'
  congr 1
  · rw [dot_add_left]
    have e1 : (fun k => qdr n c.q (fun k => f.rc k - c.r k) k *
          (1 / gdist eps f.rc c.r ^ 2 * (1 / gdist eps f.rc c.r ^ 2) * (1 / gdist eps f.rc c.r)) -
        5 / 2 * qscalar n c.q (fun k => f.rc k - c.r k) *
          (1 / gdist eps f.rc c.r ^ 2 * (1 / gdist eps f.rc c.r ^ 2) * (1 / gdist eps f.rc c.r)) *
          (1 / gdist eps f.rc c.r ^ 2) * (f.rc k - c.r k)) =
        fun k => 0 * (c.r k - f.rc k) / gdist eps f.rc c.r ^ 3 +
          (qdr n c.q (fun k => f.rc k - c.r k) k / gdist eps f.rc c.r ^ 5 -
          5 / 2 * qscalar n c.q (fun k => f.rc k - c.r k) * (f.rc k - c.r k) / gdist eps f.rc c.r ^ 7) := by
      funext k
      field_simp
      ring
    rw [e1]
    field_simp
    ring
  · funext k
    have e1 : (fun k => qdr n c.q (fun k => f.rc k - c.r k) k *
          (1 / gdist eps f.rc c.r ^ 2 * (1 / gdist eps f.rc c.r ^ 2) * (1 / gdist eps f.rc c.r)) *
          (5 * (1 / gdist eps f.rc c.r ^ 2))) =
        fun k => 5 / gdist eps f.rc c.r ^ 7 * qdr n c.q (fun k => f.rc k - c.r k) k := by
      funext k
      field_simp
    rw [e1, dot_smul_left]
    field_simp
    ring

/-- folding the fast sums and applying them -/
theorem fast_fold (step : Fast n → Moment n → Fast n) (rc r : Vec n ℝ) (s : Field n) (g : Moment n → ℝ)
    (a : Moment n → Vec n ℝ) (l : List (Moment n))
    (hs : ∀ f, f.rc = rc → ∀ c ∈ l, (step f c).rc = rc ∧
      (step f c).apply r s = ⟨(f.apply r s).gpot + g c, fun k => (f.apply r s).a k + a c k⟩) (f : Fast n)
    (hf : f.rc = rc) :
    (l.foldl step f).apply r s = ⟨(f.apply r s).gpot + (l.map g).sum,
      fun k => (f.apply r s).a k + (l.map fun c => a c k).sum⟩ := by
  induction l generalizing f with
  | nil => simp
  | cons c l ih =>
    obtain ⟨h1, h2⟩ := hs f hf c (by simp)
    rw [List.foldl_cons, ih (fun f hf d hd => hs f hf d (by simp [hd])) _ h1, h2]
    simp [add_assoc]

end Gandalf.Multipole
