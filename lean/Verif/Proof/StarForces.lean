import Verif.Model.NbodyForces
import Verif.Proof.PairForces
import Verif.Proof.Calculus
import Verif.Spec.Kernel
import Mathlib.MeasureTheory.Integral.IntervalIntegral.FundThmCalculus

/-! Helper lemmas for C45 and C46. -/

set_option autoImplicit false
set_option linter.unusedSectionVars false

namespace Gandalf.Stars

variable {n N : ℕ}

/-! ### The separation -/

/-- dimension `k` is periodic -/
def Per (d : Domain n ℝ) (k : Fin n) : Prop := d.lhs k = .periodic ∧ d.rhs k = .periodic

theorem sep_swap {d : Domain n ℝ} (hd : ∀ k, Per d k → 0 ≤ d.half k) (x y : Vec n ℝ) (k : Fin n) :
    sep d y x k = -sep d x y k := by
  simp only [sep, nearestPeriodicVector]
  by_cases hp : d.lhs k = .periodic ∧ d.rhs k = .periodic
  · have := hd k hp
    simp only [if_pos hp]
    by_cases h1 : y k - x k > d.half k
    · rw [if_pos h1, if_neg (by linarith), if_pos (by linarith)]; ring
    · by_cases h2 : y k - x k < -d.half k
      · rw [if_pos (by linarith), if_neg h1, if_pos h2]; ring
      · rw [if_neg (by linarith), if_neg (by linarith), if_neg h1, if_neg h2]; ring
  · simp only [if_neg hp]; ring

theorem sep_open {d : Domain n ℝ} (hd : ∀ k, ¬Per d k) (x y : Vec n ℝ) (k : Fin n) : sep d x y k = y k - x k := by
  have : ¬(d.lhs k = .periodic ∧ d.rhs k = .periodic) := hd k
  simp [sep, nearestPeriodicVector, this]

theorem dot_sep_swap {d : Domain n ℝ} (hd : ∀ k, Per d k → 0 ≤ d.half k) (x y : Vec n ℝ) :
    dot (sep d y x) (sep d y x) = dot (sep d x y) (sep d x y) := by
  have : sep d y x = fun k => -sep d x y k := funext fun k => sep_swap hd x y k
  rw [this, dot_neg']

/-- the separation of `x` and `y` is not where the nearest image changes -/
def Apart (d : Domain n ℝ) (x y : Vec n ℝ) : Prop :=
  sep d x y ≠ 0 ∧ ∀ k, Per d k → y k - x k ≠ d.half k ∧ y k - x k ≠ -d.half k

theorem hasDerivAt_sep {d : Domain n ℝ} {x y : ℝ → Vec n ℝ} {x' y' : Vec n ℝ} {t : ℝ} (hxy : Apart d (x t) (y t))
    (hx : ∀ k, HasDerivAt (fun τ => x τ k) (x' k) t) (hy : ∀ k, HasDerivAt (fun τ => y τ k) (y' k) t) (k : Fin n) :
    HasDerivAt (fun τ => sep d (x τ) (y τ) k) (y' k - x' k) t := by
  have hdr := (hy k).sub (hx k)
  have hc : ContinuousAt (fun τ => y τ k - x τ k) t := hdr.continuousAt
  by_cases hp : d.lhs k = .periodic ∧ d.rhs k = .periodic
  · obtain ⟨n1, n2⟩ := hxy.2 k hp
    by_cases h1 : y t k - x t k > d.half k
    · have ev := hc.eventually_const_lt h1
      refine (hdr.add_const (-d.size k)).congr_of_eventuallyEq ?_
      filter_upwards [ev] with τ hτ
      simp only [sep, nearestPeriodicVector, if_pos hp]
      rw [if_pos hτ]; rfl
    · by_cases h2 : y t k - x t k < -d.half k
      · have h1' : y t k - x t k < d.half k := lt_of_le_of_ne (not_lt.mp h1) n1
        have ev := hc.eventually_lt_const h2
        have ev' := hc.eventually_lt_const h1'
        refine (hdr.add_const (d.size k)).congr_of_eventuallyEq ?_
        filter_upwards [ev, ev'] with τ hτ hτ'
        simp only [sep, nearestPeriodicVector, if_pos hp]
        rw [if_neg (not_lt.mpr hτ'.le), if_pos hτ]; rfl
      · have h1' : y t k - x t k < d.half k := lt_of_le_of_ne (not_lt.mp h1) n1
        have h2' : -d.half k < y t k - x t k := lt_of_le_of_ne (not_lt.mp h2) (Ne.symm n2)
        have ev := hc.eventually_const_lt h2'
        have ev' := hc.eventually_lt_const h1'
        refine (hdr.add_const 0).congr_of_eventuallyEq ?_
        filter_upwards [ev, ev'] with τ hτ hτ'
        simp only [sep, nearestPeriodicVector, if_pos hp]
        rw [if_neg (not_lt.mpr hτ'.le), if_neg (not_lt.mpr hτ.le)]; rfl
  · refine hdr.congr_of_eventuallyEq ?_
    filter_upwards with τ
    simp only [sep, nearestPeriodicVector, if_neg hp, add_zero]; rfl

/-! ### The two force laws as central forces -/

/-- Newtonian factor -/
noncomputable def newton (ρ : ℝ) : ℝ := (1 / ρ) ^ 3

/-- softened factor for inverse mean smoothing length `q` -/
noncomputable def soft (K : Kernel) (q ρ : ℝ) : ℝ := q * q * K.wgrav (ρ * q) * (1 / ρ)

theorem directAcc_eq (d : Domain n ℝ) (si sj : Star n) (k : Fin n) :
    directAcc d si sj k = sj.m * (newton (√(dot (sep d si.r sj.r) (sep d si.r sj.r))) * sep d si.r sj.r k) := by
  simp only [directAcc, newton]; ring

theorem smoothAcc_eq (K : Kernel) (sm : ℝ) (d : Domain n ℝ) (si sj : Star n) (k : Fin n) :
    smoothAcc K sm d si sj k = sj.m * (soft K (invhmean si.h sj.h) (√(dot (sep d si.r sj.r) (sep d si.r sj.r)) + sm) *
      sep d si.r sj.r k) := by
  simp only [smoothAcc, paux, soft, drmag]; ring

theorem invhmean_comm (a b : ℝ) : invhmean a b = invhmean b a := by simp only [invhmean, add_comm]

theorem hasDerivAt_newton {ρ : ℝ} (h : 0 < ρ) : HasDerivAt newton (-3 * (1 / ρ) ^ 4) ρ := by
  have h1 := ((hasDerivAt_inv h.ne').fun_pow 3)
  have e : newton = fun ρ => ρ⁻¹ ^ 3 := by funext ρ; simp [newton]
  rw [e]
  refine h1.congr_deriv ?_
  have := h.ne'
  norm_num
  field_simp

/-- in three dimensions the derivative of the softened force of a kernel whose force is that of its mass -/
theorem hasDerivAt_wgrav {K : Kernel} (hV : Continuous K.w0) (hG : K.GravityOK) {s : ℝ} (hs : 0 < s) :
    HasDerivAt K.wgrav (4 * Real.pi * K.w0 s - 2 * K.wgrav s / s) s := by
  let G : ℝ → ℝ := fun x => ∫ y in (0 : ℝ)..x, y ^ 2 * K.w0 y
  have hcont : Continuous fun y => y ^ 2 * K.w0 y := (continuous_pow 2).mul hV
  have hG' : ∀ x, HasDerivAt G (x ^ 2 * K.w0 x) x := fun x =>
    intervalIntegral.integral_hasDerivAt_right (hcont.intervalIntegrable _ _)
      (hcont.stronglyMeasurableAtFilter _ _) hcont.continuousAt
  have e : ∀ x, 0 < x → K.wgrav x = 4 * Real.pi * G x / x ^ 2 := by
    intro x hx
    rw [hG.force x hx, integral_ball_radial (n := 3) (F := G) (by norm_num) hx.le hV.continuousOn
      (fun s _ => hG' s), unitBall_three]
    have : G 0 = 0 := by simp [G]
    rw [this]
    push_cast
    ring
  have hd : HasDerivAt (fun x => 4 * Real.pi * G x / x ^ 2)
      ((4 * Real.pi * (s ^ 2 * K.w0 s) * s ^ 2 - 4 * Real.pi * G s * (2 * s)) / (s ^ 2) ^ 2) s := by
    refine (((hG' s).const_mul (4 * Real.pi)).div (hasDerivAt_pow 2 s) (pow_ne_zero 2 hs.ne')).congr_deriv ?_
    norm_num
  have := hd.congr_of_eventuallyEq (f₁ := K.wgrav) (by
    filter_upwards [lt_mem_nhds hs] with x hx using e x hx)
  refine this.congr_deriv ?_
  rw [e s hs]
  have := hs.ne'
  field_simp

theorem hasDerivAt_soft {K : Kernel} (hV : Continuous K.w0) (hG : K.GravityOK) {q ρ : ℝ} (hq : 0 < q) (h : 0 < ρ) :
    HasDerivAt (soft K q) (4 * Real.pi * q ^ 3 * K.w0 (ρ * q) * (1 / ρ) - 3 * soft K q ρ * (1 / ρ)) ρ := by
  have h1 : HasDerivAt (fun ρ => K.wgrav (ρ * q))
      ((4 * Real.pi * K.w0 (ρ * q) - 2 * K.wgrav (ρ * q) / (ρ * q)) * q) ρ := by
    have h2 : HasDerivAt (fun ρ : ℝ => ρ * q) q ρ := by simpa using (hasDerivAt_id ρ).mul_const q
    exact HasDerivAt.comp ρ (hasDerivAt_wgrav hV hG (mul_pos h hq)) h2
  have h3 := ((h1.const_mul (q * q)).mul (hasDerivAt_inv h.ne'))
  have e : soft K q = fun ρ => q * q * K.wgrav (ρ * q) * ρ⁻¹ := by funext ρ; simp [soft]
  rw [e]
  refine h3.congr_deriv ?_
  have := h.ne'
  have := hq.ne'
  field_simp
  ring

/-! ### Sums -/

theorem sum_force {d : Domain n ℝ} (hd : ∀ k, Per d k → 0 ≤ d.half k) (m : Fin N → ℝ) (r : Fin N → Vec n ℝ)
    (φ : Fin N → Fin N → ℝ → ℝ) (hφ : ∀ i j ρ, φ i j ρ = φ j i ρ) (k : Fin n) :
    ∑ i, m i * ∑ j, (if i = j then 0 else
      m j * (φ i j (√(dot (sep d (r i) (r j)) (sep d (r i) (r j)))) * sep d (r i) (r j) k)) = 0 := by
  simp only [Finset.mul_sum]
  refine sum_antisymm _ fun i j => ?_
  by_cases h : i = j
  · simp [h]
  · rw [if_neg h, if_neg (Ne.symm h), dot_sep_swap hd (r i) (r j), sep_swap hd (r i) (r j), hφ i j]
    ring

theorem sum_torque {d : Domain n ℝ} (hd : ∀ k, ¬Per d k) (m : Fin N → ℝ) (r : Fin N → Vec n ℝ)
    (φ : Fin N → Fin N → ℝ → ℝ) (hφ : ∀ i j ρ, φ i j ρ = φ j i ρ) (k l : Fin n) :
    ∑ i, m i * (r i k * ∑ j, (if i = j then 0 else
        m j * (φ i j (√(dot (sep d (r i) (r j)) (sep d (r i) (r j)))) * sep d (r i) (r j) l)) -
      r i l * ∑ j, (if i = j then 0 else
        m j * (φ i j (√(dot (sep d (r i) (r j)) (sep d (r i) (r j)))) * sep d (r i) (r j) k))) = 0 := by
  have e : ∀ i, m i * (r i k * ∑ j, (if i = j then 0 else
        m j * (φ i j (√(dot (sep d (r i) (r j)) (sep d (r i) (r j)))) * sep d (r i) (r j) l)) -
      r i l * ∑ j, (if i = j then 0 else
        m j * (φ i j (√(dot (sep d (r i) (r j)) (sep d (r i) (r j)))) * sep d (r i) (r j) k))) =
      ∑ j, if i = j then 0 else m i * m j * φ i j (√(dot (sep d (r i) (r j)) (sep d (r i) (r j)))) *
        (r i k * (r j l - r i l) - r i l * (r j k - r i k)) := by
    intro i
    rw [Finset.mul_sum, Finset.mul_sum, ← Finset.sum_sub_distrib, Finset.mul_sum]
    refine Finset.sum_congr rfl fun j _ => ?_
    by_cases h : i = j
    · simp [h]
    · simp only [if_neg h, sep_open hd]; ring
  simp only [e]
  refine sum_antisymm _ fun i j => ?_
  by_cases h : i = j
  · simp [h]
  · rw [if_neg h, if_neg (Ne.symm h), dot_sep_swap (fun k hk => absurd hk (hd k)) (r i) (r j), hφ i j]
    ring

/-- the energy of pair forces with a potential does not change along the motion -/
theorem pair_energy {d : Domain n ℝ} (hd : ∀ k, Per d k → 0 ≤ d.half k) (m : Fin N → ℝ) (r v : ℝ → Fin N → Vec n ℝ)
    (φ ψ : Fin N → Fin N → ℝ → ℝ) (hφ : ∀ i j ρ, φ i j ρ = φ j i ρ) (t : ℝ)
    (hψ : ∀ i j, i ≠ j → ∀ ρ, ρ = √(dot (sep d (r t i) (r t j)) (sep d (r t i) (r t j))) →
      HasDerivAt (ψ i j) (-(φ i j ρ * ρ)) ρ)
    (hap : ∀ i j, i ≠ j → Apart d (r t i) (r t j))
    (hr : ∀ i k, HasDerivAt (fun τ => r τ i k) (v t i k) t)
    (hv : ∀ i k, HasDerivAt (fun τ => v τ i k) (∑ j, if i = j then 0 else
      m j * (φ i j (√(dot (sep d (r t i) (r t j)) (sep d (r t i) (r t j)))) * sep d (r t i) (r t j) k)) t) :
    HasDerivAt (fun τ => ∑ i, 0.5 * m i * dot (v τ i) (v τ i) + 0.5 * (0 - ∑ i, m i * ∑ j,
      if i = j then 0 else m j * ψ i j (√(dot (sep d (r τ i) (r τ j)) (sep d (r τ i) (r τ j)))))) 0 t := by
  have hkin := HasDerivAt.fun_sum (u := Finset.univ) fun (i : Fin N) _ =>
    (hasDerivAt_dot (hv i) (hv i)).const_mul (0.5 * m i)
  have hpot : HasDerivAt (fun τ => ∑ i, m i * ∑ j,
      if i = j then 0 else m j * ψ i j (√(dot (sep d (r τ i) (r τ j)) (sep d (r τ i) (r τ j)))))
      (∑ i, m i * ∑ j, if i = j then 0 else m j *
        (-(φ i j (√(dot (sep d (r t i) (r t j)) (sep d (r t i) (r t j)))) *
          dot (fun k => v t j k - v t i k) (sep d (r t i) (r t j))))) t := by
    refine HasDerivAt.fun_sum fun i _ => HasDerivAt.const_mul (m i) (HasDerivAt.fun_sum fun j _ => ?_)
    by_cases h : i = j
    · simp only [if_pos h]; exact hasDerivAt_const _ _
    · simp only [if_neg h]
      refine HasDerivAt.const_mul (m j) ?_
      have hs := fun k => hasDerivAt_sep (hap i j h) (hr i) (hr j) k
      have hdist := hasDerivAt_dist hs (hap i j h).1
      refine (HasDerivAt.comp t (hψ i j h _ rfl) hdist).congr_deriv ?_
      have : √(dot (sep d (r t i) (r t j)) (sep d (r t i) (r t j))) ≠ 0 :=
        (Real.sqrt_pos.mpr (dot_self_pos' (hap i j h).1)).ne'
      field_simp
  refine (hkin.add ((hpot.const_sub 0).const_mul 0.5)).congr_deriv ?_
  have e : ∀ i, 0.5 * m i * (dot (fun k => ∑ j, if i = j then 0 else
      m j * (φ i j (√(dot (sep d (r t i) (r t j)) (sep d (r t i) (r t j)))) * sep d (r t i) (r t j) k)) (v t i) +
      dot (v t i) (fun k => ∑ j, if i = j then 0 else
      m j * (φ i j (√(dot (sep d (r t i) (r t j)) (sep d (r t i) (r t j)))) * sep d (r t i) (r t j) k))) =
      ∑ j, if i = j then 0 else m i * m j *
        φ i j (√(dot (sep d (r t i) (r t j)) (sep d (r t i) (r t j)))) * dot (v t i) (sep d (r t i) (r t j)) := by
    intro i
    have c : dot (fun k => ∑ j, if i = j then 0 else
      m j * (φ i j (√(dot (sep d (r t i) (r t j)) (sep d (r t i) (r t j)))) * sep d (r t i) (r t j) k)) (v t i) =
      dot (v t i) (fun k => ∑ j, if i = j then 0 else
      m j * (φ i j (√(dot (sep d (r t i) (r t j)) (sep d (r t i) (r t j)))) * sep d (r t i) (r t j) k)) :=
      Finset.sum_congr rfl fun _ _ => mul_comm _ _
    rw [c]
    simp only [dot, Finset.mul_sum]
    rw [Finset.sum_comm, ← Finset.sum_add_distrib, Finset.mul_sum]
    refine Finset.sum_congr rfl fun j _ => ?_
    by_cases h : i = j
    · simp [h]
    · simp only [if_neg h]
      rw [← Finset.sum_add_distrib, Finset.mul_sum]
      refine Finset.sum_congr rfl fun k _ => ?_
      ring
  simp only [e]
  have e2 : ∀ i, (m i * ∑ j, if i = j then 0 else m j *
        (-(φ i j (√(dot (sep d (r t i) (r t j)) (sep d (r t i) (r t j)))) *
          dot (fun k => v t j k - v t i k) (sep d (r t i) (r t j))))) =
      ∑ j, if i = j then 0 else -(m i * m j * φ i j (√(dot (sep d (r t i) (r t j)) (sep d (r t i) (r t j)))) *
        (dot (v t j) (sep d (r t i) (r t j)) - dot (v t i) (sep d (r t i) (r t j)))) := by
    intro i
    rw [Finset.mul_sum]
    refine Finset.sum_congr rfl fun j _ => ?_
    by_cases h : i = j
    · simp [h]
    · simp only [if_neg h]
      have : dot (fun k => v t j k - v t i k) (sep d (r t i) (r t j)) =
          dot (v t j) (sep d (r t i) (r t j)) - dot (v t i) (sep d (r t i) (r t j)) := by
        simp only [dot, ← Finset.sum_sub_distrib]
        exact Finset.sum_congr rfl fun k _ => by ring
      rw [this]; ring
  simp only [e2]
  rw [mul_neg, ← sub_eq_add_neg, Finset.mul_sum, ← Finset.sum_sub_distrib]
  simp only [Finset.mul_sum, ← Finset.sum_sub_distrib]
  refine sum_antisymm _ fun i j => ?_
  by_cases h : i = j
  · simp [h]
  · simp only [if_neg h, if_neg (Ne.symm h)]
    have s1 : ∀ w : Vec n ℝ, dot w (sep d (r t j) (r t i)) = -dot w (sep d (r t i) (r t j)) := by
      intro w
      simp only [dot, ← Finset.sum_neg_distrib]
      exact Finset.sum_congr rfl fun k _ => by rw [sep_swap hd (r t i) (r t j)]; ring
    rw [dot_sep_swap hd (r t i) (r t j), hφ i j, s1, s1]
    ring

end Gandalf.Stars
