import Verif.Proof.SphGravity

/-! Time derivatives of density, smoothing length and potential along a motion. -/

set_option autoImplicit false
set_option linter.unusedSectionVars false

namespace Gandalf.Sph

variable {n N : ℕ}

theorem womega_eq {K : Kernel} {n' : ℕ} (hK : K.Valid n') (hO : K.OmegaOK n) {s : ℝ} (hs : 0 ≤ s) :
    K.womega s = -(n : ℝ) * K.w0 s - s * K.w1 s := by
  have h1 := hO.omega s hs 1 one_pos
  have h2 : HasDerivAt (fun h : ℝ => (1 / h) ^ n * K.w0 (s / h)) (-(n : ℝ) * K.w0 s - s * K.w1 s) 1 := by
    have hi : HasDerivAt (fun h : ℝ => 1 / h) (-1) 1 := by
      have := (hasDerivAt_id (1 : ℝ)).fun_inv one_ne_zero
      simpa using this
    have hp := hi.fun_pow n
    have hd : HasDerivAt (fun h : ℝ => s / h) (-s) 1 := by
      have := hi.const_mul s
      simpa [div_eq_mul_inv] using this
    have hw := HasDerivAt.comp (1 : ℝ) (h₂ := K.w0) (h₂' := K.w1 (s / 1)) (hK.deriv (s / 1)) hd
    refine (hp.mul hw).congr_deriv ?_
    simp
    ring
  have := h1.unique h2
  simpa using this

/-- derivative of the scaled kernel when distance and smoothing length change -/
theorem hasDerivAt_kernel {K : Kernel} {n' : ℕ} (hK : K.Valid n') (hO : K.OmegaOK n) {d h : ℝ → ℝ} {d' h' t : ℝ}
    (hd : HasDerivAt d d' t) (hh : HasDerivAt h h' t) (hp : 0 < h t) (h0 : 0 ≤ d t) :
    HasDerivAt (fun τ => (1 / h τ) ^ n * K.w0 (d τ / h τ))
      ((1 / h t) ^ (n + 1) * K.w1 (d t / h t) * d' + (1 / h t) ^ (n + 1) * K.womega (d t / h t) * h') t := by
  have hi : HasDerivAt (fun τ => 1 / h τ) (-h' / h t ^ 2) t := by
    have := hh.fun_inv hp.ne'
    simpa using this
  have hp' := hi.fun_pow n
  have hq := hd.div hh hp.ne'
  have hw := HasDerivAt.comp t (h₂ := K.w0) (hK.deriv (d t / h t)) hq
  refine (hp'.mul hw).congr_deriv ?_
  rw [womega_eq hK hO (div_nonneg h0 hp.le)]
  simp only [Function.comp, Pi.div_apply]
  rcases Nat.eq_zero_or_pos n with hn | hn
  · subst hn
    simp
    field_simp
    ring
  · obtain ⟨k, rfl⟩ : ∃ k, n = k + 1 := ⟨n - 1, by omega⟩
    simp only [Nat.add_sub_cancel]
    have hy : (1 / h t) ^ (k + 1 + 1) = (1 / h t) ^ k * (1 / h t) ^ 2 := by ring
    have hz : (1 / h t) ^ (k + 1) = (1 / h t) ^ k * (1 / h t) := by ring
    rw [hy, hz]
    generalize (1 / h t) ^ k = z
    generalize K.w1 (d t / h t) = w1
    generalize K.w0 (d t / h t) = w0
    field_simp
    ring

theorem wzeta_eq {K : Kernel} (hG : K.GravityOK) (hZ : K.ZetaOK) {s : ℝ} (hs : 0 < s) :
    K.wzeta s = K.wpot s - s * K.wgrav s := by
  have h1 := hZ.zeta s hs 1 one_pos
  have h2 : HasDerivAt (fun h : ℝ => K.wpot (s / h) / h) (-(K.wpot s - s * K.wgrav s)) 1 := by
    have hi : HasDerivAt (fun h : ℝ => 1 / h) (-1) 1 := by
      have := (hasDerivAt_id (1 : ℝ)).fun_inv one_ne_zero
      simpa using this
    have hd : HasDerivAt (fun h : ℝ => s / h) (-s) 1 := by
      have := hi.const_mul s
      simpa [div_eq_mul_inv] using this
    have hw := HasDerivAt.comp (1 : ℝ) (h₂ := K.wpot) (h₂' := -K.wgrav (s / 1)) (hG.potential (s / 1) (by simpa)) hd
    refine (hw.div (hasDerivAt_id 1) one_ne_zero).congr_deriv ?_
    simp
    ring
  have := h1.unique h2
  simp only [div_one, one_pow] at this
  linarith

/-- derivative of the scaled potential -/
theorem hasDerivAt_pot {K : Kernel} (hG : K.GravityOK) (hZ : K.ZetaOK) {d h : ℝ → ℝ} {d' h' t : ℝ}
    (hd : HasDerivAt d d' t) (hh : HasDerivAt h h' t) (hp : 0 < h t) (h0 : 0 < d t) :
    HasDerivAt (fun τ => 1 / h τ * K.wpot (d τ * (1 / h τ)))
      (-(1 / h t * (1 / h t) * K.wgrav (d t * (1 / h t)) * d') - K.wzeta (d t / h t) * (1 / h t) ^ 2 * h') t := by
  have hi : HasDerivAt (fun τ => 1 / h τ) (-h' / h t ^ 2) t := by
    have := hh.fun_inv hp.ne'
    simpa using this
  have hq := hd.mul hi
  have hpos : 0 < d t * (1 / h t) := by positivity
  have hw := HasDerivAt.comp t (h₂ := K.wpot) (hG.potential (d t * (1 / h t)) hpos) hq
  refine (hi.mul hw).congr_deriv ?_
  have e : d t / h t = d t * (1 / h t) := by ring
  rw [e, wzeta_eq hG hZ hpos]
  simp only [Function.comp, Pi.mul_apply]
  field_simp
  ring

/-- a motion of self-gravitating gas, at the time `t`: positions and velocities change at the rates the force
routine gives (`acc`), the smoothing lengths are differentiable and all particles are converged at all
times -/
structure Flow (K : Kernel) (hfac : ℝ) (sys : ℝ → Fin N → Part n) (acc : Fin N → Vec n ℝ) (h' : Fin N → ℝ)
    (t : ℝ) : Prop where
  mass : ∀ τ i, (sys τ i).m = (sys t i).m
  good : ∀ τ i, Good (sys τ i)
  vel : ∀ i k, HasDerivAt (fun τ => (sys τ i).r k) ((sys t i).v k) t
  acc : ∀ i k, HasDerivAt (fun τ => (sys τ i).v k) (acc i k) t
  h : ∀ i, HasDerivAt (fun τ => (sys τ i).h) (h' i) t
  conv : ∀ τ i, Converged K hfac (sys τ) i
  apart : ∀ i j, i ≠ j → (sys t i).r ≠ (sys t j).r

section
variable {K : Kernel} {n' : ℕ} {hfac : ℝ} {sys : ℝ → Fin N → Part n} {acc : Fin N → Vec n ℝ} {h' : Fin N → ℝ} {t : ℝ}

theorem dist_self (sm : ℝ) (hsm : sm = 0) (p : Part n) : dist sm p p = 0 := by
  subst hsm
  simp [dist, drmag, dot]

theorem Flow.dist_pos (f : Flow K hfac sys acc h' t) {i j : Fin N} (h : i ≠ j) : 0 < dist 0 (sys t i) (sys t j) := by
  unfold dist drmag
  rw [add_zero]
  refine Real.sqrt_pos.mpr (dot_self_pos' fun h0 => f.apart i j h ?_)
  funext k
  have := congrFun h0 k
  simp only [Pi.zero_apply] at this
  linarith

theorem Flow.hasDerivAt_dist (f : Flow K hfac sys acc h' t) (i j : Fin N) :
    HasDerivAt (fun τ => dist 0 (sys τ i) (sys τ j)) (dvdr 0 (sys t i) (sys t j)) t := by
  by_cases hij : i = j
  · subst hij
    rw [dvdr_self]
    have : (fun τ => dist 0 (sys τ i) (sys τ i)) = fun _ => 0 := funext fun τ => dist_self 0 rfl _
    rw [this]
    exact hasDerivAt_const t 0
  · have hp := f.dist_pos hij
    have hx : ∀ k, HasDerivAt (fun τ => (fun k => (sys τ j).r k - (sys τ i).r k : Vec n ℝ) k)
        ((sys t j).v k - (sys t i).v k) t := fun k => (f.vel j k).sub (f.vel i k)
    have h0 : (fun k => (sys t j).r k - (sys t i).r k : Vec n ℝ) ≠ 0 := by
      intro hz
      refine f.apart i j hij ?_
      funext k
      have := congrFun hz k
      simp only [Pi.zero_apply] at this
      linarith
    have := Gandalf.hasDerivAt_dist (x := fun τ k => (sys τ j).r k - (sys τ i).r k) hx h0
    unfold dist drmag
    simp only [add_zero]
    refine this.congr_deriv ?_
    unfold dvdr
    have e : (unit 0 fun k => (sys t j).r k - (sys t i).r k) = fun k => ((sys t j).r k - (sys t i).r k) /
        dist 0 (sys t i) (sys t j) := funext fun k => unit_eq hp k
    rw [e]
    unfold dist drmag
    rw [add_zero]
    simp only [dot, ← Finset.sum_sub_distrib, Finset.sum_div]
    exact Finset.sum_congr rfl fun k _ => by ring

/-- density along the motion -/
theorem Flow.hasDerivAt_density (f : Flow K hfac sys acc h' t) (hK : K.Valid n') (hO : K.OmegaOK n) (i : Fin N) :
    HasDerivAt (fun τ => density K (sys τ) i)
      (∑ j, (sys t j).m * dvdr 0 (sys t i) (sys t j) * wkern K 0 (sys t i) (sys t j) +
       (∑ j, (sys t j).m * ((1 / (sys t i).h) ^ (n + 1) * K.womega (dist 0 (sys t i) (sys t j) / (sys t i).h))) * h' i) t := by
  have hm : (fun τ => density K (sys τ) i) = fun τ => ∑ j, (sys t j).m * ((1 / (sys τ i).h) ^ n *
      K.w0 (dist 0 (sys τ i) (sys τ j) / (sys τ i).h)) := by
    funext τ
    unfold density
    exact Finset.sum_congr rfl fun j _ => by rw [f.mass τ j]
  rw [hm]
  have := HasDerivAt.fun_sum (u := Finset.univ) fun (j : Fin N) _ =>
    (hasDerivAt_kernel hK hO (f.hasDerivAt_dist i j) (f.h i) (f.good t i).h (Real.sqrt_nonneg _)).const_mul (sys t j).m
  refine this.congr_deriv ?_
  rw [Finset.sum_mul, ← Finset.sum_add_distrib]
  refine Finset.sum_congr rfl fun j _ => ?_
  unfold wkern
  rw [(f.conv t i).hfactor]
  have : dist 0 (sys t i) (sys t j) * (1 / (sys t i).h) = dist 0 (sys t i) (sys t j) / (sys t i).h := by ring
  rw [this]
  ring

/-- rate of change of the smoothing length -/
theorem Flow.hdot (f : Flow K hfac sys acc h' t) (hn : 0 < n) (hK : K.Valid n') (hO : K.OmegaOK n) (i : Fin N) :
    h' i = hRhoDeriv (sys t i) * (sys t i).invomega *
      ∑ j, (sys t j).m * dvdr 0 (sys t i) (sys t j) * wkern K 0 (sys t i) (sys t j) := by
  set A := ∑ j, (sys t j).m * dvdr 0 (sys t i) (sys t j) * wkern K 0 (sys t i) (sys t j) with hA
  set B := ∑ j, (sys t j).m * ((1 / (sys t i).h) ^ (n + 1) * K.womega (dist 0 (sys t i) (sys t j) / (sys t i).h)) with hB
  have hd := f.hasDerivAt_density hK hO i
  have hp := (f.good t i).h
  have hr := (f.good t i).rho
  have hc : HasDerivAt (fun τ => density K (sys τ) i * (sys τ i).h ^ n) 0 t := by
    have : (fun τ => density K (sys τ) i * (sys τ i).h ^ n) = fun _ => hfac ^ n * (sys t i).m := by
      funext τ
      rw [← (f.conv τ i).rho, (f.conv τ i).h, f.mass τ i]
    rw [this]
    exact hasDerivAt_const t _
  have he := (hd.mul ((f.h i).fun_pow n)).unique hc
  rw [← hA, ← hB, ← (f.conv t i).rho] at he
  have hN : (n : ℝ) ≠ 0 := by exact_mod_cast hn.ne'
  have key : (A + B * h' i) * (sys t i).h + (sys t i).rho * (n * h' i) = 0 := by
    have hpow : (sys t i).h ^ n = (sys t i).h ^ (n - 1) * (sys t i).h := by
      rw [← pow_succ]; congr 1; omega
    rw [hpow] at he
    have : (sys t i).h ^ (n - 1) * ((A + B * h' i) * (sys t i).h + (sys t i).rho * (n * h' i)) = 0 := by
      linear_combination he
    exact (mul_eq_zero.mp this).resolve_left (pow_ne_zero _ hp.ne')
  have hw := (f.conv t i).omega_ne
  rw [(f.conv t i).invomega]
  rw [← hB] at hw ⊢
  unfold hRhoDeriv at hw ⊢
  rw [mul_one_div, div_mul_eq_mul_div, eq_div_iff hw]
  field_simp
  linear_combination key

/-- the pair potentials along the motion -/
theorem Flow.hasDerivAt_pot (f : Flow K hfac sys acc h' t) (hG : K.GravityOK) (hZ : K.ZetaOK)
    (h0 : K.wzeta 0 = K.wpot 0) (i j : Fin N) :
    HasDerivAt (fun τ => 1 / (sys τ i).h * K.wpot (dist 0 (sys τ i) (sys τ j) * (1 / (sys τ i).h)))
      (-(1 / (sys t i).h * (1 / (sys t i).h) * K.wgrav (dist 0 (sys t i) (sys t j) * (1 / (sys t i).h)) *
          dvdr 0 (sys t i) (sys t j)) -
        K.wzeta (dist 0 (sys t i) (sys t j) / (sys t i).h) * (1 / (sys t i).h) ^ 2 * h' i) t := by
  by_cases hij : i = j
  · subst hij
    have e : (fun τ => 1 / (sys τ i).h * K.wpot (dist 0 (sys τ i) (sys τ i) * (1 / (sys τ i).h))) =
        fun τ => 1 / (sys τ i).h * K.wpot 0 := by
      funext τ
      rw [dist_self 0 rfl, zero_mul]
    rw [e, dvdr_self, dist_self 0 rfl, zero_div, h0]
    have hp := (f.good t i).h
    have hi : HasDerivAt (fun τ => 1 / (sys τ i).h) (-h' i / (sys t i).h ^ 2) t := by
      have := (f.h i).fun_inv hp.ne'
      simpa using this
    refine (hi.mul_const (K.wpot 0)).congr_deriv ?_
    field_simp
    ring
  · exact Sph.hasDerivAt_pot hG hZ (f.hasDerivAt_dist i j) (f.h i) (f.good t i).h (f.dist_pos hij)

/-- work of gravity on the particles and the change of the potential energy cancel -/
theorem Flow.gravity_balance (f : Flow K hfac sys acc h' t) (hn : 0 < n) (hK : K.Valid n') (hO : K.OmegaOK n) :
    ∑ i, ∑ j, (sys t i).m * ((sys t j).m * dot (sys t i).v (unit 0 (fun k => (sys t j).r k - (sys t i).r k)) *
      gravPaux K 0 (sys t i) (sys t j)) =
    0.5 * ∑ i, ∑ j, (sys t i).m * ((sys t j).m *
      (-(1 / (sys t i).h * (1 / (sys t i).h) * K.wgrav (dist 0 (sys t i) (sys t j) * (1 / (sys t i).h)) *
          dvdr 0 (sys t i) (sys t j)) -
        K.wzeta (dist 0 (sys t i) (sys t j) / (sys t i).h) * (1 / (sys t i).h) ^ 2 * h' i)) := by
  set s := sys t with hs
  -- work as a sum over pairs
  have e1 : ∑ i, ∑ j, (s i).m * ((s j).m * dot (s i).v (unit 0 (fun k => (s j).r k - (s i).r k)) *
      gravPaux K 0 (s i) (s j)) = -0.5 * ∑ i, ∑ j, (s i).m * ((s j).m * dvdr 0 (s i) (s j) * gravPaux K 0 (s i) (s j)) := by
    have : ∑ i, ∑ j, ((s i).m * ((s j).m * dot (s i).v (unit 0 (fun k => (s j).r k - (s i).r k)) *
        gravPaux K 0 (s i) (s j)) + 0.5 * ((s i).m * ((s j).m * dvdr 0 (s i) (s j) * gravPaux K 0 (s i) (s j)))) = 0 := by
      refine sum_antisymm _ fun i j => ?_
      have hv : dvdr 0 (s i) (s j) = dot (s j).v (unit 0 fun k => (s j).r k - (s i).r k) -
        dot (s i).v (unit 0 fun k => (s j).r k - (s i).r k) := rfl
      have hd : dot (s j).v (unit 0 fun k => (s i).r k - (s j).r k) =
          -dot (s j).v (unit 0 fun k => (s j).r k - (s i).r k) := by
        have : (unit 0 fun k => (s i).r k - (s j).r k) = fun k => -unit 0 (fun k => (s j).r k - (s i).r k) k :=
          funext fun k => unit_swap 0 (s i) (s j) k
        rw [this]
        simp [dot]
      rw [hd, gravPaux_comm K 0 (s i) (s j), dvdr_comm 0 (s i) (s j), hv]
      ring
    simp only [Finset.sum_add_distrib, ← Finset.mul_sum] at this ⊢
    linarith
  -- the half of the pair belonging to `i`
  have e2 : ∑ i, ∑ j, (s i).m * ((s j).m * dvdr 0 (s i) (s j) * gravPaux K 0 (s i) (s j)) =
      ∑ i, ∑ j, (s i).m * ((s j).m * dvdr 0 (s i) (s j) * (1 / (s i).h * (1 / (s i).h) *
        K.wgrav (dist 0 (s i) (s j) * (1 / (s i).h)) + (s i).zeta * wkern K 0 (s i) (s j))) := by
    have : ∑ i, ∑ j, ((s i).m * ((s j).m * dvdr 0 (s i) (s j) * gravPaux K 0 (s i) (s j)) -
        (s i).m * ((s j).m * dvdr 0 (s i) (s j) * (1 / (s i).h * (1 / (s i).h) *
        K.wgrav (dist 0 (s i) (s j) * (1 / (s i).h)) + (s i).zeta * wkern K 0 (s i) (s j)))) = 0 := by
      refine sum_antisymm _ fun i j => ?_
      rw [gravPaux_comm K 0 (s i) (s j), dvdr_comm 0 (s i) (s j)]
      unfold gravPaux
      ring
    simp only [Finset.sum_sub_distrib] at this
    linarith
  -- the correction term
  have e3 : ∀ i, ∑ j, (s j).m * (K.wzeta (dist 0 (s i) (s j) / (s i).h) * (1 / (s i).h) ^ 2 * h' i) =
      ∑ j, (s j).m * dvdr 0 (s i) (s j) * ((s i).zeta * wkern K 0 (s i) (s j)) := by
    intro i
    have hz := (f.conv t i).zeta
    have hh := f.hdot hn hK hO i
    rw [← hs] at hz hh
    have l : ∑ j, (s j).m * (K.wzeta (dist 0 (s i) (s j) / (s i).h) * (1 / (s i).h) ^ 2 * h' i) =
        (∑ j, (s j).m * K.wzeta (dist 0 (s i) (s j) / (s i).h) * (1 / (s i).h) ^ 2) * h' i := by
      rw [Finset.sum_mul]
      exact Finset.sum_congr rfl fun j _ => by ring
    have r : ∑ j, (s j).m * dvdr 0 (s i) (s j) * ((s i).zeta * wkern K 0 (s i) (s j)) =
        (s i).zeta * ∑ j, (s j).m * dvdr 0 (s i) (s j) * wkern K 0 (s i) (s j) := by
      rw [Finset.mul_sum]
      exact Finset.sum_congr rfl fun j _ => by ring
    rw [l, r, hh, hz]
    ring
  rw [e1, e2]
  have : ∀ i, ∑ j, (s i).m * ((s j).m * (-(1 / (s i).h * (1 / (s i).h) * K.wgrav (dist 0 (s i) (s j) * (1 / (s i).h)) *
          dvdr 0 (s i) (s j)) - K.wzeta (dist 0 (s i) (s j) / (s i).h) * (1 / (s i).h) ^ 2 * h' i)) =
      -∑ j, (s i).m * ((s j).m * dvdr 0 (s i) (s j) * (1 / (s i).h * (1 / (s i).h) *
        K.wgrav (dist 0 (s i) (s j) * (1 / (s i).h)) + (s i).zeta * wkern K 0 (s i) (s j))) := by
    intro i
    have h3 := congrArg (fun x => (s i).m * x) (e3 i)
    simp only [Finset.mul_sum] at h3
    rw [← sub_eq_zero, ← Finset.sum_neg_distrib, ← Finset.sum_sub_distrib]
    rw [← sub_eq_zero, ← Finset.sum_sub_distrib] at h3
    rw [← neg_eq_zero, ← Finset.sum_neg_distrib]
    refine Eq.trans ?_ h3
    exact Finset.sum_congr rfl fun j _ => by ring
  simp only [this, Finset.sum_neg_distrib]
  ring

end

end Gandalf.Sph
