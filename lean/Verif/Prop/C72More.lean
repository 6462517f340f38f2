import Verif.Prop.C72

/-!
# C72 – more on the states and fluxes of a pair of meshless particles
-/

set_option autoImplicit false
set_option linter.unusedSectionVars false

namespace Gandalf

open God Hllc Exact

variable {n : ℕ}

theorem God.half_deriv {f : ℝ → ℝ} {f' : ℝ} (h : HasDerivAt f f' 0) : HasDerivAt (fun s => f (1 / 2 * s)) (f' * (1 / 2)) 0 := by
  have h1 : HasDerivAt (fun s : ℝ => 1 / 2 * s) (1 / 2) 0 := by
    simpa using (hasDerivAt_id (0 : ℝ)).const_mul (1 / 2 : ℝ)
  have h2 : HasDerivAt f f' ((fun s : ℝ => 1 / 2 * s) 0) := by simpa using h
  exact h2.comp 0 h1

theorem God.line_deriv (x c : ℝ) : HasDerivAt (fun s : ℝ => x + 1 / 2 * s * c) (c * (1 / 2)) 0 := by
  have h1 : HasDerivAt (fun s : ℝ => x + s * c) c 0 := by
    simpa using ((hasDerivAt_id (0 : ℝ)).mul_const c).const_add x
  exact half_deriv h1

theorem God.floor_deriv {x c small : ℝ} (h : small < x) :
    HasDerivAt (fun s : ℝ => max (x + 1 / 2 * s * c) small) (c * (1 / 2)) 0 := by
  have h1 := line_deriv x c
  refine h1.congr_of_eventuallyEq ?_
  have : ∀ᶠ s in nhds (0 : ℝ), small < x + 1 / 2 * s * c := by
    have := h1.continuousAt.eventually (lt_mem_nhds (a := small) (b := x + 1 / 2 * 0 * c) (by simpa using h))
    exact this
  exact this.mono fun s hs => max_eq_left hs.le

theorem God.floor_diff {x c small : ℝ} {f : ℝ → ℝ} (h : small < x) (hf : HasDerivAt f c 0) :
    HasDerivAt (fun s : ℝ => max (x + 1 / 2 * s * c) small - f (1 / 2 * s)) 0 0 := by
  have := (floor_deriv (c := c) h).sub (half_deriv hf)
  rwa [sub_self] at this

theorem God.line_diff {x c w : ℝ} {f : ℝ → ℝ} (hf : HasDerivAt f c 0) :
    HasDerivAt (fun s : ℝ => x + 1 / 2 * s * c - (f (1 / 2 * s) - w)) 0 0 := by
  have := (line_deriv x c).sub ((half_deriv hf).sub_const w)
  rwa [sub_self] at this

/-- **C72, half a step.** A particle whose state and gradients at the face are those of a smooth flow under its acceleration hands
to the solver the state of the flow half a step later, where the face then is and relative to it: the error is of second order
in the step. -/
theorem C72_half_step (F : Flow n) (gamma : ℝ) (hg : gamma ≠ 1) (t : ℝ) (x w : Vec n ℝ) (lim : Lim n) (small : ℝ) (hs0 : 0 < small)
    (p q : Part n) (hs : F.Smooth t x) (hc : F.Conserves gamma p.a t x) (hr : small < F.rho t x) (hpr : small < F.p t x)
    (hcs : F.rho t x * p.sound ^ 2 = gamma * F.p t x)
    (hW : atFace lim p q x w = ⟨fun k => F.v t x k - w k, F.rho t x, F.p t x⟩)
    (hG : (lim p q fun k => x k - p.r k).1 =
      ⟨fun i k => along (fun t x => F.v t x i) k t x, fun k => along F.rho k t x, fun k => along F.p k t x⟩) :
    let W := predicted lim small p q x w
    let x' := fun (dt : ℝ) k => x k + 1 / 2 * dt * w k
    ((W 0).d = F.rho t x ∧ HasDerivAt (fun dt => (W dt).d - F.rho (t + 1 / 2 * dt) (x' dt)) 0 0) ∧
    ((W 0).p = F.p t x ∧ HasDerivAt (fun dt => (W dt).p - F.p (t + 1 / 2 * dt) (x' dt)) 0 0) ∧
    ∀ i, (W 0).v i = F.v t x i - w i ∧
      HasDerivAt (fun dt => (W dt).v i - (F.v (t + 1 / 2 * dt) (x' dt) i - w i)) 0 0 := by
  intro W x'
  obtain ⟨h1, h2, h3⟩ := C72_predictor F gamma hg p.a t x hs hc (by linarith) p.sound hcs w
  have e : ∀ dt, W dt = floored small (evolve ⟨fun k => F.v t x k - w k, F.rho t x, F.p t x⟩
      ⟨fun i k => along (fun t x => F.v t x i) k t x, fun k => along F.rho k t x, fun k => along F.p k t x⟩ p.sound p.a
      (1 / 2 * dt)) := by
    intro dt
    simp only [W, predicted, hW, hG]
  refine ⟨⟨?_, ?_⟩, ⟨?_, ?_⟩, fun i => ⟨?_, ?_⟩⟩
  · simp [e, floored, evolve, hr.le]
  · have := floor_diff hr h1
    simpa only [e, floored, evolve] using this
  · simp [e, floored, evolve, hpr.le]
  · have := floor_diff hpr h2
    simpa only [e, floored, evolve] using this
  · simp [e, floored, evolve]
  · have := line_diff (x := F.v t x i - w i) (w := w i) (h3 i)
    simpa only [e, floored, evolve] using this

/-- **C72, uniform gas.** What a particle gains in a uniform gas is what the gas carries in through the face during the step. -/
theorem C72_gain [NeZero n] (hn : n = 1 ∨ n = 2 ∨ n = 3) (K : Kernel) (lim : Lim n) (s : Scheme) (hg : 1 < s.gamma)
    (ht : 0 < s.tol) (hz : s.zmf = false) (hi : s.exact = true → s.iso = false) (hv : s.shear = 0 ∧ s.bulk = 0) (hs : 0 < s.small)
    (p q : Part n) (W : Prim n) (hp : p.W = W) (hq : q.W = W) (hd : s.small ≤ W.d) (hpr : s.small ≤ W.p)
    (lp : lim p q (fun k => rface p q k - p.r k) = (⟨fun _ _ => 0, fun _ => 0, fun _ => 0⟩, ⟨fun _ => 0, 0, 0⟩))
    (lq : lim q p (fun k => rface p q k - q.r k) = (⟨fun _ _ => 0, fun _ => 0, fun _ => 0⟩, ⟨fun _ => 0, 0, 0⟩))
    (ap : ∀ k, p.a k = 0) (aq : ∀ k, q.a k = 0) (dt : ℝ) :
    gain K lim s p q dt =
      times (-dt) (labFlux W.d W.v W.p (W.p / (s.gamma - 1)) (area K s.small p q) (vface s.static p q)) := by
  have hu := C72_uniform hn K lim s hg ht hz hi hv hs p q W hp hq hd hpr lp lq ap aq dt
  simp only at hu
  unfold gain
  rw [hu]
  by_cases h0 : area K s.small p q = 0
  · rw [if_pos h0, h0]
    simp [times, labFlux, dot]
  · rw [if_neg h0]
    unfold times
    simp only [neg_mul, mul_comm]

/-- a particle whose velocity is moved on by half a step of its acceleration -/
noncomputable def God.Part.kicked (dt : ℝ) (p : Part n) : Part n := { p with
  W := ⟨fun k => p.W.v k + 1 / 2 * dt * p.a k, p.W.d, p.W.p⟩
  a := fun _ => 0 }

/-- **C72, negation.** Free fall: particles in a uniform gas that falls freely, all with the same velocity and acceleration. The
gas does not move relative to them, but the states are moved on by half a step and the velocity of the face is not: the
particle loses mass to the neighbours towards which it falls. -/
theorem C72_fall_fails [NeZero n] (hn : n = 1 ∨ n = 2 ∨ n = 3) (K : Kernel) (lim : Lim n) (s : Scheme) (hg : 1 < s.gamma)
    (ht : 0 < s.tol) (hz : s.zmf = false) (hi : s.exact = true → s.iso = false) (hv : s.shear = 0 ∧ s.bulk = 0) (hs : 0 < s.small)
    (hst : s.static = false) (p q : Part n) (W : Prim n) (a : Vec n ℝ) (hp : p.W = W) (hq : q.W = W) (hd : s.small ≤ W.d)
    (hpr : s.small ≤ W.p) (vp : p.v = W.v) (vq : q.v = W.v) (ap : p.a = a) (aq : q.a = a) (dt : ℝ)
    (lp : ∀ p' q' : Part n, lim p' q' (fun k => rface p q k - p.r k) =
      (⟨fun _ _ => 0, fun _ => 0, fun _ => 0⟩, ⟨fun _ => 0, 0, 0⟩))
    (lq : ∀ p' q' : Part n, lim p' q' (fun k => rface p q k - q.r k) =
      (⟨fun _ _ => 0, fun _ => 0, fun _ => 0⟩, ⟨fun _ => 0, 0, 0⟩)) :
    (gain K lim s p q dt).mass = -(1 / 2 * dt ^ 2 * W.d * dot a (area K s.small p q)) := by
  have hzz : ∀ v : Vec n ℝ, dot v (fun _ => 0) = 0 := fun v => by simp [dot]
  have hpred : ∀ (x y : Part n) (rf vf : Vec n ℝ),
      (∀ p' q' : Part n, lim p' q' (fun k => rf k - x.r k) = (⟨fun _ _ => 0, fun _ => 0, fun _ => 0⟩, ⟨fun _ => 0, 0, 0⟩)) →
      predicted lim s.small x y rf vf dt = predicted lim s.small (x.kicked dt) (y.kicked dt) rf vf dt := by
    intro x y rf vf hl
    unfold predicted atFace Part.kicked
    simp only [hl, add_zero]
    unfold evolve timeDeriv floored
    simp only [hzz, Finset.sum_const_zero, mul_zero, neg_zero, sub_zero, zero_div, add_zero, zero_add]
    congr 1
    funext k
    ring
  have hk : pairFlux K lim s p q dt = pairFlux K lim s (p.kicked dt) (q.kicked dt) dt := by
    unfold pairFlux tensor
    simp only [hpred p q _ _ lp, hpred q p _ _ lq]
    rfl
  have hG : gain K lim s p q dt = gain K lim s (p.kicked dt) (q.kicked dt) dt := by
    unfold gain; rw [hk]
  have hu := C72_gain hn K lim s hg ht hz hi hv hs (p.kicked dt) (q.kicked dt)
    ⟨fun k => W.v k + 1 / 2 * dt * a k, W.d, W.p⟩ (by simp only [Part.kicked, hp, ap]) (by simp only [Part.kicked, hq, aq]) hd hpr
    (lp _ _) (lq _ _) (fun _ => rfl) (fun _ => rfl) dt
  rw [hG, hu]
  change -dt * (W.d * dot (fun i => W.v i + 1 / 2 * dt * a i - vface s.static p q i) (area K s.small p q)) = _
  have e : (fun i => W.v i + 1 / 2 * dt * a i - vface s.static p q i) = fun i => 1 / 2 * dt * a i := by
    funext i
    simp only [vface, hst, vp, vq, Bool.false_eq_true, if_false]
    ring
  rw [e]
  have e2 : dot (fun i => 1 / 2 * dt * a i) (area K s.small p q) = 1 / 2 * dt * dot a (area K s.small p q) := by
    unfold dot
    rw [Finset.mul_sum]
    exact Finset.sum_congr rfl fun _ _ => by ring
  rw [e2]
  ring

/-! ### the Runge-Kutta scheme -/

/-- The face moves with the mean velocity of the two particles (up to the small number in the denominators). -/
theorem C72_rk_face (small : ℝ) (hs : 0 ≤ small) (p q : Part n) (hne : p.r ≠ q.r) (k : Fin n) :
    ∃ f : ℝ, 0 < f ∧ f ≤ 1 / 2 ∧ (small = 0 → f = 1 / 2) ∧
      rkVface small false p q k = (1 - f) * p.v k + f * q.v k := by
  have hpos : 0 < dot (rkSep p q) (rkSep p q) := by
    refine lt_of_le_of_ne (dot_nonneg _) fun h0 => hne ?_
    have := (Finset.sum_eq_zero_iff_of_nonneg (fun k _ => mul_self_nonneg (rkSep p q k))).mp h0.symm
    funext k
    have := mul_self_eq_zero.mp (this k (Finset.mem_univ k))
    simp only [rkSep] at this
    linarith
  set D := dot (rkSep p q) (rkSep p q) with hD
  have hden : 0 < D + small := by linarith
  have hf : dot (fun k => p.r k - rface p q k) (rkUnit small p q) * (1 / √(D + small)) = 1 / 2 * (D / (D + small)) := by
    have e : dot (fun k => p.r k - rface p q k) (rkUnit small p q) = 1 / 2 * D * (1 / √(D + small)) := by
      have eu : rkUnit small p q = fun k => rkSep p q k * (1 / √(D + small)) := by
        funext k
        simp only [rkUnit, hD]
      rw [eu]
      generalize 1 / √(D + small) = g
      rw [hD]
      unfold dot
      rw [Finset.mul_sum, Finset.sum_mul]
      refine Finset.sum_congr rfl fun k _ => ?_
      simp only [rface, rkSep]
      ring
    rw [e]
    have h2 : √(D + small) * √(D + small) = D + small := Real.mul_self_sqrt hden.le
    have h3 : √(D + small) ≠ 0 := (Real.sqrt_pos.mpr hden).ne'
    field_simp
    rw [pow_two, h2]
  refine ⟨1 / 2 * (D / (D + small)), by positivity, ?_, ?_, ?_⟩
  · have : D / (D + small) ≤ 1 := by rw [div_le_one hden]; linarith
    linarith
  · rintro rfl
    rw [add_zero, div_self hpos.ne', mul_one]
  · simp only [rkVface, Bool.false_eq_true, if_false]
    rw [mul_assoc, hf]
    ring

/-- When all signals go from the neighbour to the particle the first flux is the one of the gas of the neighbour. -/
theorem C72_rk_upwind [NeZero n] (K : Kernel) (lim : Lim n) (s : Scheme) (hg : 1 < s.gamma) (he : s.exact = false)
    (hz : s.zmf = false) (p q : Part n) (dt c : ℝ) :
    let u := rkUnit s.small p q
    let vf := rkVface s.small s.static p q
    let P := atFace lim p q (rface p q) vf
    let Q := atFace lim q p (rface p q) vf
    0 < P.d → 0 < P.p → 0 < Q.d → 0 < Q.p → s.gamma * P.p ≤ P.d * c ^ 2 → s.gamma * Q.p ≤ Q.d * c ^ 2 → 0 ≤ c →
    √(c ^ 2 + (s.gamma - 1) / 8 * dot (fun i => Q.v i - P.v i) fun i => Q.v i - P.v i) ≤ dot Q.v u →
    √(c ^ 2 + (s.gamma - 1) / 8 * dot (fun i => Q.v i - P.v i) fun i => Q.v i - P.v i) ≤ dot P.v u →
    (rkFluxes K lim s p q dt).1 = times (dot u (rkArea K s.small p q))
      (labFlux Q.d (fun i => Q.v i + vf i) Q.p (if s.iso then Q.p else Q.p / (s.gamma - 1)) u vf) := by
  intro u vf P Q hPd hPp hQd hQp hPc hQc hc0 hQ hP
  have cs : ∀ W : Prim n, 0 < W.d → 0 < W.p → s.gamma * W.p ≤ W.d * c ^ 2 →
      (ofPrim s.gamma s.iso W.v W.d W.p u).cs ≤ c ∧
        W.d * (ofPrim s.gamma s.iso W.v W.d W.p u).cs ^ 2 ≤ s.gamma * W.p := by
    intro W hd hp hh
    have hle : W.p ≤ s.gamma * W.p := by nlinarith
    cases hI : s.iso
    · simp only [ofPrim, Bool.false_eq_true, if_false]
      have h0 : 0 ≤ s.gamma * W.p / W.d := by positivity
      refine ⟨?_, ?_⟩
      · rw [Real.sqrt_le_left hc0, div_le_iff₀ hd]
        linarith
      · rw [Real.sq_sqrt h0, mul_div_cancel₀ _ hd.ne']
    · simp only [ofPrim, if_true]
      have h0 : 0 ≤ W.p / W.d := by positivity
      refine ⟨?_, ?_⟩
      · rw [Real.sqrt_le_left hc0, div_le_iff₀ hd]
        linarith
      · rw [Real.sq_sqrt h0, mul_div_cancel₀ _ hd.ne']
        exact hle
  have h := C28_upwind_left s.iso (ofPrim s.gamma s.iso Q.v Q.d Q.p u) (ofPrim s.gamma s.iso P.v P.d P.p u) u vf _ _ s.gamma c hg.le
    (ofPrim_adm hg s.iso hQd hQp u) (ofPrim_adm hg s.iso hPd hPp u) (cs Q hQd hQp hQc).2 (cs P hPd hPp hPc).2
    (cs Q hQd hQp hQc).1 (cs P hPd hPp hPc).1 hQ hP
  unfold rkFluxes rkStates rkRiemann
  simp only [he, hz, Bool.false_eq_true, if_false]
  change throughArea (outer (solve s.iso false (ofPrim s.gamma s.iso Q.v Q.d Q.p u) (ofPrim s.gamma s.iso P.v P.d P.p u) u vf).1 u)
    (rkArea K s.small p q) = _
  rw [h, through_outer]
  rfl

/-! ### cases that meet the hypotheses -/

/-- a particle at rest at 0 in the expanding gas of `exFlow` -/
noncomputable def God.exMoving : Part 1 := { exPart 0 with
  W := ⟨fun _ => 0, 1, 1⟩
  grad := ⟨fun _ _ => 1, fun _ => 0, fun _ => 0⟩
  sound := √2 }

/-- `C72_half_step` holds for the expanding gas at the face between 0 and 1. -/
example (w : Vec 1 ℝ) : HasDerivAt (fun dt => (predicted Lim.base (1 / 100) exMoving (exPart 1) (fun _ => 1 / 2) w dt).d -
    exFlow.rho (1 + 1 / 2 * dt) fun k => 1 / 2 + 1 / 2 * dt * w k) 0 0 := by
  have hal : along exFlow.rho 0 1 (fun _ => 1 / 2) = 0 := by simp [along, exFlow]
  have hap : along exFlow.p 0 1 (fun _ => 1 / 2) = 0 := by simp [along, exFlow]
  have hav : along (fun t x => exFlow.v t x 0) 0 1 (fun _ => 1 / 2) = 1 := by
    have : HasDerivAt (fun y : ℝ => Function.update (fun _ : Fin 1 => (1 / 2 : ℝ)) 0 y 0 / 1) 1 (1 / 2) := by
      simp only [Function.update_self]
      simpa using hasDerivAt_id' (1 / 2 : ℝ)
    exact this.deriv
  refine (C72_half_step exFlow 2 (by norm_num) 1 (fun _ => 1 / 2) w Lim.base (1 / 100) (by norm_num) exMoving (exPart 1)
    (exFlow_smooth _) (exFlow_conserves _) (by norm_num [exFlow]) (by norm_num [exFlow]) (by norm_num [exFlow, exMoving]) ?_ ?_).1.2
  · simp [atFace, Lim.base, exMoving, exPart, exFlow, dot]
  · simp only [Lim.base, exMoving, exPart, mul_one, mul_zero]
    congr 1
    · funext i k
      fin_cases i; fin_cases k
      exact hav.symm
    · funext k
      fin_cases k
      exact hal.symm
    · funext k
      fin_cases k
      exact hap.symm

/-- A particle that falls to the right together with its neighbour loses mass to it. -/
example (dt : ℝ) (h : 0 < dt) : (gain (m4Kernel 1) Lim.zero { exScheme with static := false }
    { exPart 0 with a := fun _ => 1, v := fun _ => 1 } { exPart 1 with a := fun _ => 1, v := fun _ => 1 } dt).mass < 0 := by
  rw [C72_fall_fails (Or.inl rfl) (m4Kernel 1) Lim.zero { exScheme with static := false } (by norm_num [exScheme])
    (by norm_num [exScheme]) rfl (fun h => by simp [exScheme] at h) ⟨rfl, rfl⟩ (by norm_num [exScheme]) rfl
    { exPart 0 with a := fun _ => 1, v := fun _ => 1 } { exPart 1 with a := fun _ => 1, v := fun _ => 1 } ⟨fun _ => 1, 1, 1⟩
    (fun _ => 1) rfl rfl (by norm_num [exScheme]) (by norm_num [exScheme]) rfl rfl rfl rfl dt (fun _ _ => rfl) (fun _ _ => rfl)]
  have hA : 0 < dot (area (m4Kernel 1) (1 / 100) (exPart 0) (exPart 1)) (fun k => (exPart 1).r k - (exPart 0).r k) :=
    (C72_face_direction ⟨le_refl _, by norm_num⟩ _ (C30_m4_valid 1 ⟨le_refl _, by norm_num⟩) _ (by norm_num) _ _
      (exPart_sound 0) (exPart_sound 1) _ _ (ex_built 0 1 (by norm_num)) (ex_built 1 0 (by norm_num))).2
      (fun h => by have := congrFun h 0; norm_num [exPart] at this) (Or.inl ⟨rfl, ex_reach⟩)
  have hA' : 0 < area (m4Kernel 1) (1 / 100) (exPart 0) (exPart 1) 0 := by
    simpa [dot, exPart] using hA
  have e : dot (fun _ : Fin 1 => (1 : ℝ)) (area (m4Kernel 1) { exScheme with static := false }.small
      { exPart 0 with a := fun _ => 1, v := fun _ => 1 } { exPart 1 with a := fun _ => 1, v := fun _ => 1 }) =
      area (m4Kernel 1) (1 / 100) (exPart 0) (exPart 1) 0 := by
    simp only [dot, Fin.sum_univ_one, one_mul]
    rfl
  rw [e, neg_lt_zero]
  positivity

/-- Two particles at different places, as `C72_rk_face` asks. -/
example : (exPart 0).r ≠ (exPart 1).r := fun h => by have := congrFun h 0; norm_num [exPart] at this

/-- two particles between which gas goes to the left faster than its signals -/
noncomputable def God.exFast (x : ℝ) : Part 1 := { exPart x with W := ⟨fun _ => -10, 1, 1⟩ }

/-- The flux between them is the one of the gas of the right one. -/
example : (rkFluxes (m4Kernel 1) Lim.zero exScheme (exFast 0) (exFast 1) 1).1.mass =
    -10 * dot (rkUnit (1 / 100) (exFast 0) (exFast 1)) (rkArea (m4Kernel 1) (1 / 100) (exFast 0) (exFast 1)) *
      rkUnit (1 / 100) (exFast 0) (exFast 1) 0 := by
  have hu : rkUnit (1 / 100) (exFast 0) (exFast 1) 0 ≤ -1 / 2 := by
    have h0 : √((1 : ℝ) + 1 / 100) ≤ 2 := by rw [Real.sqrt_le_left (by norm_num)]; norm_num
    have h1 : (0 : ℝ) < √(1 + 1 / 100) := Real.sqrt_pos.mpr (by norm_num)
    have h2 : 1 / 2 ≤ 1 / √((1 : ℝ) + 1 / 100) := one_div_le_one_div_of_le h1 h0
    simp only [rkUnit, rkSep, exFast, exPart, dot, Fin.sum_univ_one]
    norm_num at h2 ⊢
    exact h2
  have hz : ∀ x : ℝ, √(2 ^ 2 + (exScheme.gamma - 1) / 8 * dot (fun _ : Fin 1 => (-10 : ℝ) + 0 - 0 - (-10 + 0 - 0))
      fun _ => (-10 : ℝ) + 0 - 0 - (-10 + 0 - 0)) = 2 := by
    intro _
    simp only [dot, Fin.sum_univ_one]
    rw [show (2 : ℝ) ^ 2 + (exScheme.gamma - 1) / 8 * ((-10 + 0 - 0 - (-10 + 0 - 0)) * (-10 + 0 - 0 - (-10 + 0 - 0))) = 2 ^ 2 by ring]
    exact Real.sqrt_sq (by norm_num)
  have hd : (2 : ℝ) ≤ dot (fun _ : Fin 1 => (-10 : ℝ) + 0 - 0) (rkUnit (1 / 100) (exFast 0) (exFast 1)) := by
    simp only [dot, Fin.sum_univ_one]
    linarith
  rw [C72_rk_upwind (m4Kernel 1) Lim.zero exScheme (by norm_num [exScheme]) rfl rfl (exFast 0) (exFast 1) 1 2
    (by norm_num [atFace, Lim.zero, exFast, exPart]) (by norm_num [atFace, Lim.zero, exFast, exPart])
    (by norm_num [atFace, Lim.zero, exFast, exPart]) (by norm_num [atFace, Lim.zero, exFast, exPart])
    (by norm_num [atFace, Lim.zero, exFast, exPart, exScheme]) (by norm_num [atFace, Lim.zero, exFast, exPart, exScheme])
    (by norm_num) ((hz 0).le.trans hd) ((hz 0).le.trans hd)]
  simp [times, labFlux, atFace, Lim.zero, exFast, exPart, exScheme, dot, rkVface]
  ring

end Gandalf
