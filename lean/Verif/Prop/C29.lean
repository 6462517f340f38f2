import Verif.Prop.C56
import Verif.Spec.Hllc
import Mathlib.Tactic.FinCases
import Mathlib.LinearAlgebra.Matrix.NonsingularInverse

/-!
# C29 – the exact Riemann solver in any direction: rotation, fluxes, zero-mass-flux mode
-/

set_option autoImplicit false
set_option linter.unusedSectionVars false

namespace Gandalf

open Exact Hllc

namespace Exact

theorem atan2_cos_sin (y x : ℝ) : √(x * x + y * y) * Real.cos (atan2 y x) = x ∧ √(x * x + y * y) * Real.sin (atan2 y x) = y := by
  have hn : ‖(⟨x, y⟩ : ℂ)‖ = √(x * x + y * y) := by
    rw [Complex.norm_def, Complex.normSq_mk]
  have h1 := Complex.norm_mul_cos_arg ⟨x, y⟩
  have h2 := Complex.norm_mul_sin_arg ⟨x, y⟩
  rw [hn] at h1 h2
  exact ⟨h1, h2⟩

theorem trans_eq {n : ℕ} (hn : n = 1 ∨ n = 2 ∨ n = 3) (u : Vec n ℝ) : (rotMats n u).2 = (rotMats n u).1.transpose := by
  rcases hn with rfl | rfl | rfl
  · ext i j; fin_cases i; fin_cases j; rfl
  · ext i j; fin_cases i <;> fin_cases j <;> simp [rotMats]
  · ext i j; fin_cases i <;> fin_cases j <;> simp [rotMats]

theorem mul_trans {n : ℕ} (hn : n = 1 ∨ n = 2 ∨ n = 3) (u : Vec n ℝ) (hu : dot u u = 1) :
    (rotMats n u).1 * (rotMats n u).2 = 1 := by
  rcases hn with rfl | rfl | rfl
  · ext i j
    fin_cases i; fin_cases j
    have : u 0 * u 0 = 1 := by simpa [dot] using hu
    simp [rotMats, Matrix.mul_apply, this]
  · ext i j
    simp only [rotMats]
    generalize atan2 (u 1) (u 0) = t
    have h := Real.sin_sq_add_cos_sq t
    fin_cases i <;> fin_cases j <;> simp [Matrix.mul_apply, Fin.sum_univ_two] <;> nlinarith
  · ext i j
    simp only [rotMats]
    generalize atan2 (u 1) (u 0) = p
    generalize atan2 (u 2) √(u 0 * u 0 + u 1 * u 1) = d
    have hp := Real.sin_sq_add_cos_sq p
    have hd := Real.sin_sq_add_cos_sq d
    generalize Real.sin p = sp at *
    generalize Real.cos p = cp at *
    generalize Real.sin d = sd at *
    generalize Real.cos d = cd at *
    fin_cases i <;> fin_cases j <;> simp [Matrix.mul_apply, Fin.sum_univ_three]
    · linear_combination cp ^ 2 * hd + hp
    · linear_combination cp * sp * hd
    · ring
    · linear_combination cp * sp * hd
    · linear_combination sp ^ 2 * hd + hp
    · ring
    · ring
    · ring
    · linear_combination hd

theorem col_normal {n : ℕ} [NeZero n] (hn : n = 1 ∨ n = 2 ∨ n = 3) (u : Vec n ℝ) (hu : dot u u = 1) (i : Fin n) :
    (rotMats n u).1 i 0 = u i := by
  rcases hn with rfl | rfl | rfl
  · fin_cases i; rfl
  · obtain ⟨h1, h2⟩ := atan2_cos_sin (u 1) (u 0)
    have : u 0 * u 0 + u 1 * u 1 = 1 := by simpa [dot, Fin.sum_univ_two] using hu
    rw [this, Real.sqrt_one, one_mul] at h1 h2
    fin_cases i
    · exact h1
    · exact h2
  · obtain ⟨h1, h2⟩ := atan2_cos_sin (u 1) (u 0)
    obtain ⟨h3, h4⟩ := atan2_cos_sin (u 2) √(u 0 * u 0 + u 1 * u 1)
    have hs : u 0 * u 0 + u 1 * u 1 + u 2 * u 2 = 1 := by simpa [dot, Fin.sum_univ_three] using hu
    rw [Real.mul_self_sqrt (add_nonneg (mul_self_nonneg _) (mul_self_nonneg _)), hs, Real.sqrt_one, one_mul] at h3 h4
    fin_cases i
    · change Real.cos (atan2 (u 2) √(u 0 * u 0 + u 1 * u 1)) * Real.cos (atan2 (u 1) (u 0)) = u 0
      rw [h3, h1]
    · change Real.cos (atan2 (u 2) √(u 0 * u 0 + u 1 * u 1)) * Real.sin (atan2 (u 1) (u 0)) = u 1
      rw [h3, h2]
    · exact h4

theorem dot_single {n : ℕ} [NeZero n] (M : Matrix (Fin n) (Fin n) ℝ) (v : Vec n ℝ) : M.transpose.mulVec v 0 = dot (fun i => M i 0) v := rfl

theorem dot_comm' {n : ℕ} (a b : Vec n ℝ) : dot a b = dot b a := by
  unfold dot
  exact Finset.sum_congr rfl fun _ _ => mul_comm _ _

end Exact

variable {n : ℕ} [NeZero n]

/-- Rotating into the frame of the face and back, in either order, is the identity. -/
theorem C29_inverse (hn : n = 1 ∨ n = 2 ∨ n = 3) (u : Vec n ℝ) (hu : dot u u = 1) (v : Vec n ℝ) :
    rotate (rotMats n u).1 (rotate (rotMats n u).2 v) = v ∧ rotate (rotMats n u).2 (rotate (rotMats n u).1 v) = v := by
  have h := mul_trans hn u hu
  have h' : (rotMats n u).2 * (rotMats n u).1 = 1 := mul_eq_one_comm.mp h
  constructor
  · unfold rotate
    rw [Matrix.mulVec_mulVec, h, Matrix.one_mulVec]
  · unfold rotate
    rw [Matrix.mulVec_mulVec, h', Matrix.one_mulVec]

/-- The rotation keeps scalar products, and takes the first axis to the normal. -/
theorem C29_rotation (hn : n = 1 ∨ n = 2 ∨ n = 3) (u : Vec n ℝ) (hu : dot u u = 1) (v w : Vec n ℝ) :
    dot (rotate (rotMats n u).1 v) (rotate (rotMats n u).1 w) = dot v w ∧
    dot (rotate (rotMats n u).2 v) (rotate (rotMats n u).2 w) = dot v w ∧
    rotate (rotMats n u).1 (Pi.single 0 1) = u ∧ rotate (rotMats n u).2 u = Pi.single 0 1 ∧
    rotate (rotMats n u).2 v 0 = dot v u := by
  have h := mul_trans hn u hu
  have h' : (rotMats n u).2 * (rotMats n u).1 = 1 := mul_eq_one_comm.mp h
  have ht := trans_eq hn u
  have hd : ∀ a b : Vec n ℝ, dot a b = dotProduct a b := fun a b => rfl
  have hc : rotate (rotMats n u).1 (Pi.single 0 1) = u := by
    funext i
    unfold rotate
    rw [Matrix.mulVec_single_one]
    exact col_normal hn u hu i
  refine ⟨?_, ?_, hc, ?_, ?_⟩
  · unfold rotate
    rw [hd, Matrix.dotProduct_mulVec, Matrix.vecMul_mulVec, ← ht, h', Matrix.vecMul_one]
    rfl
  · unfold rotate
    rw [hd, Matrix.dotProduct_mulVec, Matrix.vecMul_mulVec, ht, Matrix.transpose_transpose, ← ht, h, Matrix.vecMul_one]
    rfl
  · have := (C29_inverse hn u hu (Pi.single 0 1)).2
    rw [hc] at this
    exact this
  · unfold rotate
    rw [ht, dot_single, dot_comm']
    congr 1
    funext i
    exact col_normal hn u hu i

/-- the component of a vector across the normal -/
noncomputable def Exact.across (v nrm : Vec n ℝ) : Vec n ℝ := fun i => v i - dot v nrm * nrm i

/-- flux through the face with normal `nrm` -/
noncomputable def Exact.VFlux.through (f : VFlux n) (nrm : Vec n ℝ) : Flux n where
  mom := fun i => ∑ k, f.mom i k * nrm k
  mass := dot f.mass nrm
  en := dot f.en nrm

namespace Exact

theorem faceFlux_through (γ d p : ℝ) (hd : 0 < d) (v vface nrm : Vec n ℝ) :
    (faceFlux γ d p v vface).through nrm = labFlux d (fun k => v k + vface k) p (p / (γ - 1)) nrm vface := by
  unfold faceFlux VFlux.through labFlux
  have e : ∀ k, v k + vface k - vface k = v k := fun k => by ring
  simp only [e]
  congr 1
  · funext i
    have : ∀ k, (if i = k then d * (v k + vface k) * v k + p else d * v k * (v i + vface i)) * nrm k =
        d * (v i + vface i) * (v k * nrm k) + if i = k then p * nrm k else 0 := by
      intro k
      by_cases h : i = k
      · rw [if_pos h, if_pos h, h]; ring
      · rw [if_neg h, if_neg h]; ring
    simp only [this]
    rw [Finset.sum_add_distrib, ← Finset.mul_sum, Finset.sum_ite_eq]
    simp only [Finset.mem_univ, if_true]
    unfold dot
    ring
  · unfold dot
    rw [Finset.mul_sum]
    exact Finset.sum_congr rfl fun _ _ => by ring
  · have key : d * (0.5 * dot (fun k => v k + vface k) (fun k => v k + vface k) + p / (γ - 1) / d) =
        d * dot (fun k => v k + vface k) (fun k => v k + vface k) / 2 + p / (γ - 1) := by
      rw [mul_add, mul_div_cancel₀ _ hd.ne']
      ring
    rw [key]
    generalize d * dot (fun k => v k + vface k) (fun k => v k + vface k) / 2 + p / (γ - 1) = E
    unfold dot
    rw [Finset.sum_mul, Finset.mul_sum, ← Finset.sum_add_distrib]
    exact Finset.sum_congr rfl fun k _ => by ring

theorem side_u (hn : n = 1 ∨ n = 2 ∨ n = 3) (γ : ℝ) (W : Prim n) (u : Vec n ℝ) (hu : dot u u = 1) : (side γ W u).u = dot W.v u :=
  (C29_rotation hn u hu W.v W.v).2.2.2.2

theorem side_good {γ : ℝ} (hγ : 1 < γ) (W : Prim n) (hd : 0 < W.d) (hp : 0 < W.p) (u : Vec n ℝ) : Good γ (side γ W u) := by
  have h : 0 < γ * W.p / W.d := div_pos (mul_pos (by linarith) hp) hd
  refine ⟨hp, hd, Real.sqrt_pos.mpr h, ?_⟩
  change W.d * √(γ * W.p / W.d) ^ 2 = γ * W.p
  rw [Real.sq_sqrt h.le]
  field_simp

/-- rotating back a normal velocity together with a transverse one -/
theorem rotate_back (hn : n = 1 ∨ n = 2 ∨ n = 3) (u : Vec n ℝ) (hu : dot u u = 1) (v : Vec n ℝ) (a : ℝ) (i : Fin n) :
    rotate (rotMats n u).1 (fun k => if k = 0 then a else rotate (rotMats n u).2 v k) i = across v u i + a * u i := by
  have e : (fun k => if k = 0 then a else rotate (rotMats n u).2 v k) =
      rotate (rotMats n u).2 v + (a - dot v u) • (Pi.single 0 1 : Vec n ℝ) := by
    funext k
    by_cases h : k = 0
    · subst h
      simp only [if_true, Pi.add_apply, Pi.smul_apply, Pi.single_eq_same, smul_eq_mul, mul_one]
      rw [(C29_rotation hn u hu v v).2.2.2.2]
      ring
    · simp [h]
  rw [e]
  have h1 := congrFun (C29_inverse hn u hu v).1 i
  have h2 := congrFun (C29_rotation hn u hu v v).2.2.1 i
  have h3 : rotate (rotMats n u).1 (rotate (rotMats n u).2 v + (a - dot v u) • (Pi.single 0 1 : Vec n ℝ)) i =
      rotate (rotMats n u).1 (rotate (rotMats n u).2 v) i + (a - dot v u) * rotate (rotMats n u).1 (Pi.single 0 1) i := by
    unfold rotate
    rw [Matrix.mulVec_add, Matrix.mulVec_smul]
    rfl
  rw [h3, h1, h2]
  unfold across
  ring

end Exact

variable {γ : ℝ}

/-- Without zero-mass-flux mode and away from vacuum, the flux through the face is that of a gas with the sampled density
and pressure, whose velocity has the sampled component along the normal and the components of the upwind side across it. -/
theorem C29_flux (hn : n = 1 ∨ n = 2 ∨ n = 3) (small tol : ℝ) (N : ℕ) (Wl Wr : Prim n) (u vface : Vec n ℝ) (hu : dot u u = 1)
    (a : Sample) (st : ℝ × ℝ) (hst : st = starRegion γ small tol N (side γ Wl u) (side γ Wr u)) (hpos : 0 < st.1)
    (ha : a = sample γ st.1 st.2 0 (side γ Wl u) (side γ Wr u)) (had : 0 < a.d) :
    (fluxes γ small tol N false Wl Wr u vface).1.through u =
      labFlux a.d (fun i => across (if 0 < a.u then Wl.v else Wr.v) u i + a.u * u i + vface i) a.p (a.p / (γ - 1)) u vface ∧
    (fluxes γ small tol N false Wl Wr u vface).2 = vface := by
  unfold fluxes
  simp only [Bool.false_eq_true, if_false]
  rw [← hst, if_pos hpos, ← ha]
  refine ⟨?_, rfl⟩
  simp only
  rw [faceFlux_through γ a.d a.p had]
  congr 1
  funext i
  congr 1
  by_cases h : 0 < a.u
  · rw [if_pos h, if_pos h]
    exact rotate_back hn u hu Wl.v a.u i
  · rw [if_neg h, if_neg h]
    exact rotate_back hn u hu Wr.v a.u i

/-- In zero-mass-flux mode the mass flux is exactly zero, the momentum flux is the sampled pressure, the energy flux its
work on the face, and the face moves with the sampled velocity. -/
theorem C29_zmf (small tol : ℝ) (N : ℕ) (Wl Wr : Prim n) (u vface : Vec n ℝ) :
    (∀ k, (fluxes γ small tol N true Wl Wr u vface).1.mass k = 0) ∧
    ∀ (st : ℝ × ℝ) (a : Sample), st = starRegion γ small tol N (side γ Wl u) (side γ Wr u) → 0 < st.1 →
      a = sample γ st.1 st.2 0 (side γ Wl u) (side γ Wr u) →
      (fluxes γ small tol N true Wl Wr u vface).2 = (fun k => vface k + a.u * u k) ∧
      (∀ i k, (fluxes γ small tol N true Wl Wr u vface).1.mom i k = if i = k then a.p else 0) ∧
      ∀ k, (fluxes γ small tol N true Wl Wr u vface).1.en k = a.p * (fluxes γ small tol N true Wl Wr u vface).2 k := by
  have hz : rotate (rotMats n u).1 (fun _ => 0) = fun _ => 0 := Matrix.mulVec_zero _
  constructor
  · intro k
    unfold fluxes
    simp only [if_true]
    split_ifs
    · simp only [hz]
      unfold faceFlux
      simp
    · rfl
  · intro st a hst hpos ha
    unfold fluxes
    simp only [if_true]
    rw [← hst, if_pos hpos, ← ha]
    refine ⟨rfl, fun i k => ?_, fun k => ?_⟩
    · simp only [hz]
      unfold faceFlux
      simp
    · simp only [hz]
      unfold faceFlux
      simp

/-- Identical states on both sides give the flux of that state. -/
theorem C29_identical (hγ : 1 < γ) (hn : n = 1 ∨ n = 2 ∨ n = 3) (small tol : ℝ) (ht : 0 < tol) (N : ℕ) (W : Prim n) (hd : 0 < W.d)
    (hp : 0 < W.p) (hs : small ≤ W.p) (u vface : Vec n ℝ) (hu : dot u u = 1) :
    (fluxes γ small tol N false W W u vface).1.through u =
      labFlux W.d (fun i => W.v i + vface i) W.p (W.p / (γ - 1)) u vface := by
  have hS := side_good hγ W hd hp u
  have hst := C55_identical (side γ W u) hS small tol hs ht N
  have ha : sample γ (side γ W u).p (side γ W u).u 0 (side γ W u) (side γ W u) = ⟨W.d, (side γ W u).u, W.p⟩ := by
    have hL : ∀ s, sampleL γ (side γ W u).p (side γ W u).u s (side γ W u) = ⟨W.d, (side γ W u).u, W.p⟩ := by
      intro s
      unfold sampleL
      rw [if_pos le_rfl, div_self hS.p.ne', Real.one_rpow, Real.one_rpow, mul_one, mul_one]
      by_cases h : s ≤ (side γ W u).u - (side γ W u).c
      · rw [if_pos h]; rfl
      · rw [if_neg h, if_pos (not_le.mp h)]; rfl
    unfold sample
    split_ifs
    · exact hL 0
    · rw [sampleR_mirror hγ hS hS.p (by rw [waveFn_rare le_rfl, rare_at hS, add_zero])]
      have hM : Good γ (mirror (side γ W u)) := ⟨hS.p, hS.d, hS.c, hS.gas⟩
      have : sampleL γ (side γ W u).p (-(side γ W u).u) (-0) (mirror (side γ W u)) = ⟨W.d, -(side γ W u).u, W.p⟩ := by
        unfold sampleL
        rw [if_pos (show (side γ W u).p ≤ (mirror (side γ W u)).p from le_rfl)]
        have h1 : (side γ W u).p / (mirror (side γ W u)).p = 1 := div_self hS.p.ne'
        rw [h1, Real.one_rpow, Real.one_rpow, mul_one, mul_one]
        by_cases h : -0 ≤ (mirror (side γ W u)).u - (mirror (side γ W u)).c
        · rw [if_pos h]; rfl
        · rw [if_neg h, if_pos (show -(side γ W u).u - (mirror (side γ W u)).c < -0 from not_le.mp h)]; rfl
      rw [this]
      simp [Sample.flip]
  have h := (C29_flux (γ := γ) hn small tol N W W u vface hu ⟨W.d, (side γ W u).u, W.p⟩ _ hst.symm hS.p ha.symm hd).1
  rw [h]
  simp only
  congr 1
  funext i
  rw [ite_self, side_u hn γ W u hu]
  unfold across
  ring

/-! ### what is wrong: vacuum and zero-mass-flux mode with supersonic flow -/

/-- a gas of density 7/5 and pressure 1 (sound speed 1 for index 7/5) with velocity `u` in one dimension -/
noncomputable def prim1 (u : ℝ) : Prim 1 := ⟨fun _ => u, 7 / 5, 1⟩

theorem prim1_side (u : ℝ) : side (7 / 5) (prim1 u) (fun _ => 1) = collide u := by
  have hu : (side (7 / 5) (prim1 u) (fun _ => 1)).u = u := by
    rw [side_u (Or.inl rfl) _ _ _ (by simp [dot])]
    simp [dot, prim1]
  have hc : (side (7 / 5) (prim1 u) (fun _ => 1)).c = 1 := by
    change √(7 / 5 * 1 / (7 / 5)) = 1
    norm_num
  cases h : side (7 / 5) (prim1 u) (fun _ => 1) with
  | mk p d c v =>
    rw [h] at hu hc
    have h1 : p = 1 := by
      have : (side (7 / 5) (prim1 u) (fun _ => 1)).p = 1 := rfl
      rw [h] at this; exact this
    have h2 : d = 7 / 5 := by
      have : (side (7 / 5) (prim1 u) (fun _ => 1)).d = 7 / 5 := rfl
      rw [h] at this; exact this
    simp only at hu hc
    rw [h1, h2, hu, hc]
    rfl

/-- Two streams receding from each other, both moving to the right at more than nine times the sound speed: no signal of
the right stream reaches the face, the left stream crosses it undisturbed, yet the routine returns no flux at all. -/
theorem C29_vacuum_fails (small tol : ℝ) (N : ℕ) :
    (collide 10).u - (collide 10).c = 9 ∧
    (fluxes (7 / 5) small tol N false (prim1 10) (prim1 30) (fun _ => 1) fun _ => 0).1.through (fun _ => 1) = ⟨fun _ => 0, 0, 0⟩ ∧
    (labFlux (n := 1) (7 / 5) (fun _ => 10) 1 (1 / (7 / 5 - 1)) (fun _ => 1) fun _ => 0).mass = 14 := by
  refine ⟨by norm_num [collide], ?_, by norm_num [labFlux, dot]⟩
  have hv : Vacuum (7 / 5) (collide 10) (collide 30) := by norm_num [Vacuum, collide, g7]
  unfold fluxes
  simp only [prim1_side]
  have : starRegion (7 / 5) small tol N (collide 10) (collide 30) = (0, 0) := by
    unfold starRegion
    rw [if_pos hv]
  rw [this, if_neg (lt_irrefl _)]
  unfold VFlux.through dot
  simp

/-- Zero-mass-flux mode with both sides moving supersonically to the right: the contact moves with velocity 10, but the
face is moved with the velocity 11 of the left data, and the momentum flux is the pressure of the left data although the
pressure at the contact is larger. -/
theorem C29_zmf_contact_fails (small tol : ℝ) (hs : 0 < small) (hs1 : small ≤ 1) (N : ℕ) :
    ∃ ps, Balanced (7 / 5) (collide 11) (collide 9) ps ∧ 1 < ps ∧
      (collide 11).u - waveFn (7 / 5) (collide 11) ps = 10 ∧
      (fluxes (7 / 5) small tol N true (prim1 11) (prim1 9) (fun _ => 1) fun _ => 0).2 0 = 11 ∧
      (fluxes (7 / 5) small tol N true (prim1 11) (prim1 9) (fun _ => 1) fun _ => 0).1.mom 0 0 = 1 := by
  have hγ : (1 : ℝ) < 7 / 5 := by norm_num
  have hL := collide_good 11
  have hR := collide_good 9
  have hv : ¬ Vacuum (7 / 5) (collide 11) (collide 9) := by norm_num [Vacuum, collide, g7]
  obtain ⟨ps, hps, _⟩ := (C55_vacuum_test hγ hL hR).mp hv
  have hw : ∀ p, waveFn (7 / 5) (collide 9) p = waveFn (7 / 5) (collide 11) p := fun _ => rfl
  have hf : waveFn (7 / 5) (collide 11) ps = 1 := by
    have := hps.2
    rw [hw] at this
    have e1 : (collide 11).u = 11 := rfl
    have e2 : (collide 9).u = 9 := rfl
    rw [e1, e2] at this
    linarith
  have h1 : waveFn (7 / 5) (collide 11) 1 = 0 := by
    have := rare_at hL
    rw [← waveFn_rare le_rfl] at this
    exact this
  have hlt : 1 < ps := by
    by_contra h
    have := waveFn_mono_le hγ hL hps.1 (not_lt.mp h)
    rw [hf, h1] at this
    norm_num at this
  have h100 : ps ≤ 100 := by
    by_contra h
    have := waveFn_mono_le hγ hL (by norm_num : (0 : ℝ) < 100) (not_le.mp h).le
    rw [hf, waveFn_shock (by norm_num [collide])] at this
    unfold shockFn at this
    have hb : (1 / 20 : ℝ) ≤ √(g5 (7 / 5) / (collide 11).d / (100 + (collide 11).p * g6 (7 / 5))) := by
      refine Real.le_sqrt_of_sq_le ?_
      norm_num [g5, g6, collide]
    have e1 : (collide 11).p = 1 := rfl
    rw [e1] at this hb
    nlinarith
  obtain ⟨r1, r2, _⟩ := C55_result hγ hL hR small tol hs N hv ps hps
  have hst2 : (starRegion (7 / 5) small tol N (collide 11) (collide 9)).2 = 10 := by
    unfold starRegion
    rw [if_neg hv]
    simp only [hw, sub_self, mul_zero, add_zero]
    norm_num [collide]
  obtain ⟨p, hp⟩ : ∃ p, p = (starRegion (7 / 5) small tol N (collide 11) (collide 9)).1 := ⟨_, rfl⟩
  rw [← hp] at r1 r2
  have hp0 : 0 < p := lt_of_lt_of_le hs r1
  have hp100 : p ≤ 100 := le_trans r2 (max_le (by linarith) h100)
  have hsam : sample (7 / 5) p 10 0 (collide 11) (collide 9) = ⟨7 / 5, 11, 1⟩ := by
    unfold sample
    rw [if_pos (by norm_num)]
    unfold sampleL
    have e1 : (collide 11).p = 1 := rfl
    have e2 : (collide 11).u = 11 := rfl
    have e3 : (collide 11).c = 1 := rfl
    have e4 : (collide 11).d = 7 / 5 := rfl
    simp only [e1, e2, e3, e4]
    by_cases h : p ≤ 1
    · rw [if_pos h, if_pos (by norm_num)]
    · rw [if_neg h, if_pos]
      have : √(g2 (7 / 5) * (p / 1) + g1 (7 / 5)) ≤ 11 := by
        rw [Real.sqrt_le_left (by norm_num)]
        norm_num [g1, g2]
        linarith
      linarith
  obtain ⟨z1, z2, _⟩ := (C29_zmf (γ := 7 / 5) small tol N (prim1 11) (prim1 9) (fun _ => 1) fun _ => 0).2 (p, 10) ⟨7 / 5, 11, 1⟩
    (by rw [prim1_side, prim1_side, hp, ← hst2]) hp0 (by rw [prim1_side, prim1_side, hsam])
  refine ⟨ps, hps, hlt, ?_, ?_, ?_⟩
  · rw [hf]
    norm_num [collide]
  · rw [z1]
    norm_num
  · rw [z2]
    norm_num

/-! ### a concrete case -/

/-- the pole of the coordinate system, and an oblique direction -/
example : dot (fun i : Fin 3 => if i = 2 then (1 : ℝ) else 0) (fun i => if i = 2 then 1 else 0) = 1 := by
  norm_num [dot, Fin.sum_univ_three]

example : dot ![(2 / 3 : ℝ), 2 / 3, 1 / 3] ![2 / 3, 2 / 3, 1 / 3] = 1 := by
  simp only [dot, Fin.sum_univ_three, Matrix.cons_val]
  norm_num

/-- identical states: the hypotheses of `C29_flux` hold -/
example : ∃ st : ℝ × ℝ, st = starRegion (7 / 5) (1 / 1000) (1 / 1000) 10 (side (7 / 5) (prim1 2) fun _ => 1) (side (7 / 5) (prim1 2) fun _ => 1) ∧
    0 < st.1 := by
  refine ⟨_, rfl, ?_⟩
  rw [prim1_side, C55_identical _ (collide_good 2) _ _ (by norm_num [collide]) (by norm_num)]
  norm_num [collide]

end Gandalf
