import Verif.Proof.GodunovPair
import Verif.Prop.C30
import Mathlib.Algebra.Order.Chebyshev

/-!
# C72: the flux between two particles of the meshless schemes
-/

set_option autoImplicit false
set_option linter.unusedSectionVars false

namespace Gandalf

open God Hllc Exact

variable {n : ℕ}

/-! ### the face -/

/-- The face is the same from both sides, with the opposite sign. -/
theorem C72_face_opposite (K : Kernel) (small : ℝ) (p q : Part n) (k : Fin n) :
    area K small q p k = -area K small p q k := by
  rw [area_swap]

/-- The face never looks back: it has no negative component along the line from the particle to the neighbour, and a positive
one if either particle has a good gradient matrix and reaches the other with its kernel. -/
theorem C72_face_direction (hn : 1 ≤ n ∧ n ≤ 3) (K : Kernel) (hK : K.Valid n) (small : ℝ) (hs : 0 < small) (p q : Part n)
    (hp : Sound p) (hq : Sound q) (nbp nbq : List (Vec n ℝ)) (bp : Built K nbp p) (bq : Built K nbq q) :
    0 ≤ dot (area K small p q) (fun k => q.r k - p.r k) ∧
    (p.r ≠ q.r →
      (p.bad = false ∧ 0 < K.w0 (√(dot (fun k => q.r k - p.r k) (fun k => q.r k - p.r k)) / p.h)) ∨
      (q.bad = false ∧ 0 < K.w0 (√(dot (fun k => q.r k - p.r k) (fun k => q.r k - p.r k)) / q.h)) →
      0 < dot (area K small p q) (fun k => q.r k - p.r k)) := by
  have h1 := psiJ_dir hn hK hs hp bp (sep p q)
  have h2 := psiJ_dir hn hK hs hq bq (sep p q)
  have hvp := hp.ndens
  have hvq := hq.ndens
  change 0 ≤ dot (area K small p q) (sep p q) ∧ _
  rw [area_dot]
  have a1 := mul_nonneg (one_div_nonneg.mpr hvp.le) h1.1
  have a2 := mul_nonneg (one_div_nonneg.mpr hvq.le) h2.1
  refine ⟨by linarith, fun hne hw => ?_⟩
  have hd : sep p q ≠ 0 := fun h => hne (funext fun k => by
    have := congrFun h k
    simp only [sep, Pi.zero_apply] at this
    linarith)
  change 0 < dot (area K small p q) (sep p q)
  rw [area_dot]
  rcases hw with ⟨hb, hw⟩ | ⟨hb, hw⟩
  · have := mul_pos (one_div_pos.mpr hvp) (h1.2 hb hd hw)
    linarith
  · have := mul_pos (one_div_pos.mpr hvq) (h2.2 hb hd hw)
    linarith

/-- The vectors from which the faces of a particle are made give the gradient of every linear function. -/
theorem C72_face_linear (hn : 1 ≤ n ∧ n ≤ 3) (K : Kernel) (small : ℝ) (p : Part n) (nb : List (Vec n ℝ)) (hb : Built K nb p)
    (hg : p.bad = false) (f : Vec n ℝ → ℝ) (g : Vec n ℝ) (hf : ∀ y ∈ nb, f y = f p.r + ∑ k, g k * (y k - p.r k)) (k : Fin n) :
    (nb.map fun y => (f y - f p.r) * psiJ K small p (fun k => y k - p.r k) k).sum = g k := by
  rw [← psi_linear hn (small := small) hb hg g k]
  congr 1
  refine List.map_congr_left fun y hy => ?_
  rw [hf y hy]
  unfold dot
  ring

/-! ### the states at the face -/

/-- The time derivative of the half step is the rate of change of a smooth flow as the moving face sees it: for every flow that
conserves mass, momentum and energy under the acceleration `a`, and every velocity `w` of the face. -/
theorem C72_predictor (F : Flow n) (gamma : ℝ) (hg : gamma ≠ 1) (a : Vec n ℝ) (t : ℝ) (x : Vec n ℝ) (hs : F.Smooth t x)
    (hc : F.Conserves gamma a t x) (hr : F.rho t x ≠ 0) (c : ℝ) (hcs : F.rho t x * c ^ 2 = gamma * F.p t x) (w : Vec n ℝ) :
    let g : Grad n := ⟨fun i k => along (fun t x => F.v t x i) k t x, fun k => along F.rho k t x, fun k => along F.p k t x⟩
    let D := timeDeriv ⟨fun k => F.v t x k - w k, F.rho t x, F.p t x⟩ g c
    SeenBy F.rho D.d w t x ∧ SeenBy F.p D.p w t x ∧ ∀ i, SeenBy (fun t x => F.v t x i) (D.v i + a i) w t x := by
  intro g D
  obtain ⟨h1, h2, h3⟩ := primitive F hg hs hc hr
  have key : ∀ G : Fin n → ℝ, dot (fun k => F.v t x k - w k) G = (∑ k, F.v t x k * G k) - ∑ k, w k * G k := by
    intro G
    unfold dot
    rw [← Finset.sum_sub_distrib]
    exact Finset.sum_congr rfl fun _ _ => by ring
  refine ⟨?_, ?_, fun i => ?_⟩
  · have := seen_eq hs.rho w
    have e : D.d = rate F.rho t x + ∑ k, w k * along F.rho k t x := by
      change -dot (fun k => F.v t x k - w k) (fun k => along F.rho k t x) - F.rho t x * _ = _
      rw [key, h1]
      ring
    rwa [e]
  · have := seen_eq hs.p w
    have e : D.p = rate F.p t x + ∑ k, w k * along F.p k t x := by
      change -dot (fun k => F.v t x k - w k) (fun k => along F.p k t x) - F.rho t x * c * c * _ = _
      rw [key, h3, show F.rho t x * c * c = gamma * F.p t x by rw [← hcs]; ring]
      ring
    rwa [e]
  · have := seen_eq (f := fun t x => F.v t x i) (hs.v i) w
    have e : D.v i + a i = rate (fun t x => F.v t x i) t x + ∑ k, w k * along (fun t x => F.v t x i) k t x := by
      change -dot (fun k => F.v t x k - w k) (fun k => along (fun t x => F.v t x i) k t x) - along F.p i t x / F.rho t x + a i = _
      rw [key, h2]
      ring
    rwa [e]

/-- Where the gas is a linear function of place, and the particle has the true gradients and no limiter acts, the state at the
face is the one of the gas, relative to the face. -/
theorem C72_linear_face (p q : Part n) (W : Vec n ℝ → Prim n) (g : Grad n) (x0 : Vec n ℝ) (W0 : Prim n)
    (hW : ∀ x, W x = ⟨fun i => W0.v i + dot (g.v i) fun k => x k - x0 k, W0.d + dot g.d fun k => x k - x0 k,
      W0.p + dot g.p fun k => x k - x0 k⟩)
    (hp : p.W = W p.r) (hg : p.grad = g) (ha : p.alpha = ⟨fun _ => 1, 1, 1⟩) (rf vf : Vec n ℝ) :
    atFace Lim.base p q rf vf = ⟨fun i => (W rf).v i - vf i, (W rf).d, (W rf).p⟩ := by
  have key : ∀ G : Vec n ℝ, (dot G fun k => p.r k - x0 k) + (dot G fun k => rf k - p.r k) = dot G fun k => rf k - x0 k := by
    intro G
    unfold dot
    rw [← Finset.sum_add_distrib]
    exact Finset.sum_congr rfl fun _ _ => by ring
  unfold atFace Lim.base
  simp only [hp, hg, ha, hW, one_mul, ← key, add_assoc]

/-- Whatever the gradients, the states handed to the solver have positive density and pressure. -/
theorem C72_floor (lim : Lim n) (small : ℝ) (hs : 0 < small) (p q : Part n) (rf vf : Vec n ℝ) (dt : ℝ) :
    0 < (predicted lim small p q rf vf dt).d ∧ 0 < (predicted lim small p q rf vf dt).p := floored_pos hs _

/-! ### the flux -/

/-- It does not matter which of the two particles evaluates the pair, if they use the same step: with the HLLC solver, with
or without viscosity, with any limiter. -/
theorem C72_pair_symmetric [NeZero n] (K : Kernel) (lim : Lim n) (s : Scheme) (he : s.exact = false) (hg : 5 / 4 ≤ s.gamma)
    (hs : 0 < s.small) (p q : Part n) (dt : ℝ) :
    pairFlux K lim s q p dt = (pairFlux K lim s p q dt).map (times (-1)) := by
  unfold pairFlux
  simp only [area_swap K s.small p q, dot_neg_neg]
  by_cases h : 0 < √(dot (area K s.small p q) (area K s.small p q))
  · rw [if_pos h, if_pos h, Option.map_some, tensor_swap lim s he hg hs p q]
    congr 1
    unfold throughArea times
    simp only [dot_neg_r, neg_mul, one_mul]
  · rw [if_neg h, if_neg h, Option.map_none]

theorem God.predicted_uniform {lim : Lim n} {small : ℝ} {p q : Part n} {rf vf : Vec n ℝ}
    (hl : lim p q (fun k => rf k - p.r k) = (⟨fun _ _ => 0, fun _ => 0, fun _ => 0⟩, ⟨fun _ => 0, 0, 0⟩))
    (hd : small ≤ p.W.d) (hp : small ≤ p.W.p) (ha : ∀ k, p.a k = 0) (dt : ℝ) :
    predicted lim small p q rf vf dt = ⟨fun k => p.W.v k - vf k, p.W.d, p.W.p⟩ := by
  have hz : ∀ v : Vec n ℝ, dot v (fun _ => 0) = 0 := fun v => by simp [dot]
  unfold predicted atFace
  simp only [hl, add_zero]
  unfold evolve timeDeriv floored
  simp only [hz, ha, Finset.sum_const_zero, mul_zero, neg_zero, sub_zero, zero_div, add_zero, max_eq_left hd, max_eq_left hp]

/-- A uniform gas: the flux is the one of the gas through the face, with either solver, for faces at rest and for faces that
move with the particles. -/
theorem C72_uniform [NeZero n] (hn : n = 1 ∨ n = 2 ∨ n = 3) (K : Kernel) (lim : Lim n) (s : Scheme) (hg : 1 < s.gamma)
    (ht : 0 < s.tol) (hz : s.zmf = false) (hi : s.exact = true → s.iso = false) (hv : s.shear = 0 ∧ s.bulk = 0) (hs : 0 < s.small)
    (p q : Part n) (W : Prim n) (hp : p.W = W) (hq : q.W = W) (hd : s.small ≤ W.d) (hpr : s.small ≤ W.p)
    (lp : lim p q (fun k => rface p q k - p.r k) = (⟨fun _ _ => 0, fun _ => 0, fun _ => 0⟩, ⟨fun _ => 0, 0, 0⟩))
    (lq : lim q p (fun k => rface p q k - q.r k) = (⟨fun _ _ => 0, fun _ => 0, fun _ => 0⟩, ⟨fun _ => 0, 0, 0⟩))
    (ap : ∀ k, p.a k = 0) (aq : ∀ k, q.a k = 0) (dt : ℝ) :
    let A := area K s.small p q
    pairFlux K lim s p q dt =
      if A = 0 then none else some (labFlux W.d W.v W.p (W.p / (s.gamma - 1)) A (vface s.static p q)) := by
  intro A
  have hA : 0 < √(dot A A) ↔ A ≠ 0 := by
    rw [Real.sqrt_pos]
    constructor
    · rintro h h0
      rw [h0] at h
      simp [dot] at h
    · intro h
      refine lt_of_le_of_ne (dot_nonneg A) fun h0 => h ?_
      have := (Finset.sum_eq_zero_iff_of_nonneg (fun k _ => mul_self_nonneg (A k))).mp h0.symm
      funext k
      exact mul_self_eq_zero.mp (this k (Finset.mem_univ k))
  unfold pairFlux
  by_cases h0 : A = 0
  · rw [if_pos h0, if_neg (by rw [hA]; exact fun h => h h0)]
  · have h1 := hA.mpr h0
    rw [if_neg h0, if_pos h1]
    have hnv : needVisc s = false := by simp [needVisc, hv.1, hv.2]
    congr 1
    unfold tensor
    simp only [hnv, Bool.false_eq_true, if_false]
    rw [predicted_uniform lp (by rw [hp]; exact hd) (by rw [hp]; exact hpr) ap,
      predicted_uniform lq (by rw [hq]; exact hd) (by rw [hq]; exact hpr) aq, hp, hq]
    rw [through_unit _ h1, ← labFlux_unit h1]
    congr 1
    have hpos : 0 < W.d := lt_of_lt_of_le hs hd
    have hppos : 0 < W.p := lt_of_lt_of_le hs hpr
    cases hx : s.exact
    · unfold riemann
      simp only [hx, Bool.false_eq_true, if_false, hz]
      rw [C28_consistent s.iso _ (unit A) _ _ (hllc_adm hg s.iso (W := ⟨fun k => W.v k - vface s.static p q k, W.d, W.p⟩)
        hpos hppos (unit A))]
      have ho := through_outer (labFlux W.d (fun i => W.v i - vface s.static p q i + vface s.static p q i) W.p
        (W.p / (s.gamma - 1)) (unit A) (vface s.static p q)) (unit A) (unit A)
      rw [unit_one h1] at ho
      have e : ∀ f : Flux n, times 1 f = f := fun f => by unfold times; simp
      rw [e] at ho
      simp only [sub_add_cancel] at ho
      change VFlux.through (outer (labFlux W.d (fun i => W.v i - vface s.static p q i + vface s.static p q i) W.p
        (W.p / (s.gamma - 1)) (unit A) (vface s.static p q)) (unit A)) (unit A) = _
      simp only [sub_add_cancel]
      exact ho
    · unfold riemann
      simp only [hx, if_true, hz]
      rw [C29_identical hg hn s.small s.tol ht s.iters ⟨fun k => W.v k - vface s.static p q k, W.d, W.p⟩ hpos hppos hpr (unit A)
        (vface s.static p q) (unit_one h1)]
      simp only [sub_add_cancel]

/-- Mass goes the way the gas goes: in a uniform gas that moves past the face from the particle towards its neighbour, the particle
loses mass. -/
theorem C72_downstream [NeZero n] (hn : n = 1 ∨ n = 2 ∨ n = 3) (K : Kernel) (hK : K.Valid n) (lim : Lim n) (s : Scheme)
    (hg : 1 < s.gamma) (ht : 0 < s.tol) (hz : s.zmf = false) (hi : s.exact = true → s.iso = false)
    (hv : s.shear = 0 ∧ s.bulk = 0) (hs : 0 < s.small) (p q : Part n) (W : Prim n) (hp : p.W = W) (hq : q.W = W)
    (hd : s.small ≤ W.d) (hpr : s.small ≤ W.p)
    (lp : lim p q (fun k => rface p q k - p.r k) = (⟨fun _ _ => 0, fun _ => 0, fun _ => 0⟩, ⟨fun _ => 0, 0, 0⟩))
    (lq : lim q p (fun k => rface p q k - q.r k) = (⟨fun _ _ => 0, fun _ => 0, fun _ => 0⟩, ⟨fun _ => 0, 0, 0⟩))
    (ap : ∀ k, p.a k = 0) (aq : ∀ k, q.a k = 0) (dt : ℝ) (hdt : 0 < dt)
    (sp : Sound p) (sq : Sound q) (nbp nbq : List (Vec n ℝ)) (bp : Built K nbp p) (bq : Built K nbq q) (hne : p.r ≠ q.r)
    (hb : p.bad = false) (hw : 0 < K.w0 (√(dot (fun k => q.r k - p.r k) (fun k => q.r k - p.r k)) / p.h))
    (c : ℝ) (hc : 0 < c) (hflow : ∀ k, W.v k - vface s.static p q k = c * (q.r k - p.r k)) :
    (gain K lim s p q dt).mass < 0 := by
  have hdir := (C72_face_direction (by omega) K hK s.small hs p q sp sq nbp nbq bp bq).2 hne (Or.inl ⟨hb, hw⟩)
  have hu := C72_uniform hn K lim s hg ht hz hi hv hs p q W hp hq hd hpr lp lq ap aq dt
  simp only at hu
  rw [if_neg (by
    intro h0
    rw [h0] at hdir
    simp [dot] at hdir)] at hu
  unfold gain
  rw [hu]
  change -(W.d * dot (fun i => W.v i - vface s.static p q i) (area K s.small p q) * dt) < 0
  have e : dot (fun i => W.v i - vface s.static p q i) (area K s.small p q) =
      c * dot (area K s.small p q) fun k => q.r k - p.r k := by
    simp only [hflow]
    unfold dot
    rw [Finset.mul_sum]
    exact Finset.sum_congr rfl fun k _ => by ring
  rw [e]
  have : 0 < W.d := lt_of_lt_of_le hs hd
  have := mul_pos (mul_pos this (mul_pos hc hdir)) hdt
  linarith

/-! ### another observer -/

/-- a particle that moves faster by `w` -/
def God.Part.faster (p : Part n) (w : Vec n ℝ) : Part n := { p with
  v := fun k => p.v k + w k
  W := { p.W with
    v := fun k => p.W.v k + w k } }

theorem God.toLab_add (f : Flux n) (vf w : Vec n ℝ) : toLab f (fun k => vf k + w k) = faster (toLab f vf) w := by
  have e : (dot (fun k => vf k + w k) fun k => vf k + w k) = dot vf vf + 2 * (∑ i, vf i * w i) + ∑ i, w i ^ 2 := by
    simp only [dot, Finset.mul_sum, ← Finset.sum_add_distrib]
    exact Finset.sum_congr rfl fun _ _ => by ring
  have e2 : dot f.mom (fun k => vf k + w k) = dot f.mom vf + ∑ i, f.mom i * w i := by
    simp only [dot, ← Finset.sum_add_distrib]
    exact Finset.sum_congr rfl fun _ _ => by ring
  have e3 : ∑ i, (f.mom i + f.mass * vf i) * w i = (∑ i, f.mom i * w i) + f.mass * ∑ i, vf i * w i := by
    rw [Finset.mul_sum, ← Finset.sum_add_distrib]
    exact Finset.sum_congr rfl fun _ _ => by ring
  unfold toLab faster
  simp only [e, e2, e3]
  congr 1
  · funext i; ring
  · ring

theorem God.solve_add (iso zmf : Bool) (Sl Sr : St n) (nrm vf w : Vec n ℝ) :
    (solve iso zmf Sl Sr nrm fun k => vf k + w k).1 = faster (solve iso zmf Sl Sr nrm vf).1 w := by
  unfold solve
  cases zmf
  · simp only [Bool.false_eq_true, if_false]
    exact toLab_add _ vf w
  · simp only [if_true]
    rw [← toLab_add]
    congr 1
    funext i
    ring

theorem God.faceFlux_add (γ d p : ℝ) (v vf w : Vec n ℝ) (A : Vec n ℝ) :
    throughArea (faceFlux γ d p v fun k => vf k + w k) A = faster (throughArea (faceFlux γ d p v vf) A) w := by
  have e : (dot (fun k => v k + (vf k + w k)) fun k => v k + (vf k + w k)) =
      (dot (fun k => v k + vf k) fun k => v k + vf k) + 2 * (∑ i, (v i + vf i) * w i) + ∑ i, w i ^ 2 := by
    simp only [dot, Finset.mul_sum, ← Finset.sum_add_distrib]
    exact Finset.sum_congr rfl fun _ _ => by ring
  have hmom : ∀ (u : Vec n ℝ) (i : Fin n), dot ((faceFlux γ d p v u).mom i) A = d * (v i + u i) * dot v A + p * A i := by
    intro u i
    have : ∀ k, (faceFlux γ d p v u).mom i k * A k = d * (v i + u i) * (v k * A k) + if i = k then p * A k else 0 := by
      intro k
      change (if i = k then d * (v k + u k) * (v k + u k - u k) + p else d * (v k + u k - u k) * (v i + u i)) * A k = _
      by_cases h : i = k
      · rw [if_pos h, if_pos h, h]; ring
      · rw [if_neg h, if_neg h]; ring
    change ∑ k, (faceFlux γ d p v u).mom i k * A k = _
    simp only [this]
    rw [Finset.sum_add_distrib, ← Finset.mul_sum, Finset.sum_ite_eq]
    simp only [Finset.mem_univ, if_true]
    rfl
  have hmass : ∀ u : Vec n ℝ, dot (faceFlux γ d p v u).mass A = d * dot v A := by
    intro u
    change ∑ k, d * (v k + u k - u k) * A k = d * ∑ k, v k * A k
    rw [Finset.mul_sum]
    exact Finset.sum_congr rfl fun _ _ => by ring
  have hen : ∀ u : Vec n ℝ, dot (faceFlux γ d p v u).en A =
      d * (0.5 * (dot (fun k => v k + u k) fun k => v k + u k) + p / (γ - 1) / d) * dot v A + p * dot (fun k => v k + u k) A := by
    intro u
    change ∑ k, (d * (0.5 * (dot (fun k => v k + u k) fun k => v k + u k) + p / (γ - 1) / d) * (v k + u k - u k)
      + p * (v k + u k)) * A k = _
    generalize (dot (fun k => v k + u k) fun k => v k + u k) = z
    simp only [dot, Finset.mul_sum, ← Finset.sum_add_distrib]
    exact Finset.sum_congr rfl fun _ _ => by ring
  have hw : ∑ i, (d * (v i + vf i) * dot v A + p * A i) * w i =
      d * dot v A * (∑ i, (v i + vf i) * w i) + p * ∑ i, w i * A i := by
    rw [Finset.mul_sum, Finset.mul_sum, ← Finset.sum_add_distrib]
    exact Finset.sum_congr rfl fun _ _ => by ring
  have hvA : (dot (fun k => v k + (vf k + w k)) A) = dot (fun k => v k + vf k) A + ∑ i, w i * A i := by
    simp only [dot, ← Finset.sum_add_distrib]
    exact Finset.sum_congr rfl fun _ _ => by ring
  unfold throughArea faster
  simp only [hmom, hmass, hen, hw, e, hvA]
  congr 1
  · funext i; ring
  · ring

theorem God.faster_times (x : ℝ) (f : Flux n) (w : Vec n ℝ) : faster (times x f) w = times x (faster f w) := by
  have : ∑ i, x * f.mom i * w i = x * ∑ i, f.mom i * w i := by
    rw [Finset.mul_sum]
    exact Finset.sum_congr rfl fun _ _ => by ring
  unfold faster times
  simp only [this]
  congr 1
  · funext i; ring
  · ring

/-- the solver gives every observer the same flux -/
theorem God.riemann_add [NeZero n] (s : Scheme) (Wl Wr : Prim n) (nrm vf w A : Vec n ℝ) :
    throughArea (riemann s Wl Wr nrm fun k => vf k + w k).1 A = faster (throughArea (riemann s Wl Wr nrm vf).1 A) w := by
  unfold riemann
  cases s.exact
  · simp only [Bool.false_eq_true, if_false]
    rw [solve_add, through_outer, through_outer, faster_times]
  · simp only [if_true]
    unfold fluxes
    simp only
    generalize starRegion s.gamma s.small s.tol s.iters (side s.gamma Wl nrm) (side s.gamma Wr nrm) = st
    by_cases h : 0 < st.1
    · rw [if_pos h, if_pos h]
      generalize sample s.gamma st.1 st.2 0 (side s.gamma Wl nrm) (side s.gamma Wr nrm) = a
      cases s.zmf
      · simp only [Bool.false_eq_true, if_false]
        exact faceFlux_add _ _ _ _ _ _ _
      · simp only [if_true]
        rw [← faceFlux_add]
        congr 2
        funext k
        ring
    · rw [if_neg h, if_neg h]
      have hz : dot (fun _ => (0 : ℝ)) A = 0 := by simp [dot]
      unfold throughArea faster
      simp only [hz, zero_mul, Finset.sum_const_zero, add_zero, zero_div]

theorem God.predicted_faster {lim : Lim n} {small : ℝ} {p q : Part n} {w : Vec n ℝ}
    (hl : ∀ dr, lim (p.faster w) (q.faster w) dr = lim p q dr) (rf vf : Vec n ℝ) (dt : ℝ) :
    predicted lim small (p.faster w) (q.faster w) rf (fun k => vf k + w k) dt = predicted lim small p q rf vf dt := by
  have ha : atFace lim (p.faster w) (q.faster w) rf (fun k => vf k + w k) = atFace lim p q rf vf := by
    unfold atFace
    have hr : (p.faster w).r = p.r := rfl
    simp only [hr, hl]
    congr 1
    funext k
    change p.W.v k + w k + _ - (vf k + w k) = _
    ring
  unfold predicted
  rw [ha]
  have hr : (p.faster w).r = p.r := rfl
  simp only [hr, hl]
  rfl

theorem God.area_faster (K : Kernel) (small : ℝ) (p q : Part n) (w : Vec n ℝ) :
    area K small (p.faster w) (q.faster w) = area K small p q := rfl

theorem God.vface_faster (p q : Part n) (w : Vec n ℝ) :
    vface false (p.faster w) (q.faster w) = fun k => vface false p q k + w k := by
  funext k
  unfold vface
  simp only [Bool.false_eq_true, if_false]
  change 1 / 2 * (p.v k + w k + (q.v k + w k)) = _
  ring

theorem God.pairFlux_some [NeZero n] {K : Kernel} {lim : Lim n} {s : Scheme} {p q : Part n} {dt : ℝ}
    (h : 0 < √(dot (area K s.small p q) (area K s.small p q))) :
    pairFlux K lim s p q dt = some (throughArea (tensor lim s p q (area K s.small p q) dt) (area K s.small p q)) := if_pos h

theorem God.pairFlux_none [NeZero n] {K : Kernel} {lim : Lim n} {s : Scheme} {p q : Part n} {dt : ℝ}
    (h : ¬ 0 < √(dot (area K s.small p q) (area K s.small p q))) : pairFlux K lim s p q dt = none := if_neg h

/-- Without viscosity, with faces that move with the particles: an observer who sees everything move faster by `w` computes the
flux of mass, momentum and energy which the laws of mechanics give for them - with either solver, with and without zero mass
flux, with every limiter that looks at differences only. -/
theorem C72_galilean [NeZero n] (K : Kernel) (lim : Lim n) (s : Scheme) (hst : s.static = false)
    (hv : s.shear = 0 ∧ s.bulk = 0) (p q : Part n) (w : Vec n ℝ)
    (lp : ∀ dr, lim (p.faster w) (q.faster w) dr = lim p q dr) (lq : ∀ dr, lim (q.faster w) (p.faster w) dr = lim q p dr) (dt : ℝ) :
    pairFlux K lim s (p.faster w) (q.faster w) dt = (pairFlux K lim s p q dt).map fun f => faster f w := by
  have hnv : needVisc s = false := by simp [needVisc, hv.1, hv.2]
  have hr : rface (p.faster w) (q.faster w) = rface p q := rfl
  by_cases h : 0 < √(dot (area K s.small p q) (area K s.small p q))
  · rw [pairFlux_some h, pairFlux_some (by rw [area_faster]; exact h), area_faster, Option.map_some]
    congr 1
    unfold tensor
    simp only [hnv, Bool.false_eq_true, if_false, hst, hr, vface_faster, predicted_faster lp, predicted_faster lq]
    exact riemann_add s _ _ _ _ w _
  · rw [pairFlux_none h, pairFlux_none (by rw [area_faster]; exact h), Option.map_none]

/-! ### viscosity -/

/-- The stress is symmetric, vanishes for a gas that rotates like a rigid body, and is dissipative in up to three
dimensions. -/
theorem C72_stress (hn : n ≤ 3) (shear bulk rho : ℝ) (hs : 0 ≤ shear) (hb : 0 ≤ bulk) (hr : 0 ≤ rho) (g : Fin n → Vec n ℝ) :
    (∀ i j, stress shear bulk rho g i j = stress shear bulk rho g j i) ∧
    ((∀ i j, g i j = -g j i) → ∀ i j, stress shear bulk rho g i j = 0) ∧
    0 ≤ ∑ i, ∑ j, stress shear bulk rho g i j * g i j := by
  refine ⟨fun i j => ?_, fun h i j => ?_, ?_⟩
  · unfold stress
    simp only [eq_comm (a := i) (b := j)]
    ring
  · have hd : ∀ k, g k k = 0 := fun k => by have := h k k; linarith
    unfold stress
    simp only [hd, Finset.sum_const_zero, mul_zero, ite_self, add_zero]
    rw [h i j]
    ring
  · set D := ∑ k, g k k with hD
    have e1 : ∑ i, ∑ j, stress shear bulk rho g i j * g i j =
        shear * rho * (∑ i, ∑ j, (g i j + g j i) * g i j) + (bulk * rho - 2 * (shear * rho) / 3) * D ^ 2 := by
      have : ∀ i, ∑ j, stress shear bulk rho g i j * g i j =
          shear * rho * (∑ j, (g i j + g j i) * g i j) + (bulk * rho - 2 * (shear * rho) / 3) * D * g i i := by
        intro i
        have hx : ∀ j, stress shear bulk rho g i j * g i j = shear * rho * ((g i j + g j i) * g i j)
            + if i = j then (bulk * rho - 2 * (shear * rho) / 3) * D * g i j else 0 := by
          intro j
          unfold stress
          by_cases h : i = j
          · rw [if_pos h, if_pos h]; ring
          · rw [if_neg h, if_neg h]; ring
        simp only [hx]
        rw [Finset.sum_add_distrib, Finset.sum_ite_eq, if_pos (Finset.mem_univ _), ← Finset.mul_sum]
      simp only [this]
      rw [Finset.sum_add_distrib, ← Finset.mul_sum, ← Finset.mul_sum, ← hD]
      ring
    have e2 : ∑ i, ∑ j, (g i j + g j i) * g i j = (∑ i, ∑ j, (g i j + g j i) ^ 2) / 2 := by
      have h1 : ∑ i, ∑ j, (g i j + g j i) * g j i = ∑ i, ∑ j, (g i j + g j i) * g i j := by
        rw [Finset.sum_comm]
        exact Finset.sum_congr rfl fun i _ => Finset.sum_congr rfl fun j _ => by ring
      have h2 : ∑ i, ∑ j, (g i j + g j i) ^ 2 = (∑ i, ∑ j, (g i j + g j i) * g i j) + ∑ i, ∑ j, (g i j + g j i) * g j i := by
        simp only [← Finset.sum_add_distrib]
        exact Finset.sum_congr rfl fun i _ => Finset.sum_congr rfl fun j _ => by ring
      linarith
    have e3 : ∑ i, 4 * g i i ^ 2 ≤ ∑ i, ∑ j, (g i j + g j i) ^ 2 := by
      refine Finset.sum_le_sum fun i _ => ?_
      have := Finset.single_le_sum (f := fun j => (g i j + g j i) ^ 2) (fun j _ => sq_nonneg _) (Finset.mem_univ i)
      linarith [this, show (g i i + g i i) ^ 2 = 4 * g i i ^ 2 by ring]
    have e4 : D ^ 2 ≤ 3 * ∑ i, g i i ^ 2 := by
      have h1 := sq_sum_le_card_mul_sum_sq (s := Finset.univ) (f := fun i : Fin n => g i i)
      rw [Finset.card_univ, Fintype.card_fin] at h1
      have h2 : (n : ℝ) ≤ 3 := by exact_mod_cast hn
      have h3 : 0 ≤ ∑ i, g i i ^ 2 := Finset.sum_nonneg fun i _ => sq_nonneg _
      calc D ^ 2 ≤ (n : ℝ) * ∑ i, g i i ^ 2 := h1
        _ ≤ 3 * ∑ i, g i i ^ 2 := mul_le_mul_of_nonneg_right h2 h3
    rw [e1, e2]
    rw [← Finset.mul_sum] at e3
    have hsr := mul_nonneg hs hr
    have hbr := mul_nonneg hb hr
    have := mul_le_mul_of_nonneg_left e3 hsr
    have := mul_le_mul_of_nonneg_left e4 hsr
    have := mul_nonneg hbr (sq_nonneg D)
    linarith

/-- **C72, negation.** With viscosity the energy which an observer finds is wrong by the work of the viscous stress at the velocity of
the observer: the velocity relative to the face is used for it, and it is not brought back to the lab. -/
theorem C72_viscous_energy_fails [NeZero n] (K : Kernel) (lim : Lim n) (s : Scheme) (hst : s.static = false)
    (hv : s.shear ≠ 0 ∨ s.bulk ≠ 0) (p q : Part n) (w : Vec n ℝ)
    (lp : ∀ dr, lim (p.faster w) (q.faster w) dr = lim p q dr) (lq : ∀ dr, lim (q.faster w) (p.faster w) dr = lim q p dr) (dt : ℝ) :
    let A := area K s.small p q
    let Wi := predicted lim s.small p q (rface p q) (vface s.static p q) dt
    let Wj := predicted lim s.small q p (rface p q) (vface s.static p q) dt
    let τ := stress s.shear s.bulk ((Wi.d + Wj.d) / 2) (meanGrad p.grad.v q.grad.v)
    pairFlux K lim s (p.faster w) (q.faster w) dt = (pairFlux K lim s p q dt).map fun f =>
      { faster f w with
        en := (faster f w).en + ∑ i, (∑ k, τ i k * A k) * w i } := by
  intro A Wi Wj τ
  have hnv : needVisc s = true := by simp [needVisc, hv]
  have hr : rface (p.faster w) (q.faster w) = rface p q := rfl
  by_cases h : 0 < √(dot (area K s.small p q) (area K s.small p q))
  · rw [pairFlux_some h, pairFlux_some (by rw [area_faster]; exact h), area_faster, Option.map_some]
    congr 1
    unfold tensor
    simp only [hnv, if_true, hst, hr, vface_faster, predicted_faster lp, predicted_faster lq]
    have hWi : predicted lim s.small p q (rface p q) (vface false p q) dt = Wi := by simp only [Wi, hst]
    have hWj : predicted lim s.small q p (rface p q) (vface false p q) dt = Wj := by simp only [Wj, hst]
    rw [hWi, hWj]
    have hR := riemann_add s Wi Wj (unit A) (vface false p q) w A
    change throughArea (viscous s.shear s.bulk Wi Wj p.grad.v q.grad.v (riemann s Wi Wj (unit A) fun k =>
      vface false p q k + w k).1) A = _
    generalize (riemann s Wi Wj (unit A) fun k => vface false p q k + w k).1 = F' at hR ⊢
    change _ = ({ faster (throughArea (viscous s.shear s.bulk Wi Wj p.grad.v q.grad.v
      (riemann s Wi Wj (unit A) (vface false p q)).1) A) w with en := _ } : Flux n)
    generalize (riemann s Wi Wj (unit A) (vface false p q)).1 = F at hR ⊢
    have hm : ∀ i, dot (F'.mom i) A = dot (F.mom i) A + dot F.mass A * w i := fun i => congrFun (congrArg Flux.mom hR) i
    have hma : dot F'.mass A = dot F.mass A := congrArg Flux.mass hR
    have hen : dot F'.en A = dot F.en A + (∑ i, dot (F.mom i) A * w i) + dot F.mass A * (∑ i, w i ^ 2) / 2 :=
      congrArg Flux.en hR
    have v1 : ∀ (G : VFlux n) i, dot ((viscous s.shear s.bulk Wi Wj p.grad.v q.grad.v G).mom i) A =
        dot (G.mom i) A - ∑ k, τ i k * A k := by
      intro G i
      change ∑ k, (G.mom i k - τ i k) * A k = (∑ k, G.mom i k * A k) - _
      rw [← Finset.sum_sub_distrib]
      exact Finset.sum_congr rfl fun _ _ => by ring
    have v2 : ∀ G : VFlux n, dot (viscous s.shear s.bulk Wi Wj p.grad.v q.grad.v G).en A =
        dot G.en A - ∑ k, (∑ i, τ i k * (mean Wi Wj).v i) * A k := by
      intro G
      change ∑ k, (G.en k - ∑ i, τ i k * (mean Wi Wj).v i) * A k = (∑ k, G.en k * A k) - _
      rw [← Finset.sum_sub_distrib]
      exact Finset.sum_congr rfl fun _ _ => by ring
    have v3 : ∀ G : VFlux n, (viscous s.shear s.bulk Wi Wj p.grad.v q.grad.v G).mass = G.mass := fun G => rfl
    unfold throughArea faster
    simp only [show area K s.small p q = A from rfl, v1, v2, v3, hm, hma, hen]
    congr 1
    · funext i; ring
    · have : ∑ i, (dot (F.mom i) A - ∑ k, τ i k * A k) * w i =
          (∑ i, dot (F.mom i) A * w i) - ∑ i, (∑ k, τ i k * A k) * w i := by
        rw [← Finset.sum_sub_distrib]
        exact Finset.sum_congr rfl fun _ _ => by ring
      rw [this]
      ring
  · rw [pairFlux_none h, pairFlux_none (by rw [area_faster]; exact h), Option.map_none]

/-! ### the Runge-Kutta scheme -/

theorem God.ofPrim_adm {gamma : ℝ} (hg : 1 < gamma) (iso : Bool) {v : Vec n ℝ} {d p : ℝ} (hd : 0 < d) (hp : 0 < p) (nrm : Vec n ℝ) :
    Admissible (ofPrim gamma iso v d p nrm) nrm (if iso then p else p / (gamma - 1)) := by
  have h0 : 0 < gamma := by linarith
  refine ⟨hd, hp, ?_, rfl, ?_⟩
  · unfold ofPrim
    cases iso
    · simp only [Bool.false_eq_true, if_false]
      exact Real.sqrt_pos.mpr (by positivity)
    · simp only [if_true]
      exact Real.sqrt_pos.mpr (by positivity)
  · unfold ofPrim
    cases iso
    · simp only [Bool.false_eq_true, if_false]; ring
    · simp only [if_true]; ring

theorem God.rkStates_uniform {lim : Lim n} {s : Scheme} {p q : Part n} {W : Prim n} (hp : p.W = W) (hq : q.W = W)
    (lp : lim p q (fun k => rface p q k - p.r k) = (⟨fun _ _ => 0, fun _ => 0, fun _ => 0⟩, ⟨fun _ => 0, 0, 0⟩))
    (lq : lim q p (fun k => rface p q k - q.r k) = (⟨fun _ _ => 0, fun _ => 0, fun _ => 0⟩, ⟨fun _ => 0, 0, 0⟩))
    (ap : ∀ k, p.a k = 0) (aq : ∀ k, q.a k = 0) (dt : ℝ) :
    let W' : Prim n := ⟨fun k => W.v k - rkVface s.small s.static p q k, W.d, W.p⟩
    rkStates lim s p q dt = ((W', W'), (W', W')) := by
  have hz : ∀ v : Vec n ℝ, dot v (fun _ => 0) = 0 := fun v => by simp [dot]
  unfold rkStates atFace evolve timeDeriv
  simp only [lp, lq, hp, hq, hz, ap, aq, Finset.sum_const_zero, mul_zero, neg_zero, sub_zero, zero_div, add_zero]

/-- In a uniform gas without zero mass flux, what a particle gains is the flux of the gas along the line from the neighbour to the
particle with the wrong sign. -/
theorem C72_rk_uniform [NeZero n] (K : Kernel) (lim : Lim n) (s : Scheme) (hg : 1 < s.gamma) (he : s.exact = false)
    (hz : s.zmf = false) (p q : Part n) (W : Prim n) (hp : p.W = W) (hq : q.W = W) (hd : 0 < W.d) (hpr : 0 < W.p)
    (lp : lim p q (fun k => rface p q k - p.r k) = (⟨fun _ _ => 0, fun _ => 0, fun _ => 0⟩, ⟨fun _ => 0, 0, 0⟩))
    (lq : lim q p (fun k => rface p q k - q.r k) = (⟨fun _ _ => 0, fun _ => 0, fun _ => 0⟩, ⟨fun _ => 0, 0, 0⟩))
    (ap : ∀ k, p.a k = 0) (aq : ∀ k, q.a k = 0) (dt : ℝ) :
    let u := rkUnit s.small p q
    rkGain K lim s p q dt = times (-dt * dot u (rkArea K s.small p q))
      (labFlux W.d W.v W.p (if s.iso then W.p else W.p / (s.gamma - 1)) u (rkVface s.small s.static p q)) := by
  intro u
  have hst := rkStates_uniform (s := s) hp hq lp lq ap aq dt
  simp only at hst
  have hr : ∀ vf : Vec n ℝ, vf = rkVface s.small s.static p q →
      rkRiemann s ⟨fun k => W.v k - rkVface s.small s.static p q k, W.d, W.p⟩
        ⟨fun k => W.v k - rkVface s.small s.static p q k, W.d, W.p⟩ u vf =
      (outer (labFlux W.d W.v W.p (if s.iso then W.p else W.p / (s.gamma - 1)) u (rkVface s.small s.static p q)) u,
        rkVface s.small s.static p q) := by
    rintro vf rfl
    unfold rkRiemann
    simp only [he, hz, Bool.false_eq_true, if_false]
    rw [C28_consistent s.iso _ u _ _ (ofPrim_adm hg s.iso hd hpr u)]
    change (outer (labFlux W.d (fun i => W.v i - rkVface s.small s.static p q i + rkVface s.small s.static p q i) W.p _ u
      (rkVface s.small s.static p q)) u, rkVface s.small s.static p q) = _
    simp only [sub_add_cancel]
  unfold rkGain rkFluxes
  simp only [hst]
  rw [show rkUnit s.small p q = u from rfl, hr _ rfl, hr _ rfl, through_outer]
  unfold times
  simp only
  congr 1
  · funext i; ring
  · ring
  · ring

/-- **C72, negation.** With the Runge-Kutta scheme mass goes against the gas: in a uniform gas that moves past the face from the
particle towards its neighbour the particle gains mass. -/
theorem C72_rk_upstream_fails [NeZero n] (hn : n = 1 ∨ n = 2 ∨ n = 3) (K : Kernel) (hK : K.Valid n) (lim : Lim n) (s : Scheme)
    (hg : 1 < s.gamma) (he : s.exact = false) (hz : s.zmf = false) (hs : 0 < s.small) (p q : Part n) (W : Prim n)
    (hp : p.W = W) (hq : q.W = W) (hd : 0 < W.d) (hpr : 0 < W.p)
    (lp : lim p q (fun k => rface p q k - p.r k) = (⟨fun _ _ => 0, fun _ => 0, fun _ => 0⟩, ⟨fun _ => 0, 0, 0⟩))
    (lq : lim q p (fun k => rface p q k - q.r k) = (⟨fun _ _ => 0, fun _ => 0, fun _ => 0⟩, ⟨fun _ => 0, 0, 0⟩))
    (ap : ∀ k, p.a k = 0) (aq : ∀ k, q.a k = 0) (dt : ℝ) (hdt : 0 < dt)
    (sp : Sound p) (sq : Sound q) (nbp nbq : List (Vec n ℝ)) (bp : Built K nbp p) (bq : Built K nbq q) (hne : p.r ≠ q.r)
    (hb : p.bad = false) (hw : 0 < K.w0 (√(dot (fun k => q.r k - p.r k) (fun k => q.r k - p.r k)) / p.h))
    (c : ℝ) (hc : 0 < c) (hflow : ∀ k, W.v k - rkVface s.small s.static p q k = c * (q.r k - p.r k)) :
    0 < (rkGain K lim s p q dt).mass := by
  have hdir := (C72_face_direction (by omega) K hK s.small hs p q sp sq nbp nbq bp bq).2 hne (Or.inl ⟨hb, hw⟩)
  rw [C72_rk_uniform K lim s hg he hz p q W hp hq hd hpr lp lq ap aq dt]
  change 0 < -dt * dot (rkUnit s.small p q) (rkArea K s.small p q) *
    (W.d * dot (fun i => W.v i - rkVface s.small s.static p q i) (rkUnit s.small p q))
  have hsq : dot (rkSep p q) (rkSep p q) = dot (fun k => q.r k - p.r k) fun k => q.r k - p.r k := by
    unfold dot rkSep
    exact Finset.sum_congr rfl fun _ _ => by ring
  have hpos : 0 < dot (fun k => q.r k - p.r k) fun k => q.r k - p.r k := by
    refine lt_of_le_of_ne (dot_nonneg _) fun h0 => hne ?_
    have := (Finset.sum_eq_zero_iff_of_nonneg (fun k _ => mul_self_nonneg (q.r k - p.r k))).mp h0.symm
    funext k
    have := mul_self_eq_zero.mp (this k (Finset.mem_univ k))
    linarith
  set z := 1 / √(dot (rkSep p q) (rkSep p q) + s.small) with hzdef
  have hzpos : 0 < z := by
    rw [hzdef]
    have : 0 < √(dot (rkSep p q) (rkSep p q) + s.small) := Real.sqrt_pos.mpr (by rw [hsq]; linarith)
    positivity
  have e1 : dot (rkUnit s.small p q) (rkArea K s.small p q) = z * dot (area K s.small p q) fun k => q.r k - p.r k := by
    rw [rkArea_eq]
    change ∑ k, (p.r k - q.r k) * z * -area K s.small p q k = z * ∑ k, _
    rw [Finset.mul_sum]
    exact Finset.sum_congr rfl fun _ _ => by ring
  have e2 : dot (fun i => W.v i - rkVface s.small s.static p q i) (rkUnit s.small p q) =
      -(c * z * dot (fun k => q.r k - p.r k) fun k => q.r k - p.r k) := by
    simp only [hflow]
    change ∑ k, c * (q.r k - p.r k) * ((p.r k - q.r k) * z) = -(c * z * ∑ k, _)
    rw [Finset.mul_sum, ← Finset.sum_neg_distrib]
    exact Finset.sum_congr rfl fun _ _ => by ring
  rw [e1, e2]
  have := mul_pos (mul_pos hdt (mul_pos hzpos hdir)) (mul_pos hd (mul_pos (mul_pos hc hzpos) hpos))
  linarith

/-- **C72, negation.** With zero mass flux the face velocity left by the first call of the solver is used for the second, but the
states still are relative to the first face: in a uniform gas with particles at rest, the second energy flux is twice the
first. -/
theorem C72_rk_zero_mass_fails [NeZero n] (K : Kernel) (lim : Lim n) (s : Scheme) (hg : 1 < s.gamma) (he : s.exact = false)
    (hz : s.zmf = true) (hst : s.static = true) (p q : Part n) (W : Prim n) (hp : p.W = W) (hq : q.W = W) (hd : 0 < W.d)
    (hpr : 0 < W.p)
    (lp : lim p q (fun k => rface p q k - p.r k) = (⟨fun _ _ => 0, fun _ => 0, fun _ => 0⟩, ⟨fun _ => 0, 0, 0⟩))
    (lq : lim q p (fun k => rface p q k - q.r k) = (⟨fun _ _ => 0, fun _ => 0, fun _ => 0⟩, ⟨fun _ => 0, 0, 0⟩))
    (ap : ∀ k, p.a k = 0) (aq : ∀ k, q.a k = 0) (dt : ℝ) :
    let u := rkUnit s.small p q
    (rkFluxes K lim s p q dt).1.en = dot u (rkArea K s.small p q) * (W.p * dot W.v u * dot u u) ∧
    (rkFluxes K lim s p q dt).2.en = 2 * (rkFluxes K lim s p q dt).1.en := by
  intro u
  have hst' := rkStates_uniform (s := s) hp hq lp lq ap aq dt
  have hv0 : rkVface s.small s.static p q = fun _ => 0 := by funext k; simp [rkVface, hst]
  simp only [hv0, sub_zero] at hst'
  have hA := ofPrim_adm hg s.iso (v := W.v) hd hpr u
  have hr : ∀ vf : Vec n ℝ, rkRiemann s W W u vf =
      (outer (toLab ⟨fun i => W.p * u i, 0, 0⟩ fun i => vf i + dot W.v u * u i) u, fun i => vf i + dot W.v u * u i) := by
    intro vf
    have hf := frame_same s.iso (S := shift (ofPrim s.gamma s.iso W.v W.d W.p u) (dot W.v u) u) (nrm := u) hA.rho_pos hA.cs_pos
    have hshift : hydroFlux (shift (ofPrim s.gamma s.iso W.v W.d W.p u) (dot W.v u) u) u = ⟨fun i => W.p * u i, 0, 0⟩ := by
      ext i <;> simp [hydroFlux, shift, ofPrim]
    have e1 : (shift (ofPrim s.gamma s.iso W.v W.d W.p u) (dot W.v u) u).vline = 0 := sub_self _
    have e2 : (shift (ofPrim s.gamma s.iso W.v W.d W.p u) (dot W.v u) u).cs = (ofPrim s.gamma s.iso W.v W.d W.p u).cs := rfl
    rw [e1, e2, zero_sub, zero_add, hshift] at hf
    have e3 : (ofPrim s.gamma s.iso W.v W.d W.p u).vline = dot W.v u := rfl
    unfold rkRiemann solve
    simp only [he, hz, Bool.false_eq_true, if_false, if_true, (speeds_same hA.rho_pos hA.cs_pos).1,
      (speeds_same hA.rho_pos hA.cs_pos).2, central_same s.iso hA.rho_pos hA.cs_pos]
    rw [e3]
    rw [show dot W.v u - (ofPrim s.gamma s.iso W.v W.d W.p u).cs - dot W.v u = -(ofPrim s.gamma s.iso W.v W.d W.p u).cs by ring,
      show dot W.v u + (ofPrim s.gamma s.iso W.v W.d W.p u).cs - dot W.v u = (ofPrim s.gamma s.iso W.v W.d W.p u).cs by ring, hf]
  unfold rkFluxes
  simp only [hst', hv0]
  rw [show rkUnit s.small p q = u from rfl, hr, hr, through_outer, through_outer]
  have key : ∀ vf : Vec n ℝ, (toLab ⟨fun i => W.p * u i, 0, 0⟩ vf).en = W.p * dot u vf := by
    intro vf
    unfold toLab dot
    simp only [zero_mul, mul_zero, Finset.sum_const_zero, add_zero, zero_add, Finset.mul_sum]
    exact Finset.sum_congr rfl fun _ _ => by ring
  have d1 : ∀ x : ℝ, (dot u fun i => x * u i) = x * dot u u := by
    intro x
    unfold dot
    rw [Finset.mul_sum]
    exact Finset.sum_congr rfl fun _ _ => by ring
  change dot u (rkArea K s.small p q) * (toLab _ _).en = _ ∧ dot u (rkArea K s.small p q) * (toLab _ _).en =
    2 * (dot u (rkArea K s.small p q) * (toLab _ _).en)
  rw [key, key]
  simp only
  have f1 : (fun i => (0 : ℝ) + dot W.v u * u i) = fun i => dot W.v u * u i := by funext i; ring
  have f2 : (fun i => (0 : ℝ) + dot W.v u * u i + dot W.v u * u i) = fun i => 2 * dot W.v u * u i := by funext i; ring
  rw [f1, f2, d1, d1]
  constructor <;> ring

/-- **C72, negation.** The state of the particle is moved on in time with the gradients of its neighbour. -/
theorem C72_rk_gradient_fails (s : Scheme) (p q : Part n) (dt : ℝ) (hg : ∀ k, p.grad.d k = 0 ∧ p.grad.p k = 0)
    (hv : ∀ i k, p.grad.v i k = 0) (gq : ∀ i k, q.grad.v i k = 0) :
    (rkStates Lim.base s p q dt).1.1.d = p.W.d ∧
    (rkStates Lim.base s p q dt).2.1.d =
      p.W.d - dt * q.alpha.d * dot (fun k => p.W.v k - rkVface s.small s.static p q k) q.grad.d := by
  have h0 : p.grad.d = fun _ => 0 := funext fun k => (hg k).1
  have h1 : ∀ i, p.grad.v i = fun _ => 0 := fun i => funext fun k => hv i k
  have hz : ∀ v : Vec n ℝ, dot (fun _ => (0 : ℝ)) v = 0 := fun v => by simp [dot]
  have e : ∀ v : Vec n ℝ, (dot v fun k => q.alpha.d * q.grad.d k) = q.alpha.d * dot v q.grad.d := by
    intro v
    unfold dot
    rw [Finset.mul_sum]
    exact Finset.sum_congr rfl fun _ _ => by ring
  unfold rkStates atFace evolve timeDeriv Lim.base
  simp only [h0, h1, hz, mul_zero, add_zero, e, gq, Finset.sum_const_zero, sub_zero, true_and]
  ring

/-! ### cases that meet the hypotheses -/

/-- gas in free expansion, `v = x / t`, with `γ = 2` -/
noncomputable def God.exFlow : Flow 1 := ⟨fun t _ => 1 / t, fun t x _ => x 0 / t, fun t _ => 1 / t ^ 2⟩

theorem God.exFlow_smooth (x : Vec 1 ℝ) : exFlow.Smooth 1 x := by
  have h1 : DifferentiableAt ℝ (fun z : ℝ × Vec 1 ℝ => z.1) (1, x) := differentiableAt_fst
  have h2 : DifferentiableAt ℝ (fun z : ℝ × Vec 1 ℝ => z.2 0) (1, x) :=
    ((ContinuousLinearMap.proj (R := ℝ) (φ := fun _ : Fin 1 => ℝ) 0).comp (ContinuousLinearMap.snd ℝ ℝ (Vec 1 ℝ))).differentiableAt
  have h3 : DifferentiableAt ℝ (fun z : ℝ × Vec 1 ℝ => z.1⁻¹) (1, x) := (differentiableAt_inv one_ne_zero).fun_comp' _ h1
  refine ⟨?_, fun _ => ?_, ?_⟩
  · simp only [exFlow, one_div]
    exact h3
  · simp only [exFlow, div_eq_mul_inv]
    exact h2.fun_mul h3
  · simp only [exFlow, one_div, ← inv_pow]
    exact h3.fun_pow 2

theorem God.exFlow_conserves (x : Vec 1 ℝ) : exFlow.Conserves 2 (fun _ => 0) 1 x := by
  have inv : ∀ k : ℕ, HasDerivAt (fun t : ℝ => 1 / t ^ k) (-(k : ℝ)) 1 := by
    intro k
    have := (hasDerivAt_const (1 : ℝ) (1 : ℝ)).fun_div ((hasDerivAt_id' (1 : ℝ)).fun_pow k) (by norm_num)
    refine this.congr_deriv ?_
    simp
  refine ⟨?_, fun i => ?_, ?_⟩
  · have a : rate exFlow.rho 1 x = -1 := by
      have := inv 1
      simp only [pow_one, Nat.cast_one] at this
      exact this.deriv
    have b : along (fun t x => exFlow.rho t x * exFlow.v t x 0) 0 1 x = 1 := by
      have : HasDerivAt (fun y : ℝ => 1 / (1 : ℝ) * (Function.update x 0 y 0 / 1)) 1 (x 0) := by
        simp only [Function.update_self]
        simpa using hasDerivAt_id' (x 0)
      exact this.deriv
    rw [Fin.sum_univ_one, a, b]
    norm_num
  · fin_cases i
    have a : rate (fun t x => exFlow.rho t x * exFlow.v t x 0) 1 x = -2 * x 0 := by
      have : HasDerivAt (fun t : ℝ => 1 / t * (x 0 / t)) (-2 * x 0) 1 := by
        have := (inv 2).fun_mul (hasDerivAt_const (1 : ℝ) (x 0))
        refine (this.congr_deriv (by push_cast; ring)).congr_of_eventuallyEq (Filter.Eventually.of_forall fun t => ?_)
        simp only
        rw [div_mul_div_comm, one_mul, div_mul_eq_mul_div, one_mul, sq]
      exact this.deriv
    have b : along (fun t x => exFlow.rho t x * exFlow.v t x 0 * exFlow.v t x 0 + if (0 : Fin 1) = 0 then exFlow.p t x else 0)
        0 1 x = 2 * x 0 := by
      have : HasDerivAt (fun y : ℝ => 1 / (1 : ℝ) * (Function.update x 0 y 0 / 1) * (Function.update x 0 y 0 / 1) +
          if (0 : Fin 1) = 0 then 1 / (1 : ℝ) ^ 2 else 0) (2 * x 0) (x 0) := by
        simp only [Function.update_self, if_true]
        have := (((hasDerivAt_id' (x 0)).fun_pow 2).add_const (1 : ℝ))
        refine (this.congr_deriv (by push_cast; ring)).congr_of_eventuallyEq (Filter.Eventually.of_forall fun t => ?_)
        simp only
        ring
      exact this.deriv
    simp only [Fin.zero_eta, Fin.sum_univ_one]
    simp only [if_true] at b
    rw [a]
    simp only [if_true, b]
    ring
  · have a : rate (exFlow.energy 2) 1 x = -3 * x 0 ^ 2 / 2 - 2 := by
      have : HasDerivAt (fun t : ℝ => 1 / t * (∑ _i : Fin 1, (x 0 / t) ^ 2) / 2 + 1 / t ^ 2 / (2 - 1))
          (-3 * x 0 ^ 2 / 2 - 2) 1 := by
        have := ((inv 3).fun_mul (hasDerivAt_const (1 : ℝ) (x 0 ^ 2 / 2))).fun_add (inv 2)
        refine (this.congr_deriv (by push_cast; ring)).congr_of_eventuallyEq (Filter.Eventually.of_forall fun t => ?_)
        simp only [Fin.sum_univ_one, div_pow]
        rw [show (2 : ℝ) - 1 = 1 by norm_num, div_one, div_mul_div_comm, one_mul, div_mul_div_comm, one_mul, div_div]
        congr 2
        ring
      exact this.deriv
    have b : along (fun t x => (exFlow.energy 2 t x + exFlow.p t x) * exFlow.v t x 0) 0 1 x = 3 * x 0 ^ 2 / 2 + 2 := by
      have : HasDerivAt (fun y : ℝ => (1 / (1 : ℝ) * (∑ _i : Fin 1, (Function.update x 0 y 0 / 1) ^ 2) / 2 + 1 / (1 : ℝ) ^ 2 / (2 - 1)
          + 1 / (1 : ℝ) ^ 2) * (Function.update x 0 y 0 / 1)) (3 * x 0 ^ 2 / 2 + 2) (x 0) := by
        simp only [Function.update_self, Fin.sum_univ_one]
        have := ((((hasDerivAt_id' (x 0)).fun_pow 3).fun_mul (hasDerivAt_const (x 0) (1 / 2 : ℝ))).fun_add
          ((hasDerivAt_id' (x 0)).fun_mul (hasDerivAt_const (x 0) (2 : ℝ))))
        refine (this.congr_deriv (by push_cast; ring)).congr_of_eventuallyEq (Filter.Eventually.of_forall fun t => ?_)
        simp only
        ring
      exact this.deriv
    simp only [Fin.sum_univ_one]
    rw [a, b]
    ring

/-- The expanding gas meets the hypotheses of `C72_predictor`. -/
example (x : Vec 1 ℝ) : exFlow.Smooth 1 x ∧ exFlow.Conserves 2 (fun _ => 0) 1 x ∧ exFlow.rho 1 x ≠ 0 ∧
    exFlow.rho 1 x * √2 ^ 2 = 2 * exFlow.p 1 x :=
  ⟨exFlow_smooth x, exFlow_conserves x, by norm_num [exFlow], by norm_num [exFlow]⟩

/-- a particle at `x` in a uniform gas that moves to the right -/
noncomputable def God.exPart (x : ℝ) : Part 1 :=
  ⟨fun _ => x, fun _ => 0, fun _ => 0, ⟨fun _ => 1, 1, 1⟩, ⟨fun _ _ => 0, fun _ => 0, fun _ => 0⟩, ⟨fun _ => 1, 1, 1⟩, 1, 1, 1, 1,
    ![![1 / (m4Kernel 1).w0 1]], false⟩

noncomputable def God.exScheme : Scheme := ⟨7 / 5, false, false, false, 1 / 100, 20, 1 / 100, true, 0, 0⟩

theorem God.ex_w0 : 0 < (m4Kernel 1).w0 1 := by
  norm_num [m4Kernel, M4.w0, M4.kernnorm]

theorem God.exPart_sound (x : ℝ) : Sound (exPart x) := ⟨one_pos, one_pos, one_pos⟩

theorem God.ex_built (x y : ℝ) (h : (y - x) ^ 2 = 1) : Built (m4Kernel 1) [fun _ => y] (exPart x) := by
  intro _
  have hE : Gradients.matE (m4Kernel 1) ⟨(exPart x).h, (exPart x).hfactor, (exPart x).ndens⟩ (place (exPart x).r)
      (List.map place [fun _ => y]) 0 0 = (m4Kernel 1).w0 1 := by
    have e : (y - x) * (y - x) = 1 := by rw [← h]; ring
    simp [Gradients.matE, Gradients.weight, Gradients.draux, place, exPart, dot, e]
  unfold Gradients.invert Gradients.invert1
  simp only [hE]
  rw [if_neg ex_w0.ne']
  rfl

theorem God.ex_reach : 0 < (m4Kernel 1).w0 (√(dot (fun k => (exPart 1).r k - (exPart 0).r k)
    (fun k => (exPart 1).r k - (exPart 0).r k)) / (exPart 0).h) := by
  have := ex_w0
  simpa [exPart, dot] using this

/-- The face between particles at 0 and 1 looks to the right. -/
example : 0 < dot (area (m4Kernel 1) (1 / 100) (exPart 0) (exPart 1)) (fun k => (exPart 1).r k - (exPart 0).r k) :=
  (C72_face_direction ⟨le_refl _, by norm_num⟩ _ (C30_m4_valid 1 ⟨le_refl _, by norm_num⟩) _ (by norm_num) _ _
    (exPart_sound 0) (exPart_sound 1) _ _ (ex_built 0 1 (by norm_num)) (ex_built 1 0 (by norm_num))).2
    (fun h => by have := congrFun h 0; norm_num [exPart] at this) (Or.inl ⟨rfl, ex_reach⟩)

/-- The particle at 0 loses mass with the one scheme. -/
example : (gain (m4Kernel 1) Lim.zero exScheme (exPart 0) (exPart 1) 1).mass < 0 :=
  C72_downstream (Or.inl rfl) _ (C30_m4_valid 1 ⟨le_refl _, by norm_num⟩) _ _ (by norm_num [exScheme]) (by norm_num [exScheme]) rfl
    (fun h => by simp [exScheme] at h) ⟨rfl, rfl⟩ (by norm_num [exScheme]) _ _ ⟨fun _ => 1, 1, 1⟩ rfl rfl (by norm_num [exScheme])
    (by norm_num [exScheme]) rfl rfl (fun _ => rfl) (fun _ => rfl) 1 one_pos (exPart_sound 0) (exPart_sound 1) _ _
    (ex_built 0 1 (by norm_num)) (ex_built 1 0 (by norm_num)) (fun h => by have := congrFun h 0; norm_num [exPart] at this) rfl
    ex_reach 1 one_pos (fun _ => by norm_num [exPart, exScheme, vface])

/-- The same particle gains mass with the other. -/
example : 0 < (rkGain (m4Kernel 1) Lim.zero exScheme (exPart 0) (exPart 1) 1).mass :=
  C72_rk_upstream_fails (Or.inl rfl) _ (C30_m4_valid 1 ⟨le_refl _, by norm_num⟩) _ _ (by norm_num [exScheme]) rfl rfl
    (by norm_num [exScheme]) _ _ ⟨fun _ => 1, 1, 1⟩ rfl rfl one_pos one_pos rfl rfl (fun _ => rfl) (fun _ => rfl) 1 one_pos
    (exPart_sound 0) (exPart_sound 1) _ _ (ex_built 0 1 (by norm_num)) (ex_built 1 0 (by norm_num))
    (fun h => by have := congrFun h 0; norm_num [exPart] at this) rfl ex_reach 1 one_pos
    (fun _ => by norm_num [exPart, exScheme, rkVface])

/-- With zero mass flux the two energy fluxes differ. -/
example : (rkFluxes (m4Kernel 1) Lim.zero { exScheme with zmf := true } (exPart 0) (exPart 1) 1).2.en ≠
    (rkFluxes (m4Kernel 1) Lim.zero { exScheme with zmf := true } (exPart 0) (exPart 1) 1).1.en := by
  have h := C72_rk_zero_mass_fails (m4Kernel 1) Lim.zero { exScheme with zmf := true } (by norm_num [exScheme]) rfl rfl rfl
    (exPart 0) (exPart 1) ⟨fun _ => 1, 1, 1⟩ rfl rfl one_pos one_pos rfl rfl (fun _ => rfl) (fun _ => rfl) 1
  obtain ⟨h1, h2⟩ := h
  have hA : 0 < dot (area (m4Kernel 1) (1 / 100) (exPart 0) (exPart 1)) (fun k => (exPart 1).r k - (exPart 0).r k) :=
    (C72_face_direction ⟨le_refl _, by norm_num⟩ _ (C30_m4_valid 1 ⟨le_refl _, by norm_num⟩) _ (by norm_num) _ _
      (exPart_sound 0) (exPart_sound 1) _ _ (ex_built 0 1 (by norm_num)) (ex_built 1 0 (by norm_num))).2
      (fun h => by have := congrFun h 0; norm_num [exPart] at this) (Or.inl ⟨rfl, ex_reach⟩)
  have hA' : 0 < area (m4Kernel 1) (1 / 100) (exPart 0) (exPart 1) 0 := by
    simpa [dot, exPart] using hA
  rw [h2]
  have hu : rkUnit (exScheme.small) (exPart 0) (exPart 1) 0 < 0 := by
    have : (0 : ℝ) < √(1 + 1 / 100) := Real.sqrt_pos.mpr (by norm_num)
    have : 0 < 1 / √((1 : ℝ) + 1 / 100) := by positivity
    simp only [rkUnit, rkSep, exPart, exScheme, dot, Fin.sum_univ_one]
    norm_num at this ⊢
  have hne : (rkFluxes (m4Kernel 1) Lim.zero { exScheme with zmf := true } (exPart 0) (exPart 1) 1).1.en ≠ 0 := by
    rw [h1]
    rw [rkArea_eq]
    simp only [dot, Fin.sum_univ_one]
    have := hu.ne
    have := hA'.ne'
    exact mul_ne_zero (mul_ne_zero hu.ne (neg_ne_zero.mpr hA'.ne'))
      (mul_ne_zero (mul_ne_zero one_ne_zero (mul_ne_zero one_ne_zero hu.ne)) (mul_ne_zero hu.ne hu.ne))
  intro h
  exact hne (by linarith)

/-- A particle with no gradients in a gas that moves: its density is changed by the gradient of its neighbour. -/
example : (rkStates Lim.base exScheme (exPart 0) { exPart 1 with grad := ⟨fun _ _ => 0, fun _ => 1, fun _ => 0⟩ } 1).2.1.d = 0 := by
  rw [(C72_rk_gradient_fails exScheme (exPart 0) { exPart 1 with grad := ⟨fun _ _ => 0, fun _ => 1, fun _ => 0⟩ } 1
    (fun _ => ⟨rfl, rfl⟩) (fun _ _ => rfl) (fun _ _ => rfl)).2]
  norm_num [exPart, exScheme, rkVface, dot]

/-- A gradient of the velocity along the line of the pair gives a stress, so that the work in `C72_viscous_energy_fails` is
not zero. -/
example : stress (n := 1) 1 0 1 (meanGrad (fun _ _ => 1) fun _ _ => 1) 0 0 = 4 / 3 := by
  norm_num [stress, meanGrad]

/-- The limiter without limits is one of those of `C72_galilean`. -/
example (p q : Part n) (w dr : Vec n ℝ) : Lim.base (p.faster w) (q.faster w) dr = Lim.base p q dr := rfl

end Gandalf
