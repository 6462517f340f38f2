import Verif.Proof.Godunov
import Verif.Prop.C28
import Verif.Prop.C29

/-! Lemmas for C72: the face, the states at the face and the flux. -/

set_option autoImplicit false
set_option linter.unusedSectionVars false

namespace Gandalf.God

open Hllc Exact

variable {n : ℕ}

/-! ### the face -/

theorem psiI_eq (K : Kernel) (small : ℝ) (q : Part n) (d : Vec n ℝ) (k : Fin n) : psiI K small q d k = -psiJ K small q d k := by
  unfold psiI psiJ
  by_cases h : q.bad = false
  · simp only [if_pos h, Finset.sum_neg_distrib]
  · simp only [if_neg h]
    ring

theorem dot_neg_neg (d : Vec n ℝ) : dot (fun k => -d k) (fun k => -d k) = dot d d := by simp [dot]

theorem psiJ_neg (K : Kernel) (small : ℝ) (q : Part n) (d : Vec n ℝ) (k : Fin n) :
    psiJ K small q (fun k => -d k) k = -psiJ K small q d k := by
  unfold psiJ
  by_cases h : q.bad = false
  · simp only [if_pos h, dot_neg_neg, ← Finset.sum_neg_distrib]
    exact Finset.sum_congr rfl fun _ _ => by ring
  · simp only [if_neg h, dot_neg_neg]
    ring

theorem areaOf_eq (K : Kernel) (small : ℝ) (p q : Part n) (d : Vec n ℝ) (k : Fin n) :
    areaOf K small p q d k = 1 / p.ndens * psiJ K small p d k + 1 / q.ndens * psiJ K small q d k := by
  unfold areaOf
  rw [psiI_eq]
  ring

theorem sep_swap (p q : Part n) : sep q p = fun k => -sep p q k := by
  funext k; simp [sep]

theorem rkSep_eq (p q : Part n) : rkSep p q = fun k => -sep p q k := by
  funext k; simp [sep, rkSep]

theorem area_swap (K : Kernel) (small : ℝ) (p q : Part n) : area K small q p = fun k => -area K small p q k := by
  funext k
  unfold area
  rw [sep_swap, areaOf_eq, areaOf_eq, psiJ_neg, psiJ_neg]
  ring

theorem rkArea_eq (K : Kernel) (small : ℝ) (p q : Part n) : rkArea K small p q = fun k => -area K small p q k := by
  funext k
  unfold area rkArea
  rw [rkSep_eq, areaOf_eq, areaOf_eq, psiJ_neg, psiJ_neg]
  ring

/-- the weight of the gradient matrix in the notation of the flux -/
theorem weight_place (K : Kernel) (p : Part n) (y : Vec n ℝ) :
    Gradients.weight K ⟨p.h, p.hfactor, p.ndens⟩ (place p.r) (place y) =
      p.hfactor * K.w0 (√(dot (fun k => y k - p.r k) (fun k => y k - p.r k) * (1 / p.h) * (1 / p.h))) * (1 / p.ndens) := by
  unfold Gradients.weight
  have h1 : Gradients.draux (place p.r) (place y) = fun k => y k - p.r k := rfl
  rw [h1]
  have h2 : ∀ x : ℝ, x * (1 / (p.h * p.h)) = x * (1 / p.h) * (1 / p.h) := by
    intro x
    rw [one_div, mul_inv]
    ring
  simp only [h2]
  ring

theorem weight_nonneg {K : Kernel} (hK : ∀ s, 0 ≤ s → 0 ≤ K.w0 s) {o : Gradients.Own} (hf : 0 ≤ o.hfactor) (hd : 0 < o.ndens)
    (p b : Gradients.Pt n 0) : 0 ≤ Gradients.weight K o p b := by
  unfold Gradients.weight
  have := hK _ (Real.sqrt_nonneg (dot (Gradients.draux p b) (Gradients.draux p b) * (1 / (o.h * o.h))))
  positivity

/-- the inverse of the gradient matrix is positive definite -/
theorem inverse_pos (hn : 1 ≤ n ∧ n ≤ 3) {K : Kernel} {o : Gradients.Own} {p : Gradients.Pt n 0} {ngbs : List (Gradients.Pt n 0)}
    (hw : ∀ b ∈ ngbs, 0 ≤ Gradients.weight K o p b) {B : Gradients.Mat n ℝ} {dec : DecidableEq ℝ}
    (h : @Gradients.invert ℝ _ dec n (Gradients.matE K o p ngbs) = some B) (d : Vec n ℝ) :
    0 ≤ ∑ k, d k * ∑ kk, B k kk * d kk ∧ (d ≠ 0 → 0 < ∑ k, d k * ∑ kk, B k kk * d kk) := by
  obtain ⟨h1, h2⟩ := (Gradients.invert_spec n hn (Gradients.matE K o p ngbs)).2 B (by
    rw [← h])
  -- y = B d, E y = d
  set y : Vec n ℝ := fun k => ∑ kk, B k kk * d kk with hy
  have hEy : ∀ k, ∑ kk, Gradients.matE K o p ngbs k kk * y kk = d k := by
    intro k
    have h3 : Matrix.mulVec (Matrix.of (Gradients.matE K o p ngbs)) (Matrix.mulVec (Matrix.of B) d) = d := by
      rw [Matrix.mulVec_mulVec, h1, Matrix.one_mulVec]
    exact congrFun h3 k
  have hq := Gradients.matE_quad (K := K) (o := o) (p := p) ngbs y
  simp only [hEy] at hq
  have hsum : ∑ k, d k * y k = (ngbs.map fun b => dot y (Gradients.draux p b) ^ 2 * Gradients.weight K o p b).sum := by
    rw [← hq]
    exact Finset.sum_congr rfl fun _ _ => mul_comm _ _
  have h0 : ∀ b ∈ ngbs, 0 ≤ dot y (Gradients.draux p b) ^ 2 * Gradients.weight K o p b :=
    fun b hb => mul_nonneg (sq_nonneg _) (hw b hb)
  have hnn : 0 ≤ ∑ k, d k * y k := by
    rw [hsum]
    exact List.sum_nonneg (by
      intro x hx
      obtain ⟨c, hc, rfl⟩ := List.mem_map.mp hx
      exact h0 c hc)
  refine ⟨hnn, fun hd => lt_of_le_of_ne hnn fun h => hd ?_⟩
  rw [hsum] at h
  have hz := (Gradients.list_sum_eq_zero h0).mp h.symm
  funext k
  rw [← hEy k]
  have : ∀ b ∈ ngbs, (∑ kk, Gradients.draux p b k * Gradients.draux p b kk * Gradients.weight K o p b * y kk) = 0 := by
    intro b hb
    have e : (∑ kk, Gradients.draux p b k * Gradients.draux p b kk * Gradients.weight K o p b * y kk) =
        Gradients.draux p b k * (Gradients.weight K o p b * dot y (Gradients.draux p b)) := by
      unfold dot
      rw [Finset.mul_sum, Finset.mul_sum]
      exact Finset.sum_congr rfl fun _ _ => by ring
    rw [e]
    rcases mul_eq_zero.mp (hz b hb) with h5 | h5
    · rw [pow_eq_zero_iff (by norm_num)] at h5
      rw [h5]; ring
    · rw [h5]; ring
  unfold Gradients.matE
  simp only [← Gradients.sum_map_mul]
  rw [Gradients.list_sum_comm]
  exact (Gradients.list_sum_eq_zero (fun b hb => (this b hb).ge)).mpr this

/-- a monotone kernel has a nonpositive derivative -/
theorem w1_nonpos {K : Kernel} {m : ℕ} (hK : K.Valid m) {s : ℝ} (hs : 0 < s) : K.w1 s ≤ 0 := by
  by_contra hc
  push Not at hc
  have h1 := hK.deriv s
  have h2 := h1.tendsto_slope
  have h3 : ∀ᶠ y in nhdsWithin s {s}ᶜ, 0 < slope K.w0 s y := (tendsto_order.mp h2).1 0 hc
  have h4 : ∀ᶠ y in nhdsWithin s (Set.Ioi s), 0 < slope K.w0 s y :=
    h3.filter_mono (nhdsWithin_mono s fun y hy => by simp at hy ⊢; exact hy.ne')
  obtain ⟨y, hy, hy'⟩ := (h4.and self_mem_nhdsWithin).exists
  have hy' : s < y := hy'
  rw [slope_def_field] at hy
  have h5 : K.w0 y ≤ K.w0 s := hK.antitone hs.le (hs.trans hy').le hy'.le
  have : (K.w0 y - K.w0 s) / (y - s) ≤ 0 := div_nonpos_of_nonpos_of_nonneg (by linarith) (by linarith)
  linarith

theorem psiJ_dot_good (K : Kernel) (small : ℝ) (p : Part n) (d : Vec n ℝ) (h : p.bad = false) :
    dot (psiJ K small p d) d = (p.hfactor * K.w0 (√(dot d d * (1 / p.h) * (1 / p.h))) * (1 / p.ndens)) *
      ∑ k, d k * ∑ kk, p.B k kk * d kk := by
  unfold psiJ
  simp only [if_pos h]
  unfold dot
  rw [Finset.mul_sum]
  refine Finset.sum_congr rfl fun k _ => ?_
  rw [Finset.sum_mul, Finset.mul_sum, Finset.mul_sum]
  exact Finset.sum_congr rfl fun kk _ => by ring

/-- particle data that make sense -/
structure Sound (p : Part n) : Prop where
  h : 0 < p.h
  hfactor : 0 < p.hfactor
  ndens : 0 < p.ndens

theorem psiJ_dir (hn : 1 ≤ n ∧ n ≤ 3) {K : Kernel} {m : ℕ} (hK : K.Valid m) {small : ℝ} (hs : 0 < small) {p : Part n}
    (hp : Sound p) {nb : List (Vec n ℝ)} (hb : Built K nb p) (d : Vec n ℝ) :
    0 ≤ dot (psiJ K small p d) d ∧
    (p.bad = false → d ≠ 0 → 0 < K.w0 (√(dot d d) / p.h) → 0 < dot (psiJ K small p d) d) := by
  have e1 : √(dot d d * (1 / p.h) * (1 / p.h)) = √(dot d d) / p.h := by
    rw [mul_assoc, Real.sqrt_mul (dot_nonneg d), Real.sqrt_mul_self (by have := hp.h; positivity)]
    ring
  by_cases h : p.bad = false
  · have hB := inverse_pos hn (K := K) (o := ⟨p.h, p.hfactor, p.ndens⟩) (p := place p.r) (ngbs := nb.map place)
      (fun b _ => weight_nonneg hK.nonneg hp.hfactor.le hp.ndens _ _) (hb h) d
    rw [psiJ_dot_good K small p d h, e1]
    have hq : 0 ≤ √(dot d d) / p.h := div_nonneg (Real.sqrt_nonneg _) hp.h.le
    have h1 := hp.hfactor
    have h2 := hp.ndens
    constructor
    · have := hK.nonneg _ hq
      exact mul_nonneg (by positivity) hB.1
    · intro _ hd hw
      exact mul_pos (by positivity) (hB.2 hd)
  · refine ⟨?_, fun h' => absurd h' h⟩
    unfold psiJ
    simp only [if_neg h]
    have h1 := hp.hfactor
    have h2 := hp.ndens
    have hx : 0 < √(dot d d) + small := by have := Real.sqrt_nonneg (dot d d); linarith
    have hw := w1_nonpos hK (s := (√(dot d d) + small) * (1 / p.h)) (by have := hp.h; positivity)
    have e : dot (fun k => -(d k / (√(dot d d) + small)) * (p.hfactor * (1 / p.ndens) *
        K.w1 ((√(dot d d) + small) * (1 / p.h)))) d =
        (p.hfactor * (1 / p.ndens)) * (-K.w1 ((√(dot d d) + small) * (1 / p.h))) * (dot d d / (√(dot d d) + small)) := by
      generalize K.w1 ((√(dot d d) + small) * (1 / p.h)) = w
      generalize √(dot d d) + small = s
      simp only [dot, div_eq_mul_inv, Finset.mul_sum, Finset.sum_mul]
      exact Finset.sum_congr rfl fun k _ => by ring
    rw [e]
    have := dot_nonneg d
    exact mul_nonneg (mul_nonneg (by positivity) (by linarith)) (by positivity)

theorem area_dot (K : Kernel) (small : ℝ) (p q : Part n) :
    dot (area K small p q) (sep p q) =
      1 / p.ndens * dot (psiJ K small p (sep p q)) (sep p q) + 1 / q.ndens * dot (psiJ K small q (sep p q)) (sep p q) := by
  unfold area dot
  simp only [areaOf_eq, Finset.mul_sum, ← Finset.sum_add_distrib]
  exact Finset.sum_congr rfl fun k _ => by ring


/-! ### linear functions -/

/-- the faces of a particle reproduce linear functions -/
theorem psi_linear (hn : 1 ≤ n ∧ n ≤ 3) {K : Kernel} {small : ℝ} {p : Part n} {nb : List (Vec n ℝ)} (hb : Built K nb p)
    (hg : p.bad = false) (g : Vec n ℝ) (k : Fin n) :
    (nb.map fun y => psiJ K small p (fun k => y k - p.r k) k * dot g fun k => y k - p.r k).sum = g k := by
  obtain ⟨h1, h2⟩ := (Gradients.invert_spec n hn _).2 p.B (hb hg)
  have e : ∀ y : Vec n ℝ, psiJ K small p (fun k => y k - p.r k) k * (dot g fun k => y k - p.r k) =
      ∑ kk, p.B k kk * (Gradients.draux (place p.r) (place y) kk * dot g (Gradients.draux (place p.r) (place y)) *
        Gradients.weight K ⟨p.h, p.hfactor, p.ndens⟩ (place p.r) (place y)) := by
    intro y
    rw [weight_place]
    unfold psiJ
    simp only [if_pos hg]
    rw [Finset.sum_mul]
    refine Finset.sum_congr rfl fun kk _ => ?_
    have : Gradients.draux (place p.r) (place y) = fun k => y k - p.r k := rfl
    rw [this]
    ring
  simp only [e]
  have sw : ∀ (l : List (Vec n ℝ)) (f : Fin n → Vec n ℝ → ℝ),
      (l.map fun y => ∑ kk, p.B k kk * f kk y).sum = ∑ kk, p.B k kk * (l.map fun y => f kk y).sum := by
    intro l f
    induction l with
    | nil => simp
    | cons y l ih => simp only [List.map_cons, List.sum_cons, ih, ← Finset.sum_add_distrib, mul_add]
  rw [sw nb fun kk y => Gradients.draux (place p.r) (place y) kk * dot g (Gradients.draux (place p.r) (place y)) *
        Gradients.weight K ⟨p.h, p.hfactor, p.ndens⟩ (place p.r) (place y)]
  have hE : ∀ kk, (nb.map fun y => Gradients.draux (place p.r) (place y) kk * dot g (Gradients.draux (place p.r) (place y)) *
        Gradients.weight K ⟨p.h, p.hfactor, p.ndens⟩ (place p.r) (place y)).sum =
      Matrix.mulVec (Matrix.of (Gradients.matE K ⟨p.h, p.hfactor, p.ndens⟩ (place p.r) (nb.map place))) g kk := by
    intro kk
    unfold Matrix.mulVec dotProduct
    simp only [Matrix.of_apply, Gradients.matE, ← Gradients.sum_map_mul]
    rw [Gradients.list_sum_comm, List.map_map]
    congr 1
    refine List.map_congr_left fun y _ => ?_
    simp only [Function.comp_apply]
    unfold dot
    rw [Finset.mul_sum, Finset.sum_mul]
    exact Finset.sum_congr rfl fun _ _ => by ring
  simp only [hE]
  have h3 : Matrix.mulVec (Matrix.of p.B) (Matrix.mulVec (Matrix.of (Gradients.matE K ⟨p.h, p.hfactor, p.ndens⟩ (place p.r)
      (nb.map place))) g) = g := by
    rw [Matrix.mulVec_mulVec, h2, Matrix.one_mulVec]
  exact congrFun h3 k

/-! ### states and fluxes -/

theorem rface_swap (p q : Part n) : rface q p = rface p q := by
  funext k; unfold rface; ring

theorem vface_swap (st : Bool) (p q : Part n) : vface st q p = vface st p q := by
  funext k; unfold vface
  cases st
  · simp only [Bool.false_eq_true, if_false]; ring
  · simp

theorem unit_neg (A : Vec n ℝ) : unit (fun k => -A k) = fun k => -unit A k := by
  funext k
  unfold unit
  rw [dot_neg_neg, neg_div]

theorem unit_one {A : Vec n ℝ} (hA : 0 < √(dot A A)) : dot (unit A) (unit A) = 1 := by
  have h : √(dot A A) * √(dot A A) = dot A A := Real.mul_self_sqrt (dot_nonneg A)
  have e : dot (unit A) (unit A) = dot A A / (√(dot A A) * √(dot A A)) := by
    unfold unit
    generalize √(dot A A) = s
    simp only [dot, div_eq_mul_inv, Finset.sum_mul]
    exact Finset.sum_congr rfl fun k _ => by rw [mul_inv]; ring
  rw [e, h]
  exact div_self (by rw [← h]; positivity)

theorem unit_dot {A : Vec n ℝ} (hA : 0 < √(dot A A)) : dot (unit A) A = √(dot A A) := by
  have h : √(dot A A) * √(dot A A) = dot A A := Real.mul_self_sqrt (dot_nonneg A)
  have e : dot (unit A) A = dot A A / √(dot A A) := by
    unfold unit
    generalize √(dot A A) = s
    simp only [dot, div_eq_mul_inv, Finset.sum_mul]
    exact Finset.sum_congr rfl fun k _ => by ring
  rw [e, div_eq_iff hA.ne', h]

theorem unit_mul {A : Vec n ℝ} (hA : 0 < √(dot A A)) (k : Fin n) : √(dot A A) * unit A k = A k := by
  unfold unit
  field_simp

theorem hllc_adm {gamma : ℝ} (hg : 1 < gamma) (iso : Bool) {W : Prim n} (hd : 0 < W.d) (hp : 0 < W.p) (nrm : Vec n ℝ) :
    Admissible (hllcState gamma iso W nrm) nrm (W.p / (gamma - 1)) := by
  have hg' : 0 < gamma - 1 := by linarith
  refine ⟨hd, hp, ?_, rfl, ?_⟩
  · unfold hllcState
    cases iso
    · simp only [Bool.false_eq_true, if_false]
      have : 0 < gamma := by linarith
      exact Real.sqrt_pos.mpr (by positivity)
    · simp only [if_true]
      exact Real.sqrt_pos.mpr (by positivity)
  · change W.d * (W.p / (W.d * (gamma - 1))) + 0.5 * W.d * dot W.v W.v = W.d * dot W.v W.v / 2 + W.p / (gamma - 1)
    have : W.d * (W.p / (W.d * (gamma - 1))) = W.p / (gamma - 1) := by field_simp
    rw [this]
    ring

theorem hllc_ideal {gamma : ℝ} (hg : 1 < gamma) {W : Prim n} (hd : 0 < W.d) (hp : 0 < W.p) (nrm : Vec n ℝ) :
    IdealGas gamma (hllcState gamma false W nrm) := by
  have hg' : 0 < gamma - 1 := by linarith
  have h0 : 0 < gamma := by linarith
  change W.d * (√(gamma * (gamma - 1) * (W.p / (W.d * (gamma - 1))))) ^ 2 = gamma * W.p
  rw [Real.sq_sqrt (by positivity)]
  field_simp

theorem hllc_ideal_iso {gamma : ℝ} (hg : 1 < gamma) {W : Prim n} (hd : 0 < W.d) (hp : 0 < W.p) (nrm : Vec n ℝ) :
    IdealGas 1 (hllcState gamma true W nrm) := by
  have hg' : 0 < gamma - 1 := by linarith
  change W.d * (√((gamma - 1) * (W.p / (W.d * (gamma - 1))))) ^ 2 = 1 * W.p
  rw [Real.sq_sqrt (by positivity)]
  field_simp

theorem hllc_rev (gamma : ℝ) (iso : Bool) (W : Prim n) (nrm : Vec n ℝ) :
    hllcState gamma iso W (fun k => -nrm k) = rev (hllcState gamma iso W nrm) := by
  unfold hllcState rev
  simp only [dot_neg_r]

theorem floored_pos {small : ℝ} (hs : 0 < small) (W : Prim n) : 0 < (floored small W).d ∧ 0 < (floored small W).p :=
  ⟨lt_of_lt_of_le hs (le_max_right _ _), lt_of_lt_of_le hs (le_max_right _ _)⟩

/-- the solver gives the same tensor when the sides and the normal are exchanged -/
theorem riemann_swap [NeZero n] (s : Scheme) (he : s.exact = false) (hg : 5 / 4 ≤ s.gamma) {Wl Wr : Prim n}
    (hl : 0 < Wl.d ∧ 0 < Wl.p) (hr : 0 < Wr.d ∧ 0 < Wr.p) (nrm vf : Vec n ℝ) :
    (riemann s Wr Wl (fun k => -nrm k) vf).1 = (riemann s Wl Wr nrm vf).1 := by
  have h1 : 1 < s.gamma := by linarith
  have key : (solve s.iso s.zmf (rev (hllcState s.gamma s.iso Wr nrm)) (rev (hllcState s.gamma s.iso Wl nrm))
      (fun k => -nrm k) vf).1.Opposite
      (solve s.iso s.zmf (hllcState s.gamma s.iso Wl nrm) (hllcState s.gamma s.iso Wr nrm) nrm vf).1 := by
    cases hi : s.iso
    · exact (C28_antisymmetric false s.zmf _ _ nrm vf s.gamma _ _ (Or.inr hg) (hllc_adm h1 false hl.1 hl.2 nrm)
        (hllc_adm h1 false hr.1 hr.2 nrm) (hllc_ideal h1 hl.1 hl.2 nrm) (hllc_ideal h1 hr.1 hr.2 nrm)).1
    · exact (C28_antisymmetric true s.zmf _ _ nrm vf 1 _ _ (Or.inl rfl) (hllc_adm h1 true hl.1 hl.2 nrm)
        (hllc_adm h1 true hr.1 hr.2 nrm) (hllc_ideal_iso h1 hl.1 hl.2 nrm) (hllc_ideal_iso h1 hr.1 hr.2 nrm)).1
  unfold riemann
  simp only [he, Bool.false_eq_true, if_false, hllc_rev]
  obtain ⟨k1, k2, k3⟩ := key
  unfold outer
  simp only [k1, k2, k3, neg_mul_neg]

theorem mean_swap (Wl Wr : Prim n) : mean Wr Wl = mean Wl Wr := by
  unfold mean
  congr 1
  · funext i; ring
  · ring
  · ring

theorem viscous_swap (sh bu : ℝ) (Wl Wr : Prim n) (gl gr : Fin n → Vec n ℝ) (F : VFlux n) :
    viscous sh bu Wr Wl gr gl F = viscous sh bu Wl Wr gl gr F := by
  unfold viscous
  have : meanGrad gr gl = meanGrad gl gr := by funext i j; unfold meanGrad; ring
  rw [mean_swap, this]

theorem tensor_swap [NeZero n] (lim : Lim n) (s : Scheme) (he : s.exact = false) (hg : 5 / 4 ≤ s.gamma) (hs : 0 < s.small)
    (p q : Part n) (A : Vec n ℝ) (dt : ℝ) : tensor lim s q p (fun k => -A k) dt = tensor lim s p q A dt := by
  unfold tensor
  simp only [rface_swap p q, vface_swap s.static p q, unit_neg]
  rw [riemann_swap s he hg (Wl := predicted lim s.small p q (rface p q) (vface s.static p q) dt)
    (Wr := predicted lim s.small q p (rface p q) (vface s.static p q) dt) (floored_pos hs _) (floored_pos hs _), viscous_swap]

/-! ### uniform gas -/

theorem labFlux_unit {rho press e : ℝ} {v A vf : Vec n ℝ} (hA : 0 < √(dot A A)) :
    times √(dot A A) (labFlux rho v press e (unit A) vf) = labFlux rho v press e A vf := by
  have hm := unit_mul hA
  have h1 : ∀ w : Vec n ℝ, √(dot A A) * dot w (unit A) = dot w A := by
    intro w
    generalize √(dot A A) = s at *
    unfold dot
    rw [Finset.mul_sum]
    exact Finset.sum_congr rfl fun k _ => by rw [← hm k]; ring
  unfold times labFlux
  congr 1
  · funext i
    rw [mul_add, show √(dot A A) * (rho * dot (fun i => v i - vf i) (unit A) * v i) =
      rho * (√(dot A A) * dot (fun i => v i - vf i) (unit A)) * v i by ring, h1,
      show √(dot A A) * (press * unit A i) = press * (√(dot A A) * unit A i) by ring, hm]
  · rw [show √(dot A A) * (rho * dot (fun i => v i - vf i) (unit A)) =
      rho * (√(dot A A) * dot (fun i => v i - vf i) (unit A)) by ring, h1]
  · rw [mul_add, ← mul_assoc, h1, show √(dot A A) * (press * dot v (unit A)) = press * (√(dot A A) * dot v (unit A)) by ring, h1]

theorem through_outer (f : Flux n) (nrm A : Vec n ℝ) : throughArea (outer f nrm) A = times (dot nrm A) f := by
  unfold throughArea outer times
  congr 1
  · funext i
    simp only [dot, Finset.sum_mul]
    exact Finset.sum_congr rfl fun _ _ => by ring
  · simp only [dot, Finset.sum_mul]
    exact Finset.sum_congr rfl fun _ _ => by ring
  · simp only [dot, Finset.sum_mul]
    exact Finset.sum_congr rfl fun _ _ => by ring

theorem through_unit (F : VFlux n) {A : Vec n ℝ} (hA : 0 < √(dot A A)) :
    throughArea F A = times √(dot A A) (F.through (unit A)) := by
  have hm := unit_mul hA
  have h1 : ∀ w : Vec n ℝ, √(dot A A) * dot w (unit A) = dot w A := by
    intro w
    generalize √(dot A A) = s at *
    unfold dot
    rw [Finset.mul_sum]
    exact Finset.sum_congr rfl fun k _ => by rw [← hm k]; ring
  unfold throughArea times VFlux.through
  simp only [h1]
  congr 1
  funext i
  exact (h1 (F.mom i)).symm

end Gandalf.God
