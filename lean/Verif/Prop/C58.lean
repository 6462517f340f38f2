import Verif.Proof.MultipoleDeriv
import Verif.Proof.MultipoleTree
import Verif.Prop.C09

/-!
# C58: gravity of distant cells
-/

set_option autoImplicit false
set_option linter.unusedSectionVars false

namespace Gandalf

open Multipole Gravity

variable {n : ℕ}

/-! ### force and potential belong together -/

/-- **C58, monopoles.** The acceleration `ComputeCellMonopoleForces` adds is the gradient of the potential it adds:
along every line through the point the potential changes at the rate given by the acceleration. -/
theorem C58_monopole_gradient (eps : ℝ) (he : 0 < eps) (x w : Vec n ℝ) (l : List (Moment n)) (s : Field n) :
    HasDerivAt (fun t => (cellMonopoleForces eps (fun k => x k + t * w k) l s).gpot)
      (∑ k, ((cellMonopoleForces eps x l s).a k - s.a k) * w k) 0 := by
  simp only [monopole_field he.le, add_sub_cancel_left]
  rw [dot_list_sum l (fun c k => c.m * (c.r k - x k) / gdist eps x c.r ^ 3) w]
  exact (hasDerivAt_list_sum l (fun c t => c.m / gdist eps (line x w t) c.r) _
    fun c _ => monoG_deriv he.le x w c (gdist_pos he x c.r)).const_add s.gpot

/-- **C58, quadrupoles.** Likewise for `ComputeCellQuadrupoleForces`, in one, two and three dimensions. -/
theorem C58_quadrupole_gradient (hn : n = 1 ∨ n = 2 ∨ n = 3) (eps : ℝ) (he : 0 < eps) (x w : Vec n ℝ)
    (l : List (Moment n)) (s : Field n) :
    HasDerivAt (fun t => (cellQuadrupoleForces eps (fun k => x k + t * w k) l s).gpot)
      (∑ k, ((cellQuadrupoleForces eps x l s).a k - s.a k) * w k) 0 := by
  simp only [quadrupole_field he.le, add_sub_cancel_left]
  rw [dot_list_sum l (quadA eps x) w]
  exact (hasDerivAt_list_sum l (fun c t => quadG eps (line x w t) c) _
    fun c _ => quadG_deriv he.le hn x w c (gdist_pos he x c.r)).const_add s.gpot

/-! ### truncation errors -/

theorem err_list {α : Type} (l : List α) (f g M : α → ℝ) (B : ℝ) (h : ∀ c ∈ l, |f c - g c| ≤ M c * B) :
    |(l.map f).sum - (l.map g).sum| ≤ (l.map M).sum * B := by
  induction l with
  | nil => simp
  | cons c l ih =>
    simp only [List.map_cons, List.sum_cons]
    have h1 := ih fun d hd => h d (by simp [hd])
    have h2 := h c (by simp)
    rw [abs_le] at h1 h2 ⊢
    rw [add_mul]
    constructor <;> linarith [h1.1, h1.2, h2.1, h2.2]

theorem pot_flatten {α : Type} (eps : ℝ) (l : List α) (f : α → List (ℝ × Vec n ℝ)) (x : Vec n ℝ) :
    pot eps (l.map f).flatten x = (l.map fun c => pot eps (f c) x).sum := by
  induction l with
  | nil => simp [pot]
  | cons c l ih =>
    simp only [List.map_cons, List.flatten_cons, List.sum_cons, ← ih]
    simp [pot]

theorem acc_flatten {α : Type} (eps : ℝ) (l : List α) (f : α → List (ℝ × Vec n ℝ)) (x : Vec n ℝ) (k : Fin n) :
    acc eps (l.map f).flatten x k = (l.map fun c => acc eps (f c) x k).sum := by
  induction l with
  | nil => simp [acc]
  | cons c l ih =>
    simp only [List.map_cons, List.flatten_cons, List.sum_cons, ← ih]
    simp [acc]

/-- a cell with the masses it stands for, all within `χ` times the distance of `x` from the centre of mass (nothing is
asked of a cell without mass) -/
structure Seen (eps χ : ℝ) (x : Vec n ℝ) (c : Moment n × List (ℝ × Vec n ℝ)) : Prop where
  centre : IsCentre c.2 c.1.r c.1.m
  mass : ∀ s ∈ c.2, 0 ≤ s.1
  away : c.1.m ≠ 0 → 0 < gdist eps x c.1.r
  inside : c.1.m ≠ 0 → ∀ s ∈ c.2, gdist 0 s.2 c.1.r ≤ χ * gdist eps x c.1.r

theorem Seen.zero {eps χ : ℝ} {x : Vec n ℝ} {c : Moment n × List (ℝ × Vec n ℝ)} (h : Seen eps χ x c)
    (h0 : c.1.m = 0) : ∀ s ∈ c.2, s.1 = 0 :=
  sum_zero h.mass (by rw [← h.centre.mass, h0])

/-- **C58, error of the monopoles.** The potential and the acceleration added for a list of cells differ from the
direct sums over all particles in the cells by second order in the ratio `χ` of cell size to distance: the first order
vanishes because each cell is expanded about its centre of mass. -/
theorem C58_monopole_error (eps χ : ℝ) (he : 0 ≤ eps) (hχ : χ < 1) (x : Vec n ℝ)
    (cells : List (Moment n × List (ℝ × Vec n ℝ))) (hc : ∀ c ∈ cells, Seen eps χ x c) (s : Field n) :
    |(cellMonopoleForces eps x (cells.map Prod.fst) s).gpot - (s.gpot + pot eps (cells.map Prod.snd).flatten x)| ≤
      (cells.map fun c => c.1.m / gdist eps x c.1.r).sum * ((1 + 1 / (1 - χ)) * χ ^ 2) ∧
    ∀ k, |(cellMonopoleForces eps x (cells.map Prod.fst) s).a k -
        (s.a k + acc eps (cells.map Prod.snd).flatten x k)| ≤
      (cells.map fun c => c.1.m / gdist eps x c.1.r ^ 2).sum * (21 * (1 / (1 - χ)) ^ 3 * χ ^ 2) := by
  rw [monopole_field he, pot_flatten]
  refine ⟨?_, fun k => ?_⟩
  · rw [add_sub_add_left_eq_sub, List.map_map]
    refine err_list cells _ _ _ _ fun c h => ?_
    by_cases h0 : c.1.m = 0
    · simp [h0, (massless_field ((hc c h).zero h0) eps x).1]
    · obtain ⟨q, hq⟩ := exists_moment (hc c h).centre
      exact mono_pot_err he hq (hc c h).mass x hχ ((hc c h).away h0) ((hc c h).inside h0)
  · simp only []
    rw [acc_flatten, add_sub_add_left_eq_sub, List.map_map]
    refine err_list cells _ _ _ _ fun c h => ?_
    by_cases h0 : c.1.m = 0
    · simp [h0, (massless_field ((hc c h).zero h0) eps x).2 k]
    · obtain ⟨q, hq⟩ := exists_moment (hc c h).centre
      exact mono_acc_err he hq (hc c h).mass x hχ ((hc c h).away h0) ((hc c h).inside h0) k

/-- **C58, error of the quadrupoles.** With quadrupoles the error is of third order, up to the constant added to the
squared distance (`small_number`). -/
theorem C58_quadrupole_error (hn : n = 1 ∨ n = 2 ∨ n = 3) (eps χ δ : ℝ) (he : 0 ≤ eps) (hχ : χ < 1) (x : Vec n ℝ)
    (cells : List (Moment n × List (ℝ × Vec n ℝ))) (hc : ∀ c ∈ cells, Seen eps χ x c)
    (hq : ∀ c ∈ cells, IsMoment c.2 c.1.r c.1.m c.1.q)
    (hδ : ∀ c ∈ cells, c.1.m ≠ 0 → eps ≤ δ * gdist eps x c.1.r ^ 2) (s : Field n) :
    |(cellQuadrupoleForces eps x (cells.map Prod.fst) s).gpot - (s.gpot + pot eps (cells.map Prod.snd).flatten x)| ≤
      (cells.map fun c => c.1.m / gdist eps x c.1.r).sum * ((15 / 4 + 1 / (1 - χ)) * χ ^ 3 + δ * χ ^ 2 / 2) ∧
    ∀ k, |(cellQuadrupoleForces eps x (cells.map Prod.fst) s).a k -
        (s.a k + acc eps (cells.map Prod.snd).flatten x k)| ≤
      (cells.map fun c => c.1.m / gdist eps x c.1.r ^ 2).sum *
        (69 * (1 / (1 - χ)) ^ 3 * χ ^ 3 + 5 * δ * χ ^ 2 / 2) := by
  have hm : ∀ c ∈ cells, 0 ≤ c.1.m := fun c h => by
    rw [(hc c h).centre.mass]
    apply List.sum_nonneg
    simp only [List.mem_map]
    rintro _ ⟨s, hs, rfl⟩
    exact (hc c h).mass s hs
  have hr : ∀ c ∈ cells, c.1.m ≠ 0 → eps / gdist eps x c.1.r ^ 2 ≤ δ := fun c h h0 =>
    (div_le_iff₀ (pow_pos ((hc c h).away h0) 2)).mpr (hδ c h h0)
  rw [quadrupole_field he, pot_flatten]
  refine ⟨?_, fun k => ?_⟩
  · rw [add_sub_add_left_eq_sub, List.map_map]
    refine err_list cells _ _ _ _ fun c h => ?_
    by_cases h0 : c.1.m = 0
    · have := massless hn (hq c h) ((hc c h).zero h0) (fun k => x k - c.1.r k)
      simp [h0, (massless_field ((hc c h).zero h0) eps x).1, quadG, this.1]
    refine (quad_pot_err he (hq c h) (hc c h).mass x hχ ((hc c h).away h0)
      ((hc c h).inside h0) hn).trans ?_
    refine mul_le_mul_of_nonneg_left ?_ (div_nonneg (hm c h) ((hc c h).away h0).le)
    have e : eps * χ ^ 2 / (2 * gdist eps x c.1.r ^ 2) = eps / gdist eps x c.1.r ^ 2 * (χ ^ 2 / 2) := by
      have := ((hc c h).away h0).ne'
      field_simp
    rw [e, mul_div_assoc δ]
    linarith [mul_le_mul_of_nonneg_right (hr c h h0) (by positivity : 0 ≤ χ ^ 2 / 2)]
  · simp only []
    rw [acc_flatten, add_sub_add_left_eq_sub, List.map_map]
    refine err_list cells _ _ _ _ fun c h => ?_
    by_cases h0 : c.1.m = 0
    · have := massless hn (hq c h) ((hc c h).zero h0) (fun k => x k - c.1.r k)
      simp [h0, (massless_field ((hc c h).zero h0) eps x).2 k, quadA, this.1, this.2 k]
    refine (quad_acc_err he (hq c h) (hc c h).mass x hχ ((hc c h).away h0)
      ((hc c h).inside h0) hn k).trans ?_
    refine mul_le_mul_of_nonneg_left ?_ (div_nonneg (hm c h) (pow_nonneg ((hc c h).away h0).le 2))
    have e : 5 * eps * χ ^ 2 / (2 * gdist eps x c.1.r ^ 2) = eps / gdist eps x c.1.r ^ 2 * (5 * χ ^ 2 / 2) := by
      have := ((hc c h).away h0).ne'
      field_simp
    rw [e]
    linarith [mul_le_mul_of_nonneg_right (hr c h h0) (by positivity : 0 ≤ 5 * χ ^ 2 / 2)]

/-- two masses 1 at `±1`, their moments, seen from 4: the ratio is 1/4, and neither sum is exact -/
example : Seen 0 (1 / 4) (fun _ : Fin 1 => (4 : ℝ)) (⟨fun _ => 0, 2, fun _ => 4⟩, [(1, fun _ => -1), (1, fun _ => 1)]) ∧
    IsMoment (n := 1) [(1, fun _ => -1), (1, fun _ => 1)] (fun _ => 0) 2 (fun _ => 4) ∧
    (cellMonopoleForces 0 (fun _ : Fin 1 => (4 : ℝ)) [⟨fun _ => 0, 2, fun _ => 4⟩] ⟨0, fun _ => 0⟩).gpot = 1 / 2 ∧
    (cellQuadrupoleForces 0 (fun _ : Fin 1 => (4 : ℝ)) [⟨fun _ => 0, 2, fun _ => 4⟩] ⟨0, fun _ => 0⟩).gpot = 17 / 32 ∧
    pot 0 [((1 : ℝ), fun _ : Fin 1 => (-1 : ℝ)), (1, fun _ => 1)] (fun _ => 4) = 8 / 15 := by
  have g : ∀ x y : ℝ, gdist 0 (fun _ : Fin 1 => x) (fun _ => y) = |x - y| := by
    intro x y
    simp [gdist, Real.sqrt_sq_eq_abs]
  have hc : IsCentre (n := 1) [(1, fun _ => -1), (1, fun _ => 1)] (fun _ => 0) 2 :=
    ⟨by norm_num, fun k => by simp⟩
  refine ⟨⟨hc, by simp, fun _ => ?_, fun _ s hs => ?_⟩, ⟨hc, fun _ => ?_, ?_, ?_, ?_, ?_⟩, ?_, ?_, ?_⟩
  · rw [g]; norm_num
  · simp only [List.mem_cons, List.not_mem_nil, or_false] at hs
    rcases hs with rfl | rfl
    · simp only [g]; norm_num
    · simp only [g]; norm_num
  · simp [tensor]; norm_num
  all_goals first | (intro h; omega) | skip
  · rw [monopole_field le_rfl]
    simp only [List.map_cons, List.map_nil, List.sum_cons, List.sum_nil, g]
    norm_num
  · rw [quadrupole_field le_rfl]
    simp only [List.map_cons, List.map_nil, List.sum_cons, List.sum_nil, quadG, g, qscalar]
    norm_num
  · simp only [pot, List.map_cons, List.map_nil, List.sum_cons, List.sum_nil, g]
    norm_num

/-! ### one expansion for a whole cell of particles -/

/-- **C58, fast monopoles are the first order Taylor polynomial.** The acceleration `ComputeFastMonopoleForces` gives to
a particle at `r` is the field of the monopoles at the centre of its cell plus the derivative of that field in the
direction of the particle; the potential likewise. -/
theorem C58_fast_monopole (hn : n = 1 ∨ n = 2 ∨ n = 3) (rc r : Vec n ℝ) (l : List (Moment n)) (s : Field n)
    (hl : ∀ c ∈ l, 0 < gdist 0 rc c.r) :
    (∃ D, HasDerivAt (fun t => (cellMonopoleForces 0 (fun k => rc k + t * (r k - rc k)) l s).gpot) D 0 ∧
      (fastMonopoleForces rc r l s).gpot = (cellMonopoleForces 0 rc l s).gpot + D) ∧
    ∀ k, ∃ D, HasDerivAt (fun t => (cellMonopoleForces 0 (fun k => rc k + t * (r k - rc k)) l s).a k) D 0 ∧
      (fastMonopoleForces rc r l s).a k = (cellMonopoleForces 0 rc l s).a k + D := by
  have hf := fast_fold Fast.addMonopole rc r s _ _ l (fun f hf c hc => by
    have := addMonopole_apply hn f c r s (by rw [hf]; exact hl c hc)
    rw [hf] at this
    exact this) (Fast.init rc) rfl
  rw [init_apply hn] at hf
  unfold fastMonopoleForces
  rw [hf]
  simp only [monopole_field le_rfl]
  refine ⟨⟨_, (hasDerivAt_list_sum l (fun c t => c.m / gdist 0 (line rc (fun k => r k - rc k) t) c.r) _
    fun c hc => monoG_deriv le_rfl rc _ c (hl c hc)).const_add s.gpot, ?_⟩, fun k =>
    ⟨_, (hasDerivAt_list_sum l (fun c t => c.m * (c.r k - line rc (fun k => r k - rc k) t k) /
      gdist 0 (line rc (fun k => r k - rc k) t) c.r ^ 3) _
    fun c hc => monoA_deriv le_rfl rc _ c (hl c hc) k).const_add (s.a k), ?_⟩⟩
  · rw [add_assoc, ← List.sum_map_add]
  · rw [add_assoc, ← List.sum_map_add]

/-- the monopoles and quadrupoles as used by the fast sums (`small_number` only in the quadrupoles) -/
noncomputable def fastReference (eps : ℝ) (x : Vec n ℝ) (l : List (Moment n)) (s : Field n) : Field n :=
  cellQuadrupoleForces eps x (l.map fun c => { c with m := 0 }) (cellMonopoleForces 0 x l s)

/-- **C58, fast quadrupoles.** The same with quadrupoles: the 6 numbers in `q` are the derivative of the acceleration. -/
theorem C58_fast_quadrupole (hn : n = 1 ∨ n = 2 ∨ n = 3) (eps : ℝ) (he : 0 < eps) (rc r : Vec n ℝ)
    (l : List (Moment n)) (s : Field n) (hl : ∀ c ∈ l, 0 < gdist 0 rc c.r) :
    (∃ D, HasDerivAt (fun t => (fastReference eps (fun k => rc k + t * (r k - rc k)) l s).gpot) D 0 ∧
      (fastQuadrupoleForces eps rc r l s).gpot = (fastReference eps rc l s).gpot + D) ∧
    ∀ k, ∃ D, HasDerivAt (fun t => (fastReference eps (fun k => rc k + t * (r k - rc k)) l s).a k) D 0 ∧
      (fastQuadrupoleForces eps rc r l s).a k = (fastReference eps rc l s).a k + D := by
  have hf := fast_fold (Fast.addQuadrupole eps) rc r s
    (fun c => (c.m / gdist 0 rc c.r + dot (fun k => c.m * (c.r k - rc k) / gdist 0 rc c.r ^ 3) (fun k => r k - rc k)) +
      (quadG eps rc (noMass c) + dot (quadA eps rc (noMass c)) (fun k => r k - rc k)))
    (fun c k => (c.m * (c.r k - rc k) / gdist 0 rc c.r ^ 3 +
          c.m * (3 * (rc k - c.r k) * dot (fun k => rc k - c.r k) (fun k => r k - rc k) / gdist 0 rc c.r ^ 5 -
            (r k - rc k) / gdist 0 rc c.r ^ 3)) +
      (quadA eps rc (noMass c) k + quadJ eps rc (noMass c) (fun k => r k - rc k) k)) l (fun f hf c hc => by
    have h1 := (addMonopole_apply hn f c r s (by rw [hf]; exact hl c hc)).2
    have h2 := addQuadrupole_apply he.le hn f c r s (gdist_pos he _ _)
    rw [h1, hf] at h2
    refine ⟨h2.1, h2.2.trans ?_⟩
    simp only [add_assoc]) (Fast.init rc) rfl
  rw [init_apply hn] at hf
  unfold fastQuadrupoleForces fastReference
  rw [hf]
  simp only [monopole_field le_rfl, quadrupole_field he.le, List.map_map]
  refine ⟨⟨_, ((hasDerivAt_list_sum l (fun c t => c.m / gdist 0 (line rc (fun k => r k - rc k) t) c.r) _
      fun c hc => monoG_deriv le_rfl rc _ c (hl c hc)).const_add s.gpot).add
    (hasDerivAt_list_sum l (fun c t => quadG eps (line rc (fun k => r k - rc k) t) (noMass c)) _
      fun c hc => quadG_deriv he.le hn rc _ (noMass c) (gdist_pos he _ _)), ?_⟩, fun k =>
    ⟨_, ((hasDerivAt_list_sum l (fun c t => c.m * (c.r k - line rc (fun k => r k - rc k) t k) /
      gdist 0 (line rc (fun k => r k - rc k) t) c.r ^ 3) _
      fun c hc => monoA_deriv le_rfl rc _ c (hl c hc) k).const_add (s.a k)).add
    (hasDerivAt_list_sum l (fun c t => quadA eps (line rc (fun k => r k - rc k) t) (noMass c) k) _
      fun c hc => quadA_deriv he.le hn rc _ (noMass c) (gdist_pos he _ _) k), ?_⟩⟩
  · simp only [List.sum_map_add]
    have e : (fun c => quadG eps rc (noMass c)) = quadG eps rc ∘ fun c : Moment n => { c with m := 0 } := rfl
    rw [e]
    ring
  · simp only [List.sum_map_add]
    have e : (fun c => quadA eps rc (noMass c) k) =
      (fun c => quadA eps rc c k) ∘ fun c : Moment n => { c with m := 0 } := rfl
    rw [e]
    ring

/-- **C58, error of the fast monopoles.** Against the monopoles evaluated at the particle itself, the one expansion for
the whole cell is wrong by second order in the ratio `χ` of the particle's distance from the centre to the distance of
the sources. -/
theorem C58_fast_monopole_error (hn : n = 1 ∨ n = 2 ∨ n = 3) (χ : ℝ) (hχ : χ < 1) (rc r : Vec n ℝ)
    (l : List (Moment n)) (s : Field n) (hm : ∀ c ∈ l, 0 ≤ c.m) (hl : ∀ c ∈ l, 0 < gdist 0 rc c.r)
    (hr : ∀ c ∈ l, gdist 0 r rc ≤ χ * gdist 0 rc c.r) :
    |(fastMonopoleForces rc r l s).gpot - (cellMonopoleForces 0 r l s).gpot| ≤
      (l.map fun c => c.m / gdist 0 rc c.r).sum * ((1 + 1 / (1 - χ)) * χ ^ 2) ∧
    ∀ k, |(fastMonopoleForces rc r l s).a k - (cellMonopoleForces 0 r l s).a k| ≤
      (l.map fun c => c.m / gdist 0 rc c.r ^ 2).sum * (21 * (1 / (1 - χ)) ^ 3 * χ ^ 2) := by
  have hf := fast_fold Fast.addMonopole rc r s _ _ l (fun f hf c hc => by
    have := addMonopole_apply hn f c r s (by rw [hf]; exact hl c hc)
    rw [hf] at this
    exact this) (Fast.init rc) rfl
  rw [init_apply hn] at hf
  unfold fastMonopoleForces
  rw [hf, monopole_field le_rfl]
  have hconf : ∀ c ∈ l, Expansion.Conf (gdist 0 rc c.r) (gdist 0 r c.r) (gdist 0 r rc)
      (dot (fun k => c.r k - rc k) (fun k => r k - rc k)) := fun c hc => by
    have := conf le_rfl c.r rc r (by
      rw [dist_symm 0 c.r rc]
      exact lt_of_le_of_lt (hr c hc) (by nlinarith [hl c hc]))
    rwa [dist_symm 0 c.r rc, dist_symm 0 c.r r] at this
  refine ⟨?_, fun k => ?_⟩
  · simp only [add_sub_add_left_eq_sub]
    refine err_list l _ _ _ _ fun c hc => ?_
    have h1 := Expansion.pot1 (hconf c hc) hχ (hr c hc)
    have ha := hl c hc
    have e : dot (fun k => c.m * (c.r k - rc k) / gdist 0 rc c.r ^ 3) (fun k => r k - rc k) =
        c.m * (dot (fun k => c.r k - rc k) (fun k => r k - rc k) / gdist 0 rc c.r ^ 3) := by
      unfold dot
      rw [Finset.sum_div, Finset.mul_sum]
      exact Finset.sum_congr rfl fun k _ => by ring
    rw [e]
    have e2 : c.m / gdist 0 rc c.r +
        c.m * (dot (fun k => c.r k - rc k) (fun k => r k - rc k) / gdist 0 rc c.r ^ 3) - c.m / gdist 0 r c.r =
        -(c.m * (1 / gdist 0 r c.r - (1 / gdist 0 rc c.r +
          dot (fun k => c.r k - rc k) (fun k => r k - rc k) / gdist 0 rc c.r ^ 3))) := by ring
    rw [e2, abs_neg, abs_mul, abs_of_nonneg (hm c hc)]
    refine (mul_le_mul_of_nonneg_left h1 (hm c hc)).trans (le_of_eq (by ring))
  · simp only [add_sub_add_left_eq_sub]
    refine err_list l _ _ _ _ fun c hc => ?_
    have hX : |c.r k - rc k| ≤ gdist 0 rc c.r := by
      have := comp_le le_rfl c.r rc k
      rwa [dist_symm 0 c.r rc] at this
    have h1 := Expansion.acc1 (hconf c hc) hχ (hr c hc) hX (comp_le le_rfl r rc k)
    have e3 : dot (fun k => rc k - c.r k) (fun k => r k - rc k) =
        -dot (fun k => c.r k - rc k) (fun k => r k - rc k) := by
      unfold dot
      rw [← Finset.sum_neg_distrib]
      exact Finset.sum_congr rfl fun k _ => by ring
    have e2 : c.m * (c.r k - rc k) / gdist 0 rc c.r ^ 3 +
          c.m * (3 * (rc k - c.r k) * dot (fun k => rc k - c.r k) (fun k => r k - rc k) / gdist 0 rc c.r ^ 5 -
            (r k - rc k) / gdist 0 rc c.r ^ 3) - c.m * (c.r k - r k) / gdist 0 r c.r ^ 3 =
        c.m * (((r k - rc k) - (c.r k - rc k)) / gdist 0 r c.r ^ 3 - (-(c.r k - rc k) / gdist 0 rc c.r ^ 3 +
          (r k - rc k) / gdist 0 rc c.r ^ 3 -
          3 * dot (fun k => c.r k - rc k) (fun k => r k - rc k) * (c.r k - rc k) / gdist 0 rc c.r ^ 5)) := by
      rw [e3]
      ring
    rw [e2, abs_mul, abs_of_nonneg (hm c hc)]
    refine (mul_le_mul_of_nonneg_left h1 (hm c hc)).trans (le_of_eq (by ring))

/-- a mass 8 at distance 2 from the centre; the particle is 1 nearer: the ratio is 1/2, the expansion gives the
acceleration `2 + 2 * 1 = 4` where the monopole has 8 -/
example : (0 : ℝ) < gdist 0 (fun _ : Fin 1 => (0 : ℝ)) (fun _ => 2) ∧
    gdist 0 (fun _ : Fin 1 => (1 : ℝ)) (fun _ => 0) ≤ 1 / 2 * gdist 0 (fun _ : Fin 1 => (0 : ℝ)) (fun _ => 2) ∧
    (fastMonopoleForces (fun _ : Fin 1 => (0 : ℝ)) (fun _ => 1) [⟨fun _ => 2, 8, fun _ => 0⟩] ⟨0, fun _ => 0⟩).a 0 = 4 ∧
    (cellMonopoleForces 0 (fun _ : Fin 1 => (1 : ℝ)) [⟨fun _ => 2, 8, fun _ => 0⟩] ⟨0, fun _ => 0⟩).a 0 = 8 := by
  have g : ∀ x y : ℝ, gdist 0 (fun _ : Fin 1 => x) (fun _ => y) = |x - y| := by
    intro x y
    simp [gdist, Real.sqrt_sq_eq_abs]
  refine ⟨by rw [g]; norm_num, by rw [g, g]; norm_num, ?_, ?_⟩
  · have h2 : Real.sqrt (1 / (2 * 2)) = 1 / 2 := by
      rw [Real.sqrt_eq_iff_mul_self_eq] <;> norm_num
    simp only [fastMonopoleForces, List.foldl_cons, List.foldl_nil, Fast.addMonopole, Fast.init, Fast.apply, monoHess,
      linear, dot, Fin.sum_univ_one, sub_zero, h2]
    norm_num
  · rw [monopole_field le_rfl]
    simp only [List.map_cons, List.map_nil, List.sum_cons, List.sum_nil, g]
    norm_num

end Gandalf
