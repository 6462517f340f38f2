import Verif.Proof.Regularise

/-! C96: regularising initial positions evens them out and keeps particles in the box. -/

set_option autoImplicit false

namespace Gandalf

noncomputable section

open Reg

variable {n : ℕ}

/-- After any number of rounds (at least one) all particles are in the box, wherever they began
and whatever neighbours, smoothing lengths and densities the rounds found; the loops that bring
particles back end. -/
theorem C96_in_box {N : ℕ} (w0 : ℝ → ℝ) (reg : Part n → Part n → ℝ) (b : IcBox n)
    (hb : ∀ k, b.min k < b.max k) (l : List (Env N n)) (hl : l ≠ []) (x : Fin N → Vec n ℝ) :
    ∃ (f : ℕ) (x' : Fin N → Vec n ℝ), (∀ f', f ≤ f' → rounds w0 reg b f' l x = some x') ∧
      ∀ i k, b.min k ≤ x' i k ∧ x' i k ≤ b.max k := by
  induction l generalizing x with
  | nil => exact absurd rfl hl
  | cons e l ih =>
    obtain ⟨f, y, h1, h2⟩ := round_spec w0 reg b hb e x
    by_cases hl' : l = []
    · subst hl'
      refine ⟨f, y, fun f' hf => ?_, fun i k => ⟨(h2 i k).1, (h2 i k).2.1⟩⟩
      rw [rounds, h1 f' hf, Option.bind_some, rounds]
    · obtain ⟨f2, x', h3, h4⟩ := ih hl' y
      refine ⟨max f f2, x', fun f' hf => ?_, h4⟩
      rw [rounds, h1 f' (le_trans (le_max_left _ _) hf), Option.bind_some,
        h3 f' (le_trans (le_max_right _ _) hf)]

/-- In one round a particle goes to its place plus a displacement of at most half a smoothing
length, up to whole lengths of the box. -/
theorem C96_half_h {N : ℕ} (w0 : ℝ → ℝ) (reg : Part n → Part n → ℝ) (b : IcBox n)
    (hb : ∀ k, b.min k < b.max k) (e : Env N n) (x : Fin N → Vec n ℝ)
    (hh : ∀ i, 0 ≤ (e.parts x i).h) :
    ∃ (f : ℕ) (x' : Fin N → Vec n ℝ), (∀ f', f ≤ f' → round w0 reg b f' e x = some x') ∧
      ∀ i, ∃ d : Vec n ℝ, dot d d ≤ ((e.parts x i).h / 2) ^ 2 ∧
        ∀ k, ∃ j : ℤ, x' i k = x i k + d k + j * (b.max k - b.min k) := by
  obtain ⟨f, y, h1, h2⟩ := round_spec w0 reg b hb e x
  refine ⟨f, y, h1, fun i => ⟨shift w0 reg b (e.parts x i) (e.neibs x i),
    limit_le (hh i) _, fun k => ?_⟩⟩
  obtain ⟨-, -, j, hj⟩ := h2 i k
  exact ⟨j, hj⟩

/-- Nor does it go further than the box is long, whatever the smoothing length. -/
theorem C96_box_length (w0 : ℝ → ℝ) (reg : Part n → Part n → ℝ) (b : IcBox n)
    (hb : ∀ k, b.min k ≤ b.max k) (p : Part n) (hh : 0 ≤ p.h) (l : List (Part n)) (k : Fin n) :
    |shift w0 reg b p l k| ≤ b.max k - b.min k := by
  obtain ⟨c, h0, h1, hc⟩ := limit_dir hh (clip b (push w0 reg p l fun _ => 0))
  rw [shift, hc k, abs_mul, abs_of_nonneg h0]
  have hs : 0 ≤ b.size k := by unfold IcBox.size; linarith [hb k]
  have : |clip b (push w0 reg p l fun _ => 0) k| ≤ b.size k := by
    rw [abs_le, clip]
    exact ⟨le_max_right _ _, max_le (min_le_right _ _) (by linarith)⟩
  calc c * |clip b (push w0 reg p l fun _ => 0) k| ≤ 1 * b.size k :=
        mul_le_mul h1 this (abs_nonneg _) zero_le_one
    _ = b.max k - b.min k := by rw [one_mul, IcBox.size]

/-- The unit box -/
def C96.box (n : ℕ) : IcBox n := ⟨fun _ => 0, fun _ => 1⟩

/-- Two particles that see each other -/
def C96.env : Env 2 1 where
  parts := fun x i => ⟨x i, 1 / 5, 1, 4 / 25⟩
  neibs := fun x _ => [⟨x 0, 1 / 5, 1, 4 / 25⟩, ⟨x 1, 1 / 5, 1, 4 / 25⟩]

example : ∃ (f : ℕ) (x' : Fin 2 → Vec 1 ℝ),
    (∀ f', f ≤ f' → rounds (M4.w0 1) (fun _ _ => 4) (C96.box 1) f' [C96.env, C96.env]
      (fun i _ => if i = 0 then 1 / 20 else 1 / 10) = some x') ∧
      ∀ i k, (0 : ℝ) ≤ x' i k ∧ x' i k ≤ 1 :=
  C96_in_box _ _ (C96.box 1) (fun _ => by norm_num [C96.box]) _ (by simp) _

/-- The weight of a neighbour lies between fixed bounds, grows with its density, and neighbours
are never drawn near if `alpha_reg` is at least a tenth of `rho_reg` (as by default). -/
theorem C96_weight (alphaReg rhoReg rhotrue : ℝ) (hr : 0 ≤ rhoReg) (ht : 0 ≤ rhotrue) :
    (∀ rho, alphaReg - rhoReg / 10 ≤ factor alphaReg rhoReg rho rhotrue ∧
      factor alphaReg rhoReg rho rhotrue ≤ alphaReg + 10 * rhoReg) ∧
    (∀ rho rho', rho ≤ rho' →
      factor alphaReg rhoReg rho rhotrue ≤ factor alphaReg rhoReg rho' rhotrue) ∧
    factor alphaReg rhoReg rhotrue rhotrue = alphaReg := by
  have hs : 0 < rhotrue + small := by
    have : 0 < small := by norm_num [small]
    linarith
  refine ⟨fun rho => ?_, fun rho rho' h => ?_, ?_⟩
  · have h1 : -(1 / 10 : ℝ) ≤ min (max ((rho - rhotrue) / (rhotrue + small)) (-(1 / 10))) 10 :=
      le_min (le_max_right _ _) (by norm_num)
    have h2 : min (max ((rho - rhotrue) / (rhotrue + small)) (-(1 / 10))) 10 ≤ (10 : ℝ) :=
      min_le_right _ _
    unfold factor
    constructor <;> nlinarith
  · unfold factor
    have : (rho - rhotrue) / (rhotrue + small) ≤ (rho' - rhotrue) / (rhotrue + small) :=
      div_le_div_of_nonneg_right (by linarith) hs.le
    have := min_le_min_right (10 : ℝ) (max_le_max_right (-(1 / 10) : ℝ) this)
    nlinarith
  · unfold factor
    have h0 : (0 : ℝ) ⊔ -(1 / 10) = 0 := max_eq_left (by norm_num)
    have h1 : (0 : ℝ) ⊓ 10 = 0 := min_eq_left (by norm_num)
    simp only [sub_self, zero_div, h0, h1, mul_zero, zero_add]

example : (factor (1 / 10) (4 / 5) 1 2 : ℝ) ≤ factor (1 / 10) (4 / 5) 3 2 :=
  (C96_weight (1 / 10) (4 / 5) 2 (by norm_num) (by norm_num)).2.1 1 3 (by norm_num)

/-- A neighbour in range pushes a particle straight away from itself. -/
theorem C96_repels (w0 : ℝ → ℝ) (reg : Part n → Part n → ℝ) (p q : Part n)
    (hr : dot (fun k => q.r k - p.r k) (fun k => q.r k - p.r k) < p.hrangesqd)
    (hw : 0 < w0 (√(dot (fun k => q.r k - p.r k) (fun k => q.r k - p.r k) * (1 / (p.h * p.h)))))
    (hg : 0 < reg p q) :
    ∃ c : ℝ, 0 < c ∧ ∀ k, push w0 reg p [q] (fun _ => 0) k = -(c * (q.r k - p.r k)) := by
  refine ⟨_, mul_pos hw hg, fun k => ?_⟩
  rw [push_eq]
  have h : ¬ p.hrangesqd ≤ dot (fun k => q.r k - p.r k) (fun k => q.r k - p.r k) := not_le.mpr hr
  simp only [List.map_cons, List.map_nil, List.sum_cons, List.sum_nil, weight, h, if_false]
  ring

/-- A particle whose neighbours lie opposite each other in pairs of the same weight, as on a
lattice, stays where it is. -/
theorem C96_lattice (w0 : ℝ → ℝ) (reg : Part n → Part n → ℝ) (b : IcBox n)
    (hb : ∀ k, b.min k ≤ b.max k) (p : Part n) (l : List (Part n)) (μ : Part n → Part n)
    (hμ : ∀ q ∈ l, (∀ k, (μ q).r k = 2 * p.r k - q.r k) ∧ reg p (μ q) = reg p q)
    (hl : (l.map μ).Perm l) (hh : 0 ≤ p.h) (k : Fin n) : shift w0 reg b p l k = 0 := by
  have hz : ∀ k, push w0 reg p l (fun _ => 0) k = 0 := by
    intro k
    rw [push_eq]
    have h1 := (hl.map fun q => (q.r k - p.r k) * weight w0 reg p q).sum_eq
    rw [List.map_map] at h1
    have h2 : (l.map ((fun q => (q.r k - p.r k) * weight w0 reg p q) ∘ μ)) =
        l.map fun q => -((q.r k - p.r k) * weight w0 reg p q) := by
      refine List.map_congr_left fun q hq => ?_
      obtain ⟨e1, e2⟩ := hμ q hq
      have hd : dot (fun k => (μ q).r k - p.r k) (fun k => (μ q).r k - p.r k) =
          dot (fun k => q.r k - p.r k) (fun k => q.r k - p.r k) := by
        simp only [dot]
        refine Finset.sum_congr rfl fun k _ => ?_
        rw [e1 k]; ring
      have hw : weight w0 reg p (μ q) = weight w0 reg p q := by
        simp only [weight, hd, e2]
      simp only [Function.comp, hw, e1 k]
      ring
    rw [h2] at h1
    have h3 : ∀ l : List (Part n), (l.map fun q => -((q.r k - p.r k) * weight w0 reg p q)).sum =
        -(l.map fun q => (q.r k - p.r k) * weight w0 reg p q).sum := by
      intro l
      induction l with
      | nil => simp
      | cons q l ih => simp only [List.map_cons, List.sum_cons, ih]; ring
    rw [h3] at h1
    linarith
  obtain ⟨c, -, -, hc⟩ := limit_dir hh (clip b (push w0 reg p l fun _ => 0))
  rw [shift, hc k]
  have : clip b (push w0 reg p l fun _ => 0) k = 0 := by
    rw [clip, hz k]
    have : 0 ≤ b.size k := by unfold IcBox.size; linarith [hb k]
    rw [min_eq_left this, max_eq_left (by linarith)]
  rw [this, mul_zero]

/-- A particle between two others -/
def C96.at (x : ℝ) : Part 1 := ⟨fun _ => x, 1 / 5, 1, 4 / 25⟩

example : shift (M4.w0 1) (fun _ _ => 4) (C96.box 1) (C96.at (1 / 2))
    [C96.at (2 / 5), C96.at (3 / 5)] 0 = 0 := by
  refine C96_lattice _ _ _ (fun _ => by norm_num [C96.box]) _ _ (fun q => C96.at (1 - q.r 0)) ?_ ?_
    (by norm_num [C96.at]) 0
  · intro q hq
    refine ⟨fun k => ?_, rfl⟩
    rw [Subsingleton.elim k 0]
    norm_num [C96.at]
  · have : [C96.at (2 / 5), C96.at (3 / 5)].map (fun q => C96.at (1 - q.r 0)) =
        [C96.at (3 / 5), C96.at (2 / 5)] := by norm_num [C96.at]
    rw [this]
    exact List.Perm.swap _ _ _

/-- With equal smoothing lengths and weights that are the same both ways the displacements of all
particles add up to zero, before they are limited: the centre of the particles stays. -/
theorem C96_centre {N : ℕ} (w0 : ℝ → ℝ) (reg : Part n → Part n → ℝ) (P : Fin N → Part n)
    (h hr : ℝ) (hP : ∀ i, (P i).h = h ∧ (P i).hrangesqd = hr)
    (hsym : ∀ i j, reg (P i) (P j) = reg (P j) (P i)) (k : Fin n) :
    ∑ i, push w0 reg (P i) ((List.finRange N).map P) (fun _ => 0) k = 0 := by
  have hw : ∀ i j, weight w0 reg (P i) (P j) = weight w0 reg (P j) (P i) := by
    intro i j
    have hd : dot (fun k => (P j).r k - (P i).r k) (fun k => (P j).r k - (P i).r k) =
        dot (fun k => (P i).r k - (P j).r k) (fun k => (P i).r k - (P j).r k) := by
      simp only [dot]
      exact Finset.sum_congr rfl fun k _ => by ring
    simp only [weight, hd, (hP i).1, (hP j).1, (hP i).2, (hP j).2, hsym i j]
  have h1 : ∀ i, push w0 reg (P i) ((List.finRange N).map P) (fun _ => 0) k =
      -∑ j, ((P j).r k - (P i).r k) * weight w0 reg (P i) (P j) := by
    intro i
    rw [push_eq, List.map_map, ← List.ofFn_eq_map, List.sum_ofFn, zero_sub]
    rfl
  simp only [h1]
  rw [Finset.sum_neg_distrib, neg_eq_zero]
  set S := ∑ i, ∑ j, ((P j).r k - (P i).r k) * weight w0 reg (P i) (P j) with hS
  have h2 : S = -S := by
    conv_lhs => rw [hS, Finset.sum_comm]
    rw [hS, ← Finset.sum_neg_distrib]
    refine Finset.sum_congr rfl fun i _ => ?_
    rw [← Finset.sum_neg_distrib]
    refine Finset.sum_congr rfl fun j _ => ?_
    rw [hw j i]; ring
  linarith

example : ∑ i : Fin 3, push (M4.w0 1) (fun _ _ => 4) (C96.at (i : ℝ))
    ((List.finRange 3).map fun i : Fin 3 => C96.at (i : ℝ)) (fun _ => 0) 0 = 0 :=
  C96_centre _ _ (fun i : Fin 3 => C96.at (i : ℝ)) (1 / 5) (4 / 25) (fun _ => ⟨rfl, rfl⟩)
    (fun _ _ => rfl) 0

/-- The density wanted of a uniform medium is its density times a number that depends on the
kernel only. -/
theorem C96_smooth (w0 : ℝ → ℝ) (K h rho : ℝ) (hh : 0 < h) (r : Vec n ℝ) :
    smoothDensity w0 K h (fun _ => rho) r = rho * smoothDensity (n := n) w0 K 1 (fun _ => 1) r := by
  have ho : ∀ i, offset (K * h) i = h * offset (K * 1) i := by
    intro i; unfold offset; ring
  have hd : ∀ g : Fin n → Fin 5,
      dot (fun k => offset (K * h) (g k)) (fun k => offset (K * h) (g k)) * (1 / h * (1 / h)) =
      dot (fun k => offset (K * 1) (g k)) (fun k => offset (K * 1) (g k)) * (1 / 1 * (1 / 1)) := by
    intro g
    have hne := hh.ne'
    have : dot (fun k => offset (K * h) (g k)) (fun k => offset (K * h) (g k)) =
        h ^ 2 * dot (fun k => offset (K * 1) (g k)) (fun k => offset (K * 1) (g k)) := by
      simp only [dot, Finset.mul_sum]
      refine Finset.sum_congr rfl fun k _ => ?_
      rw [ho]; ring
    rw [this]
    field_simp
  have hv : (1 / h) ^ n * (2 * (K * h) / 5) ^ n = (1 / 1) ^ n * (2 * (K * 1) / 5) ^ n := by
    rw [← mul_pow, ← mul_pow]
    congr 1
    field_simp
  simp only [smoothDensity, hd]
  rw [Finset.sum_mul, Finset.sum_mul, Finset.mul_sum]
  refine Finset.sum_congr rfl fun g _ => ?_
  generalize w0 _ = w
  linear_combination w * rho * hv

/-- That number is not one: the sum over five points overestimates a uniform density with the
cubic spline in one dimension by one part in 375, so particles on a perfect lattice are taken as
too thin. -/
theorem C96_smooth_fails (h rho : ℝ) (hh : 0 < h) (r : Vec 1 ℝ) :
    smoothDensity (M4.w0 1) 2 h (fun _ => rho) r = 376 / 375 * rho := by
  rw [C96_smooth _ _ _ _ hh, mul_comm]
  congr 1
  have hsum : ∀ f : (Fin 1 → Fin 5) → ℝ, ∑ g, f g = ∑ i : Fin 5, f (fun _ => i) := by
    intro f
    exact Fintype.sum_equiv (Equiv.funUnique (Fin 1) (Fin 5)) _ _ fun g => by
      congr 1; funext k; rw [Subsingleton.elim k 0]; rfl
  have hs : ∀ i : Fin 5, √(dot (fun _ : Fin 1 => offset (2 * 1) i) (fun _ => offset (2 * 1) i) *
      (1 / 1 * (1 / 1))) = |offset (2 * 1) i| := by
    intro i
    rw [show dot (fun _ : Fin 1 => offset (2 * 1) i) (fun _ => offset (2 * 1) i) *
      (1 / 1 * (1 / 1)) = offset (2 * 1) i ^ 2 by simp [dot, sq], Real.sqrt_sq_eq_abs]
  simp only [smoothDensity, hsum, hs]
  have o0 : |offset (2 * 1) 0| = 8 / 5 := by
    rw [show offset (2 * 1) 0 = -(8 / 5) by norm_num [offset], abs_neg]; norm_num
  have o1 : |offset (2 * 1) 1| = 4 / 5 := by
    rw [show offset (2 * 1) 1 = -(4 / 5) by norm_num [offset], abs_neg]; norm_num
  have o2 : |offset (2 * 1) 2| = 0 := by
    rw [show offset (2 * 1) 2 = 0 by norm_num [offset]]; norm_num
  have o3 : |offset (2 * 1) 3| = 4 / 5 := by
    rw [show offset (2 * 1) 3 = 4 / 5 by norm_num [offset]]; norm_num
  have o4 : |offset (2 * 1) 4| = 8 / 5 := by
    rw [show offset (2 * 1) 4 = 8 / 5 by norm_num [offset]]; norm_num
  rw [Fin.sum_univ_five, o0, o1, o2, o3, o4]
  norm_num [M4.w0, M4.kernnorm]

/-- The box is always taken as periodic: beside a reflecting wall (or in an open box) a particle
pushed over the left side comes back at the right side, almost the whole box away from the
neighbour that pushed it. -/
theorem C96_walls_fail : ∃ (f : ℕ) (x' : Fin 2 → Vec 1 ℝ),
    round (M4.w0 1) (fun _ _ => 4) (C96.box 1) f C96.env
      (fun i _ => if i = 0 then 1 / 20 else 1 / 10) = some x' ∧ x' 0 0 = 19 / 20 := by
  obtain ⟨f, x', h1, h2⟩ := round_spec (M4.w0 1) (fun _ _ => 4) (C96.box 1)
    (fun _ => by norm_num [C96.box]) C96.env (fun i _ => if i = 0 then 1 / 20 else 1 / 10)
  refine ⟨f, x', h1 f le_rfl, ?_⟩
  obtain ⟨hlo, hhi, j, hj⟩ := h2 0 0
  have hpush : push (M4.w0 1) (fun _ _ => 4)
      (C96.env.parts (fun i _ => if i = 0 then 1 / 20 else 1 / 10) 0)
      (C96.env.neibs (fun i _ => if i = 0 then 1 / 20 else 1 / 10) 0) (fun _ => 0) =
      fun _ => -(47 / 384) := by
    funext k
    have hq : √(dot (fun _ : Fin 1 => (1 / 10 - 1 / 20 : ℝ)) (fun _ => 1 / 10 - 1 / 20) *
        (1 / (1 / 5 * (1 / 5)))) = 1 / 4 := by
      rw [show dot (fun _ : Fin 1 => (1 / 10 - 1 / 20 : ℝ)) (fun _ => 1 / 10 - 1 / 20) *
        (1 / (1 / 5 * (1 / 5))) = (1 / 4) ^ 2 by norm_num [dot]]
      exact Real.sqrt_sq (by norm_num)
    have hr : ¬ ((4 : ℝ) / 25 ≤ dot (fun _ : Fin 1 => (1 / 10 - 1 / 20 : ℝ))
        (fun _ => 1 / 10 - 1 / 20)) := by norm_num [dot]
    rw [push_eq]
    simp only [C96.env, List.map_cons, List.map_nil, List.sum_cons, List.sum_nil, weight, hr, hq,
      if_true, if_false, show ((1 : Fin 2) = 0) = False by simp, sub_self]
    norm_num [M4.w0, M4.kernnorm]
  have hs : shift (M4.w0 1) (fun _ _ => 4) (C96.box 1)
      (C96.env.parts (fun i _ => if i = 0 then 1 / 20 else 1 / 10) 0)
      (C96.env.neibs (fun i _ => if i = 0 then 1 / 20 else 1 / 10) 0) 0 = -(1 / 10) := by
    rw [shift, hpush]
    have hc : clip (C96.box 1) (fun _ => -(47 / 384 : ℝ)) = fun _ => -(47 / 384 : ℝ) := by
      funext k
      norm_num [clip, IcBox.size, C96.box]
    rw [hc, limit]
    have hd : √(∑ _k : Fin 1, -(47 / 384 : ℝ) * -(47 / 384)) = 47 / 384 := by
      rw [show (∑ _k : Fin 1, -(47 / 384 : ℝ) * -(47 / 384)) = (47 / 384) ^ 2 by norm_num]
      exact Real.sqrt_sq (by norm_num)
    simp only [hd]
    norm_num [C96.env]
  rw [hs] at hj
  norm_num [C96.box, IcBox.size] at hj hlo hhi
  rw [hj] at hlo hhi ⊢
  have h0 : (0 : ℝ) < j := by linarith
  have h2 : (j : ℝ) < 2 := by linarith
  have h0' : 0 < j := by exact_mod_cast h0
  have h2' : j < 2 := by exact_mod_cast h2
  have : j = 1 := by omega
  rw [this]; norm_num

end

end Gandalf
