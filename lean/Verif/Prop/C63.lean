import Verif.Proof.ExternalPotential

/-! # C63: external potentials -/

set_option autoImplicit false

namespace Gandalf
open Ext Field

variable {n : ℕ}

/-- what a potential adds to a body at rest in empty space -/
noncomputable def Ext.field (p : Pot) (x : Vec n ℝ) : Option (Acc n) := add p x 0 ⟨0, 0, 0⟩

/-- The terms are added: what was there before stays, and the acceleration and potential do not depend on it nor on the
velocity. -/
theorem C63_added (p : Pot) (x v : Vec n ℝ) (y : Acc n) :
    (add p x v y).map (fun z => (z.a, z.pot)) = (field p x).map (fun z => (y.a + z.a, y.pot + z.pot)) ∧
    (add p x v y).map Acc.adot = (add p x v ⟨0, 0, 0⟩).map (fun z => y.adot + z.adot) := by
  cases p with
  | null => simp [add, field]
  | silcc => simp [add, field]
  | plummer m b =>
    simp only [add, field, addPlummer, Option.map_some, Option.some.injEq, Prod.mk.injEq]
    refine ⟨⟨funext fun k => ?_, by ring⟩, funext fun k => ?_⟩
    · simp only [Pi.add_apply, Pi.zero_apply]; ring
    · simp only [Pi.add_apply, Pi.zero_apply]; ring
  | vertical kg a z =>
    simp only [add, field, addVertical]
    by_cases h : kg < n
    · simp only [h, dif_pos, Option.map_some, Option.some.injEq, Prod.mk.injEq]
      refine ⟨⟨funext fun k => ?_, by ring⟩, funext fun k => ?_⟩
      · by_cases hk : k = ⟨kg, h⟩
        · subst hk; simp
        · simp [Function.update_of_ne hk]
      · by_cases hk : k = ⟨kg, h⟩
        · subst hk; simp
        · simp [Function.update_of_ne hk]
    · simp [h]

/-- The Plummer sphere: the acceleration is minus the gradient of the energy the diagnostics count, half the negative
potential; and the jerk is its rate of change. Away from a point mass (`b = 0`). -/
theorem C63_plummer (m b : ℝ) (x : Vec n ℝ) (hx : 0 < (∑ k, x k * x k) + b * b) :
    (∀ z, field (.plummer m b) x = some z →
      Gradient z.a (fun y => -(1 / 2) * (addPlummer m b y 0 ⟨0, 0, 0⟩ : Acc n).pot) x) ∧
    (∀ (w : Vec n ℝ) (z : Acc n), add (.plummer m b) x w ⟨0, 0, 0⟩ = some z →
      Rate (fun y => (addPlummer m b y 0 ⟨0, 0, 0⟩ : Acc n).a) z.adot w x) := by
  refine ⟨?_, ?_⟩
  · rintro z hz r w t rfl hw
    simp only [field, add, Option.some.injEq] at hz
    subst hz
    have hd := ((pow_deriv r w t b (-(1 / 2)) hw hx).const_mul (2 * m)).const_mul (-(1 / 2) : ℝ)
    simp only [addPlummer, zero_add, zero_sub, Pi.zero_apply]
    refine hd.congr_deriv ?_
    rw [show (-(1 / 2) - 1 : ℝ) = -(3 / 2) by norm_num]
    have : ∑ k, -(m * r t k * ((∑ k, r t k * r t k) + b * b) ^ (-(3 / 2) : ℝ)) * w k =
        -(m * ((∑ k, r t k * r t k) + b * b) ^ (-(3 / 2) : ℝ)) * ∑ k, r t k * w k := by
      rw [Finset.mul_sum]; refine Finset.sum_congr rfl fun k _ => ?_; ring
    rw [this]; ring
  · rintro w z hz r t rfl hw k
    simp only [add, Option.some.injEq] at hz
    subst hz
    have hd := (((hw k).const_mul m).mul (pow_deriv r w t b (-(3 / 2)) hw hx)).neg
    simp only [addPlummer, Pi.zero_apply, zero_sub, zero_add]
    refine hd.congr_deriv ?_
    rw [show (-(3 / 2) - 1 : ℝ) = -(5 / 2) by norm_num]
    ring

/-- Each potential: the jerk is the rate of change of the acceleration. (For the Plummer sphere away from a point mass.) -/
theorem C63_jerk (p : Pot) (x w : Vec n ℝ) (hp : ∀ m b, p = .plummer m b → 0 < (∑ k, x k * x k) + b * b) (z : Acc n)
    (hz : add p x w ⟨0, 0, 0⟩ = some z) :
    ∃ a : Vec n ℝ → Vec n ℝ, (∀ y, ∃ u, field p y = some u ∧ a y = u.a) ∧ Rate a z.adot w x := by
  cases p with
  | null =>
    simp only [add, Option.some.injEq] at hz
    subst hz
    exact ⟨fun _ => 0, fun y => ⟨_, rfl, rfl⟩, fun r t _ _ k => hasDerivAt_const _ _⟩
  | silcc =>
    simp only [add, Option.some.injEq] at hz
    subst hz
    exact ⟨fun _ => 0, fun y => ⟨_, rfl, rfl⟩, fun r t _ _ k => hasDerivAt_const _ _⟩
  | plummer m b =>
    refine ⟨fun y => (addPlummer m b y 0 ⟨0, 0, 0⟩ : Acc n).a, fun y => ⟨_, rfl, rfl⟩, ?_⟩
    exact (C63_plummer m b x (hp m b rfl)).2 w z hz
  | vertical kg g z0 =>
    simp only [add, addVertical] at hz
    by_cases h : kg < n
    · simp only [h, dif_pos, Option.some.injEq] at hz
      subst hz
      refine ⟨fun y => Function.update 0 ⟨kg, h⟩ (0 + g), fun y => ⟨⟨Function.update 0 ⟨kg, h⟩ (0 + g),
        Function.update 0 ⟨kg, h⟩ (0 + 0), 0 + (y ⟨kg, h⟩ - z0) * g⟩, ?_, rfl⟩, fun r t _ _ k => ?_⟩
      · simp only [field, add, addVertical, h, dif_pos]; rfl
      · refine (hasDerivAt_const _ _).congr_deriv ?_
        by_cases hk : k = ⟨kg, h⟩
        · subst hk; simp
        · simp [Function.update_of_ne hk]
    · simp [h] at hz

/-- A body that falls freely in the Plummer sphere keeps the energy the diagnostics count for it. -/
theorem C63_plummer_energy (m b : ℝ) (hb : b ≠ 0) (r v : ℝ → Vec n ℝ)
    (h : Falls (fun y => (addPlummer m b y 0 ⟨0, 0, 0⟩ : Acc n).a) r v) (t : ℝ) :
    HasDerivAt (fun s => (∑ k, v s k * v s k) / 2 - 1 / 2 * (addPlummer m b (r s) 0 ⟨0, 0, 0⟩ : Acc n).pot) 0 t := by
  have hx : 0 < (∑ k, r t k * r t k) + b * b := by
    have h1 : 0 ≤ ∑ k, r t k * r t k := Finset.sum_nonneg fun k _ => mul_self_nonneg _
    have h2 : 0 < b * b := mul_self_pos.mpr hb
    linarith
  have hg := (C63_plummer m b (r t) hx).1 _ rfl r (v t) t rfl (fun k => (h t k).1)
  have hk : HasDerivAt (fun s => (∑ k, v s k * v s k) / 2)
      (∑ k, (addPlummer m b (r t) 0 ⟨0, 0, 0⟩ : Acc n).a k * v t k) t := by
    have h1 : HasDerivAt (fun s => ∑ k, v s k * v s k)
        (∑ k, ((addPlummer m b (r t) 0 ⟨0, 0, 0⟩ : Acc n).a k * v t k +
          v t k * (addPlummer m b (r t) 0 ⟨0, 0, 0⟩ : Acc n).a k)) t :=
      HasDerivAt.fun_sum fun k _ => ((h t k).2).mul ((h t k).2)
    refine (h1.div_const 2).congr_deriv ?_
    rw [Finset.sum_add_distrib]
    have : ∑ k, v t k * (addPlummer m b (r t) 0 ⟨0, 0, 0⟩ : Acc n).a k =
        ∑ k, (addPlummer m b (r t) 0 ⟨0, 0, 0⟩ : Acc n).a k * v t k :=
      Finset.sum_congr rfl fun k _ => mul_comm _ _
    rw [this]; ring
  have hs := hk.add hg
  refine (hs.congr_of_eventuallyEq (Filter.Eventually.of_forall fun s => ?_)).congr_deriv (add_neg_cancel _)
  simp only [Pi.add_apply]; ring

/-- Violated for the vertical field: the acceleration is the gradient of the whole potential, so the half of it the
diagnostics count changes by half the work only; the energy of a freely falling body drifts. -/
theorem C63_vertical_fails (kg : ℕ) (hk : kg < n) (g z0 : ℝ) (hg : g ≠ 0) (x : Vec n ℝ) :
    ∃ z, field (.vertical kg g z0) x = some z ∧
      Gradient z.a (fun y => -(y ⟨kg, hk⟩ - z0) * g) x ∧ z.pot = (x ⟨kg, hk⟩ - z0) * g ∧
      ¬ Gradient z.a (fun y => -(1 / 2) * ((y ⟨kg, hk⟩ - z0) * g)) x := by
  have ha : ∀ w : Vec n ℝ, ∑ k, Function.update (0 : Vec n ℝ) ⟨kg, hk⟩ ((0 : ℝ) + g) k * w k = g * w ⟨kg, hk⟩ := by
    intro w
    rw [Finset.sum_eq_single (⟨kg, hk⟩ : Fin n)]
    · simp
    · intro k _ hne; rw [Function.update_of_ne hne]; simp
    · simp
  refine ⟨_, by simp only [field, add, addVertical, hk, dif_pos]; rfl, ?_, by simp, ?_⟩
  · rintro r w t rfl hw
    simp only [Pi.zero_apply]
    rw [ha]
    refine ((((hw ⟨kg, hk⟩).sub_const z0).neg).mul_const g).congr_deriv ?_
    ring
  · intro h
    have hw : Moves (fun s k => x k + s * (if k = ⟨kg, hk⟩ then 1 else 0)) (fun k => if k = ⟨kg, hk⟩ then 1 else 0) 0 := by
      intro k
      exact (((hasDerivAt_id (0 : ℝ)).mul_const _).const_add (x k)).congr_deriv (by simp)
    have h1 := h _ _ 0 (by funext k; simp) hw
    simp only [Pi.zero_apply] at h1
    rw [ha] at h1
    simp only [if_true, mul_one] at h1
    have h2 : HasDerivAt (fun s : ℝ => -(1 / 2) * ((x ⟨kg, hk⟩ + s - z0) * g))
        (-(1 / 2) * (1 * g)) 0 :=
       ((((hasDerivAt_id (0 : ℝ)).const_add _).sub_const z0).mul_const g).const_mul _
    have := h1.unique h2
    apply hg
    linarith

/-- Violated: in one dimension the vertical field with the default direction `kgrav = 1` is outside of the arrays. -/
theorem C63_kgrav_fails (g z0 : ℝ) (x v : Vec 1 ℝ) (y : Acc 1) : add (.vertical 1 g z0) x v y = none := by
  simp [add, addVertical]

/-- Violated: the parameters `mplummer_extpot` and `rplummer_extpot` have no effect; the sphere has the mass and radius
of the initial conditions. -/
theorem C63_extpot_parameters_ignored (name : String) (fp fp' : String → ℝ) (ip : String → ℕ) (bm : Vec n ℝ)
    (h : ∀ s, s ≠ "mplummer_extpot" → s ≠ "rplummer_extpot" → fp s = fp' s) :
    choose name fp ip bm = choose name fp' ip bm := by
  simp only [choose]
  rw [h "avert" (by decide) (by decide), h "mplummer" (by decide) (by decide), h "rplummer" (by decide) (by decide)]

/-! ### The theorems at work -/

section example3

/-- a sphere of mass 2 and radius 1, a body at distance `sqrt 3`: acceleration 2·x/8, potential 2 -/
example : ∃ z, field (.plummer 2 1) (fun _ : Fin 3 => (1 : ℝ)) = some z ∧ z.pot = 2 ∧ z.a 0 = -(1 / 4) := by
  have h4 : (4 : ℝ) ^ (-(1 / 2) : ℝ) = 1 / 2 := by
    rw [show (4 : ℝ) = 2 ^ (2 : ℝ) by norm_num, ← Real.rpow_mul (by norm_num)]
    norm_num
  have h5 : (4 : ℝ) ^ (-(3 / 2) : ℝ) = 1 / 8 := by
    rw [show (4 : ℝ) = 2 ^ (2 : ℝ) by norm_num, ← Real.rpow_mul (by norm_num)]
    norm_num
  refine ⟨_, rfl, ?_, ?_⟩
  · simp only [addPlummer]
    norm_num [Fin.sum_univ_three]
  · simp only [addPlummer]
    norm_num [Fin.sum_univ_three]

example : Gradient (fun k => (addPlummer 2 1 (fun _ => 1) 0 ⟨0, 0, 0⟩ : Acc 3).a k)
    (fun y => -(1 / 2) * (addPlummer 2 1 y 0 ⟨0, 0, 0⟩ : Acc 3).pot) (fun _ => 1) :=
  (C63_plummer 2 1 (fun _ => 1) (by norm_num)).1 _ rfl

/-- a body at rest in the centre is a case of `C63_plummer_energy` -/
example (t : ℝ) : HasDerivAt (fun s : ℝ => (∑ k : Fin 2, (0 : ℝ) * 0) / 2 - 1 / 2 * (addPlummer 2 1 (0 : Vec 2 ℝ) 0 ⟨0, 0, 0⟩).pot) 0 t :=
  C63_plummer_energy 2 1 one_ne_zero (fun _ => 0) (fun _ _ => 0) (by
    intro t k
    refine ⟨hasDerivAt_const _ _, ?_⟩
    refine (hasDerivAt_const t (0 : ℝ)).congr_deriv ?_
    simp [addPlummer]) t

/-- the field of the Rayleigh-Taylor test -/
example : ∃ z, field (.vertical 1 (-(1 / 2)) 0) (fun _ : Fin 2 => (3 : ℝ)) = some z ∧ z.pot = -(3 / 2) := by
  obtain ⟨z, h1, -, h2, -⟩ := C63_vertical_fails 1 (by norm_num) (-(1 / 2)) 0 (by norm_num) (fun _ : Fin 2 => (3 : ℝ))
  exact ⟨z, h1, by rw [h2]; norm_num⟩

end example3

end Gandalf
