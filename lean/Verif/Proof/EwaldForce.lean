import Verif.Proof.EwaldTable

/-! # The correction as it is used -/

set_option autoImplicit false

namespace Gandalf.Ewald
open Gandalf.Field

theorem sgn_pos {x : ℝ} (h : 0 < x) : sgn x = 1 := by unfold sgn; simp [h, h.not_gt]
theorem sgn_neg' {x : ℝ} (h : x < 0) : sgn x = -1 := by unfold sgn; simp [h, h.not_gt]
theorem sgn_zero : sgn 0 = 0 := by unfold sgn; simp
theorem sgn_opp (x : ℝ) : sgn (-x) = -sgn x := by
  rcases lt_trichotomy x 0 with h | h | h
  · rw [sgn_neg' h, sgn_pos (by linarith)]; ring
  · rw [h]; simp [sgn_zero]
  · rw [sgn_pos h, sgn_neg' (by linarith)]

/-- the values at a point from those at the point with positive components -/
theorem field_abs (S : Special) (hS : S.OK) (c : Cfg) (hc : c.OK) (p : P3) :
    (field S c p).pot = (field S c fun k => |p k|).pot ∧
      ∀ k, (field S c p).acc k = sgn (p k) * (field S c fun k => |p k|).acc k := by
  -- one direction at a time
  have one : ∀ (j : Fin 3) (p : P3), (field S c p).pot = (field S c (Function.update p j |p j|)).pot ∧
      ∀ k, (field S c p).acc k = (if k = j then sgn (p j) else 1) * (field S c (Function.update p j |p j|)).acc k := by
    intro j p
    obtain ⟨hpot, hacc⟩ := field_reflect S hS c hc j p
    rcases lt_trichotomy (p j) 0 with h | h | h
    · have e : Function.update p j |p j| = reflect j p := by
        funext k
        unfold reflect
        by_cases hk : k = j
        · subst hk; simp [abs_of_neg h]
        · simp [hk]
      rw [e]
      refine ⟨hpot.symm, fun k => ?_⟩
      rw [hacc k]
      unfold sg
      by_cases hk : k = j
      · subst hk; simp [sgn_neg' h]
      · simp [hk]
    · have e : Function.update p j |p j| = p := by
        funext k
        by_cases hk : k = j
        · subst hk; simp [h]
        · simp [hk]
      have e' : reflect j p = p := by
        funext k
        unfold reflect
        by_cases hk : k = j
        · subst hk; simp [h]
        · simp [hk]
      rw [e]
      refine ⟨rfl, fun k => ?_⟩
      by_cases hk : k = j
      · subst hk
        have := hacc k
        rw [e'] at this
        unfold sg at this
        simp only [if_true] at this ⊢
        rw [h, sgn_zero]; linarith
      · simp [hk]
    · have e : Function.update p j |p j| = p := by
        funext k
        by_cases hk : k = j
        · subst hk; simp [abs_of_pos h]
        · simp [hk]
      rw [e]
      refine ⟨rfl, fun k => ?_⟩
      by_cases hk : k = j
      · subst hk; simp [sgn_pos h]
      · simp [hk]
  obtain ⟨a0, b0⟩ := one 0 p
  obtain ⟨a1, b1⟩ := one 1 (Function.update p 0 |p 0|)
  obtain ⟨a2, b2⟩ := one 2 (Function.update (Function.update p 0 |p 0|) 1 |Function.update p 0 |p 0| 1|)
  have e : Function.update (Function.update (Function.update p 0 |p 0|) 1 |Function.update p 0 |p 0| 1|) 2
      |Function.update (Function.update p 0 |p 0|) 1 |Function.update p 0 |p 0| 1| 2| = fun k => |p k| := by
    funext k
    fin_cases k <;> simp [Function.update]
  rw [e] at a2 b2
  refine ⟨a0.trans (a1.trans a2), fun k => ?_⟩
  rw [b0 k, b1 k, b2 k]
  fin_cases k <;> simp [Function.update]

/-- value kept for a point of the table -/
noncomputable def stored (S : Special) (c : Cfg) (i : Fin 3 → ℕ) (k : Fin 3) : ℝ :=
  if i = 0 then 0 else (field S c (node c i)).acc k

/-- weight of a corner -/
noncomputable def weight (a : Fin 3 → ℝ) (q : Corner) : ℝ :=
  (if q.1 = 0 then 1 - a 0 else a 0) * (if q.2.1 = 0 then 1 - a 1 else a 1) * (if q.2.2 = 0 then 1 - a 2 else a 2)

theorem table_stored (S : Special) (c : Cfg) (i : Fin 3 → ℕ) (hi : ∀ k, i k < Ngrid c k) (k : Fin 3) :
    table S c (index c i + (k.val + 1) * size c) = stored S c i k := by
  unfold stored
  by_cases h : i = 0
  · rw [if_pos h]
    have hz : index c i = 0 := by rw [h]; unfold index; simp
    rw [hz, zero_add]
    exact table_origin S c ⟨k.val + 1, by omega⟩
  · rw [if_neg h]
    have := table_node S c i hi h ⟨k.val + 1, by omega⟩
    rw [this]
    simp [PA.get]

theorem corner_sum (f : Corner → ℝ) : ∑ q, f q = f (0, 0, 0) + f (0, 0, 1) + f (0, 1, 0) + f (0, 1, 1) +
    f (1, 0, 0) + f (1, 0, 1) + f (1, 1, 0) + f (1, 1, 1) := by
  rw [Fintype.sum_prod_type]
  simp only [Fintype.sum_prod_type, Fin.sum_univ_two]
  ring

theorem interpolate_corners (S : Special) (c : Cfg) (a : Fin 3 → ℝ) (i : Fin 3 → ℕ) (hi : ∀ k, i k + 1 < Ngrid c k)
    (k : Fin 3) : interpolate c (table S c) a (index c i + (k.val + 1) * size c) =
      ∑ q : Corner, weight a q * stored S c (fun j => i j + q.step j) k := by
  have key : ∀ q : Corner, stored S c (fun j => i j + q.step j) k =
      table S c (index c (fun j => i j + q.step j) + (k.val + 1) * size c) := by
    intro q
    refine (table_stored S c _ (fun j => ?_) k).symm
    have := hi j
    have hs : q.step j ≤ 1 := by
      unfold Corner.step
      fin_cases j <;> simp <;> omega
    omega
  have idx : ∀ q : Corner, index c (fun j => i j + q.step j) + (k.val + 1) * size c =
      index c i + (k.val + 1) * size c + q.2.2.val * (Ngrid c 0 * Ngrid c 1) + q.2.1.val * Ngrid c 0 + q.1.val := by
    intro q
    unfold index Corner.step
    simp
    ring
  simp only [key, idx, corner_sum]
  generalize index c i + (k.val + 1) * size c = b
  unfold interpolate
  simp [weight]
  ring

theorem weight_sum (a : Fin 3 → ℝ) : ∑ q, weight a q = 1 := by
  rw [corner_sum]; simp [weight]; ring

theorem weight_nonneg (a : Fin 3 → ℝ) (h : ∀ k, 0 ≤ a k ∧ a k < 1) (q : Corner) : 0 ≤ weight a q := by
  have h0 := h 0
  have h1 := h 1
  have h2 := h 2
  unfold weight
  refine mul_nonneg (mul_nonneg ?_ ?_) ?_ <;> split_ifs <;> linarith

theorem weight_node (c : Cfg) (hc : c.OK) (hv : c.Covers) (dr : P3) (k : Fin 3) :
    ∑ q, weight (frac c dr) q * node c (fun j => il c dr j + Corner.step q j) k = |dr k| := by
  rw [← cell_pos c hc hv dr k, corner_sum]
  fin_cases k <;> simp [weight, Corner.step, node] <;> ring

/-! ### Wrapping -/

theorem wrap1_spec {L x : ℝ} (hL : 0 < L) (hx : |x| ≤ 3 / 2 * L) :
    (∃ n : ℤ, wrap1 L x = x + n * L) ∧ |wrap1 L x| ≤ L / 2 := by
  have := abs_le.1 hx
  unfold wrap1
  split_ifs with h1 h2
  · exact ⟨⟨-1, by push_cast; ring⟩, abs_le.2 ⟨by linarith, by linarith⟩⟩
  · exact ⟨⟨1, by push_cast; ring⟩, abs_le.2 ⟨by linarith, by linarith⟩⟩
  · exact ⟨⟨0, by simp⟩, abs_le.2 ⟨by linarith, by linarith⟩⟩

theorem wrap1_neg {L x : ℝ} (hL : 0 < L) : wrap1 L (-x) = -wrap1 L x := by
  unfold wrap1
  split_ifs <;> linarith

theorem wrapStep_val (c : Cfg) (hc : c.OK) (m : ℝ) (dr : P3) : (wrapStep c m dr).1 = fun k => wrap1 (c.L k) (dr k) := by
  unfold wrapStep
  split_ifs with h
  · rfl
  · push Not at h
    funext k
    have hk : |dr k| ≤ 1 / 2 * c.L k := by
      fin_cases k
      · exact h.1
      · exact h.2.1
      · exact h.2.2
    have := abs_le.1 hk
    unfold wrap1
    rw [if_neg (by linarith [this.2]), if_neg (by linarith [this.1])]

theorem wrap1_small {L x : ℝ} (h : |x| ≤ L / 2) : wrap1 L x = x := by
  have := abs_le.1 h
  unfold wrap1
  rw [if_neg (by linarith [this.2]), if_neg (by linarith [this.1])]

theorem wrapStep_nearest (c : Cfg) (hc : c.OK) (m : ℝ) (dr : P3) (hd : ∀ k, |dr k| ≤ 3 / 2 * c.L k)
    (ho : ∀ k, c.per k = false → |dr k| ≤ c.L k / 2) :
    Nearest c dr (wrapStep c m dr).1 := by
  rw [wrapStep_val c hc]
  exact fun k => ⟨fun _ => wrap1_spec (hc.L_pos k) (hd k), fun h => wrap1_small (ho k h)⟩

theorem wrapStep_plain (c : Cfg) (m : ℝ) (dr : P3) :
    (plain m dr).pot + (wrapStep c m dr).2.pot = (plain m (wrapStep c m dr).1).pot ∧
      ∀ k, (plain m dr).acc k + (wrapStep c m dr).2.acc k = (plain m (wrapStep c m dr).1).acc k := by
  unfold wrapStep
  split_ifs
  · exact ⟨by simp, fun k => by simp⟩
  · exact ⟨by simp, fun k => by simp⟩

/-! ### Opposite vectors -/

theorem plain_neg (m : ℝ) (dr : P3) : (plain m (fun k => -dr k)).pot = (plain m dr).pot ∧
    ∀ k, (plain m (fun k => -dr k)).acc k = -(plain m dr).acc k := by
  unfold plain
  simp

theorem wrapStep_neg (c : Cfg) (hc : c.OK) (m : ℝ) (dr : P3) :
    (wrapStep c m (fun k => -dr k)).1 = (fun k => -(wrapStep c m dr).1 k) ∧
    (wrapStep c m (fun k => -dr k)).2.pot = (wrapStep c m dr).2.pot ∧
    ∀ k, (wrapStep c m (fun k => -dr k)).2.acc k = -(wrapStep c m dr).2.acc k := by
  unfold wrapStep
  simp only [abs_neg]
  split_ifs with h
  · have e : (fun k => wrap1 (c.L k) (-dr k)) = fun k => -wrap1 (c.L k) (dr k) := funext fun k => wrap1_neg (hc.L_pos k)
    simp only [e, (plain_neg m dr).1, (plain_neg m dr).2, (plain_neg m fun k => wrap1 (c.L k) (dr k)).1,
      (plain_neg m fun k => wrap1 (c.L k) (dr k)).2]
    exact ⟨trivial, trivial, fun k => by ring⟩
  · exact ⟨rfl, rfl, fun k => by simp⟩

theorem far_neg (c : Cfg) (tab : ℕ → ℝ) (dr : P3) : (far c tab (fun k => -dr k)).pot = (far c tab dr).pot ∧
    ∀ k, (far c tab (fun k => -dr k)).acc k = -(far c tab dr).acc k := by
  unfold far
  split <;> refine ⟨?_, fun k => ?_⟩ <;> (try fin_cases k) <;> simp [sgn_opp] <;> ring

theorem lookup_neg (c : Cfg) (tab : ℕ → ℝ) (dr : P3) : (lookup c tab (fun k => -dr k)).pot = (lookup c tab dr).pot ∧
    ∀ k, (lookup c tab (fun k => -dr k)).acc k = -(lookup c tab dr).acc k := by
  have h1 : il c (fun k => -dr k) = il c dr := by funext k; unfold il; simp
  have h2 : frac c (fun k => -dr k) = frac c dr := by funext k; unfold frac; rw [h1]; simp
  have h3 : base0 c (fun k => -dr k) = base0 c dr := by unfold base0; rw [h1]
  unfold lookup
  simp only [h2, h3, sgn_opp]
  exact ⟨trivial, fun k => by ring⟩

/-! ### Far away -/

theorem log_deriv_pair {Y Z : ℝ → ℝ} {y' z' t : ℝ} (hY : HasDerivAt Y y' t) (hZ : HasDerivAt Z z' t)
    (h : 0 < Y t ^ 2 + Z t ^ 2) :
    HasDerivAt (fun s => Real.log (Y s ^ 2 + Z s ^ 2)) (2 * (Y t * y' + Z t * z') / (Y t ^ 2 + Z t ^ 2)) t := by
  refine (((hY.pow 2).add (hZ.pow 2)).log (by simpa using h.ne')).congr_deriv ?_
  simp only [Pi.add_apply, Pi.pow_apply]
  push_cast
  ring

theorem abs_deriv {Z : ℝ → ℝ} {z' t : ℝ} (hZ : HasDerivAt Z z' t) (h : Z t ≠ 0) :
    HasDerivAt (fun s => |Z s|) (sgn (Z t) * z') t := by
  rcases lt_or_gt_of_ne h with hn | hp
  · have : HasDerivAt (fun s => -Z s) (-z') t := hZ.neg
    refine (this.congr_of_eventuallyEq ?_).congr_deriv (by rw [sgn_neg' hn]; ring)
    filter_upwards [hZ.continuousAt.eventually (gt_mem_nhds hn)] with s hs
    exact abs_of_neg hs
  · refine (hZ.congr_of_eventuallyEq ?_).congr_deriv (by rw [sgn_pos hp]; ring)
    filter_upwards [hZ.continuousAt.eventually (lt_mem_nhds hp)] with s hs
    exact abs_of_pos hs

theorem far_grad (c : Cfg) (hc : c.OK) (tab : ℕ → ℝ) (dr : P3) (h : ∃ k, c.per k = false ∧ dr k ≠ 0) :
    Gradient (far c tab dr).acc (fun q => (far c tab q).pot) dr := by
  have h3 : dr 0 ≠ 0 ∨ dr 1 ≠ 0 ∨ dr 2 ≠ 0 := by
    obtain ⟨k, _, hk⟩ := h
    fin_cases k
    · exact Or.inl hk
    · exact Or.inr (Or.inl hk)
    · exact Or.inr (Or.inr hk)
  have hN := newton_grad dr h3
  obtain ⟨b1, b2, b3, b4, b5, b6, b7⟩ := per_bits c
  have sq2 : ∀ {a b : ℝ}, a ≠ 0 ∨ b ≠ 0 → 0 < a ^ 2 + b ^ 2 := by
    intro a b hab
    rcases hab with h | h <;> have := sq_pos_of_ne_zero h <;> nlinarith [sq_nonneg a, sq_nonneg b]
  intro r w t hr hm
  have hN' := hN r w t hr hm
  have hR : Real.sqrt (r t 0 ^ 2 + r t 1 ^ 2 + r t 2 ^ 2) ≠ 0 := by
    rw [hr]; exact (Real.sqrt_pos.2 (sq3_pos h3)).ne'
  obtain ⟨k, hk, hk0⟩ := h
  subst hr
  rw [Fin.sum_univ_three] at hN'
  rcases per_cases c hc with hp | hp | hp | hp | hp | hp | hp
  · obtain ⟨p0, p1, p2⟩ := b1 hp
    have hq : 0 < r t 1 ^ 2 + r t 2 ^ 2 := sq2 (by
      fin_cases k
      · exact Bool.noConfusion (p0.symm.trans hk)
      · exact Or.inl hk0
      · exact Or.inr hk0)
    have hL := (hc.L_pos 0).ne'
    simp only [far, hp]
    refine ((((log_deriv_pair (hm 1) (hm 2) hq).div_const (c.L 0)).add_const (potC c tab)).add hN').neg.congr_deriv ?_
    simp [Fin.sum_univ_three]
    field_simp
    ring
  · obtain ⟨p0, p1, p2⟩ := b2 hp
    have hq : 0 < r t 0 ^ 2 + r t 2 ^ 2 := sq2 (by
      fin_cases k
      · exact Or.inl hk0
      · exact Bool.noConfusion (p1.symm.trans hk)
      · exact Or.inr hk0)
    have hL := (hc.L_pos 1).ne'
    simp only [far, hp]
    refine ((((log_deriv_pair (hm 0) (hm 2) hq).div_const (c.L 1)).add_const (potC c tab)).add hN').neg.congr_deriv ?_
    simp [Fin.sum_univ_three]
    field_simp
    ring
  · obtain ⟨p0, p1, p2⟩ := b3 hp
    have hz : r t 2 ≠ 0 := by
      fin_cases k
      · exact Bool.noConfusion (p0.symm.trans hk)
      · exact Bool.noConfusion (p1.symm.trans hk)
      · exact hk0
    simp only [far, hp]
    refine (((abs_deriv (hm 2) hz).mul_const (accPlane c)).add hN').neg.congr_deriv ?_
    simp [Fin.sum_univ_three]
    field_simp
    ring
  · obtain ⟨p0, p1, p2⟩ := b4 hp
    have hq : 0 < r t 0 ^ 2 + r t 1 ^ 2 := sq2 (by
      fin_cases k
      · exact Or.inl hk0
      · exact Or.inr hk0
      · exact Bool.noConfusion (p2.symm.trans hk))
    have hL := (hc.L_pos 2).ne'
    simp only [far, hp]
    refine ((((log_deriv_pair (hm 0) (hm 1) hq).div_const (c.L 2)).add_const (potC c tab)).add hN').neg.congr_deriv ?_
    simp [Fin.sum_univ_three]
    field_simp
    ring
  · obtain ⟨p0, p1, p2⟩ := b5 hp
    have hz : r t 1 ≠ 0 := by
      fin_cases k
      · exact Bool.noConfusion (p0.symm.trans hk)
      · exact hk0
      · exact Bool.noConfusion (p2.symm.trans hk)
    simp only [far, hp]
    refine (((abs_deriv (hm 1) hz).mul_const (accPlane c)).add hN').neg.congr_deriv ?_
    simp [Fin.sum_univ_three]
    field_simp
    ring
  · obtain ⟨p0, p1, p2⟩ := b6 hp
    have hz : r t 0 ≠ 0 := by
      fin_cases k
      · exact hk0
      · exact Bool.noConfusion (p1.symm.trans hk)
      · exact Bool.noConfusion (p2.symm.trans hk)
    simp only [far, hp]
    refine (((abs_deriv (hm 0) hz).mul_const (accPlane c)).add hN').neg.congr_deriv ?_
    simp [Fin.sum_univ_three]
    field_simp
    ring
  · obtain ⟨p0, p1, p2⟩ := b7 hp
    fin_cases k
    · exact Bool.noConfusion (p0.symm.trans hk)
    · exact Bool.noConfusion (p1.symm.trans hk)
    · exact Bool.noConfusion (p2.symm.trans hk)

end Gandalf.Ewald
